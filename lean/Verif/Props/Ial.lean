/-
Attribute lists: merging (C48), parsing (C49, C87), definitions (C50), references (C88) and output (C89).
-/
import Verif.Proof.IalUse

namespace Verif.Ial
open Spec Transforms.Spec
open Text.Spec (ended)
open Address.Spec (File)

/-! ### C48 merging -/

/-- C48: the explicit id wins; the classes of both follow each other; for every key the value seen is the last
explicit one, else the inherited one; attributes without an explicit value are kept exactly; and the keys are the
inherited ones, in order, followed by each new one once. -/
theorem C48_merge (base over : Attrs) :
    (merge base over).id = over.id.or base.id ∧
    (merge base over).classes = base.classes ++ over.classes ∧
    (∀ k, valueOf (merge base over).attrs k = (lastValueOf over.attrs k).or (valueOf base.attrs k)) ∧
    (∀ k, k ∉ over.attrs.map (·.1) →
      (merge base over).attrs.filter (fun e => e.1 = k) = base.attrs.filter fun e => e.1 = k) ∧
    ∃ more, (merge base over).attrs.map (·.1) = base.attrs.map (·.1) ++ more ∧ more.Nodup ∧
      ∀ k, k ∈ more ↔ k ∈ over.attrs.map (·.1) ∧ k ∉ base.attrs.map (·.1) := by
  obtain ⟨h1, h2, h3⟩ := fold_override over.attrs base.attrs
  refine ⟨?_, rfl, h1, h2, h3⟩
  unfold merge; cases over.id <;> rfl

example : merge ⟨some b!"a", [b!"x"], [(b!"k", b!"1"), (b!"m", b!"2")]⟩ ⟨some b!"b", [b!"y"], [(b!"n", b!"4"), (b!"k", b!"3")]⟩ =
    ⟨some b!"b", [b!"x", b!"y"], [(b!"k", b!"3"), (b!"m", b!"2"), (b!"n", b!"4")]⟩ := by decide +kernel

/-! ### C87 what a list means -/

/-- C87: every list of entries of fewer than 2048 bytes is parsed as what it means, whatever lies behind it in
memory. -/
theorem C87_meaning_partial {text : Bytes} {items : List Item} (h : Written text items) (hl : text.length < 2048)
    (after : Bytes) : parse text after = .val
      { id := lastId items, classes := classesOf items, attrs := attrsOf items } :=
  parse_written h hl after

/-- ` #top.big.wide title="a: b" webp data-n=7 ` is such a list. -/
theorem C87_case : Written b!" #top.big .wide title=\"a: b\" webp data-n=7 "
    [.id b!"top", .cls b!"big", .cls b!"wide", .attr b!"title" b!"a: b" .double, .word b!"webp",
     .attr b!"data-n" b!"7" .none] := by
  have free : ∀ (bad x : Bytes), (∀ c ∈ x, c ∉ bad) → Free bad x := fun _ _ h => h
  have gap1 : Gap b!" " := fun c h => by simp at h; subst h; exact .inl rfl
  have gap0 : Gap [] := fun c h => by simp at h
  have w6 : Written b!"data-n=7 " [.attr b!"data-n" b!"7" .none] :=
    .one (sep := []) (i := .attr b!"data-n" b!"7" .none) (fin := b!" ") gap0
      ⟨by simp, by unfold Free; decide, by simp, by unfold Quote.Ok Free; decide⟩ gap1 (by simp)
  have w5 : Written b!"webp data-n=7 " [.word b!"webp", .attr b!"data-n" b!"7" .none] :=
    .cons (sep := []) (i := .word b!"webp") (j := .attr b!"data-n" b!"7" .none) (sep' := b!" ") (rest := b!" ") gap0
      ⟨b!"data-srcset-webp", by decide⟩ ⟨gap1, 32, by simp⟩ w6
  have w4 : Written b!"title=\"a: b\" webp data-n=7 "
      [.attr b!"title" b!"a: b" .double, .word b!"webp", .attr b!"data-n" b!"7" .none] :=
    .cons (sep := []) (i := .attr b!"title" b!"a: b" .double) (j := .word b!"webp") (sep' := b!" ")
      (rest := b!" data-n=7 ") gap0
      ⟨by simp, by unfold Free; decide, by simp, by unfold Free; decide, by decide⟩ gap1 w5
  have w3 : Written b!".wide title=\"a: b\" webp data-n=7 "
      [.cls b!"wide", .attr b!"title" b!"a: b" .double, .word b!"webp", .attr b!"data-n" b!"7" .none] :=
    .cons (sep := []) (i := .cls b!"wide") (j := .attr b!"title" b!"a: b" .double) (sep' := b!" ")
      (rest := b!" webp data-n=7 ") gap0 ⟨by simp, by unfold Free; decide⟩ ⟨gap1, by simp⟩ w4
  have w2 : Written b!".big .wide title=\"a: b\" webp data-n=7 "
      [.cls b!"big", .cls b!"wide", .attr b!"title" b!"a: b" .double, .word b!"webp", .attr b!"data-n" b!"7" .none] :=
    .cons (sep := []) (i := .cls b!"big") (j := .cls b!"wide") (sep' := b!" ")
      (rest := b!" title=\"a: b\" webp data-n=7 ") gap0 ⟨by simp, by unfold Free; decide⟩ gap1 w3
  exact .cons (sep := b!" ") (i := .id b!"top") (j := .cls b!"big") (sep' := [])
      (rest := b!" .wide title=\"a: b\" webp data-n=7 ") gap1 ⟨by simp, by unfold Free; decide⟩ gap0 w2

/-- C87 fails for escapes: in `k="a\"b"` the backslash stays in the value. -/
theorem C87_escape : parse b!"k=\"a\\\"b\"" [] = .val ⟨none, [], [(b!"k", b!"a\\\"b")]⟩ := by decide +kernel

/-- C87 fails for long lists: what comes after 2047 bytes is lost. -/
theorem C87_long {text : Bytes} (h : 2047 ≤ text.length) (more after : Bytes) :
    parse (text ++ more) after = parse text after := by
  unfold parse; rw [List.take_append_of_le_length h]

/-! ### C49 only the content counts -/

/-- C49, for content ending in a blank, tab or brace. -/
theorem C49_partial {content : Bytes} (hl : content.length < 2048)
    (he : ∀ c ∈ content.getLast?, c = c!" " ∨ c = c!"\t" ∨ c = c!"}") :
    ∃ a, ∀ after, parse content after = .val a := by
  rcases parse_local hl with h | ⟨⟨w, hw, ⟨t, rfl⟩, hk⟩, -⟩
  · exact h
  · exfalso
    have hl := List.getLast?_eq_some_getLast hw
    have hm := he (w.getLast hw) (by rw [List.getLast?_append, hl]; rfl)
    have := hk (w.getLast hw) (List.getLast_mem hw)
    rcases hm with e | e | e <;> rw [e] at this <;> exact absurd this (by decide)

/-- C49, for every content: either the memory behind it does not matter, or the content ends in a word and parsing
goes on in that memory (with the attributes `a` found before). -/
theorem C49_exact {content : Bytes} (hl : content.length < 2048) :
    (∃ a, ∀ after, parse content after = .val a) ∨
    (∃ a, ∀ after, parse content after = run (after.length + 1) a after) := by
  rcases parse_local hl with h | ⟨-, h⟩
  · exact .inl h
  · exact .inr h

/-- C49 fails: after a stray word at the end, the attributes depend on what is left of earlier contents of the
stack. Both memories fill the array exactly. -/
theorem C49_stray {w : Bytes} (hw : Stray w) (hl : w.length ≤ 2044) :
    ∃ m m', w.length + 1 + m.length = 2048 ∧ w.length + 1 + m'.length = 2048 ∧ parse w m ≠ parse w m' := by
  have hm : marker w = none := stray_marker hw
  have go : ∀ after, parse w after = run (after.length + w.length + 1) empty after := by
    intro after
    unfold parse
    rw [List.take_of_length_le (by omega)]
    have hs := scan_stop (d := 0) (r := after) (key_free hw.2.1) (by decide)
    cases w with
    | nil => exact absurd rfl hw.1
    | cons c t =>
      have hc := hw.2.2.1 c (by simp)
      have hb := not_blank (hw.2.1 c (by simp))
      have s := scan_stop (stop := fun c => !isSpace c) (x := []) (d := c) (r := t ++ 0 :: after) (by simp) (by simp [hb.2.1])
      simp only [List.nil_append] at s
      simp only [List.cons_append] at hs ⊢
      simp only [run, s, C.val_bind, if_neg hb.1, item, if_neg hc.1, if_neg hc.2, hs, hm]
      rw [if_neg (by decide)]
      exact run_fuel (c :: (t ++ 0 :: after)).length (after.length + (c :: t).length + 1) empty after (by simp; omega) (by simp; omega)
  refine ⟨List.replicate (2047 - w.length) 0, b!"#x" ++ List.replicate (2045 - w.length) 0, ?_, ?_, ?_⟩
  · simp; omega
  · simp; omega
  · rw [go, go]
    obtain ⟨n, hn⟩ : ∃ n, 2047 - w.length = n + 1 := ⟨2046 - w.length, by omega⟩
    obtain ⟨n', hn'⟩ : ∃ n, 2045 - w.length = n + 1 := ⟨2044 - w.length, by omega⟩
    rw [hn, hn', List.replicate_succ, List.replicate_succ]
    have e1 := run_end (n := (0 :: List.replicate n (0 : Byte)).length + w.length) (a := empty) (sep := [])
      (after := List.replicate n 0) (by intro c h; simp at h)
    have e2 := run_item (n := (b!"#x" ++ 0 :: List.replicate n' (0 : Byte)).length + w.length) (a := empty) (i := .id b!"x")
      (r := 0 :: List.replicate n' 0) ⟨by simp, by unfold Free; decide⟩ ⟨0, _, rfl, by decide⟩
    have e3 := run_end (n := (b!"x" ++ 0 :: List.replicate n' (0 : Byte)).length + w.length) (a := apply empty (.id b!"x"))
      (sep := []) (after := List.replicate n' 0) (by intro c h; simp at h)
    simp only [List.nil_append] at e1 e3
    rw [e1]
    have e4 : (Item.id b!"x").text ++ 0 :: List.replicate n' (0 : Byte) = b!"#x" ++ 0 :: List.replicate n' (0 : Byte) := rfl
    rw [e4] at e2
    rw [e2]
    have e5 : (b!"#x" ++ 0 :: List.replicate n' (0 : Byte)).length + w.length =
        (b!"x" ++ 0 :: List.replicate n' (0 : Byte)).length + w.length + 1 := by simp; omega
    rw [e5, e3]
    simp [apply, empty]

/-- `wide` is such a word. -/
example : Stray b!"wide" := ⟨by simp, by unfold Free; decide, by decide, by simp [words]⟩

/-! ### C50 definitions -/

/-- C50, for texts whose lines are shorter than 2048 bytes and whose definitions hold lists of entries: exactly the
definitions disappear, each with its newline, and they are what was found. `last` is what follows the last newline. -/
theorem C50_alds_partial {text : Bytes} {ls kept kl : List Bytes} {last : Bytes} {defs dl : List (Bytes × Attrs)}
    (h : File text ls last) (hs : Sorted ls kept defs) (hs' : Sorted (if last = [] then [] else [last]) kl dl)
    (hl : ∀ l ∈ last :: ls, l.length < 2048) (after : Nat → Bytes) :
    extractAlds after text = .val (ended kept ++ kl.flatten, defs ++ dl) := by
  obtain ⟨h1, h2, rfl⟩ := h
  exact extract_sorted h2 (hl last (by simp)) hs' hs h1 (fun l h => hl l (by simp [h])) 0

/-- C50 fails for long lines: they are cut to 2047 bytes. -/
theorem C50_alds_cut {line : Bytes} (hn : c!"\n" ∉ line) (hl : 2048 ≤ line.length)
    (hd : ∀ n c, ¬ Defines (line.take 2047) n c) (after : Nat → Bytes) :
    extractAlds after line = .val (line.take 2047, []) := by
  have hne : line ≠ [] := by rintro rfl; simp at hl
  have := keepLines_last (cap := 2048) (test := aldTest after) (n := 0) hn hne
  refine Eq.trans (show extractAlds after line = keepLines 2048 (aldTest after) [] 0 line from rfl) (this.trans ?_)
  simp [aldTest, aldLine_none hd]

/-- C50 fails for attribute lists with a colon in a value: they are taken for definitions and disappear. -/
theorem C50_colon : extractAlds (fun _ => b!"\x00") b!"Text\n{: style=\"color:red\"}\n" =
    .val (b!"Text\n", [(b!" style=\"color", empty)]) := by decide +kernel

/-- C50 fails for text behind a definition. -/
theorem C50_behind : extractAlds (fun _ => []) b!"{:x: .a} text" = .val ([], [(b!"x", ⟨none, [b!"a"], []⟩)]) := by
  decide +kernel

/-- C50 fails for code. -/
theorem C50_code : extractAlds (fun _ => []) b!"```\n{:x: .a}\n```\n" =
    .val (b!"```\n```\n", [(b!"x", ⟨none, [b!"a"], []⟩)]) := by decide +kernel

/-! ### C88 references -/

/-- C88, for a reference alone: `{: name}` at the end of a text gives the attributes defined. -/
theorem C88_name_partial {alds : List (Bytes × Attrs)} {after pre ws name ws' tail : Bytes} {a : Attrs}
    (h1 : Gap ws) (h2 : Gap ws') (ht : Gap tail) (hn : name ≠ []) (hf : Free (blanks ++ b!"#.={}") name)
    (hl : (ws ++ name ++ ws').length < 2048) (ha : findAld alds name = some a) :
    extractIal alds after (pre ++ b!"{:" ++ (ws ++ name ++ ws') ++ b!"}" ++ tail) = .val (some a) := by
  have hg : ∀ {x : Bytes}, Gap x → Free b!"{}" x := fun h c hc => by
    have := isSpace_gap h c hc
    exact forall_byte (p := fun c => isSpace c = true → c ∉ b!"{}") (by decide +kernel) c this
  rw [extract_colon (fun c hc => ?_) (by simp [hn]) ht]
  · refine resolve_name h1 h2 hn (fun c hc hm => hf c hc ?_) hl ha
    simp only [List.mem_append] at hm ⊢
    rcases hm with hm | hm
    · exact .inl hm
    · right; simp at hm ⊢; rcases hm with h | h | h <;> simp [h]
  · simp only [List.mem_append] at hc
    rcases hc with (hc | hc) | hc
    · exact hg h1 c hc
    · intro hm
      refine hf c hc ?_
      simp only [List.mem_append]; right; simp at hm ⊢; rcases hm with h | h <;> simp [h]
    · exact hg h2 c hc

/-- C88 fails for a reference with further attributes: as long as names contain no blanks and tabs, nothing is
inherited; only the further attributes are used. -/
theorem C88_lost {alds : List (Bytes × Attrs)} {after pre ws name more tail : Bytes} {d : Byte} {items : List Item}
    (hnames : ∀ e ∈ alds, c!" " ∉ e.1 ∧ c!"\t" ∉ e.1)
    (h1 : Gap ws) (ht : Gap tail) (hn : Stray name) (hd : d = c!" " ∨ d = c!"\t") (hm : Written more items)
    (hi : items ≠ []) (hf : Free b!"{}" (ws ++ name ++ d :: more)) (hl : (ws ++ name ++ d :: more).length < 2048) :
    extractIal alds after (pre ++ b!"{:" ++ (ws ++ name ++ d :: more) ++ b!"}" ++ tail) =
      .val (some { id := lastId items, classes := classesOf items, attrs := attrsOf items }) := by
  rw [extract_colon hf (by simp) ht]
  obtain ⟨c0, t0, e0⟩ : ∃ c t, name = c :: t := by
    cases name with
    | nil => exact absurd rfl hn.1
    | cons c t => exact ⟨c, t, rfl⟩
  have hb := not_blank (hn.2.1 c0 (by simp [e0]))
  have hsp : isSpace d = true := by rcases hd with rfl | rfl <;> decide
  rw [resolve_plain hl ⟨c0, by simp [e0], hb.2.1⟩, parse_stray hn hd h1 hm hl]
  · rfl
  · intro e he heq
    -- the content without outer white space contains `d`
    have hlead : (ws ++ name ++ d :: more).dropWhile isSpace = name ++ d :: more := by
      rw [List.append_assoc, List.dropWhile_append_of_pos (isSpace_gap h1), e0]
      simp [hb.2.1]
    rw [hlead] at heq
    have hin : d ∈ trimEnd (name ++ d :: more) := by
      obtain ⟨x, hx, hxs⟩ := written_nonspace hm hi
      obtain ⟨u, v, rfl⟩ := List.append_of_mem hx
      have hdw : ∀ (y z : Bytes), ∃ y', (y ++ x :: z).dropWhile isSpace = y' ++ x :: z := by
        intro y z
        induction y with
        | nil => exact ⟨[], by simp [hxs]⟩
        | cons b y ih =>
          obtain ⟨y', h⟩ := ih
          by_cases hb : isSpace b = true
          · exact ⟨y', by rw [List.cons_append, List.dropWhile_cons, if_pos hb, h]⟩
          · exact ⟨b :: y, by rw [List.cons_append, List.dropWhile_cons, if_neg hb]⟩
      obtain ⟨y', h⟩ := hdw v.reverse (u.reverse ++ d :: name.reverse)
      unfold trimEnd
      have e1 : (name ++ d :: (u ++ x :: v)).reverse = v.reverse ++ x :: (u.reverse ++ d :: name.reverse) := by simp
      rw [e1, h]; simp
    rw [← heq] at hin
    rcases hd with rfl | rfl
    · exact (hnames e he).1 hin
    · exact (hnames e he).2 hin

/-- With `x` defined as `#id .a`, `{: x .b}` gives only class `b`. -/
theorem C88_case : extractIal [(b!"x", ⟨some b!"id", [b!"a"], []⟩)] [] b!"{: x .b}" = .val (some ⟨none, [b!"b"], []⟩) ∧
    extractIal [(b!"x", ⟨some b!"id", [b!"a"], []⟩)] [] b!"{: x }" = .val (some ⟨some b!"id", [b!"a"], []⟩) := by
  decide +kernel

/-! ### C89 output -/

/-- C89, when everything is short: id, classes, sizes in pixels, style and the other attributes are written in this
order with one blank between. -/
theorem C89_html_partial {a : Attrs} {sized decls : List Bytes} (hs : Sizes a.attrs sized decls)
    (hp : ∀ p ∈ pieces a sized decls, p.length ≤ 500)
    (ht : (between b!" " (pieces a sized decls)).length < 4096) :
    toHtml a = .val (between b!" " (pieces a sized decls)) :=
  toHtml_pieces hs hp ht

/-- Every list has sizes and declarations, if no number has 64 digits. -/
theorem C89_sizes {l : List (Bytes × Bytes)} (h : ∀ kv ∈ l, kv.2.length < 64) : ∃ sized decls, Sizes l sized decls := by
  induction l with
  | nil => exact ⟨[], [], .nil⟩
  | cons kv l ih =>
    obtain ⟨s, d, hsd⟩ := ih fun kv hk => h kv (by simp [hk])
    obtain ⟨k, v⟩ := kv
    have hv := h (k, v) (by simp)
    by_cases hk : k = b!"width" ∨ k = b!"height"
    · cases hp : pixels v with
      | some n =>
        have hP := pixels_some hp
        refine ⟨_, _, .number hk hP ?_ hsd⟩
        have := hP.1; rcases this with rfl | rfl
        · exact hv
        · simp at hv; omega
      | none => exact ⟨_, _, .css hk (fun n hn => by rw [pixels_of hn] at hp; simp at hp) hsd⟩
    · simp only [not_or] at hk
      exact ⟨_, _, .other hk.1 hk.2 hsd⟩

example : toHtml ⟨some b!"top", [b!"a", b!"b"], [(b!"width", b!"50%"), (b!"title", b!"x"), (b!"height", b!"20px"),
    (b!"style", b!"color: red")]⟩ =
    .val b!"id=\"top\" class=\"a b\" height=\"20\" style=\"color: red; width: 50%\" title=\"x\"" := by decide +kernel

/-- C89 fails: a quote in a value is not escaped, so the value ends there. -/
theorem C89_quote : (do let a ← parse b!"title='a\" onclick=\"b'" []; toHtml a) = .val b!"title=\"a\" onclick=\"b\"" := by
  decide +kernel

/-- C89 fails: a value of 1024 bytes or more loses its end and its closing quote. -/
theorem C89_cut {k v : Bytes} (hk : k ∉ special) (hv : 1024 ≤ v.length) :
    toHtml ⟨none, [], [(k, v)]⟩ = .val ((k ++ b!"=\"" ++ v).take 1023) := by
  have hh : k ∉ hidden := fun e => hk ((special_hidden k).2 e)
  have hw : k ≠ b!"width" ∧ k ≠ b!"height" ∧ k ≠ b!"style" := by
    refine ⟨?_, ?_, ?_⟩ <;> rintro rfl <;> exact hh (by decide)
  have e : snp 1024 (pair true k v) = (k ++ b!"=\"" ++ v).take 1023 := by
    rw [pair_eq]; unfold snp written
    simp only [if_true, List.nil_append]
    rw [List.take_append_of_le_length (by simp; omega)]
  have hl : ((k ++ b!"=\"" ++ v).take 1023).length = 1023 := by simp; omega
  simp only [toHtml, idToks, classToks, style0, sizes, size]
  simp [hw.1, hw.2.1, hw.2.2, otherToks, hh, e]
  rw [DropBuf.run_fits]
  · simp [DropBuf.Tok.out]
  · simp
  · simp [DropBuf.Tok.out] at hl ⊢; omega

/-- C89 fails: a width of 64 digits or more with `px` is written behind its array. -/
theorem C89_digits {n : Bytes} (hd : ∀ c ∈ n, isDigit c = true) (hl : 64 ≤ n.length) :
    toHtml ⟨none, [], [(b!"width", n ++ b!"px")]⟩ = .ub := by
  have hp : pixels (n ++ b!"px") = some n := pixels_of ⟨.inr rfl, hd⟩
  simp only [toHtml, idToks, classToks, style0, sizes, size]
  simp [hp, hl]

/-- C89 fails: a width of 1024 bytes or more that is no number is written behind the style buffer. -/
theorem C89_style {v : Bytes} (hn : ∀ n, ¬ Pixels v n) (hl : 1024 ≤ v.length) :
    toHtml ⟨none, [], [(b!"width", v)]⟩ = .ub := by
  simp only [toHtml, idToks, classToks, style0, sizes, size]
  simp [pixels_none hn]
  rw [if_neg (by omega)]; rfl

end Verif.Ial
