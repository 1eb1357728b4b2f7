/-
C26 (metadata extraction) and C62 (metadata given on the command line).
-/
import Verif.Proof.MetaParse

namespace Verif.MetaParse

open Spec Metadata Transforms Transforms.Spec

/-! ## C26 -/

/-- **C26, first two parts**: whatever libyaml does, the remaining text is the end of the document, and
it is the whole document when there is no metadata. -/
theorem C26_suffix_partial (lib : Bytes → Option Meta) (text : Bytes) :
    (extract lib text).2 <:+ text ∧ ((extract lib text).1 = [] → (extract lib text).2 = text) := by
  unfold extract
  split
  · exact ⟨List.suffix_refl _, fun _ => rfl⟩
  · simp only
    split
    · rename_i it its rest h
      refine ⟨?_, by simp⟩
      split at h
      · exact parseYaml_suffix lib text rest (by rw [h])
      · split at h
        · exact pandocLoop_suffix _ _ _ _ rest (by unfold parsePandoc at h; rw [h])
        · exact parseMmd_suffix text rest (by rw [h])
    · exact ⟨List.suffix_refl _, fun _ => rfl⟩

/-- **C26, what is removed** from a document that has neither a YAML nor a Pandoc block, when metadata is
found: leading blank lines and *headings, abbreviations, comments, attribute lists or TOC markers* (`pre`),
then the metadata lines, then either nothing, or one blank line, or an unfinished last line. -/
theorem C26_removed_partial (lib : Bytes → Option Meta) (text : Bytes)
    (hy : ¬ b!"---" <+: text) (hp : ¬ b!"%" <+: text) (h : (extract lib text).1 ≠ []) :
    ∃ pre ms e, text = lines pre ++ lines ms ++ e ++ (extract lib text).2 ∧
      (∀ l ∈ pre, (10 : Byte) ∉ l ∧ (Blank l ∨ Skipped l)) ∧
      MetaLines ms (extract lib text).1.reverse ∧
      HeaderEnd e (extract lib text).2 := by
  have h1 : b!"---".isPrefixOf text = false := by
    cases hb : b!"---".isPrefixOf text with
    | false => rfl
    | true => exact absurd (List.isPrefixOf_iff_prefix.1 hb) hy
  have h2 : b!"%".isPrefixOf text = false := by
    cases hb : b!"%".isPrefixOf text with
    | false => rfl
    | true => exact absurd (List.isPrefixOf_iff_prefix.1 hb) hp
  unfold extract at h ⊢
  rw [h1, h2] at h ⊢
  unfold parseMmd at h ⊢
  simp only [Bool.false_eq_true, if_false] at h ⊢
  split at h
  · simp at h
  · rename_i hne
    rw [if_neg hne]
    rcases mmdLoop_notfound text.length text (Nat.le_refl _) with hm | ⟨pre, ms, its, e, rest, hm, h3, h4, h5, h6, h7⟩
    · rw [hm] at h; simp at h
    · rw [hm]
      cases hr : its.reverse with
      | nil => exact absurd (by simpa using hr) h3
      | cons a b =>
        refine ⟨pre, ms, e, h4, h5, ?_, h7⟩
        show MetaLines ms (a :: b).reverse
        rw [← hr, List.reverse_reverse]; exact h6

/-- **C26, ordinary headers** are recognised completely and nothing else goes: `Key: value` lines and a
blank line in front of the body. -/
theorem C26_header (lib : Bytes → Option Meta) (its : List Item) (head body : Bytes)
    (hne : its ≠ []) (hh : Header its head) :
    extract lib (head ++ 10 :: body) = (its.reverse, body) := by
  have hl : ∀ s, mmdLoop false [] (head ++ s) = mmdLoop true its.reverse s := by
    intro s
    rw [mmdLoop_header hh]
    cases its with
    | nil => exact absurd rfl hne
    | cons a b => simp
  have hm : parseMmd (head ++ 10 :: body) = (its.reverse, some body) := by
    unfold parseMmd
    rw [hl]
    unfold mmdLoop
    have hn : nextLine (10 :: body) = some ([], body) := by simp [nextLine]
    split
    · rename_i h'; rw [hn] at h'; simp at h'
    · rename_i h'
      rw [hn] at h'; simp at h'
      obtain ⟨rfl, rfl⟩ := h'
      have : classify [] = .blank := by decide +kernel
      rw [this]
      simp
  cases hh with
  | nil => exact absurd rfl hne
  | @cons k v its s hk hv hlen hh =>
    obtain ⟨c, r, hcr, hc⟩ := hk.start
    obtain ⟨_, _, _, _, _, _, c6, _, _⟩ := alpha_char c hc
    have c7 : c ≠ c!"%" := by rintro rfl; revert hc; decide
    rw [hcr] at hm ⊢
    exact extract_mmd c6 c7 (by simp) hm

example : Header [(b!"Title", b!"A study"), (b!"Base Header Level", b!"2")]
    b!"Title: A study\nBase Header Level: 2\n" := by
  refine .cons (k := b!"Title") (v := b!"A study") ⟨⟨_, _, rfl, by decide⟩, by decide, by decide⟩
    ⟨by decide, by decide, by decide, by decide, by decide⟩ (by decide) ?_
  refine .cons (k := b!"Base Header Level") (v := b!"2") ⟨⟨_, _, rfl, by decide⟩, by decide, by decide⟩
    ⟨by decide, by decide, by decide, by decide, by decide⟩ (by decide) .nil

/-- **C26, Pandoc title blocks**: the first three lines `% title`, `% author`, `% date` become the items, and
exactly these lines are removed. -/
theorem C26_pandoc (lib : Bytes → Option Meta) (t a d body : Bytes)
    (h : ∀ v ∈ [t, a, d], v ≠ [] ∧ Trimmed v v ∧ (10 : Byte) ∉ v ∧ v.length ≤ 1021) :
    extract lib (b!"% " ++ t ++ b!"\n% " ++ a ++ b!"\n% " ++ d ++ b!"\n" ++ body) =
      ([(b!"date", d), (b!"author", a), (b!"title", t)], body) := by
  have e : b!"% " ++ t ++ b!"\n% " ++ a ++ b!"\n% " ++ d ++ b!"\n" ++ body =
      (b!"% " ++ t) ++ 10 :: ((b!"% " ++ a) ++ 10 :: ((b!"% " ++ d) ++ 10 :: body)) := by simp
  rw [e]
  have st : ∀ v ∈ [t, a, d], ∀ n items key keys r, pandocLoop n items (key :: keys) ((b!"% " ++ v) ++ 10 :: r) =
      pandocLoop (n + 1) (addItem items (key, v)) keys r := by
    intro v hv n items key keys r
    obtain ⟨h1, h2, h3, h4⟩ := h v hv
    exact pandocLoop_line h1 h2 h3 h4
  have hp : parsePandoc ((b!"% " ++ t) ++ 10 :: ((b!"% " ++ a) ++ 10 :: ((b!"% " ++ d) ++ 10 :: body))) =
      ([(b!"date", d), (b!"author", a), (b!"title", t)], some body) := by
    unfold parsePandoc
    rw [st t (by simp), st a (by simp), st d (by simp)]
    rfl
  unfold extract
  rw [hp]
  rfl

example : ∀ v ∈ [b!"A study", b!"X. Y", b!"2025"],
    v ≠ [] ∧ Trimmed v v ∧ (10 : Byte) ∉ v ∧ v.length ≤ 1021 := by
  intro v hv
  simp only [List.mem_cons, List.not_mem_nil, or_false] at hv
  rcases hv with rfl | rfl | rfl
  all_goals
    refine ⟨by decide, ⟨[], [], by simp, by simp, by simp, ?_, ?_⟩, by decide, by decide⟩ <;>
      (intro c hc; simp at hc; subst hc; unfold Transforms.Spec.White; decide)

/-- **C26, lists are not metadata**: a document that starts with a list item keeps everything, whatever the
item contains (colons too). -/
theorem C26_list (lib : Bytes → Option Meta) (m item rest : Bytes) (c : Byte) (hc : ¬ White c) (hi : (10 : Byte) ∉ item)
    (hm : ListMarker m) (hml : m.length ≤ 1000) :
    extract lib (m ++ 32 :: c :: item ++ 10 :: rest) = ([], m ++ 32 :: c :: item ++ 10 :: rest) := by
  exact extract_list hc hi hm hml

example : ListMarker b!"12)" ∧ ListMarker b!"3." ∧ ListMarker b!"*" :=
  ⟨.num (ds := b!"12") (by decide) (by decide) (by decide), .num (ds := b!"3") (by decide) (by decide) (by decide),
    .bullet (by decide)⟩

/-- **C26, YAML block** read without libyaml: removed are the first line, the lines up to the first line
`---` or `...` (white space around it allowed), and that line. -/
theorem C26_yaml_removed_partial (text : Bytes) (hy : b!"---" <+: text)
    (h : (extract (fun _ => none) text).1 ≠ []) (hr : (extract (fun _ => none) text).2 ≠ text) :
    ∃ first ls close, text = lines (first :: (ls ++ [close])) ++ (extract (fun _ => none) text).2 ∧
      (∀ l ∈ ls, (10 : Byte) ∉ l ∧ ¬ YamlClose l) ∧ (10 : Byte) ∉ first ∧ (10 : Byte) ∉ close ∧
      YamlClose close := by
  have h1 : b!"---".isPrefixOf text = true := List.isPrefixOf_iff_prefix.2 hy
  obtain ⟨t, rfl⟩ := hy
  unfold extract at h hr ⊢
  rw [h1] at h hr ⊢
  simp only [parseYaml] at h hr ⊢
  rw [if_neg (by simp)] at h hr ⊢
  simp only [if_true] at h hr ⊢
  have hd : (b!"---" ++ t).drop 3 = t := rfl
  rw [hd] at h hr ⊢
  cases hn : nextLine t with
  | none => rw [hn] at h; simp at h
  | some r =>
    obtain ⟨l, rest⟩ := r
    rw [hn] at h hr
    simp only at h hr ⊢
    obtain ⟨he, hl⟩ := nextLine_eq hn
    rcases yamlLoop_shape rest.length rest (Nat.le_refl _) [] with hc | ⟨ls, close, items, rest', h3, h4, h5, h6, h7⟩
    · exfalso
      apply hr
      generalize yamlLoop none [] rest = r at hc
      obtain ⟨a, b⟩ := r
      simp only at hc
      subst hc
      cases a <;> rfl
    · rw [h3] at h ⊢
      cases items with
      | nil => simp at h
      | cons a b =>
        refine ⟨b!"---" ++ l, ls, close, ?_, h5, ?_, h6, h7⟩
        · show b!"---" ++ t = _ ++ rest'
          rw [he, h4, lines_cons, lines_append]
          simp [lines]
        · simp only [List.mem_append, not_or]
          exact ⟨by decide, hl⟩

/-- **C26, ordinary YAML blocks** (read without libyaml) are recognised completely and nothing else goes. -/
theorem C26_yaml_header (its : List Item) (head body : Bytes) (hne : its ≠ []) (hh : Header its head)
    (hq : ∀ it ∈ its, ∀ c, it.2.head? = some c → c ≠ c!"\"" ∧ c ≠ c!"'") :
    extract (fun _ => none) (b!"---\n" ++ head ++ b!"---\n" ++ body) = (its.reverse, body) := by
  have h1 : b!"---".isPrefixOf (b!"---\n" ++ head ++ b!"---\n" ++ body) = true :=
    List.isPrefixOf_iff_prefix.2 ⟨10 :: (head ++ b!"---\n" ++ body), by simp⟩
  unfold extract
  rw [h1]
  simp only [parseYaml]
  rw [if_neg (by simp)]
  have hd : (b!"---\n" ++ head ++ b!"---\n" ++ body).drop 3 = 10 :: (head ++ (b!"---\n" ++ body)) := by simp
  rw [hd]
  have hn : nextLine (10 :: (head ++ (b!"---\n" ++ body))) = some ([], head ++ (b!"---\n" ++ body)) := by
    simp [nextLine]
  rw [hn]
  simp only [if_true]
  rw [yamlLoop_header hh hq]
  have hcl : yamlLoop none (its.reverse ++ []) (b!"---\n" ++ body) = (its.reverse ++ [], some body) := by
    have hn' : nextLine (b!"---\n" ++ body) = some (b!"---", body) :=
      nextLine_append (l := b!"---") (by decide)
    unfold yamlLoop
    split
    · rename_i h'; rw [hn'] at h'; simp at h'
    · rename_i h'
      rw [hn'] at h'
      simp only [Option.some.injEq, Prod.mk.injEq] at h'
      obtain ⟨rfl, rfl⟩ := h'
      have : trim (lineBuf b!"---") = b!"---" := by decide +kernel
      simp [this]
  rw [hcl]
  cases hr : its.reverse with
  | nil => exact absurd (by simpa using hr) hne
  | cons a b => simp

/-- **C26 is false as stated**: content in front of a line that looks like metadata disappears - here a
heading and a comment. -/
theorem C26_heading_lost (lib : Bytes → Option Meta) :
    extract lib b!"# Title\n\nNote: read this\n\nBody\n" = ([(b!"Note", b!"read this")], b!"Body\n") ∧
    extract lib b!"<!-- c -->\nNote: read this\nBody\n" = ([(b!"Note", b!"read this")], b!"Body\n") := by
  exact ⟨extract_mmd (by decide) (by decide) (by decide) (by decide +kernel),
    extract_mmd (by decide) (by decide) (by decide) (by decide +kernel)⟩

/-- … an unfinished last line behind the metadata disappears … -/
theorem C26_last_line_lost (lib : Bytes → Option Meta) :
    extract lib b!"Title: x\nThe whole body." = ([(b!"Title", b!"x")], []) :=
  extract_mmd (by decide) (by decide) (by decide) (by decide +kernel)

/-- … and so does everything but the first 1023 bytes of a long metadata line. -/
theorem C26_long_line_cut (n : Nat) (h : 1020 ≤ n) (lib : Bytes → Option Meta) (body : Bytes) :
    extract lib (b!"a: " ++ List.replicate n c!"x" ++ 10 :: 10 :: body) =
      ([(b!"a", List.replicate 1020 c!"x")], body) := by
  obtain ⟨m, hm20⟩ : ∃ m, m = 1020 := ⟨_, rfl⟩
  rw [← hm20]
  have hnl : (10 : Byte) ∉ b!"a: " ++ List.replicate n c!"x" := by
    simp only [List.mem_append, List.mem_replicate, not_or]
    exact ⟨by decide, fun h => absurd h.2 (by decide)⟩
  have hb : lineBuf (b!"a: " ++ List.replicate n c!"x") = b!"a: " ++ List.replicate m c!"x" := by
    unfold lineBuf
    rw [List.take_append]
    have : min (1023 - (b!"a: ").length) n = m := by simp; omega
    rw [List.take_replicate, this, List.take_of_length_le (by simp)]
  have hc : classify (b!"a: " ++ List.replicate n c!"x") = .item b!"a" (List.replicate m c!"x") := by
    have hx : ∀ c ∈ List.replicate m c!"x", ¬ Transforms.Spec.White c := by
      intro c hc; rw [(List.mem_replicate.1 hc).2]; decide
    have h0 := classify_plain (k := b!"a") (v := List.replicate m c!"x")
      ⟨⟨_, _, rfl, by decide⟩, by decide, by decide⟩
      ⟨by simp; omega, fun c hc => hx c (List.mem_of_mem_head? hc), fun c hc => hx c (List.mem_of_mem_getLast? hc),
        fun c hc => by rw [(List.mem_replicate.1 hc).2]; decide, ?_⟩ (by simp; omega)
    · have h1 : lineBuf (b!"a" ++ c!":" :: 32 :: List.replicate m c!"x") =
          b!"a: " ++ List.replicate m c!"x" := by
        unfold lineBuf; rw [List.take_of_length_le (by simp; omega)]; rfl
      unfold classify at h0 ⊢
      rw [h1] at h0
      rw [hb]
      exact h0
    · intro hi
      have := hi.subset (show c!":" ∈ b!"://" by decide)
      have := (List.mem_replicate.1 this).2
      revert this; decide
  have hn : nextLine (b!"a: " ++ List.replicate n c!"x" ++ 10 :: 10 :: body) =
      some (b!"a: " ++ List.replicate n c!"x", 10 :: body) := nextLine_append hnl
  have hm : parseMmd (b!"a: " ++ List.replicate n c!"x" ++ 10 :: 10 :: body) =
      ([(b!"a", List.replicate m c!"x")], some body) := by
    unfold parseMmd mmdLoop
    split
    · rename_i h'; rw [hn] at h'; simp at h'
    · rename_i line rest h'
      rw [hn] at h'
      simp only [Option.some.injEq, Prod.mk.injEq] at h'
      obtain ⟨rfl, rfl⟩ := h'
      rw [hc]
      simp only
      unfold mmdLoop
      have hn : nextLine (10 :: body) = some ([], body) := by simp [nextLine]
      split
      · rename_i h'; rw [hn] at h'; simp at h'
      · rename_i h'
        rw [hn] at h'; simp at h'
        obtain ⟨rfl, rfl⟩ := h'
        have : classify [] = .blank := by decide +kernel
        rw [this]
        rfl
  exact extract_mmd (by decide) (by decide) (by simp) hm

example : (extract (fun _ => none) b!"Title: x\n\nBody\n").1 ≠ [] := by
  decide +kernel

example : (extract (fun _ => none) b!"---\ntitle: x\n---\nBody\n").1 ≠ [] ∧
    (extract (fun _ => none) b!"---\ntitle: x\n---\nBody\n").2 = b!"Body\n" := by
  decide +kernel

/-! ## C62 -/

/-- **C62**: pairs written as `KEY=VALUE`, separated by commas, are read back, all of them, in order, with
exactly their keys and values. -/
theorem C62_round_trip_partial (its : List Item) (arg : Bytes) (h : WrittenList its arg) :
    (parseCmd arg).reverse = its := by
  unfold parseCmd
  rw [cmdLoop_written h]
  simp

example : WrittenList [(b!"title", b!"A, B"), (b!"css", b!"x y.css"), (b!"n", [])]
    b!"title=\"A, B\", css=x y.css,n=" := by
  refine .cons (t := b!"title=\"A, B\"") (w := b!" ") (.quoted (q := c!"\"") (k := b!"title") (v := b!"A, B")
    ⟨⟨_, _, rfl, by decide⟩, by decide, by decide, by decide⟩ (by decide) (by decide)) (by simp; decide) ?_
  refine .cons (t := b!"css=x y.css") (w := []) (.plain (k := b!"css") (v := b!"x y.css")
    ⟨⟨_, _, rfl, by decide⟩, by decide, by decide, by decide⟩ (by decide) (by decide) (by decide)) (by simp) ?_
  exact .one (.plain (k := b!"n") (v := [])
    ⟨⟨_, _, rfl, by decide⟩, by decide, by decide, by decide⟩ (by decide) (by decide) (by decide))

/-- What is missing: the text behind a comma that does not start another pair is lost, although the code
takes care to keep the comma in the pair; and anything behind a closing quote but a comma ends the list. -/
theorem C62_fails :
    parseCmd b!"title=Red, green" = [(b!"title", b!"Red")] ∧
    parseCmd b!"a='x' ,b=y" = [(b!"a", b!"x")] := by
  constructor <;> decide +kernel

end Verif.MetaParse
