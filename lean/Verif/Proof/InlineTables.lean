import Verif.Model.InlineTables
import Verif.Spec.InlineTables
import Verif.Proof.Csv
import Verif.Proof.InlineNotes
import Verif.Proof.Highlight

namespace Verif.InlineTables

open Csv.Spec (Rows Table)
open InlineNotes (pre_last suffix_last infix_of takeWhile_stop)

/-! ### Memory -/

theorem write_eq {s : St} {t : Tok} {s' : St} (h : s.write t = .val s') : s'.out = s.out ++ t.out ∧ s.cap ≤ s'.cap := by
  cases t with
  | byte c =>
    simp only [St.write] at h
    by_cases hc : s.out.length < s.cap
    · rw [put_val hc] at h
      simp only [C.val_bind, C.val.injEq] at h
      subst h
      refine ⟨rfl, ?_⟩
      simp only
      split
      · simp at *; omega
      · omega
    · rw [put, if_neg hc] at h; simp at h
  | block w =>
    simp only [St.write] at h
    split at h
    · rename_i hb
      rw [puts_val (by omega)] at h
      simp only [C.val_bind, C.val.injEq] at h
      subst h
      exact ⟨rfl, by simp only; omega⟩
    · rename_i hb
      rw [puts_val (by omega)] at h
      simp only [C.val_bind, C.val.injEq] at h
      subst h
      exact ⟨rfl, by simp only; omega⟩
  | lineEnd =>
    simp only [St.write] at h
    by_cases hc : s.out.length < s.cap
    · rw [put_val hc] at h
      simp only [C.val_bind, C.val.injEq] at h
      subst h
      exact ⟨rfl, by simp⟩
    · rw [put, if_neg hc] at h; simp at h

theorem write_ok {s : St} {t : Tok} (h : s.out.length < s.cap) : ∃ s', s.write t = .val s' ∧ s.cap ≤ s'.cap ∧ s'.out = s.out ++ t.out ∧
    (t ≠ .lineEnd → s'.out.length < s'.cap) := by
  cases t with
  | byte c =>
    refine ⟨_, by simp only [St.write, put_val h, C.val_bind]; rfl, ?_, rfl, fun _ => ?_⟩
    · simp only; split <;> simp at * ; omega
    · simp only; split <;> simp at * <;> omega
  | block w =>
    by_cases hb : s.out.length + w.length ≥ s.cap
    · refine ⟨{ cap := (s.out.length + w.length + 1) * 2, out := s.out ++ w }, ?_, ?_, rfl, fun _ => ?_⟩
      · simp only [St.write, if_pos hb]
        rw [puts_val (by omega)]; rfl
      · simp only; omega
      · simp; omega
    · refine ⟨{ cap := s.cap, out := s.out ++ w }, ?_, ?_, rfl, fun _ => ?_⟩
      · simp only [St.write, if_neg hb]
        rw [puts_val (by omega)]; rfl
      · simp
      · simp; omega
  | lineEnd =>
    exact ⟨_, by simp only [St.write, put_val h, C.val_bind]; rfl, by simp, rfl, fun e => absurd rfl e⟩

theorem writeAll_either (s : St) (ts : List Tok) : writeAll s ts = .ub ∨ ∃ s', writeAll s ts = .val s' ∧ s'.out = s.out ++ ts.flatMap Tok.out := by
  induction ts generalizing s with
  | nil => exact .inr ⟨s, rfl, by simp⟩
  | cons t ts ih =>
    rw [writeAll]
    cases hw : s.write t with
    | ub => exact .inl rfl
    | val s1 =>
      rw [C.val_bind]
      rcases ih s1 with h | ⟨s', h1, h2⟩
      · exact .inl h
      · exact .inr ⟨s', h1, by rw [h2, (write_eq hw).1]; simp⟩

theorem writeAll_fits (s : St) (ts : List Tok) (h : s.out.length + (ts.flatMap Tok.out).length < s.cap ∨ (s.out.length < s.cap ∧ .lineEnd ∉ ts)) :
    ∃ s', writeAll s ts = .val s' ∧ s'.out = s.out ++ ts.flatMap Tok.out ∧ s'.out.length < s'.cap := by
  induction ts generalizing s with
  | nil => exact ⟨s, rfl, by simp, by simpa using h⟩
  | cons t ts ih =>
    obtain ⟨s1, h1, h2, h3, h4⟩ := write_ok (t := t) (show s.out.length < s.cap by rcases h with h | h <;> omega)
    rw [writeAll, h1, C.val_bind]
    obtain ⟨s', e1, e2, e3⟩ := ih s1 (by
      rcases h with h | ⟨_, hn⟩
      · left; rw [h3]; simp at h ⊢; omega
      · right; exact ⟨h4 fun e => hn (by simp [e]), fun e => hn (by simp [e])⟩)
    exact ⟨s', e1, by rw [e2, h3]; simp, e3⟩

/-! ### Copying -/

theorem cross {w s r : Bytes} {d : Byte} (h : w <+: s ++ d :: r) (hs : s ≠ []) (hd : d ∉ w.tail) : w <+: s := by
  rcases List.prefix_or_prefix_of_prefix h (List.prefix_append s _) with h1 | h1
  · exact h1
  · obtain ⟨u, rfl⟩ := h1
    cases u with
    | nil => simp
    | cons e u =>
      rw [List.prefix_append_right_inj, List.cons_prefix_cons] at h
      cases s with
      | nil => exact absurd rfl hs
      | cons x s => exact absurd (by simp [h.1]) hd

/-- Behind a text comes a piece, or nothing. -/
def Opens (r : Bytes) : Prop := r = [] ∨ r.head? = some c!"`" ∨ r.head? = some c!"<"

theorem text_copy (t r : Bytes) (h : Between t) (hr : Opens r) (n : Nat) :
    loop (n + t.length) (t ++ r) = loop n r >>= fun ts => .val (t.map .byte ++ ts) := by
  obtain ⟨h1, h2, h3⟩ := h
  have key : ∀ s, s <:+ t → loop (n + s.length) (s ++ r) = loop n r >>= fun ts => .val (s.map .byte ++ ts) := by
    intro s
    induction s with
    | nil => intro _; simp; cases loop n r <;> rfl
    | cons c s ih =>
      intro hs
      have hn : c :: s ≠ [] := by simp
      have hl := suffix_last hs hn
      have a1 : ¬ b!"```" <+: c :: (s ++ r) := fun e => h1 (infix_of (pre_last (s := c :: s) e hn (by decide) (hl ▸ h3)) hs)
      have a2 : ¬ b!"<!--TABLE-->" <+: c :: (s ++ r) := by
        intro e
        refine h2 (infix_of ?_ hs)
        rcases hr with rfl | hr | hr
        · simpa using e
        · obtain ⟨d, r, rfl⟩ : ∃ d r', r = d :: r' := by cases r <;> simp at hr ⊢
          simp at hr; subst hr
          exact cross (s := c :: s) e hn (by decide)
        · obtain ⟨d, r, rfl⟩ : ∃ d r', r = d :: r' := by cases r <;> simp at hr ⊢
          simp at hr; subst hr
          exact cross (s := c :: s) e hn (by decide)
      rw [List.cons_append, List.length_cons, ← Nat.add_assoc, loop, if_neg a1, if_neg a2, ih ((List.suffix_cons _ _).trans hs)]
      cases loop n r <;> rfl
  exact key t (List.suffix_refl _)

theorem closing_eq {body : Bytes} (h : Inner body) (rest : Bytes) : closing (body ++ c!"`" :: c!"`" :: c!"`" :: rest) = some (body, rest) := by
  obtain ⟨h1, h2⟩ := h
  have key : ∀ s, s <:+ body → closing (s ++ c!"`" :: c!"`" :: c!"`" :: rest) = some (s, rest) := by
    intro s
    induction s with
    | nil => intro _; simp [closing]
    | cons c s ih =>
      intro hs
      have hn : c :: s ≠ [] := by simp
      have hl := suffix_last hs hn
      have a1 : ¬ b!"```" <+: c :: (s ++ c!"`" :: c!"`" :: c!"`" :: rest) := fun e => h1 (infix_of (pre_last (s := c :: s) e hn (by decide) (hl ▸ h2)) hs)
      rw [List.cons_append, closing, if_neg a1, ih ((List.suffix_cons _ _).trans hs)]
      rfl
  exact key body (List.suffix_refl _)

theorem drop_info (info u : Bytes) (h : c!"\n" ∉ info) : (info ++ c!"\n" :: u).takeWhile (· != c!"\n") = info := by
  apply takeWhile_stop
  · intro x hx
    have : x ≠ c!"\n" := fun e => h (e ▸ hx)
    simpa using this
  · decide

theorem upTo_append (a b : Bytes) : upTo (a ++ b) b = a := by simp [upTo]

theorem dropWhile_all {p : Byte → Bool} {a : Bytes} (b : Bytes) (h : ∀ c ∈ a, p c = true) : (a ++ b).dropWhile p = b.dropWhile p := by
  induction a with
  | nil => rfl
  | cons x a ih => rw [List.cons_append, List.dropWhile_cons, if_pos (h x (by simp)), ih fun y hy => h y (by simp [hy])]

theorem word_noSpace {w : Bytes} (h : IsWord w) : ∀ c ∈ w, isSpace c = false := by
  have key : ∀ c : Byte, toLower c ∈ b!"table" → isSpace c = false := forall_byte (p := fun c => toLower c ∈ b!"table" → isSpace c = false) (by decide +kernel)
  intro c hc
  exact key c (by rw [← h]; exact List.mem_map_of_mem hc)

theorem isTable_word {pre w post : Bytes} (h1 : Blanks pre) (hw : IsWord w) (h2 : Blanks post) : isTable (pre ++ w ++ post) = true := by
  have hs := word_noSpace hw
  have hl : w.length = 5 := by have := congrArg List.length hw; simpa using this
  have ha : (pre ++ w ++ post).dropWhile isSpace = w ++ post := by
    rw [List.append_assoc, dropWhile_all _ fun c hc => (h1 c hc).1]
    cases w with
    | nil => simp at hl
    | cons c w => rw [List.cons_append, List.dropWhile_cons, if_neg (by simp [hs c (by simp)])]
  have hb : (w ++ post).reverse.dropWhile isSpace = w.reverse := by
    rw [List.reverse_append, dropWhile_all _ fun c hc => (h2 c (by simpa using hc)).1]
    rcases List.eq_nil_or_concat w with rfl | ⟨w', x, rfl⟩
    · simp at hl
    · rw [List.concat_eq_append, List.reverse_append, List.reverse_singleton, List.singleton_append, List.dropWhile_cons,
        if_neg (by simp [hs x (by simp)])]
  simp only [isTable, ha, hb, List.reverse_reverse, hl]
  rw [show w.map toLower = b!"table" from hw]; rfl

theorem isTable_parts {info : Bytes} (h : isTable info = true) (hn : c!"\n" ∉ info) : ∃ pre w post, info = pre ++ w ++ post ∧ Blanks pre ∧ Blanks post ∧ IsWord w := by
  refine ⟨info.takeWhile isSpace, ((info.dropWhile isSpace).reverse.dropWhile isSpace).reverse, ((info.dropWhile isSpace).reverse.takeWhile isSpace).reverse, ?_, ?_, ?_, ?_⟩
  · rw [List.append_assoc, ← List.reverse_append, List.takeWhile_append_dropWhile, List.reverse_reverse, List.takeWhile_append_dropWhile]
  · intro c hc
    exact ⟨Highlight.takeWhile_all _ _ hc, fun e => hn (e ▸ (List.takeWhile_subset _ hc))⟩
  · intro c hc
    rw [List.mem_reverse] at hc
    refine ⟨Highlight.takeWhile_all _ _ hc, fun e => hn (e ▸ ?_)⟩
    exact (List.dropWhile_subset _ (by simpa using List.takeWhile_subset _ hc))
  · simp only [isTable, Bool.and_eq_true, beq_iff_eq] at h
    exact h.2

theorem delimiter_none {data : Bytes} (h : NoDelim data) : delimiter data = none := by simp only [delimiter, if_neg h.1, if_neg h.2]

theorem delimiter_eq {data : Bytes} {d : Byte} (h : Delim data d) : delimiter data = some d := by
  cases h with
  | tab h => simp only [delimiter, if_pos h]
  | comma h1 h2 => simp only [delimiter, if_neg h1, if_pos h2]

theorem fence_code {info body : Bytes} (h : (Item.code info body).Ok) (rest : Bytes) :
    fence ((Item.code info body).source ++ rest) = .val ([.block (Item.code info body).source], rest) := by
  obtain ⟨h1, h2, h3⟩ := h
  have hs : (Item.code info body).source ++ rest = c!"`" :: c!"`" :: c!"`" :: (info ++ c!"\n" :: (body ++ c!"`" :: c!"`" :: c!"`" :: rest)) := by simp [Item.source]
  have hd : (info ++ c!"\n" :: (body ++ c!"`" :: c!"`" :: c!"`" :: rest)).drop (info.length + 1) = body ++ c!"`" :: c!"`" :: c!"`" :: rest := by simp
  have hu := upTo_append (Item.code info body).source rest
  rw [hs] at hu ⊢
  unfold fence
  simp only [List.drop_succ_cons, List.drop_zero, drop_info info _ h1, hd, closing_eq h2, hu]
  split
  · rename_i ht
    rcases h3 with h3 | h3
    · obtain ⟨pre, w, post, e, b1, b2, b3⟩ := isTable_parts ht h1
      exact absurd b3 (h3 pre w post e b1 b2)
    · rw [delimiter_none h3]
  · rfl

theorem toTable_fits {data : Bytes} {d : Byte} (hd : Delim data d) {rows : List (List Bytes)} (hr : Rows d data rows) {out : Bytes} (ht : Table rows out)
    (hf : out.length < data.length * 4 + 64) : Csv.toTable data (d == c!"\t") = .val (some out) := by
  have hne : data ≠ [] := by cases hd <;> (rintro rfl; simp_all)
  have hr' : Rows (if (d == c!"\t") then c!"\t" else c!",") data rows := by cases hd <;> exact hr
  rw [Csv.toTable_eq hne hr' ht, if_pos hf]

theorem fence_table {pre word post data tail : Bytes} (h : (Item.table pre word post data tail).Ok) {d : Byte} (hd : Delim data d) {rows : List (List Bytes)}
    (hr : Rows d data rows) {out : Bytes} (ht : Table rows out) (hf : out.length < data.length * 4 + 64) (rest : Bytes) :
    fence ((Item.table pre word post data tail).source ++ rest) = .val ([.block out, .lineEnd], rest) := by
  obtain ⟨h1, h2, h3, h4, h5, h6⟩ := h
  have hs : (Item.table pre word post data tail).source ++ rest =
      c!"`" :: c!"`" :: c!"`" :: ((pre ++ word ++ post) ++ c!"\n" :: (data ++ c!"`" :: c!"`" :: c!"`" :: (tail ++ c!"\n" :: rest))) := by simp [Item.source]
  have hnl : c!"\n" ∉ pre ++ word ++ post := by
    simp only [List.mem_append, not_or]
    refine ⟨⟨fun e => (h1 _ e).2 rfl, fun e => ?_⟩, fun e => (h3 _ e).2 rfl⟩
    have := word_noSpace h2 _ e
    revert this; decide
  have hdr : ((pre ++ word ++ post) ++ c!"\n" :: (data ++ c!"`" :: c!"`" :: c!"`" :: (tail ++ c!"\n" :: rest))).drop ((pre ++ word ++ post).length + 1) =
      data ++ c!"`" :: c!"`" :: c!"`" :: (tail ++ c!"\n" :: rest) := by
    rw [← List.drop_drop, List.drop_left]; rfl
  have htl : (tail ++ c!"\n" :: rest).dropWhile (· != c!"\n") = c!"\n" :: rest := by
    rw [dropWhile_all]
    · rfl
    · intro c hc
      have : c ≠ c!"\n" := fun e => h6 (e ▸ hc)
      simpa using this
  rw [hs]
  unfold fence
  simp only [List.drop_succ_cons, List.drop_zero, drop_info _ _ hnl, hdr, closing_eq h4]
  rw [if_pos (isTable_word h1 h2 h3)]
  simp only [delimiter_eq hd, toTable_fits hd hr ht hf, C.val_bind, Option.isSome_some, if_true, htl]

/-! ### The marker -/

theorem all_blank {l : Bytes} : l.all (fun c => c == c!" " || c == c!"\t" || c == c!"\r") = true ↔ BlankLine l := by
  simp [BlankLine, or_assoc]

/-- Where the data end. -/
def Stops (u : Bytes) : Prop := u = [] ∨ BlankLine (u.takeWhile (· != c!"\n"))

theorem dataLines_eq (ls : List Bytes) (h : ∀ l ∈ ls, c!"\n" ∉ l ∧ ¬ BlankLine l) (u : Bytes) (hu : Stops u) (n : Nat) (hn : ls.length ≤ n) :
    dataLines n (ls.flatMap (· ++ b!"\n") ++ u) = (ls.flatMap (· ++ b!"\n"), u) := by
  induction ls generalizing n with
  | nil =>
    cases n with
    | zero => rfl
    | succ n =>
      simp only [List.flatMap_nil, List.nil_append, dataLines]
      rcases hu with rfl | hu
      · simp
      · split
        · simp_all
        · rw [if_pos (all_blank.2 hu)]
  | cons l ls ih =>
    obtain ⟨h1, h2⟩ := h l (by simp)
    obtain ⟨n, rfl⟩ : ∃ m, n = m + 1 := ⟨n - 1, by simp at hn; omega⟩
    have hs : (l :: ls).flatMap (· ++ b!"\n") ++ u = l ++ c!"\n" :: (ls.flatMap (· ++ b!"\n") ++ u) := by simp
    rw [hs, dataLines, if_neg (by simp)]
    simp only [line, drop_info l _ h1, List.drop_left]
    rw [if_neg (fun e => h2 (all_blank.1 e)), ih (fun x hx => h x (by simp [hx])) n (by simp at hn; omega)]
    simp

theorem gap_eq {bl : Bytes} (h : ∀ c ∈ bl, c = c!" " ∨ c = c!"\t") (u : Bytes) : gap (bl ++ c!"\n" :: u) = u := by
  unfold gap
  rw [dropWhile_all _ (by intro c hc; rcases h c hc with rfl | rfl <;> rfl)]
  simp

theorem marker_start {bl : Bytes} {ls : List Bytes} (h : (Item.marked bl ls).Ok) {u : Bytes} (hu : Stops u) :
    gap (((Item.marked bl ls).source ++ u).drop 12) = ls.flatMap (· ++ b!"\n") ++ u ∧
    dataLines (ls.flatMap (· ++ b!"\n") ++ u).length (ls.flatMap (· ++ b!"\n") ++ u) = (ls.flatMap (· ++ b!"\n"), u) ∧ ls.flatMap (· ++ b!"\n") ≠ [] := by
  obtain ⟨h1, h2, h3⟩ := h
  refine ⟨?_, dataLines_eq ls h3 u hu _ ?_, ?_⟩
  · have : ((Item.marked bl ls).source ++ u).drop 12 = bl ++ c!"\n" :: (ls.flatMap (· ++ b!"\n") ++ u) := by simp [Item.source]
    rw [this, gap_eq h1]
  · have : ∀ ls : List Bytes, ls.length ≤ (ls.flatMap (· ++ b!"\n")).length := by
      intro ls
      induction ls with
      | nil => simp
      | cons l ls ih => rw [List.flatMap_cons, List.length_append, List.length_append, List.length_cons, List.length_cons]; omega
    have := this ls
    rw [List.length_append]; omega
  · cases ls with
    | nil => exact absurd rfl h2
    | cons l ls => simp

theorem marker_plain {bl : Bytes} {ls : List Bytes} (h : (Item.marked bl ls).Ok) {u : Bytes} (hu : Stops u) (hd : NoDelim (ls.flatMap (· ++ b!"\n"))) :
    marker ((Item.marked bl ls).source ++ u) = .val ([.block (Item.marked bl ls).source], u) := by
  obtain ⟨h1, h2, h3⟩ := marker_start h hu
  unfold marker
  simp only [h1, h2, if_neg h3, delimiter_none hd, upTo_append]

theorem marker_table {bl : Bytes} {ls : List Bytes} (h : (Item.marked bl ls).Ok) {u : Bytes} (hu : Stops u) {d : Byte}
    (hd : Delim (ls.flatMap (· ++ b!"\n")) d) {rows : List (List Bytes)} (hr : Rows d (ls.flatMap (· ++ b!"\n")) rows) {out : Bytes} (ht : Table rows out)
    (hf : out.length < (ls.flatMap (· ++ b!"\n")).length * 4 + 64) :
    marker ((Item.marked bl ls).source ++ u) = .val ([.block out], u) := by
  obtain ⟨h1, h2, h3⟩ := marker_start h hu
  unfold marker
  simp only [h1, h2, if_neg h3, delimiter_eq hd, toTable_fits hd hr ht hf, C.val_bind]

/-! ### Whole documents -/

theorem opens_rest (ps : List (Item × Bytes)) : Opens (ps.flatMap fun p => p.1.source ++ p.2) := by
  cases ps with
  | nil => exact .inl rfl
  | cons p ps =>
    obtain ⟨i, t⟩ := p
    cases i with
    | code => right; left; rfl
    | table => right; left; rfl
    | marked => right; right; rfl

theorem stops_rest {bl : Bytes} {ls : List Bytes} {t : Bytes} {ps : List (Item × Bytes)} (h : Ends (.marked bl ls) t ps) :
    Stops (t ++ ps.flatMap fun p => p.1.source ++ p.2) := by
  rcases h with ⟨l, u, rfl, hb⟩ | ⟨hb, rfl⟩
  · right
    have : l ++ b!"\n" ++ u ++ ps.flatMap (fun p => p.1.source ++ p.2) = l ++ c!"\n" :: (u ++ ps.flatMap fun p => p.1.source ++ p.2) := by simp
    rw [this, drop_info]
    · exact hb
    · intro e
      rcases hb _ e with e | e | e <;> revert e <;> decide
  · right
    simp only [List.flatMap_nil, List.append_nil]
    intro c hc
    exact hb c (List.takeWhile_subset _ hc)

/-- The tokens of a piece. -/
theorem item_step {i : Item} (hi : i.Ok) {t : Bytes} {ps : List (Item × Bytes)} (he : Ends i t ps) {out : Bytes} (hr : i.Result out)
    (hf : out.length < i.data.length * 4 + 64 ∨ ∃ a b, i = .code a b) (n : Nat) :
    ∃ toks : List Tok, toks.flatMap Tok.out = out ∧ (.lineEnd ∈ toks → ∃ a b c d e, i = .table a b c d e) ∧
      loop (n + 1) (i.source ++ (t ++ ps.flatMap fun p => p.1.source ++ p.2)) =
        loop n (t ++ ps.flatMap fun p => p.1.source ++ p.2) >>= fun ts => .val (toks ++ ts) := by
  generalize hu : (t ++ ps.flatMap fun p => p.1.source ++ p.2) = u
  have hfence : ∀ v, i.source ++ u = c!"`" :: v → b!"```" <+: i.source ++ u → ∀ r, fence (i.source ++ u) = .val r →
      loop (n + 1) (i.source ++ u) = loop n r.2 >>= fun ts => .val (r.1 ++ ts) := by
    intro v hv hp r hr
    rw [hv] at hp hr ⊢
    rw [loop, if_pos hp, hr]; rfl
  have hmark : ∀ v, i.source ++ u = c!"<" :: v → b!"<!--TABLE-->" <+: i.source ++ u → ∀ r, marker (i.source ++ u) = .val r →
      loop (n + 1) (i.source ++ u) = loop n r.2 >>= fun ts => .val (r.1 ++ ts) := by
    intro v hv hp r hr
    rw [hv] at hp hr ⊢
    rw [loop, if_neg (by simp), if_pos hp, hr]; rfl
  cases hr with
  | code =>
    rename_i info body
    exact ⟨[.block (Item.code info body).source], by simp [Tok.out], by simp, hfence _ rfl (by simp [Item.source]) _ (fence_code hi u)⟩
  | table hd hrw ht =>
    rename_i pre word post data tail d rows out
    have hf' : out.length < data.length * 4 + 64 := by
      rcases hf with hf | ⟨a, b, e⟩
      · simp [Item.data] at hf; omega
      · cases e
    exact ⟨[.block out, .lineEnd], by simp [Tok.out], fun _ => ⟨_, _, _, _, _, rfl⟩, hfence _ rfl (by simp [Item.source]) _ (fence_table hi hd hrw ht hf' u)⟩
  | marked hd hrw ht =>
    rename_i bl ls d rows
    have hf' : out.length < (ls.flatMap (· ++ b!"\n")).length * 4 + 64 := by
      rcases hf with hf | ⟨a, b, e⟩
      · exact hf
      · cases e
    exact ⟨[.block out], by simp [Tok.out], by simp, hmark _ rfl (by simp [Item.source]) _ (marker_table hi (hu ▸ stops_rest he) hd hrw ht hf')⟩
  | plain hd =>
    rename_i bl ls
    exact ⟨[.block (Item.marked bl ls).source], by simp [Tok.out], by simp, hmark _ rfl (by simp [Item.source]) _ (marker_plain hi (hu ▸ stops_rest he) hd)⟩

theorem loop_doc (t : Bytes) (ht : Between t) (ps : List (Item × Bytes)) (h : Good ps) (outs : List Bytes) (hf : Fits ps outs) (n : Nat)
    (hn : (source t ps).length ≤ n) : ∃ ts : List Tok, loop n (source t ps) = .val ts ∧ ts.flatMap Tok.out = result t ps outs ∧
      (.lineEnd ∈ ts → ∃ p ∈ ps, ∃ a b c d e, p.1 = .table a b c d e) := by
  have hbytes : ∀ t : Bytes, (t.map Tok.byte).flatMap Tok.out = t := by
    intro t; induction t with
    | nil => rfl
    | cons c t ih => rw [List.map_cons, List.flatMap_cons, ih]; rfl
  induction ps generalizing t n outs with
  | nil =>
    cases outs with
    | cons => exact hf.elim
    | nil =>
      obtain ⟨m, rfl⟩ : ∃ m, n = m + t.length := ⟨n - t.length, by simp [source] at hn; omega⟩
      refine ⟨t.map .byte, ?_, by rw [hbytes]; simp [result], by simp⟩
      rw [source, text_copy t _ ht (opens_rest [])]
      cases m <;> simp [loop]
  | cons p ps ih =>
    cases outs with
    | nil => exact hf.elim
    | cons out outs =>
      obtain ⟨i, u⟩ := p
      obtain ⟨h1, h2, h3, h4⟩ := h
      obtain ⟨f1, f2, f3⟩ := hf
      have hl : 1 ≤ i.source.length := by cases i <;> simp [Item.source] <;> omega
      have hsrc : source t ((i, u) :: ps) = t ++ (i.source ++ (u ++ ps.flatMap fun p => p.1.source ++ p.2)) := by simp [source]
      rw [hsrc] at hn ⊢
      simp only [List.length_append] at hn
      obtain ⟨m, rfl⟩ : ∃ m, n = m + 1 + t.length := ⟨n - t.length - 1, by omega⟩
      obtain ⟨toks, e1, e2, e3⟩ := item_step h1 h3 f1 f2 m
      obtain ⟨ts, g1, g2, g3⟩ := ih u h2 h4 outs f3 m (by simp only [source, List.length_append]; omega)
      have ho : Opens (i.source ++ (u ++ ps.flatMap fun p => p.1.source ++ p.2)) := by
        have := opens_rest ((i, u) :: ps)
        simpa using this
      refine ⟨t.map .byte ++ (toks ++ ts), ?_, ?_, ?_⟩
      · rw [text_copy t _ ht ho, e3]
        rw [show u ++ ps.flatMap (fun p => p.1.source ++ p.2) = source u ps from rfl, g1]; rfl
      · rw [List.flatMap_append, hbytes, List.flatMap_append, e1, g2]
        simp [result]
      · intro hm
        simp only [List.mem_append, List.mem_map, reduceCtorEq, and_false, exists_false, false_or] at hm
        rcases hm with hm | hm
        · exact ⟨(i, u), by simp, e2 hm⟩
        · obtain ⟨p, hp, hq⟩ := g3 hm
          exact ⟨p, by simp [hp], hq⟩

theorem process_doc (t : Bytes) (ht : Between t) (ps : List (Item × Bytes)) (h : Good ps) (outs : List Bytes) (hf : Fits ps outs) :
    (process (source t ps) = .val (result t ps outs) ∨ process (source t ps) = .ub) ∧
    ((result t ps outs).length ≤ 3 * (source t ps).length ∨ (∀ p ∈ ps, ∀ a b c d e, p.1 ≠ .table a b c d e) →
      process (source t ps) = .val (result t ps outs)) := by
  obtain ⟨ts, h1, h2, h3⟩ := loop_doc t ht ps h outs hf _ (Nat.le_refl _)
  unfold process
  rw [h1, C.val_bind]
  constructor
  · rcases writeAll_either { cap := (source t ps).length * 3 + 1, out := [] } ts with e | ⟨s', e1, e2⟩
    · right; rw [e]; rfl
    · rw [e1, C.val_bind, e2, List.nil_append, h2]
      by_cases hc : (result t ps outs).length < s'.cap
      · left; exact finish_val hc
      · right; rw [finish, if_neg hc]
  · intro hr
    obtain ⟨s', e1, e2, e3⟩ := writeAll_fits { cap := (source t ps).length * 3 + 1, out := [] } ts (by
      rcases hr with hr | hr
      · left; rw [h2]; simp; omega
      · right
        refine ⟨by simp, fun e => ?_⟩
        obtain ⟨p, hp, a, b, c, d, x, hq⟩ := h3 e
        exact hr p hp a b c d x hq)
    rw [e1, C.val_bind]
    rw [finish_val e3, e2, List.nil_append, h2]

end Verif.InlineTables
