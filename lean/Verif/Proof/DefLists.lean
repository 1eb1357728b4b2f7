/-
Helper lemmas for C167 and C168: definition lists.
-/
import Verif.Model.DefLists
import Verif.Spec.DefLists
import Verif.Proof.Bibliography
import Verif.Proof.Escape

namespace Verif.DefLists
open Spec (Gap Lead Marked Refs Defines Needed Inner Content Quotes Definition Fence Closes Item Whole Plain Term signs Defs Close Doc)
open Text.Spec (ended)
open Embed (find)
open Index (span_stop span_all span_split)

/-! ### The block -/

/-- The text of what is written. -/
def Write.text : Write → Bytes
  | .put _ s => s
  | .line l nl => l ++ if nl then b!"\n" else []
  | .quote d => signs d

/-- There is enough room asked for. -/
def Write.Fits : Write → Prop
  | .put need s => s.length ≤ need
  | _ => True

theorem ensure_spec (need : Nat) (b : Buf) : (ensure need b).out = b.out ∧ b.out.length + need < (ensure need b).cap := by
  unfold ensure
  split
  · refine ⟨rfl, ?_⟩
    simp only []
    split <;> omega
  · exact ⟨rfl, by omega⟩

theorem push_val {s : Bytes} {b : Buf} (h : b.out.length + s.length ≤ b.cap) : push s b = .val ⟨b.cap, b.out ++ s⟩ := by
  unfold push
  rw [if_pos h]

theorem quoting_val (d : Nat) : ∀ b : Buf, b.out.length + (d * 2 + 1) < b.cap → quoting d b = .val ⟨b.cap, b.out ++ signs d⟩ := by
  induction d with
  | zero => intro b _; simp [quoting, signs]
  | succ d ih =>
    intro b h
    rw [quoting, if_pos (by omega), push_val (by simp only [List.length_cons, List.length_nil]; omega)]
    simp only [C.bind]
    rw [ih _ (by simp only [List.length_append, List.length_cons, List.length_nil]; omega)]
    simp [signs, List.replicate_succ]

theorem signs_len (d : Nat) : (signs d).length = d * 2 := by
  unfold signs
  induction d with
  | zero => rfl
  | succ d ih => rw [List.replicate_succ, List.flatten_cons, List.length_append, ih]; simp; omega

theorem write_val {w : Write} (hw : w.Fits) (b : Buf) : ∃ b', w.run b = .val b' ∧ b'.out = b.out ++ w.text ∧ b'.out.length ≤ b'.cap := by
  cases w with
  | put need s =>
    obtain ⟨h1, h2⟩ := ensure_spec need b
    simp only [Write.Fits] at hw
    refine ⟨⟨(ensure need b).cap, (ensure need b).out ++ s⟩, ?_, ?_, ?_⟩
    · unfold Write.run
      exact push_val (by rw [h1]; omega)
    · simp only [h1, Write.text]
    · simp only [h1, List.length_append]; omega
  | line l nl =>
    obtain ⟨h1, h2⟩ := ensure_spec (l.length + (if nl then 1 else 0) + 1) b
    cases nl with
    | false =>
      refine ⟨⟨(ensure (l.length + 0 + 1) b).cap, (ensure (l.length + 0 + 1) b).out ++ l⟩, ?_, ?_, ?_⟩
      · simp only [Write.run, Bool.false_eq_true, if_false, Bool.false_and]
        simp only [Bool.false_eq_true, if_false] at h1 h2
        rw [push_val (by rw [h1]; omega)]
        rfl
      · simp at h1; simp [h1, Write.text]
      · simp at h1 h2; simp [h1]; omega
    | true =>
      refine ⟨⟨(ensure (l.length + 1 + 1) b).cap, (ensure (l.length + 1 + 1) b).out ++ l ++ b!"\n"⟩, ?_, ?_, ?_⟩
      · simp only [Write.run, if_true, Bool.true_and]
        simp only [if_true] at h1 h2
        rw [push_val (by rw [h1]; omega)]
        simp only [C.bind]
        rw [if_pos (by rw [h1]; simp only [List.length_append]; simp; omega), push_val (by rw [h1]; simp only [List.length_append, List.length_cons, List.length_nil]; omega)]
      · simp at h1; simp [h1, Write.text]
      · simp at h1 h2; simp [h1]; omega
  | quote d =>
    obtain ⟨h1, h2⟩ := ensure_spec (d * 2 + 1) b
    refine ⟨⟨(ensure (d * 2 + 1) b).cap, (ensure (d * 2 + 1) b).out ++ signs d⟩, ?_, ?_, ?_⟩
    · unfold Write.run
      exact quoting_val d _ (by rw [h1]; exact h2)
    · simp only [h1, Write.text]
    · have := signs_len d
      simp only [h1, List.length_append]; omega

/-- The text of all that is written. -/
def text (ws : List Write) : Bytes := ws.flatMap Write.text

theorem runAll_val (ws : List Write) : ∀ b : Buf, (∀ w ∈ ws, w.Fits) → b.out.length ≤ b.cap →
    ∃ b', runAll ws b = .val b' ∧ b'.out = b.out ++ text ws ∧ b'.out.length ≤ b'.cap := by
  induction ws with
  | nil => intro b _ hb; exact ⟨b, rfl, by simp [text], hb⟩
  | cons w ws ih =>
    intro b h hb
    obtain ⟨b1, e1, e2, e3⟩ := write_val (h w (by simp)) b
    obtain ⟨b2, e4, e5, e6⟩ := ih b1 (fun w hw => h w (by simp [hw])) e3
    refine ⟨b2, ?_, ?_, e6⟩
    · rw [runAll, e1]
      exact e4
    · rw [e5, e2]
      simp [text]

theorem fits_append {a b : List Write} (ha : ∀ w ∈ a, w.Fits) (hb : ∀ w ∈ b, w.Fits) : ∀ w ∈ a ++ b, w.Fits := by
  intro w hw
  rcases List.mem_append.1 hw with h | h
  · exact ha w h
  · exact hb w h

theorem fits_one {w : Write} (h : w.Fits) : ∀ x ∈ [w], x.Fits := by
  intro x hx
  rw [List.mem_singleton.1 hx]
  exact h

theorem fits_nil : ∀ w ∈ ([] : List Write), w.Fits := fun w h => by simp at h

theorem tag_fits (s : Bytes) : (tag s).Fits := Nat.le_succ _

theorem prefixed_fits (st : St) : ∀ w ∈ prefixed st, w.Fits := by
  unfold prefixed
  split
  · exact fits_one trivial
  · exact fits_nil

theorem flush_fits (st : St) : ∀ w ∈ (flush st).2, w.Fits := by
  unfold flush
  have h1 : ∀ (k : Bool) (t : Bytes), ∀ w ∈ [Write.put (t.length + 2) (t ++ b!"\n")] ++ (if k then [.put 1 b!"\n"] else []), w.Fits := by
    intro k t
    refine fits_append (fits_one ?_) ?_
    · unfold Write.Fits; simp
    · split
      · exact fits_one (by unfold Write.Fits; simp)
      · exact fits_nil
  cases hl : st.list with
  | true =>
    simp only [if_true]
    split
    · exact fits_append (prefixed_fits st) (fits_one (tag_fits _))
    · rw [List.append_assoc]
      exact fits_append (fits_append (prefixed_fits st) (fits_one (tag_fits _))) (h1 _ _)
  | false =>
    simp only [Bool.false_eq_true, if_false]
    split
    · exact fits_nil
    · rw [List.append_assoc]
      exact fits_append fits_nil (h1 _ _)

theorem defLine_fits (html : Bytes → Bytes) (st : St) (d : Nat) (t : Bytes) : ∀ w ∈ (defLine html st d t).2, w.Fits := by
  have h3 : ∀ a b c : Bytes, ∀ w ∈ [tag a, tag b, tag c], w.Fits := by
    intro a b c
    exact fits_append (fits_one (tag_fits _)) (fits_append (fits_one (tag_fits _)) (fits_one (tag_fits _)))
  have ho : ∀ w ∈ (openList html st d).2, w.Fits := by
    unfold openList
    simp only []
    split
    · exact fits_append (prefixed_fits _) (fits_one (tag_fits _))
    · exact fits_append (fits_append (fits_append (prefixed_fits _) (fits_one (tag_fits _))) (prefixed_fits _)) (h3 _ _ _)
  unfold defLine
  simp only []
  refine fits_append (fits_append ?_ (prefixed_fits _)) (h3 _ _ _)
  split
  · exact fits_nil
  · exact ho

theorem codeLine_fits (st : St) (f : Option Bool) (l : Bytes) : ∀ w ∈ (codeLine st f l).2, w.Fits := by
  have h1 : ∀ w ∈ [Write.put (l.length + 1) (l ++ b!"\n")], w.Fits := fits_one (by unfold Write.Fits; simp)
  have h2 : ∀ k : Bool, ∀ w ∈ (if k then [tag b!"</dl>\n"] else []), w.Fits := by
    intro k
    split
    · exact fits_one (tag_fits _)
    · exact fits_nil
  unfold codeLine
  simp only []
  refine fits_append ?_ h1
  cases f with
  | none => exact fits_nil
  | some c =>
    simp only []
    split
    · split <;> exact fits_nil
    · exact h2 _

theorem step_fits (html : Bytes → Bytes) (st : St) (s l r : Bytes) (nl : Bool) : ∀ w ∈ (step html st s l r nl).2, w.Fits := by
  unfold step
  simp only []
  split
  · exact codeLine_fits _ _ _
  · split
    · split
      · refine fits_one ?_
        unfold Write.Fits
        simp; omega
      · exact defLine_fits _ _ _ _
    · split
      · unfold emptyLine
        split
        · exact fits_nil
        · split
          · exact fits_nil
          · exact fits_one (by unfold Write.Fits; simp)
      · unfold textLine
        simp only []
        split
        · exact fits_append (flush_fits st) (fits_one trivial)
        · split
          · exact flush_fits st
          · exact fits_append (flush_fits st) (fits_one trivial)

theorem final_fits (st : St) : ∀ w ∈ final st, w.Fits := by
  unfold final
  refine fits_append ?_ ?_
  · split
    · exact fits_append (prefixed_fits st) (fits_one (tag_fits _))
    · exact fits_nil
  · split
    · exact fits_nil
    · refine fits_append (fits_one ?_) ?_
      · unfold Write.Fits; simp
      · split
        · exact fits_one (by unfold Write.Fits; simp)
        · exact fits_nil

/-- The loop without the block. -/
def run (html : Bytes → Bytes) : Nat → St → Bytes → Option (St × Bytes)
  | _, st, [] => some (st, [])
  | 0, _, _ :: _ => none
  | n + 1, st, c :: s =>
    let l := (c :: s).takeWhile (· != c!"\n")
    let r := (c :: s).dropWhile (· != c!"\n")
    let x := step html st (c :: s) l (r.drop 1) (!r.isEmpty)
    (run html n x.1 (r.drop 1)).map fun y => (y.1, text x.2 ++ y.2)

theorem loop_run (html : Bytes → Bytes) (n : Nat) : ∀ (st : St) (s : Bytes) (b : Buf), b.out.length ≤ b.cap →
    (run html n st s = none ∧ loop html n st s b = .val none) ∨
    ∃ st' o b', run html n st s = some (st', o) ∧ loop html n st s b = .val (some (st', b')) ∧ b'.out = b.out ++ o ∧ b'.out.length ≤ b'.cap := by
  induction n with
  | zero =>
    intro st s b hb
    cases s with
    | nil => exact Or.inr ⟨st, [], b, rfl, rfl, by simp, hb⟩
    | cons c s => exact Or.inl ⟨rfl, rfl⟩
  | succ n ih =>
    intro st s b hb
    cases s with
    | nil => exact Or.inr ⟨st, [], b, rfl, rfl, by simp, hb⟩
    | cons c s =>
      rw [run, loop]
      obtain ⟨b1, e1, e2, e3⟩ := runAll_val _ b (step_fits html st (c :: s) ((c :: s).takeWhile (· != c!"\n")) (((c :: s).dropWhile (· != c!"\n")).drop 1)
        (!((c :: s).dropWhile (· != c!"\n")).isEmpty)) hb
      rw [e1]
      simp only [C.bind]
      rcases ih (step html st (c :: s) ((c :: s).takeWhile (· != c!"\n")) (((c :: s).dropWhile (· != c!"\n")).drop 1)
        (!((c :: s).dropWhile (· != c!"\n")).isEmpty)).1 (((c :: s).dropWhile (· != c!"\n")).drop 1) b1 e3 with ⟨h1, h2⟩ | ⟨st', o, b', h1, h2, h3, h4⟩
      · left
        rw [h1, h2]
        exact ⟨rfl, rfl⟩
      · right
        rw [h1, h2]
        exact ⟨st', _, b', rfl, rfl, by rw [h3, e2, List.append_assoc], h4⟩

/-- The result without the block. -/
theorem process_run (md : Bytes → Bytes) (s : Bytes) : process md s = .val (
    if pattern (s.length + 1) s then
      match run (content md (pick (fun _ => true) (s.length + 1) s)) 1000000 St.start s with
      | none => some s
      | some (st, o) => if st.found then (if o ++ text (final st) = [] then none else some (o ++ text (final st))) else none
    else none) := by
  unfold process
  split
  · simp only []
    rcases loop_run (content md (pick (fun _ => true) (s.length + 1) s)) 1000000 St.start s ⟨s.length * 3, []⟩ (by simp) with ⟨h1, h2⟩ | ⟨st', o, b', h1, h2, h3, h4⟩
    · rw [h1, h2]
      rfl
    · rw [h1, h2]
      simp only [C.bind]
      obtain ⟨b1, e1, e2, e3⟩ := runAll_val _ b' (final_fits st') h4
      rw [e1]
      simp only [C.bind]
      split
      · rw [e2, h3, List.nil_append]
      · rfl
  · rfl

/-! ### Lines -/

theorem blank_iff (c : Byte) : blank c = true ↔ c = c!" " ∨ c = c!"\t" := by simp [blank]

theorem gap_blank {w : Bytes} (h : Gap w) : ∀ c ∈ w, blank c = true := fun c hc => (blank_iff c).2 (h c hc)

theorem blank_gap {w : Bytes} (h : ∀ c ∈ w, blank c = true) : Gap w := fun c hc => (blank_iff c).1 (h c hc)

theorem not_blank {c : Byte} : blank c = false ↔ c ≠ c!" " ∧ c ≠ c!"\t" := by simp [blank]

theorem lead_iff {l : Bytes} {c : Byte} : Lead l c ↔ ∃ r, l.dropWhile blank = c :: r := by
  constructor
  · rintro ⟨w, r, rfl, hw, hc⟩
    exact ⟨r, (span_stop (gap_blank hw) (not_blank.2 hc)).2⟩
  · rintro ⟨r, h⟩
    obtain ⟨w, y, e, hw, hy, _, h2⟩ := span_split blank l
    rw [h2] at h
    subst h
    rcases hy with hy | ⟨c', y', hy, hc⟩
    · simp at hy
    · simp only [List.cons.injEq] at hy
      rw [← hy.1] at hc
      exact ⟨w, r, e, blank_gap hw, not_blank.1 hc⟩

theorem lead_unique {l : Bytes} {c d : Byte} (h1 : Lead l c) (h2 : Lead l d) : c = d := by
  obtain ⟨r, e⟩ := lead_iff.1 h1
  obtain ⟨r', e'⟩ := lead_iff.1 h2
  rw [e] at e'
  simp only [List.cons.injEq] at e'
  exact e'.1

theorem fence_lead {l : Bytes} (h : Fence l) : Lead l c!"`" := by
  obtain ⟨w, r, rfl, hw⟩ := h
  exact ⟨w, b!"``" ++ r, by simp, hw, by decide⟩

theorem fence_drop {w r : Bytes} (hw : Gap w) : (w ++ b!"```" ++ r).dropWhile blank = b!"```" ++ r := by
  rw [show w ++ b!"```" ++ r = w ++ c!"`" :: (b!"``" ++ r) by simp]
  exact (span_stop (gap_blank hw) (by decide)).2

theorem fence_iff {l : Bytes} : (fence l).isSome = true ↔ Fence l := by
  constructor
  · intro h
    unfold fence at h
    simp only [] at h
    split at h
    · rename_i hp
      obtain ⟨r, e⟩ := List.isPrefixOf_iff_prefix.1 hp
      obtain ⟨w, y, e', hw, _, _, h2⟩ := span_split blank l
      rw [h2] at e
      exact ⟨w, r, by rw [e', ← e]; simp, blank_gap hw⟩
    · simp at h
  · rintro ⟨w, r, rfl, hw⟩
    unfold fence
    simp only [fence_drop hw]
    rw [if_pos (List.isPrefixOf_iff_prefix.2 ⟨r, rfl⟩)]
    rfl

theorem fence_none {l : Bytes} (h : ¬ Fence l) : fence l = none := by
  cases hf : fence l with
  | none => rfl
  | some c => exact absurd (fence_iff.1 (by rw [hf]; rfl)) h

theorem closes_iff {l : Bytes} : fence l = some true ↔ Closes l := by
  constructor
  · intro h
    unfold fence at h
    simp only [] at h
    split at h
    · rename_i hp
      obtain ⟨r, e⟩ := List.isPrefixOf_iff_prefix.1 hp
      obtain ⟨w, y, e', hw, _, _, h2⟩ := span_split blank l
      rw [h2] at e h
      rw [← e] at h
      have h3 : (b!"```" ++ r).drop 3 = r := rfl
      rw [h3] at h
      obtain ⟨g, z, e3, hg, _, _, h4⟩ := span_split blank r
      rw [h4] at h
      refine ⟨w, g, z, by rw [e', ← e, e3]; simp, blank_gap hw, blank_gap hg, ?_⟩
      cases z with
      | nil => exact Or.inl rfl
      | cons c z =>
        right
        simpa using h
    · simp at h
  · rintro ⟨w, g, r, rfl, hw, hg, hr⟩
    unfold fence
    rw [show w ++ b!"```" ++ g ++ r = w ++ b!"```" ++ (g ++ r) by simp]
    simp only [fence_drop hw]
    rw [if_pos (List.isPrefixOf_iff_prefix.2 ⟨g ++ r, rfl⟩)]
    have h3 : (b!"```" ++ (g ++ r)).drop 3 = g ++ r := rfl
    rw [h3]
    rcases hr with rfl | hr
    · rw [List.append_nil, (span_all (gap_blank hg)).2]
    · cases r with
      | nil => simp at hr
      | cons c r =>
        simp only [List.head?_cons, Option.some.injEq] at hr
        subst hr
        rw [(span_stop (gap_blank hg) (by decide)).2]
        rfl

theorem closes_fence {l : Bytes} (h : Closes l) : Fence l := by
  obtain ⟨w, g, r, rfl, hw, _⟩ := h
  exact ⟨w, g ++ r, by simp, hw⟩

theorem row_iff {l : Bytes} : row l = true ↔ Lead l c!"|" := by
  unfold row
  rw [lead_iff]
  cases l.dropWhile blank with
  | nil => simp
  | cons c r => simp

theorem header_iff {l : Bytes} : ((l.dropWhile blank).head? == some c!"#") = true ↔ Lead l c!"#" := by
  rw [lead_iff]
  cases l.dropWhile blank with
  | nil => simp
  | cons c r => simp

theorem skip_spec (p : Byte → Bool) (n : Nat) : ∀ s : Bytes, ∃ x r, s = x ++ r ∧ skip p n s = r ∧ x.length ≤ n ∧ (∀ c ∈ x, p c = true) ∧
    (x.length = n ∨ r = [] ∨ ∃ c t, r = c :: t ∧ p c = false) := by
  induction n with
  | zero =>
    intro s
    refine ⟨[], s, rfl, ?_, by simp, by simp, Or.inl rfl⟩
    rw [skip]
    intro n' _ _ h
    omega
  | succ n ih =>
    intro s
    cases s with
    | nil => exact ⟨[], [], rfl, by rw [skip]; intro _ _ _ _ h; simp at h, by simp, by simp, Or.inr (Or.inl rfl)⟩
    | cons c s =>
      rw [skip]
      cases hc : p c with
      | true =>
        obtain ⟨x, r, e, h1, h2, h3, h4⟩ := ih s
        refine ⟨c :: x, r, by rw [e]; rfl, by simpa using h1, by simp; omega, ?_, ?_⟩
        · intro d hd
          rcases List.mem_cons.1 hd with rfl | hd
          · exact hc
          · exact h3 d hd
        · simpa using h4
      | false => exact ⟨[], c :: s, rfl, by simp, by simp, by simp, Or.inr (Or.inr ⟨c, s, rfl, hc⟩)⟩

theorem skip_eq {p : Byte → Bool} (x : Bytes) : ∀ {n : Nat} {r : Bytes}, x.length ≤ n → (∀ c ∈ x, p c = true) → (∀ c t, r = c :: t → p c = false) → skip p n (x ++ r) = r := by
  induction x with
  | nil =>
    intro n r _ _ hr
    cases n with
    | zero => rw [List.nil_append, skip]; intro _ _ _ h; omega
    | succ n =>
      cases r with
      | nil => rw [List.nil_append, skip]; intro _ _ _ _ h; simp at h
      | cons c t => rw [List.nil_append, skip, hr c t rfl]; rfl
  | cons c x ih =>
    intro n r hn hx hr
    cases n with
    | zero => simp at hn
    | succ n =>
      rw [List.cons_append, skip, hx c (by simp), if_pos rfl]
      exact ih (by simpa using hn) (fun d hd => hx d (by simp [hd])) hr

theorem item_iff {l : Bytes} : item l = true ↔ Item l := by
  constructor
  · intro h
    unfold item at h
    obtain ⟨x, r, e, h1, h2, h3, _⟩ := skip_spec blank 4 l
    rw [h1] at h
    match r, h with
    | [], h => simp at h
    | c :: s, h =>
      simp only [] at h
      split at h
      · rename_i hc
        match s, h with
        | [], h => simp at h
        | d :: s, h =>
          simp only [] at h
          refine ⟨x, c :: d :: s, e, blank_gap h3, h2, Or.inl ⟨c, d, s, rfl, ?_, (blank_iff d).1 h⟩⟩
          simp only [Bool.or_eq_true, beq_iff_eq, or_assoc] at hc
          rcases hc with rfl | rfl | rfl <;> simp
      · split at h
        · rename_i hdig
          obtain ⟨n, y, e', hn, _, _, h5⟩ := span_split isDigit (c :: s)
          rw [h5] at h
          match y, h with
          | [], h => simp at h
          | [_], h => simp at h
          | a :: g :: z, h =>
            simp only [Bool.and_eq_true, beq_iff_eq] at h
            refine ⟨x, c :: s, e, blank_gap h3, h2, Or.inr ⟨n, g, z, by rw [e', h.1]; simp, ?_, hn, (blank_iff g).1 h.2⟩⟩
            rintro rfl
            simp only [List.nil_append, List.cons.injEq] at e'
            rw [e'.1, h.1] at hdig
            exact absurd hdig (by decide)
        · simp at h
  · rintro ⟨w, r, rfl, hw, hl, h⟩
    have first : ∃ c t, r = c :: t ∧ blank c = false := by
      rcases h with ⟨b, g, s, rfl, hb, _⟩ | ⟨n, g, s, rfl, hn, hd, _⟩
      · refine ⟨b, g :: s, rfl, ?_⟩
        simp only [List.mem_cons, List.not_mem_nil, or_false] at hb
        rcases hb with rfl | rfl | rfl <;> rfl
      · cases n with
        | nil => exact absurd rfl hn
        | cons c n =>
          exact ⟨c, n ++ b!"." ++ g :: s, by simp, forall_byte (p := fun c => isDigit c = true → blank c = false) (by decide +kernel) c (hd c (by simp))⟩
    obtain ⟨c, t, hr, hc⟩ := first
    unfold item
    rw [skip_eq w hl (gap_blank hw) (by
      intro d u e
      rw [hr] at e
      simp only [List.cons.injEq] at e
      rw [← e.1]
      exact hc)]
    rcases h with ⟨b, g, s, rfl, hb, hg⟩ | ⟨n, g, s, rfl, hn, hd, hg⟩
    · simp only []
      simp only [List.mem_cons, List.not_mem_nil, or_false] at hb
      rcases hb with rfl | rfl | rfl <;> exact (blank_iff g).2 hg
    · cases n with
      | nil => exact absurd rfl hn
      | cons c n =>
        have hcd := hd c (by simp)
        have h5 := (span_stop (p := isDigit) (a := c :: n) (b := g :: s) (c := c!".") hd (by decide)).2
        rw [show c :: n ++ b!"." ++ g :: s = c :: (n ++ c!"." :: g :: s) by simp]
        rw [List.cons_append] at h5
        simp only [h5]
        rw [if_neg, if_pos hcd]
        · simp [(blank_iff g).2 hg]
        · exact fun h => absurd h (forall_byte (p := fun c => isDigit c = true → ¬ (c == c!"-" || c == c!"*" || c == c!"+") = true) (by decide +kernel) c hcd)

theorem item_lead {l : Bytes} (h : Item l) : ∃ c, Lead l c ∧ (c = c!"-" ∨ c = c!"*" ∨ c = c!"+" ∨ isDigit c = true) := by
  obtain ⟨w, r, rfl, hw, hl, h⟩ := h
  rcases h with ⟨b, g, s, rfl, hb, _⟩ | ⟨n, g, s, rfl, hn, hd, _⟩
  · simp only [List.mem_cons, List.not_mem_nil, or_false] at hb
    refine ⟨b, ⟨w, g :: s, rfl, hw, ?_⟩, ?_⟩
    · rcases hb with rfl | rfl | rfl <;> decide
    · rcases hb with rfl | rfl | rfl <;> simp
  · cases n with
    | nil => exact absurd rfl hn
    | cons c n =>
      refine ⟨c, ⟨w, n ++ b!"." ++ g :: s, by simp, hw, ?_⟩, Or.inr (Or.inr (Or.inr (hd c (by simp))))⟩
      exact forall_byte (p := fun c => isDigit c = true → c ≠ c!" " ∧ c ≠ c!"\t") (by decide +kernel) c (hd c (by simp))

/-! ### Quotations and definitions -/

/-- The text behind a sign and the blank or tab behind it. -/
def behind : Bytes → Bytes
  | d :: t => if blank d then t else d :: t
  | [] => []

theorem quotes_sign (n : Nat) (s : Bytes) : quotes (n + 1) (c!">" :: s) = ((quotes n (behind s)).1 + 1, (quotes n (behind s)).2) := by
  cases s <;> rfl

theorem quotes_other (n : Nat) {c : Byte} (s : Bytes) (h : c ≠ c!">") : quotes n (c :: s) = (0, c :: s) := by
  cases n with
  | zero => rfl
  | succ n => simp [quotes, h]

theorem quotes_eq {d : Nat} {q : Bytes} (h : Quotes d q) : ∀ {n : Nat} {r : Bytes}, (q ++ r).length ≤ n → (∀ c t, r = c :: t → c ≠ c!">" ∧ (0 < d → blank c = false)) →
    quotes n (q ++ r) = (d, r) := by
  induction h with
  | nil =>
    intro n r hn hr
    cases r with
    | nil => cases n <;> rfl
    | cons c t =>
      cases n with
      | zero => simp at hn
      | succ n => rw [List.nil_append, quotes_other _ _ (hr c t rfl).1]
  | @cons d q g hq hg ih =>
    intro n r hn hr
    cases n with
    | zero => simp at hn
    | succ n =>
      rw [show b!">" ++ g ++ q ++ r = c!">" :: (g ++ (q ++ r)) by simp, quotes_sign]
      have hr' : ∀ c t, r = c :: t → c ≠ c!">" ∧ (0 < d → blank c = false) := fun c t e => ⟨(hr c t e).1, fun _ => (hr c t e).2 (by omega)⟩
      have key : behind (g ++ (q ++ r)) = q ++ r := by
        rcases hg with rfl | rfl | rfl
        · rw [List.nil_append]
          cases hq with
          | nil =>
            cases r with
            | nil => rfl
            | cons c t =>
              simp only [List.nil_append, behind]
              rw [if_neg (by rw [(hr c t rfl).2 (by omega)]; simp)]
          | cons => rfl
        · rfl
        · rfl
      have hl : (q ++ r).length ≤ n := by
        simp only [List.length_append, List.length_cons, List.length_nil] at hn ⊢
        omega
      rw [key, ih hl hr']

theorem quotes_spec (n : Nat) : ∀ s : Bytes, s.length ≤ n → ∃ q, s = q ++ (quotes n s).2 ∧ Quotes (quotes n s).1 q ∧ (quotes n s).2.head? ≠ some c!">" := by
  induction n with
  | zero =>
    intro s hs
    cases s with
    | nil => exact ⟨[], rfl, .nil, by simp [quotes]⟩
    | cons c s => simp at hs
  | succ n ih =>
    intro s hs
    cases s with
    | nil => exact ⟨[], rfl, .nil, by simp [quotes]⟩
    | cons c s =>
      simp only [List.length_cons] at hs
      by_cases hc : c = c!">"
      · subst hc
        rw [quotes_sign]
        match s with
        | [] =>
          obtain ⟨q, h1, h2, h3⟩ := ih [] (by simp)
          rw [show behind ([] : Bytes) = [] from rfl]
          refine ⟨b!">" ++ [] ++ q, ?_, .cons h2 (Or.inl rfl), h3⟩
          simpa using h1
        | d :: t =>
          simp only [behind]
          split
          · rename_i hd
            obtain ⟨q, h1, h2, h3⟩ := ih t (by simp at hs; omega)
            refine ⟨b!">" ++ [d] ++ q, ?_, .cons h2 ?_, h3⟩
            · rw [List.append_assoc, ← h1]
              rfl
            · rcases (blank_iff d).1 hd with rfl | rfl
              · exact Or.inr (Or.inl rfl)
              · exact Or.inr (Or.inr rfl)
          · obtain ⟨q, h1, h2, h3⟩ := ih (d :: t) (by omega)
            refine ⟨b!">" ++ [] ++ q, ?_, .cons h2 (Or.inl rfl), h3⟩
            rw [List.append_assoc, List.append_assoc, ← h1]
            rfl
      · rw [quotes_other _ _ hc]
        refine ⟨[], rfl, .nil, ?_⟩
        simpa using hc

theorem quotes_lead {d : Nat} {q r : Bytes} (h : Quotes d q) : (d = 0 ∧ q = []) ∨ ∃ t, q = c!">" :: t := by
  cases h with
  | nil => exact Or.inl ⟨rfl, rfl⟩
  | @cons d q g _ _ => exact Or.inr ⟨g ++ q, by simp⟩

theorem definition_lead {l : Bytes} {d : Nat} {t : Bytes} (h : Definition l d t) : Lead l c!":" ∨ Lead l c!">" := by
  obtain ⟨n, q, w, _, rfl, hq, _⟩ := h
  have hg : Gap (List.replicate n c!" ") := fun c hc => Or.inl (List.eq_of_mem_replicate hc)
  rcases quotes_lead (r := []) hq with ⟨_, rfl⟩ | ⟨q, rfl⟩
  · exact Or.inl ⟨List.replicate n c!" ", w ++ t, by simp, hg, by decide⟩
  · exact Or.inr ⟨List.replicate n c!" ", q ++ b!":" ++ w ++ t, by simp, hg, by decide⟩

theorem definition_iff {l : Bytes} {d : Nat} {t : Bytes} : definition l = some (d, t) ↔ Definition l d t := by
  constructor
  · intro h
    unfold definition at h
    obtain ⟨x, r, e, h1, h2, h3, _⟩ := skip_spec (· == c!" ") 3 l
    simp only [h1] at h
    obtain ⟨q, h4, h5, h6⟩ := quotes_spec l.length r (by rw [e]; simp)
    revert h
    generalize quotes l.length r = z at h4 h5
    obtain ⟨z1, z2⟩ := z
    intro h
    match z2, h with
    | [], h => simp at h
    | [_], h => simp at h
    | a :: g :: s, h =>
      simp only [] at h h4 h5
      split at h
      · rename_i hc
        simp only [Option.some.injEq, Prod.mk.injEq] at h
        simp only [Bool.and_eq_true, beq_iff_eq] at hc
        obtain ⟨w, y, e', hw, hy, h7, h8⟩ := span_split blank (g :: s)
        rw [h8] at h
        refine ⟨x.length, q, w, h2, ?_, h.1 ▸ h5, blank_gap hw, ?_, ?_⟩
        · have hx : List.replicate x.length c!" " = x := by
            symm
            exact List.eq_replicate_iff.2 ⟨rfl, fun b hb => by simpa using h3 b hb⟩
          rw [hx, e, h4, e', hc.1.2, h.2]
          simp
        · rintro rfl
          simp only [List.takeWhile_cons, hc.2] at h7
          simp at h7
        · intro c hc
          rw [← h.2] at hc
          rcases hy with rfl | ⟨c', y, rfl, hc'⟩
          · simp at hc
          · simp only [List.head?_cons, Option.mem_def, Option.some.injEq] at hc
            rw [← hc]
            exact not_blank.1 hc'
      · simp at h
  · intro h
    have hlead := definition_lead h
    obtain ⟨n, q, w, hn, e, hq, hw, hw0, ht⟩ := h
    have hrow : row l = false := by
      cases hr : row l with
      | false => rfl
      | true =>
        have := row_iff.1 hr
        rcases hlead with h | h <;> exact absurd (lead_unique h this) (by decide)
    have hitem : item l = false := by
      cases hi : item l with
      | false => rfl
      | true =>
        obtain ⟨c, h1, h2⟩ := item_lead (item_iff.1 hi)
        rcases hlead with h | h <;> rw [← lead_unique h h1] at h2 <;> revert h2 <;> decide
    cases w with
    | nil => exact absurd rfl hw0
    | cons g w =>
      have h1 : skip (· == c!" ") 3 l = q ++ (c!":" :: g :: (w ++ t)) := by
        rw [e, show List.replicate n c!" " ++ q ++ b!":" ++ (g :: w) ++ t = List.replicate n c!" " ++ (q ++ (c!":" :: g :: (w ++ t))) by simp]
        refine skip_eq _ (by simpa using hn) (fun c hc => by simp [List.eq_of_mem_replicate hc]) ?_
        intro c s hs
        rcases quotes_lead (r := []) hq with ⟨_, rfl⟩ | ⟨q, rfl⟩
        · simp only [List.nil_append, List.cons.injEq] at hs
          rw [← hs.1]
          rfl
        · simp only [List.cons_append, List.cons.injEq] at hs
          rw [← hs.1]
          rfl
      have h2 : quotes l.length (q ++ (c!":" :: g :: (w ++ t))) = (d, c!":" :: g :: (w ++ t)) := by
        refine quotes_eq hq ?_ ?_
        · rw [e]
          simp only [List.length_append, List.length_cons, List.length_nil, List.length_replicate]
          omega
        · intro c s hs
          simp only [List.cons.injEq] at hs
          rw [← hs.1]
          exact ⟨by decide, fun _ => rfl⟩
      have h3 : (g :: (w ++ t)).dropWhile blank = t := by
        cases t with
        | nil =>
          have := (span_all (gap_blank hw)).2
          simpa using this
        | cons c t =>
          have := (span_stop (b := t) (gap_blank hw) (not_blank.2 (ht c (by simp)))).2
          simpa using this
      unfold definition
      simp only [h1, h2, h3]
      rw [if_pos]
      rw [hrow, hitem, gap_blank hw g (by simp)]
      rfl

theorem definition_none {l : Bytes} (h : ∀ d t, ¬ Definition l d t) : definition l = none := by
  cases hd : definition l with
  | none => rfl
  | some x => exact absurd (definition_iff.1 hd) (h x.1 x.2)

/-! ### Lines one after the other -/

/-- The loop, by lines. -/
def runL (html : Bytes → Bytes) : St → List Bytes → St × Bytes
  | st, [] => (st, [])
  | st, l :: ls =>
    let x := step html st (ended (l :: ls)) l (ended ls) true
    ((runL html x.1 ls).1, text x.2 ++ (runL html x.1 ls).2)

theorem ended_cons (l : Bytes) (ls : List Bytes) : ended (l :: ls) = l ++ c!"\n" :: ended ls := by simp [ended]

theorem ended_append (a b : List Bytes) : ended (a ++ b) = ended a ++ ended b := by simp [ended]

theorem line_span {l : Bytes} (h : c!"\n" ∉ l) (r : Bytes) :
    (l ++ c!"\n" :: r).takeWhile (· != c!"\n") = l ∧ (l ++ c!"\n" :: r).dropWhile (· != c!"\n") = c!"\n" :: r :=
  span_stop (fun x hx => by simp; rintro rfl; exact h hx) (by decide)

theorem run_ended (html : Bytes → Bytes) (ls : List Bytes) : ∀ (n : Nat) (st : St), (∀ l ∈ ls, c!"\n" ∉ l) → ls.length ≤ n →
    run html n st (ended ls) = some (runL html st ls) := by
  induction ls with
  | nil => intro n st _ _; cases n <;> rfl
  | cons l ls ih =>
    intro n st hl hn
    cases n with
    | zero => simp at hn
    | succ n =>
      obtain ⟨h1, h2⟩ := line_span (hl l (by simp)) (ended ls)
      have e : ended (l :: ls) = l ++ c!"\n" :: ended ls := ended_cons l ls
      obtain ⟨c, s, hs⟩ : ∃ c s, ended (l :: ls) = c :: s := by
        rw [e]
        cases l with
        | nil => exact ⟨_, _, rfl⟩
        | cons c l => exact ⟨_, _, rfl⟩
      have h3 : (c :: s).takeWhile (· != c!"\n") = l := by rw [← hs, e]; exact h1
      have h4 : (c :: s).dropWhile (· != c!"\n") = c!"\n" :: ended ls := by rw [← hs, e]; exact h2
      rw [runL, hs, run]
      simp only [h3, h4, List.drop_succ_cons, List.drop_zero, List.isEmpty_cons, Bool.not_false]
      rw [ih n _ (fun x hx => hl x (by simp [hx])) (by simpa using hn)]
      rfl

/-- Whether there is a list, and the result. -/
def fin (html : Bytes → Bytes) (st : St) (ls : List Bytes) : Bool × Bytes :=
  ((runL html st ls).1.found, (runL html st ls).2 ++ text (final (runL html st ls).1))

theorem fin_cons {html : Bytes → Bytes} {st st' : St} {l : Bytes} {ls : List Bytes} {w : List Write}
    (h : step html st (ended (l :: ls)) l (ended ls) true = (st', w)) :
    fin html st (l :: ls) = ((fin html st' ls).1, text w ++ (fin html st' ls).2) := by
  unfold fin
  simp only [runL, h, List.append_assoc]

theorem fin_nil (html : Bytes → Bytes) (st : St) : fin html st [] = (st.found, text (final st)) := rfl

theorem text_append (a b : List Write) : text (a ++ b) = text a ++ text b := by simp [text]

/-! ### Kinds of lines -/

/-- No code, no definition, and neither empty. -/
structure Regular (l : Bytes) : Prop where
  lead : ∃ c, Lead l c ∧ c ≠ c!"\r"
  fence : ¬ Fence l
  defn : ∀ d t, ¬ Definition l d t

theorem Regular.ne {l : Bytes} (h : Regular l) : l ≠ [] ∧ l ≠ b!"\r" := by
  obtain ⟨c, hc, h1⟩ := h.lead
  obtain ⟨r, e⟩ := lead_iff.1 hc
  constructor
  · rintro rfl; simp at e
  · rintro rfl
    simp only [List.dropWhile_cons, show blank c!"\r" = false from rfl] at e
    simp only [Bool.false_eq_true, if_false, List.cons.injEq] at e
    exact h1 e.1.symm

theorem regular_step {html : Bytes → Bytes} {st : St} {l s r : Bytes} (h : Regular l) (hc : st.code = false) (hi : ¬ b!"{:" <:+: s) :
    step html st s l r true = textLine st l true false := by
  unfold step
  simp only [hc, fence_none h.fence, definition_none h.defn]
  have : (find b!"{:" s).isSome = false := by rw [(Embed.find_none (by decide)).2 hi]; rfl
  simp only [Option.isSome_none, Bool.or_false, Bool.false_eq_true, if_false, h.ne.1, h.ne.2, or_self, this]

theorem whole_regular {l : Bytes} (h : Whole l) : Regular l := by
  have key : ∃ c, Lead l c ∧ c ≠ c!"\r" ∧ c ≠ c!"`" ∧ c ≠ c!":" ∧ c ≠ c!">" := by
    rcases h with h | h | h
    · exact ⟨_, h, by decide⟩
    · exact ⟨_, h, by decide⟩
    · obtain ⟨c, h1, h2⟩ := item_lead h
      refine ⟨c, h1, ?_⟩
      rcases h2 with rfl | rfl | rfl | h2
      · decide
      · decide
      · decide
      · exact forall_byte (p := fun c => isDigit c = true → c ≠ c!"\r" ∧ c ≠ c!"`" ∧ c ≠ c!":" ∧ c ≠ c!">") (by decide +kernel) c h2
  obtain ⟨c, h1, h2, h3, h4, h5⟩ := key
  refine ⟨⟨c, h1, h2⟩, fun h => h3 (lead_unique h1 (fence_lead h)), fun d t h => ?_⟩
  rcases definition_lead h with h | h
  · exact h4 (lead_unique h1 h)
  · exact h5 (lead_unique h1 h)

theorem plain_regular {l : Bytes} (h : Plain l) : Regular l := ⟨h.1, h.2.1, h.2.2.2⟩

theorem whole_iff {l : Bytes} : (row l || (l.dropWhile blank).head? == some c!"#" || item l) = true ↔ Whole l := by
  rw [Bool.or_eq_true, Bool.or_eq_true, row_iff, header_iff, item_iff, or_assoc]
  rfl

theorem textLine_whole {st : St} {l : Bytes} (h : Whole l) : textLine st l true false = ((flush st).1, (flush st).2 ++ [.line l true]) := by
  unfold textLine
  simp only [Bool.or_false, whole_iff.2 h, if_true]

theorem not_whole {l : Bytes} (h : ¬ Whole l) : (row l || (l.dropWhile blank).head? == some c!"#" || item l) = false := by
  cases hb : (row l || (l.dropWhile blank).head? == some c!"#" || item l) with
  | false => rfl
  | true => exact absurd (whole_iff.1 hb) h

theorem textLine_long {st : St} {l : Bytes} (h : ¬ Whole l) (hl : 4095 ≤ l.length) : textLine st l true false = ((flush st).1, (flush st).2 ++ [.line l true]) := by
  unfold textLine
  simp only [Bool.or_false, not_whole h, Bool.false_eq_true, if_false]
  rw [if_neg (by omega)]

/-- A term is kept. -/
def keep (st : St) (l : Bytes) (d : Nat) : St := { st with term := l, termQuoted := decide (0 < d), termDepth := d }

theorem textLine_plain {st : St} {l : Bytes} (h : ¬ Whole l) (hl : l.length < 4095) :
    textLine st l true false = (keep (flush st).1 l (quotes l.length (l.dropWhile blank)).1, (flush st).2) := by
  unfold textLine
  simp only [Bool.or_false, not_whole h, Bool.false_eq_true, if_false]
  rw [if_pos hl]
  rfl

/-- Nothing is open. -/
structure Idle (st : St) : Prop where
  list : st.list = false
  term : st.term = []
  code : st.code = false
  skipped : st.skipped = false

theorem flush_idle {st : St} (h : Idle st) : flush st = (st, []) := by
  unfold flush
  simp [h.list, h.term]

/-- A line that closes what is open. -/
theorem carry {html : Bytes → Bytes} {st : St} {l : Bytes} {ls : List Bytes} (h : Regular l) (hc : st.code = false) (hi : ¬ b!"{:" <:+: ended (l :: ls))
    (hf : Idle (flush st).1) :
    fin html st (l :: ls) = ((fin html (flush st).1 (l :: ls)).1, text (flush st).2 ++ (fin html (flush st).1 (l :: ls)).2) := by
  have h1 := regular_step (html := html) (r := ended ls) h hc hi
  have h2 := regular_step (html := html) (r := ended ls) h hf.code hi
  by_cases hw : Whole l
  · rw [textLine_whole hw] at h1 h2
    rw [flush_idle hf] at h2
    rw [fin_cons h1, fin_cons h2, text_append, List.append_assoc]
    simp
  · by_cases hl : l.length < 4095
    · rw [textLine_plain hw hl] at h1 h2
      rw [flush_idle hf] at h2
      rw [fin_cons h1, fin_cons h2]
      simp [text]
    · rw [textLine_long hw (by omega)] at h1 h2
      rw [flush_idle hf] at h2
      rw [fin_cons h1, fin_cons h2, text_append, List.append_assoc]
      simp

theorem empty_step {html : Bytes → Bytes} {st : St} {s r : Bytes} (hc : st.code = false) : step html st s [] r true = emptyLine st := by
  unfold step
  simp only [hc, show fence ([] : Bytes) = none from rfl, show definition ([] : Bytes) = none from rfl]
  simp

theorem no_ial_tail {a b : List Bytes} (h : ¬ b!"{:" <:+: ended (a ++ b)) : ¬ b!"{:" <:+: ended b := by
  rintro ⟨x, y, e⟩
  exact h ⟨ended a ++ x, y, by rw [ended_append, ← e]; simp⟩

/-! ### Code -/

/-- Code is open. -/
structure Code (st : St) : Prop where
  list : st.list = false
  term : st.term = []
  code : st.code = true
  skipped : st.skipped = false

theorem code_open {html : Bytes → Bytes} {st : St} {l s r : Bytes} (hf : Fence l) (hc : st.code = false) :
    step html st s l r true = ({ st with code := true, list := false, term := [], termQuoted := false, termDepth := 0, skipped := false },
      (if st.list then [tag b!"</dl>\n"] else []) ++ [.put (l.length + 1) (l ++ b!"\n")]) := by
  unfold step
  have h := fence_iff.2 hf
  obtain ⟨c, hc'⟩ := Option.isSome_iff_exists.1 h
  simp only [hc', hc]
  simp only [Option.isSome_some, Bool.or_true, if_true, codeLine, hc, Bool.false_eq_true, if_false]

theorem code_rest {html : Bytes → Bytes} {st : St} (h : Code st) : ∀ (cs ls : List Bytes), (∀ x ∈ cs, ¬ Closes x) →
    fin html st (cs ++ ls) = ((fin html st ls).1, ended cs ++ (fin html st ls).2) := by
  intro cs
  induction cs with
  | nil => intro ls _; simp [ended]
  | cons l cs ih =>
    intro ls hcs
    have hs : step html st (ended (l :: (cs ++ ls))) l (ended (cs ++ ls)) true = (st, [.put (l.length + 1) (l ++ b!"\n")]) := by
      unfold step
      simp only [h.code, Bool.true_or, if_true]
      unfold codeLine
      cases hf : fence l with
      | none => rfl
      | some c =>
        cases c with
        | true => exact absurd (closes_iff.1 hf) (hcs l (by simp))
        | false => simp [h.code]
    rw [List.cons_append, fin_cons hs, ih ls fun x hx => hcs x (by simp [hx]), ended_cons]
    simp [text, Write.text]

theorem code_close {html : Bytes → Bytes} {st : St} {l s r : Bytes} (h : Code st) (hl : Closes l) :
    ∃ st', Idle st' ∧ st'.found = st.found ∧ step html st s l r true = (st', [.put (l.length + 1) (l ++ b!"\n")]) := by
  refine ⟨{ st with code := false, list := false, term := [], termQuoted := false, termDepth := 0, skipped := false }, ⟨rfl, rfl, rfl, rfl⟩, rfl, ?_⟩
  unfold step
  simp only [h.code, Bool.true_or, if_true]
  unfold codeLine
  rw [closes_iff.2 hl]
  simp [h.code]

/-! ### A term and its list -/

theorem empties {html : Bytes → Bytes} (e : List Bytes) : ∀ {st : St} {ls : List Bytes}, (∀ x ∈ e, x = []) → st.list = false → st.term ≠ [] → st.code = false →
    fin html st (e ++ ls) = fin html (if e = [] then st else { st with skipped := true }) ls := by
  induction e with
  | nil => intro st ls _ _ _ _; rfl
  | cons x e ih =>
    intro st ls he hl ht hc
    have hx := he x (by simp)
    subst hx
    have hs : step html st (ended ([] :: (e ++ ls))) [] (ended (e ++ ls)) true = ({ st with skipped := true }, []) := by
      rw [empty_step hc]
      unfold emptyLine
      simp [hl, ht]
    rw [List.cons_append, fin_cons hs, ih (st := { st with skipped := true }) (fun x hx => he x (by simp [hx])) hl ht hc]
    simp only [List.cons_ne_nil, if_false]
    cases e <;> simp [text]

/-- A list is open; `q` are the signs in front of what is written. -/
structure Open (q : Bytes) (st : St) : Prop where
  list : st.list = true
  term : st.term = []
  code : st.code = false
  skipped : st.skipped = false
  found : st.found = true
  signs : text (prefixed st) = q

theorem caption_lead {l : Bytes} {ls : List Bytes} {c : Byte} (hn : c!"\n" ∉ l) (h : Lead l c) (h1 : c ≠ c!"|") (h2 : c ≠ c!"\r") (n : Nat) :
    caption n (ended (l :: ls)) = false := by
  obtain ⟨r, hr⟩ := lead_iff.1 h
  cases n with
  | zero => rw [caption]
  | succ n =>
    obtain ⟨h3, h4⟩ := line_span hn (ended ls)
    rw [ended_cons]
    obtain ⟨x, s, hs⟩ : ∃ x s, l ++ c!"\n" :: ended ls = x :: s := by
      cases l with
      | nil => exact ⟨_, _, rfl⟩
      | cons c l => exact ⟨_, _, rfl⟩
    rw [hs] at h3 h4 ⊢
    rw [caption]
    simp only [h3, hr]
    rw [if_neg h2]
    simpa using h1

theorem caption_empty {ls : List Bytes} (h : ∀ n, caption n (ended ls) = false) (n : Nat) : caption n (ended ([] :: ls)) = false := by
  cases n with
  | zero => rw [caption]
  | succ n =>
    rw [ended_cons, List.nil_append, caption]
    simp [h n]

theorem caption_close {q k : Bytes} {ls : List Bytes} (h : Close q ls k) (hn : ∀ l ∈ ls, c!"\n" ∉ l) (n : Nat) : caption n (ended ls) = false := by
  cases h with
  | last => cases n <;> rfl
  | code hf => exact caption_lead (hn _ (by simp)) (fence_lead hf) (by decide) (by decide) n
  | text hl h1 h2 => exact caption_lead (hn _ (by simp)) hl h1 h2 n

theorem caption_defs {html : Bytes → Bytes} {q o q' k : Bytes} {ds ls : List Bytes} (h : Defs html q ds o) (hk : Close q' ls k) :
    (∀ l ∈ ds ++ ls, c!"\n" ∉ l) → ∀ n, caption n (ended (ds ++ ls)) = false := by
  induction h with
  | nil => intro hn n; exact caption_close hk hn n
  | empty _ ih =>
    intro hn n
    exact caption_empty (ih fun l hl => hn l (by simp only [List.cons_append, List.mem_cons]; exact Or.inr hl)) n
  | cons hd _ ih =>
    intro hn n
    rcases definition_lead hd with h | h
    · exact caption_lead (hn _ (by simp)) h (by decide) (by decide) n
    · exact caption_lead (hn _ (by simp)) h (by decide) (by decide) n

theorem def_step {html : Bytes → Bytes} {st : St} {l s r t : Bytes} {d : Nat} (h : Definition l d t) (hc : st.code = false) (hr : caption 100 r = false) :
    step html st s l r true = defLine html st d t := by
  have hf : ¬ Fence l := by
    intro hf
    rcases definition_lead h with h' | h' <;> exact absurd (lead_unique h' (fence_lead hf)) (by decide)
  unfold step
  simp only [hc, fence_none hf, definition_iff.2 h, hr]
  simp

theorem defLine_open {html : Bytes → Bytes} {q : Bytes} {st : St} (h : Open q st) (d : Nat) (t : Bytes) :
    (defLine html st d t).1 = st ∧ text (defLine html st d t).2 = q ++ b!"<dd>" ++ html t ++ b!"</dd>\n" := by
  unfold defLine
  simp only [h.list, if_true]
  refine ⟨trivial, ?_⟩
  rw [text_append, List.nil_append, h.signs]
  simp [text, tag, Write.text]

theorem defs_run {html : Bytes → Bytes} {q q' o k : Bytes} {ds ls : List Bytes} {st : St} (h : Defs html q ds o) (hk : Close q' ls k) (ho : Open q st) :
    (∀ l ∈ ds ++ ls, c!"\n" ∉ l) → fin html st (ds ++ ls) = ((fin html st ls).1, o ++ (fin html st ls).2) := by
  induction h with
  | nil => intro _; rfl
  | @empty ds o hd ih =>
    intro hn
    have hs : step html st (ended ([] :: (ds ++ ls))) [] (ended (ds ++ ls)) true = (st, []) := by
      rw [empty_step ho.code]
      unfold emptyLine
      simp [ho.list]
    rw [List.cons_append, fin_cons hs, ih fun l hl => hn l (by simp only [List.cons_append, List.mem_cons]; exact Or.inr hl)]
    simp [text]
  | @cons l d t ds o hl hd ih =>
    intro hn
    have hn' : ∀ l ∈ ds ++ ls, c!"\n" ∉ l := fun l hl => hn l (by simp only [List.cons_append, List.mem_cons]; exact Or.inr hl)
    have hs : step html st (ended (l :: (ds ++ ls))) l (ended (ds ++ ls)) true = defLine html st d t :=
      def_step hl ho.code (caption_defs hd hk hn' 100)
    obtain ⟨h1, h2⟩ := defLine_open (html := html) ho d t
    rw [List.cons_append, fin_cons (hs.trans (Prod.eta _).symm), h1, h2, ih hn']
    simp

theorem flush_open {q : Bytes} {st : St} (h : Open q st) : Idle (flush st).1 ∧ (flush st).1.found = true ∧ text (flush st).2 = q ++ b!"</dl>\n\n" := by
  unfold flush
  simp only [h.list, h.term, if_true]
  refine ⟨⟨rfl, rfl, h.code, h.skipped⟩, h.found, ?_⟩
  rw [text_append, h.signs]
  simp [text, tag, Write.text]

theorem close_run {html : Bytes → Bytes} {q k o : Bytes} {ls : List Bytes} {st : St} {b : Bool} (h : Close q ls k) (ho : Open q st) (hi : ¬ b!"{:" <:+: ended ls)
    (ih : ∀ st, Idle st → fin html st ls = (st.found || b, o)) : fin html st ls = (true, k ++ o) := by
  cases h with
  | last =>
    have := ih St.start ⟨rfl, rfl, rfl, rfl⟩
    rw [fin_nil] at this
    simp only [Prod.mk.injEq] at this
    rw [fin_nil, ho.found, ← this.2, show final St.start = [] from rfl]
    unfold final
    rw [if_pos ho.list, if_pos ho.term, List.append_nil, text_append, ho.signs]
    simp [text, tag, Write.text]
  | @code l ls hf =>
    have h1 := code_open (html := html) (s := ended (l :: ls)) (r := ended ls) hf ho.code
    have h2 := code_open (html := html) (st := { st with list := false }) (s := ended (l :: ls)) (r := ended ls) hf ho.code
    have h3 := ih { st with list := false } ⟨rfl, ho.term, ho.code, ho.skipped⟩
    rw [fin_cons h2] at h3
    rw [fin_cons h1]
    simp only [Prod.mk.injEq, ho.list, if_true, text_append] at h3 ⊢
    obtain ⟨h4, h5⟩ := h3
    refine ⟨h4.trans (by rw [ho.found]; rfl), ?_⟩
    rw [← h5]
    simp [text, tag, Write.text]
  | @text l c ls hl h1 h2 hf hd =>
    obtain ⟨h3, h4, h5⟩ := flush_open ho
    rw [carry ⟨⟨c, hl, h2⟩, hf, hd⟩ ho.code hi h3, h5, ih _ h3, h4]
    rfl

theorem quotes_mem {d : Nat} {q : Bytes} (h : Quotes d q) : ∀ c ∈ q, (c == c!">" || blank c) = true := by
  induction h with
  | nil => simp
  | cons _ hg ih =>
    intro c hc
    simp only [List.append_assoc, List.mem_append, List.mem_cons, List.not_mem_nil, or_false] at hc
    rcases hc with rfl | hc | hc
    · rfl
    · rcases hg with rfl | rfl | rfl
      · simp at hc
      · simp only [List.mem_cons, List.not_mem_nil, or_false] at hc; subst hc; rfl
      · simp only [List.mem_cons, List.not_mem_nil, or_false] at hc; subst hc; rfl
    · exact ih c hc

theorem term_eq {t c : Bytes} {d : Nat} (h : Term t d c) : (quotes t.length (t.dropWhile blank)).1 = d ∧
    (if decide (0 < d) then t.dropWhile (fun c => c == c!">" || blank c) else t) = c := by
  rcases h with ⟨rfl, rfl, h⟩ | ⟨hd, w, q, rfl, hw, hq, hc⟩
  · refine ⟨?_, by simp⟩
    cases hx : c.dropWhile blank with
    | nil => cases c.length <;> rfl
    | cons x s =>
      rw [quotes_other]
      rintro rfl
      exact h (lead_iff.2 ⟨s, hx⟩)
  · obtain ⟨q', hq'⟩ : ∃ t, q = c!">" :: t := by
      rcases quotes_lead (r := []) hq with ⟨h, _⟩ | h
      · omega
      · exact h
    have h1 : (w ++ q ++ c).dropWhile blank = q ++ c := by
      rw [hq', show w ++ c!">" :: q' ++ c = w ++ c!">" :: (q' ++ c) by simp]
      exact (span_stop (gap_blank hw) (by decide)).2
    rw [h1, quotes_eq hq (by simp only [List.length_append]; omega) (by
      intro x s e
      rw [e] at hc
      obtain ⟨h2, h3⟩ := hc x (by simp)
      exact ⟨h2, fun _ => not_blank.2 h3⟩)]
    refine ⟨rfl, ?_⟩
    rw [if_pos (by simpa using hd)]
    have hall : ∀ x ∈ w ++ q, (x == c!">" || blank x) = true := by
      intro x hx
      rcases List.mem_append.1 hx with hx | hx
      · rw [gap_blank hw x hx]; simp
      · exact quotes_mem hq x hx
    cases c with
    | nil => rw [List.append_nil]; exact (span_all hall).2
    | cons x s =>
      obtain ⟨h2, h3⟩ := hc x (by simp)
      refine (span_stop hall ?_).2
      rw [not_blank.2 h3]
      simpa using h2

theorem openList_term {html : Bytes → Bytes} {st : St} {t c : Bytes} {d : Nat} (ht : t ≠ []) (h : Term t d c) (h1 : st.term = t) (h2 : st.termQuoted = decide (0 < d)) (h3 : st.termDepth = d)
    (h4 : st.code = false) (d' : Nat) : Open (signs (max d d')) (openList html st d').1 ∧
    text (openList html st d').2 = signs (max d d') ++ b!"<dl>\n" ++ signs (max d d') ++ b!"<dt>" ++ html c ++ b!"</dt>\n" := by
  have hp : text (if (decide (0 < d') || decide (0 < d)) = true then [Write.quote (if (decide (0 < d') && decide ((if decide (0 < d) = true then d else d') < d')) = true then d' else if decide (0 < d) = true then d else d')] else []) = signs (max d d') := by
    by_cases h0 : 0 < d
    · simp only [h0, decide_true, Bool.or_true, if_true]
      have : (if (decide (0 < d') && decide (d < d')) = true then d' else d) = max d d' := by
        simp only [Bool.and_eq_true, decide_eq_true_eq]
        split <;> omega
      rw [this]
      simp [text, Write.text]
    · have h0' : d = 0 := by omega
      subst h0'
      simp only [Nat.lt_irrefl, decide_false, Bool.or_false, Bool.false_eq_true, if_false, Bool.and_false, Nat.zero_max]
      by_cases hd : 0 < d'
      · simp [hd, text, Write.text]
      · have : d' = 0 := by omega
        subst this
        rfl
  have hc := (term_eq h).2
  unfold openList
  simp only [h1, h2, h3, ht, if_false, prefixed]
  refine ⟨⟨rfl, rfl, h4, rfl, rfl, hp⟩, ?_⟩
  simp only [text_append, hp, hc]
  simp [text, tag, Write.text]

theorem defLine_new {html : Bytes → Bytes} {st : St} {q x : Bytes} {d : Nat} (h : Open q (openList html st d).1) (hl : st.list = false) :
    (defLine html st d x).1 = (openList html st d).1 ∧ text (defLine html st d x).2 = text (openList html st d).2 ++ q ++ b!"<dd>" ++ html x ++ b!"</dd>\n" := by
  unfold defLine
  simp only [hl, Bool.false_eq_true, if_false]
  refine ⟨trivial, ?_⟩
  rw [text_append, text_append, h.signs]
  simp [text, tag, Write.text]

theorem text_end {html : Bytes → Bytes} {st : St} {l : Bytes} {e : Bool} {ls : List Bytes} {b : Bool} {o : Bytes} (hl : l ≠ []) (h1 : st.list = false) (h2 : st.term = l) (h3 : st.skipped = e) (h4 : st.code = false)
    (hn : ∀ x ∈ ls.head?, Regular x) (hi : ¬ b!"{:" <:+: ended ls) (ih : ∀ st, Idle st → fin html st ls = (st.found || b, o)) :
    fin html st ls = (st.found || b, l ++ b!"\n" ++ (if e then b!"\n" else []) ++ o) := by
  have hw : text ([.put (l.length + 2) (l ++ b!"\n")] ++ (if e then [.put 1 b!"\n"] else [])) = l ++ b!"\n" ++ (if e then b!"\n" else []) := by
    cases e <;> simp [text, Write.text]
  cases ls with
  | nil =>
    have := ih St.start ⟨rfl, rfl, rfl, rfl⟩
    rw [fin_nil] at this
    simp only [Prod.mk.injEq] at this
    have hb : b = false := by simpa [St.start] using this.1.symm
    have ho : o = [] := this.2.symm
    rw [fin_nil, hb, ho]
    unfold final
    simp only [h1, h2, h3, hl, if_false, Bool.false_eq_true, List.nil_append]
    rw [hw]
    simp
  | cons x ls =>
    have hf : flush st = ({ st with term := [], skipped := false }, [.put (l.length + 2) (l ++ b!"\n")] ++ (if e then [.put 1 b!"\n"] else [])) := by
      unfold flush
      simp only [h1, h2, h3, hl, if_false, Bool.false_eq_true, List.nil_append]
    have hidle : Idle (flush st).1 := by
      rw [hf]
      exact ⟨h1, rfl, h4, rfl⟩
    rw [carry (hn x (by simp)) h4 hi hidle, ih _ hidle, hf, hw]

theorem doc_run {html : Bytes → Bytes} {b : Bool} {ls : List Bytes} {o : Bytes} (h : Doc html b ls o) :
    (∀ l ∈ ls, c!"\n" ∉ l) → ¬ b!"{:" <:+: ended ls → ∀ st, Idle st → fin html st ls = (st.found || b, o) := by
  induction h with
  | nil =>
    intro _ _ st hs
    rw [fin_nil]
    unfold final
    simp [hs.list, hs.term, text]
  | @empty b ls o _ ih =>
    intro hn hi st hs
    have h1 : step html st (ended ([] :: ls)) [] (ended ls) true = (st, [.put 1 b!"\n"]) := by
      rw [empty_step hs.code]
      unfold emptyLine
      simp [hs.list, hs.term]
    rw [fin_cons h1, ih (fun l hl => hn l (by simp [hl])) (no_ial_tail (a := [[]]) hi) st hs]
    simp [text, Write.text]
  | @whole b l ls o hw _ ih =>
    intro hn hi st hs
    have h1 := regular_step (html := html) (r := ended ls) (whole_regular hw) hs.code hi
    rw [textLine_whole hw, flush_idle hs] at h1
    rw [fin_cons h1, ih (fun l hl => hn l (by simp [hl])) (no_ial_tail (a := [l]) hi) st hs]
    simp [text, Write.text]
  | @long b l ls o hp hl _ ih =>
    intro hn hi st hs
    have h1 := regular_step (html := html) (r := ended ls) (plain_regular hp) hs.code hi
    rw [textLine_long hp.2.2.1 hl, flush_idle hs] at h1
    rw [fin_cons h1, ih (fun l hl => hn l (by simp [hl])) (no_ial_tail (a := [l]) hi) st hs]
    simp [text, Write.text]
  | @code b l cs c ls o hf hcs hc _ ih =>
    intro hn hi st hs
    have h1 := code_open (html := html) (s := ended (l :: (cs ++ c :: ls))) (r := ended (cs ++ c :: ls)) hf hs.code
    obtain ⟨st', hs', hf', h2⟩ := code_close (html := html) (s := ended (c :: ls)) (r := ended ls)
      (st := { st with code := true, list := false, term := [], termQuoted := false, termDepth := 0, skipped := false }) ⟨rfl, rfl, rfl, rfl⟩ hc
    rw [List.cons_append, fin_cons h1, code_rest (by exact ⟨rfl, rfl, rfl, rfl⟩) cs (c :: ls) hcs, fin_cons h2,
      ih (fun l hl => hn l (by simp [hl])) (no_ial_tail (a := l :: cs ++ [c]) (by simpa using hi)) st' hs', hf']
    simp [hs.list, text, Write.text, ended]
  | @rest l cs hf hcs =>
    intro hn hi st hs
    have h1 := code_open (html := html) (s := ended (l :: cs)) (r := ended cs) hf hs.code
    have h2 := code_rest (html := html) (st := { st with code := true, list := false, term := [], termQuoted := false, termDepth := 0, skipped := false })
      ⟨rfl, rfl, rfl, rfl⟩ cs [] hcs
    rw [List.append_nil] at h2
    rw [fin_cons h1, h2, fin_nil]
    simp [hs.list, text, Write.text, ended, final]
  | @text b l e ls o hp hl he hnext _ ih =>
    intro hn hi st hs
    have h1 := regular_step (html := html) (s := ended (l :: (e ++ ls))) (r := ended (e ++ ls)) (plain_regular hp) hs.code (by simpa using hi)
    rw [textLine_plain hp.2.2.1 hl, flush_idle hs] at h1
    have hne := (plain_regular hp).ne.1
    rw [List.cons_append, fin_cons h1, empties e he (by exact hs.list) (by exact hne) (by exact hs.code)]
    have hn' : ∀ x ∈ ls.head?, Regular x := fun x hx => ⟨(hnext x hx).1, (hnext x hx).2.1, (hnext x hx).2.2⟩
    have hi' : ¬ b!"{:" <:+: ended ls := no_ial_tail (a := l :: e) (by simpa using hi)
    have ih' := ih (fun l hl => hn l (by simp [hl])) hi'
    by_cases he0 : e = []
    · rw [if_pos he0, if_pos he0, text_end hne (by exact hs.list) rfl (by exact hs.skipped) (by exact hs.code) hn' hi' ih']
      simp [text, keep]
    · rw [if_neg he0, if_neg he0, text_end hne (by exact hs.list) rfl rfl (by exact hs.code) hn' hi' ih']
      simp [text, keep]
  | @list b t d c e l d' x ds o' ls k o hp hl ht he hd hds hk _ ih =>
    intro hn hi st hs
    have h1 := regular_step (html := html) (s := ended (t :: (e ++ (l :: (ds ++ ls))))) (r := ended (e ++ (l :: (ds ++ ls)))) (plain_regular hp) hs.code (by simpa using hi)
    rw [textLine_plain hp.2.2.1 hl, flush_idle hs, (term_eq ht).1] at h1
    have hne := (plain_regular hp).ne.1
    rw [show t :: e ++ l :: ds ++ ls = t :: (e ++ (l :: (ds ++ ls))) by simp, fin_cons h1, empties e he (by exact hs.list) (by exact hne) (by exact hs.code)]
    have hi' : ¬ b!"{:" <:+: ended ls := no_ial_tail (a := t :: (e ++ (l :: ds))) (by simpa using hi)
    have ih' := ih (fun l hl => hn l (by simp [hl])) hi'
    generalize hq : signs (max d d') = q at hds hk ⊢
    cases hds with
    | empty h => exact absurd (definition_iff.2 hd) (by simp [show definition ([] : Bytes) = none from rfl])
    | @cons _ d2 x2 _ o2 hd2 h =>
      have hnn : ∀ l ∈ ds ++ ls, c!"\n" ∉ l := fun y hy => hn y (by
        simp only [List.mem_append, List.mem_cons] at hy ⊢
        rcases hy with hy | hy
        · exact Or.inl (Or.inr (Or.inr hy))
        · exact Or.inr hy)
      have hdd := (definition_iff.2 hd).symm.trans (definition_iff.2 hd2)
      simp only [Option.some.injEq, Prod.mk.injEq] at hdd
      obtain ⟨rfl, rfl⟩ := hdd
      generalize hst : (if e = [] then keep st t d else { keep st t d with skipped := true }) = st1
      have g1 : st1.list = false := by rw [← hst]; split <;> exact hs.list
      have g2 : st1.code = false := by rw [← hst]; split <;> exact hs.code
      have g3 : st1.term = t := by rw [← hst]; split <;> rfl
      have g4 : st1.termQuoted = decide (0 < d) := by rw [← hst]; split <;> rfl
      have g5 : st1.termDepth = d := by rw [← hst]; split <;> rfl
      obtain ⟨h5, h6⟩ := openList_term (html := html) hne ht g3 g4 g5 g2 d'
      rw [hq] at h5 h6
      obtain ⟨h7, h8⟩ := defLine_new (html := html) (x := x) h5 g1
      have h9 : step html st1 (ended (l :: (ds ++ ls))) l (ended (ds ++ ls)) true = defLine html st1 d' x := def_step hd g2 (caption_defs h hk hnn 100)
      rw [fin_cons (h9.trans (Prod.eta _).symm), h7, h8, h6, defs_run h hk h5 hnn, close_run hk h5 hi' ih']
      simp [text]

/-! ### The whole text -/

theorem definition_of {l s : Bytes} {g : Byte} {d : Nat} (h : quotes l.length (skip (· == c!" ") 3 l) = (d, c!":" :: g :: s)) (hg : blank g = true) :
    ∃ t, Definition l d t := by
  obtain ⟨x, r, e, h1, h2, h3, _⟩ := skip_spec (· == c!" ") 3 l
  rw [h1] at h
  obtain ⟨q, h4, h5, _⟩ := quotes_spec l.length r (by rw [e]; simp)
  rw [h] at h4 h5
  obtain ⟨w, y, e', hw, hy, h7, h8⟩ := span_split blank (g :: s)
  refine ⟨y, x.length, q, w, h2, ?_, h5, blank_gap hw, ?_, ?_⟩
  · have hx : List.replicate x.length c!" " = x := by
      symm
      exact List.eq_replicate_iff.2 ⟨rfl, fun b hb => by simpa using h3 b hb⟩
    rw [hx, e, h4, e']
    simp
  · rintro rfl
    simp only [List.takeWhile_cons, hg] at h7
    simp at h7
  · intro c hc
    rcases hy with rfl | ⟨c', y, rfl, hc'⟩
    · simp at hc
    · simp only [List.head?_cons, Option.mem_def, Option.some.injEq] at hc
      rw [← hc]
      exact not_blank.1 hc'

theorem pattern_step {l : Bytes} (hl : c!"\n" ∉ l) (n : Nat) (ls : List Bytes) : pattern (n + 1) (ended (l :: ls)) = ((definition l).isSome || pattern n (ended ls)) := by
  obtain ⟨h3, h4⟩ := line_span hl (ended ls)
  rw [ended_cons]
  obtain ⟨x, s, hs⟩ : ∃ x s, l ++ c!"\n" :: ended ls = x :: s := by
    cases l with
    | nil => exact ⟨_, _, rfl⟩
    | cons c l => exact ⟨_, _, rfl⟩
  rw [hs] at h3 h4 ⊢
  rw [pattern]
  simp only [h3, h4, List.drop_succ_cons, List.drop_zero]
  congr 1
  cases hd : definition l with
  | some z =>
    unfold definition at hd
    simp only [] at hd
    revert hd
    generalize quotes l.length (skip (· == c!" ") 3 l) = q
    obtain ⟨q1, q2⟩ := q
    intro hd
    match q2, hd with
    | [], hd => simp at hd
    | [_], hd => simp at hd
    | a :: g :: s, hd =>
      simp only [] at hd ⊢
      split at hd
      · rename_i hc
        simp only [Bool.and_eq_true] at hc
        rw [hc.1.2, hc.2]
        rfl
      · simp at hd
  | none =>
    have hno : ∀ g s d, quotes l.length (skip (· == c!" ") 3 l) = (d, c!":" :: g :: s) → blank g = false := by
      intro g s d hq
      cases hg : blank g with
      | false => rfl
      | true =>
        obtain ⟨t, ht⟩ := definition_of hq hg
        rw [definition_iff.2 ht] at hd
        simp at hd
    revert hno
    generalize quotes l.length (skip (· == c!" ") 3 l) = q
    obtain ⟨q1, q2⟩ := q
    intro hno
    match q2, hno with
    | [], _ => rfl
    | [_], _ => rfl
    | a :: g :: s, hno =>
      simp only [Option.isSome_none]
      cases ha : a == c!":" with
      | false => rfl
      | true =>
        have : a = c!":" := by simpa using ha
        subst this
        rw [hno g s q1 rfl]
        rfl

theorem pattern_mem (ls : List Bytes) : ∀ n, (∀ l ∈ ls, c!"\n" ∉ l) → (ended ls).length < n → (pattern n (ended ls) = true ↔ ∃ l ∈ ls, ∃ d t, Definition l d t) := by
  induction ls with
  | nil =>
    intro n _ hn
    cases n with
    | zero => simp at hn
    | succ n => simp [ended, pattern]
  | cons l ls ih =>
    intro n hl hn
    cases n with
    | zero => simp at hn
    | succ n =>
      have hlen : (ended ls).length < n := by rw [ended_cons] at hn; simp only [List.length_append, List.length_cons] at hn; omega
      rw [pattern_step (hl l (by simp)), Bool.or_eq_true, ih n (fun x hx => hl x (by simp [hx])) hlen]
      constructor
      · rintro (h | ⟨x, hx, h⟩)
        · obtain ⟨z, hz⟩ := Option.isSome_iff_exists.1 h
          exact ⟨l, by simp, z.1, z.2, definition_iff.1 hz⟩
        · exact ⟨x, by simp [hx], h⟩
      · rintro ⟨x, hx, d, t, h⟩
        rcases List.mem_cons.1 hx with rfl | hx
        · left
          rw [definition_iff.2 h]
          rfl
        · exact Or.inr ⟨x, hx, d, t, h⟩

theorem doc_list {html : Bytes → Bytes} {b : Bool} {ls : List Bytes} {o : Bytes} (h : Doc html b ls o) : b = true → (∃ l ∈ ls, ∃ d t, Definition l d t) ∧ o ≠ [] := by
  induction h with
  | nil => simp
  | rest => simp
  | empty _ ih => intro hb; obtain ⟨⟨l, h1, h2⟩, h3⟩ := ih hb; exact ⟨⟨l, by simp [h1], h2⟩, by simp⟩
  | whole _ _ ih => intro hb; obtain ⟨⟨l, h1, h2⟩, h3⟩ := ih hb; exact ⟨⟨l, by simp [h1], h2⟩, by simp⟩
  | long _ _ _ ih => intro hb; obtain ⟨⟨l, h1, h2⟩, h3⟩ := ih hb; exact ⟨⟨l, by simp [h1], h2⟩, by simp⟩
  | code _ _ _ _ ih => intro hb; obtain ⟨⟨l, h1, h2⟩, h3⟩ := ih hb; exact ⟨⟨l, by simp [h1], h2⟩, by simp [h3]⟩
  | text _ _ _ _ _ ih => intro hb; obtain ⟨⟨l, h1, h2⟩, h3⟩ := ih hb; exact ⟨⟨l, by simp [h1], h2⟩, by simp [h3]⟩
  | list _ _ _ _ hd => intro _; exact ⟨⟨_, by simp, _, _, hd⟩, by simp⟩

theorem process_doc {md html : Bytes → Bytes} {b : Bool} {ls : List Bytes} {o : Bytes} (hn : ∀ l ∈ ls, c!"\n" ∉ l) (hi : ¬ b!"{:" <:+: ended ls) (hl : ls.length ≤ 1000000)
    (hh : html = content md (pick (fun _ => true) ((ended ls).length + 1) (ended ls))) (h : Doc html b ls o) :
    process md (ended ls) = .val (if b then some o else none) := by
  rw [process_run, ← hh]
  have hrun := doc_run h hn hi St.start ⟨rfl, rfl, rfl, rfl⟩
  unfold fin at hrun
  simp only [Prod.mk.injEq] at hrun
  obtain ⟨h1, h2⟩ := hrun
  have h1' : (runL html St.start ls).1.found = b := h1
  rw [run_ended html ls 1000000 St.start hn hl]
  simp only [h1', h2]
  cases b with
  | false => simp
  | true =>
    obtain ⟨h3, h4⟩ := doc_list h rfl
    rw [if_pos ((pattern_mem ls _ hn (by omega)).2 h3)]
    simp [h4]

/-! ### Content -/

theorem marked_iff {t : Bytes} : marked t = true ↔ Marked t := by
  induction t with
  | nil =>
    simp only [marked, Marked, Bool.false_eq_true, false_iff]
    rintro (⟨c, hc, _⟩ | ⟨x, c, y, e, _⟩)
    · simp at hc
    · simp at e
  | cons c s ih =>
    rw [marked, Bool.or_eq_true, ih]
    constructor
    · rintro (h | h)
      · simp only [Bool.or_eq_true, beq_iff_eq, Bool.and_eq_true, or_assoc] at h
        rcases h with h | h | h | h | h | h | h | ⟨h, h'⟩
        · exact Or.inl ⟨c, by simp, by subst h; decide⟩
        · exact Or.inl ⟨c, by simp, by subst h; decide⟩
        · exact Or.inl ⟨c, by simp, by subst h; decide⟩
        · exact Or.inl ⟨c, by simp, by subst h; decide⟩
        · exact Or.inl ⟨c, by simp, by subst h; decide⟩
        · exact Or.inl ⟨c, by simp, by subst h; decide⟩
        · exact Or.inl ⟨c, by simp, by subst h; decide⟩
        · cases s with
          | nil => simp [opener] at h'
          | cons d s =>
            subst h
            simp only [opener, Bool.or_eq_true, beq_iff_eq] at h'
            exact Or.inr ⟨[], d, s, by simp, h'⟩
      · rcases h with ⟨d, h1, h2⟩ | ⟨x, d, y, e, h⟩
        · exact Or.inl ⟨d, by simp [h1], h2⟩
        · exact Or.inr ⟨c :: x, d, y, by rw [e]; simp, h⟩
    · rintro (⟨d, h1, h2⟩ | ⟨x, d, y, e, h⟩)
      · rcases List.mem_cons.1 h1 with rfl | h1
        · left
          simp only [List.mem_cons, List.not_mem_nil, or_false] at h2
          rcases h2 with h | h | h | h | h | h | h <;> rw [h] <;> rfl
        · exact Or.inr (Or.inl ⟨d, h1, h2⟩)
      · cases x with
        | nil =>
          left
          simp only [List.nil_append, List.cons_append, List.cons.injEq] at e
          obtain ⟨rfl, rfl⟩ := e
          simp only [opener, Bool.or_eq_true, beq_iff_eq, Bool.and_eq_true]
          exact Or.inr ⟨trivial, h⟩
        | cons z x =>
          simp only [List.cons_append, List.cons.injEq] at e
          exact Or.inr (Or.inr ⟨x, d, y, by simpa using e.2, h⟩)

theorem strip_suffix (x : Bytes) : (if (decide (4 < (x ++ b!"</p>\n").length) && b!"</p>\n".isSuffixOf (x ++ b!"</p>\n")) = true then
    (x ++ b!"</p>\n").take ((x ++ b!"</p>\n").length - 5) else x ++ b!"</p>\n") = x := by
  rw [if_pos]
  · rw [List.length_append, show (b!"</p>\n").length = 5 from rfl, Nat.add_sub_cancel]
    exact List.take_left
  · rw [Bool.and_eq_true, List.isSuffixOf_iff_suffix]
    exact ⟨by simp, x, rfl⟩

theorem strip_other {x : Bytes} (h : ¬ b!"</p>\n" <:+ x) : (if (decide (4 < x.length) && b!"</p>\n".isSuffixOf x) = true then x.take (x.length - 5) else x) = x := by
  rw [if_neg]
  rw [Bool.and_eq_true, List.isSuffixOf_iff_suffix]
  exact fun h' => h h'.2

theorem inner_strip {h x : Bytes} : Inner h x ↔ x = strip h := by
  have p : ∀ y : Bytes, (if b!"<p>".isPrefixOf (b!"<p>" ++ y) then (b!"<p>" ++ y).drop 3 else b!"<p>" ++ y) = y := by
    intro y
    rw [if_pos (List.isPrefixOf_iff_prefix.2 ⟨y, rfl⟩)]
    rfl
  have np : ∀ y : Bytes, ¬ b!"<p>" <+: y → (if b!"<p>".isPrefixOf y then y.drop 3 else y) = y := by
    intro y hy
    rw [if_neg (fun h => hy (List.isPrefixOf_iff_prefix.1 h))]
  have dir : ∀ {h x : Bytes}, Inner h x → strip h = x := by
    intro h x hi
    unfold strip
    cases hi with
    | both => rw [List.append_assoc, p]; exact strip_suffix x
    | front hs => rw [p]; exact strip_other hs
    | back hp => rw [np _ hp]; exact strip_suffix x
    | none hp hs => rw [np _ hp]; exact strip_other hs
  constructor
  · exact fun hi => (dir hi).symm
  · rintro rfl
    have : ∃ x, Inner h x := by
      by_cases hp : b!"<p>" <+: h
      · obtain ⟨y, rfl⟩ := hp
        by_cases hs : b!"</p>\n" <:+ y
        · obtain ⟨x, rfl⟩ := hs
          exact ⟨x, by simpa using Inner.both (x := x)⟩
        · exact ⟨y, .front hs⟩
      · by_cases hs : b!"</p>\n" <:+ h
        · obtain ⟨x, rfl⟩ := hs
          exact ⟨x, .back hp⟩
        · exact ⟨h, .none hp hs⟩
    obtain ⟨x, hx⟩ := this
    rw [dir hx]
    exact hx

theorem until_spec (s : Bytes) : (∃ x y, s = x ++ c!"]" :: y ∧ c!"]" ∉ x ∧ s.takeWhile (· != c!"]") = x ∧ s.dropWhile (· != c!"]") = c!"]" :: y) ∨
    (c!"]" ∉ s ∧ s.dropWhile (· != c!"]") = []) := by
  obtain ⟨a, r, e, ha, hr, h1, h2⟩ := span_split (· != c!"]") s
  have hn : c!"]" ∉ a := fun h => by simpa using ha _ h
  rcases hr with rfl | ⟨c, b, rfl, hc⟩
  · right
    exact ⟨by rw [e]; simpa using hn, h2⟩
  · left
    have : c = c!"]" := by simpa using hc
    subst this
    exact ⟨a, b, e, hn, h1, h2⟩

theorem until_eq {x : Bytes} (h : c!"]" ∉ x) (y : Bytes) : (x ++ c!"]" :: y).takeWhile (· != c!"]") = x ∧ (x ++ c!"]" :: y).dropWhile (· != c!"]") = c!"]" :: y :=
  span_stop (fun c hc => by simp; rintro rfl; exact h hc) (by decide)

theorem defined_iff {l i : Bytes} : defined l = some i ↔ Defines l i := by
  constructor
  · intro h
    obtain ⟨w, y, e, hw, _, _, h2⟩ := span_split blank l
    unfold defined at h
    rw [h2] at h
    match y, h with
    | [], h => simp at h
    | c :: t, h =>
      simp only [] at h
      split at h
      · rename_i hc
        subst hc
        rcases until_spec t with ⟨x, y, e', hx, h3, h4⟩ | ⟨_, h4⟩
        · rw [h3, h4] at h
          cases y with
          | nil => simp at h
          | cons d y =>
            simp only [] at h
            split at h
            · rename_i hd
              subst hd
              simp only [Option.some.injEq] at h
              subst h
              exact ⟨w, y, by rw [e, e']; simp, blank_gap hw, hx⟩
            · simp at h
        · rw [h4] at h
          simp at h
      · simp at h
  · rintro ⟨w, r, rfl, hw, hi⟩
    unfold defined
    rw [show w ++ b!"[" ++ i ++ b!"]:" ++ r = w ++ c!"[" :: (i ++ c!"]" :: c!":" :: r) by simp, (span_stop (gap_blank hw) (by decide)).2]
    obtain ⟨h1, h2⟩ := until_eq hi (c!":" :: r)
    simp [h1, h2]

/-- The lines that are wanted. -/
def wanted (want : Bytes → Bool) (l : Bytes) : Bool :=
  match defined l with
  | some i => want i
  | none => false

theorem pick_ended (want : Bytes → Bool) (ls : List Bytes) : ∀ n, (∀ l ∈ ls, c!"\n" ∉ l) → (ended ls).length < n → pick want n (ended ls) = ended (ls.filter (wanted want)) := by
  induction ls with
  | nil => intro n _ hn; cases n with | zero => simp at hn | succ n => rfl
  | cons l ls ih =>
    intro n hl hn
    cases n with
    | zero => simp at hn
    | succ n =>
      obtain ⟨h3, h4⟩ := line_span (hl l (by simp)) (ended ls)
      rw [ended_cons] at hn ⊢
      have hlen : (ended ls).length < n := by simp only [List.length_append, List.length_cons] at hn; omega
      obtain ⟨x, s, hs⟩ : ∃ x s, l ++ c!"\n" :: ended ls = x :: s := by
        cases l with
        | nil => exact ⟨_, _, rfl⟩
        | cons c l => exact ⟨_, _, rfl⟩
      rw [hs] at h3 h4 ⊢
      rw [pick]
      simp only [h3, h4, List.drop_succ_cons, List.drop_zero]
      rw [ih n (fun x hx => hl x (by simp [hx])) hlen, List.filter_cons]
      have ht : List.take 1 (c!"\n" :: ended ls) = b!"\n" := rfl
      rw [ht]
      unfold wanted
      cases defined l with
      | none => simp
      | some i =>
        cases hw : want i with
        | true => simp [ended, hw]
        | false => simp [hw]

theorem uses_cons {n : Nat} {l : List Bytes} {c : Byte} {s : Bytes} (h : c ≠ c!"[") : uses (n + 1) l (c :: s) = uses n l s := by
  simp [uses, h]

theorem add_mem (l : List Bytes) (i j : Bytes) (hi : i ≠ []) : j ∈ (if i = [] ∨ i ∈ l then l else l ++ [i]) ↔ j ∈ l ∨ j = i := by
  by_cases h : i ∈ l
  · rw [if_pos (Or.inr h)]
    constructor
    · exact Or.inl
    · rintro (h' | rfl)
      · exact h'
      · exact h
  · rw [if_neg (by simp [hi, h])]
    simp

theorem refs_uses {t : Bytes} {ids : List Bytes} (h : Refs t ids) : ∀ (n : Nat) (l : List Bytes), t.length < n → ∀ j, j ∈ uses n l t ↔ j ∈ l ∨ j ∈ ids := by
  induction h with
  | nil => intro n l hn j; cases n with | zero => simp at hn | succ n => simp [uses]
  | char hc _ ih =>
    intro n l hn j
    cases n with
    | zero => simp at hn
    | succ n => rw [uses_cons hc]; exact ih n l (by simpa using hn) j
  | @full x i s ids hx hi hne _ ih =>
    intro n l hn j
    cases n with
    | zero => simp at hn
    | succ n =>
      have h0 : b!"[" ++ x ++ b!"][" ++ i ++ b!"]" ++ s = c!"[" :: (x ++ c!"]" :: c!"[" :: (i ++ c!"]" :: s)) := by simp
      obtain ⟨h1, h2⟩ := until_eq hx (c!"[" :: (i ++ c!"]" :: s))
      obtain ⟨h3, h4⟩ := until_eq hi s
      have hh : (i ++ c!"]" :: s).head? ≠ some c!"]" := by
        cases i with
        | nil => exact absurd rfl hne
        | cons c i => simp; rintro rfl; simp at hi
      rw [h0] at hn ⊢
      rw [uses]
      simp only [h1, h2, if_true, hh, if_false, h3, h4]
      rw [ih n _ (by simp only [List.length_cons, List.length_append] at hn; omega), add_mem _ _ _ hne]
      simp [or_assoc]
  | @short x s ids hx hne _ ih =>
    intro n l hn j
    cases n with
    | zero => simp at hn
    | succ n =>
      have h0 : b!"[" ++ x ++ b!"][]" ++ s = c!"[" :: (x ++ c!"]" :: c!"[" :: c!"]" :: s) := by simp
      obtain ⟨h1, h2⟩ := until_eq hx (c!"[" :: c!"]" :: s)
      rw [h0] at hn ⊢
      rw [uses]
      simp only [h1, h2, if_true, List.head?_cons, List.drop_succ_cons, List.drop_zero]
      rw [ih n _ (by simp only [List.length_cons, List.length_append] at hn; omega), add_mem _ _ _ hne]
      simp [or_assoc]
  | @none s ids _ ih =>
    intro n l hn j
    cases n with
    | zero => simp at hn
    | succ n =>
      have h0 : b!"[][]" ++ s = c!"[" :: c!"]" :: c!"[" :: c!"]" :: s := rfl
      rw [h0] at hn ⊢
      rw [uses]
      simp only [List.takeWhile_cons, List.dropWhile_cons, bne_self_eq_false, Bool.false_eq_true, if_false, if_true, List.head?_cons, List.drop_succ_cons, List.drop_zero, true_or]
      exact ih n l (by simp only [List.length_cons] at hn; omega) j
  | @other s ids hno _ ih =>
    intro n l hn j
    cases n with
    | zero => simp at hn
    | succ n =>
      have hn' : s.length < n := by simpa using hn
      rw [show b!"[" ++ s = c!"[" :: s from rfl, uses]
      rw [if_pos rfl]
      rcases until_spec s with ⟨x, y, e, hx, h1, h2⟩ | ⟨_, h2⟩
      · simp only [h1, h2]
        cases y with
        | nil => exact ih n l hn' j
        | cons d r =>
          simp only []
          by_cases hd : d = c!"["
          · rw [if_pos hd]
            subst hd
            by_cases hr : r.head? = some c!"]"
            · exfalso
              cases r with
              | nil => simp at hr
              | cons a r =>
                simp only [List.head?_cons, Option.some.injEq] at hr
                subst hr
                exact hno x [] r hx (by simp) (by rw [e]; simp)
            · rw [if_neg hr]
              rcases until_spec r with ⟨i, q, e', hi, h3, h4⟩ | ⟨_, h4⟩
              · exact absurd (by rw [e, e']; simp) (hno x i q hx hi)
              · rw [h4]
                exact ih n l hn' j
          · rw [if_neg hd]
            exact ih n l hn' j
      · simp only [h2]
        exact ih n l hn' j

theorem refs_total (n : Nat) : ∀ t : Bytes, t.length < n → ∃ ids, Refs t ids := by
  induction n with
  | zero => intro t h; simp at h
  | succ n ih =>
    intro t ht
    cases t with
    | nil => exact ⟨[], .nil⟩
    | cons c s =>
      have hs : s.length < n := by simpa using ht
      by_cases hc : c = c!"["
      · subst hc
        by_cases hx : ∃ x i r, c!"]" ∉ x ∧ c!"]" ∉ i ∧ s = x ++ b!"][" ++ i ++ b!"]" ++ r
        · obtain ⟨x, i, r, h1, h2, rfl⟩ := hx
          obtain ⟨ids, h⟩ := ih r (by simp only [List.length_append, List.length_cons] at hs; omega)
          by_cases hi : i = []
          · subst hi
            by_cases hx0 : x = []
            · subst hx0
              exact ⟨_, .none h⟩
            · exact ⟨_, by simpa using Refs.short h1 hx0 h⟩
          · exact ⟨_, by simpa using Refs.full h1 h2 hi h⟩
        · obtain ⟨ids, h⟩ := ih s hs
          exact ⟨ids, .other (fun x i r h1 h2 e => hx ⟨x, i, r, h1, h2, e⟩) h⟩
      · obtain ⟨ids, h⟩ := ih s hs
        exact ⟨ids, .char hc h⟩

theorem needed_filter {ids : List Bytes} {want : Bytes → Bool} (hw : ∀ i, want i = true ↔ i ∈ ids) {ls rs : List Bytes} (h : Needed ids ls rs) : rs = ls.filter (wanted want) := by
  induction h with
  | nil => rfl
  | @take l i ls rs hd hi _ ih =>
    rw [List.filter_cons, if_pos, ih]
    unfold wanted
    rw [defined_iff.2 hd]
    exact (hw i).2 hi
  | @skip l ls rs hn _ ih =>
    rw [List.filter_cons, if_neg, ih]
    unfold wanted
    cases hd : defined l with
    | none => simp
    | some i => exact fun h => hn i (defined_iff.1 hd) ((hw i).1 h)

theorem needed_total (ids ls : List Bytes) : ∃ rs, Needed ids ls rs := by
  induction ls with
  | nil => exact ⟨[], .nil⟩
  | cons l ls ih =>
    obtain ⟨rs, h⟩ := ih
    by_cases hl : ∃ i, Defines l i ∧ i ∈ ids
    · obtain ⟨i, h1, h2⟩ := hl
      exact ⟨_, .take h1 h2 h⟩
    · exact ⟨_, .skip (fun i h1 h2 => hl ⟨i, h1, h2⟩) h⟩

theorem source_eq {ls rs ids : List Bytes} {t : Bytes} (hn : ∀ l ∈ ls, c!"\n" ∉ l) (hr : Refs t ids) (h : Needed ids ls rs) (n : Nat) (hl : (ended ls).length < n) :
    source (pick (fun _ => true) n (ended ls)) t = ended rs ++ t := by
  have hw : ∀ i, decide (i ∈ uses (t.length + 1) [] t) = true ↔ i ∈ ids := by
    intro i
    rw [decide_eq_true_eq, refs_uses hr _ _ (by omega)]
    simp
  unfold source
  simp only []
  rw [pick_ended _ ls n hn hl, pick_ended _ _ _ (fun l h => hn l (List.mem_filter.1 h).1) (by omega), List.filter_filter]
  have : ls.filter (fun a => wanted (fun i => decide (i ∈ uses (t.length + 1) [] t)) a && wanted (fun _ => true) a) = rs := by
    rw [needed_filter hw h]
    congr 1
    funext a
    unfold wanted
    cases defined a <;> simp
  rw [this]
  rcases List.eq_nil_or_concat rs with rfl | ⟨front, last, rfl⟩
  · rfl
  · rw [List.concat_eq_append]
    have hlast : (ended (front ++ [last])).getLast? = some c!"\n" := by
      rw [ended_append]
      simp [ended]
    rw [if_neg (fun h => by rw [h] at hlast; simp at hlast), if_pos hlast]

theorem content_iff {md : Bytes → Bytes} {ls : List Bytes} {t h : Bytes} (hn : ∀ l ∈ ls, c!"\n" ∉ l) (n : Nat) (hl : (ended ls).length < n) :
    Content md ls t h ↔ h = content md (pick (fun _ => true) n (ended ls)) t := by
  have he : Spec.escaped = escape := rfl
  unfold content
  constructor
  · rintro (⟨hm, rfl⟩ | ⟨hm, ids, rs, h1, h2, h3⟩)
    · rw [if_neg (fun h => hm (marked_iff.1 h)), he]
    · rw [if_pos (marked_iff.2 hm), source_eq hn h1 h2 n hl]
      exact inner_strip.1 h3
  · intro h
    split at h
    · rename_i hm
      obtain ⟨ids, h1⟩ := refs_total _ t (Nat.lt_succ_self _)
      obtain ⟨rs, h2⟩ := needed_total ids ls
      rw [source_eq hn h1 h2 n hl] at h
      exact Or.inr ⟨marked_iff.1 hm, ids, rs, h1, h2, inner_strip.2 h⟩
    · rename_i hm
      exact Or.inl ⟨fun h => hm (marked_iff.2 h), by rw [he]; exact h⟩

end Verif.DefLists
