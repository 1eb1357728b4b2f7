/-
Helper lemmas for C166: bracketed spans.
-/
import Verif.Model.Spans
import Verif.Spec.Spans
import Verif.Proof.IalLines
import Verif.Proof.IalUse

namespace Verif.Spans
open Spec (Brackets Gap Def words Tidy Ref Means Spans)
open Bibliography.Spec (First)
open Citations (white_iff span_iff)
open Citations.Spec (White Ends)
open IalLines.Spec (IsLine)
open Index (span_stop span_all span_split)

/-! ### Words -/

/-- A word is at the front. -/
def Starts (s : Bytes) : Prop := ∃ c t, s = c :: t ∧ isSpace c = false

theorem words_space {c : Byte} (h : isSpace c = true) (s : Bytes) : words (c :: s) = words s := by
  cases s <;> simp [words, h]

theorem words_last {c : Byte} {s : Bytes} (h : isSpace c = false) (hs : ¬ Starts s) : words (c :: s) = [toLower c] :: words s := by
  cases s with
  | nil => simp [words, h]
  | cons d s =>
    cases hd : isSpace d with
    | true => rw [words]; simp [h, hd]
    | false => exact absurd ⟨d, s, rfl, hd⟩ hs

theorem words_start (s : Bytes) : Starts s → ∃ w ws, words s = w :: ws ∧ w ≠ [] := by
  induction s with
  | nil => rintro ⟨_, _, h, _⟩; simp at h
  | cons c s ih =>
    rintro ⟨_, _, e, hc⟩
    simp only [List.cons.injEq] at e
    obtain ⟨rfl, rfl⟩ := e
    by_cases hs : Starts s
    · obtain ⟨w, ws, h1, h2⟩ := ih hs
      obtain ⟨d, t, rfl, hd⟩ := hs
      rw [words]
      simp only [hc, hd, h1]
      exact ⟨_, _, rfl, by simp⟩
    · rw [words_last hc hs]
      exact ⟨_, _, rfl, by simp⟩

theorem words_more {c : Byte} {s : Bytes} (h : isSpace c = false) (hs : Starts s) :
    ∃ w ws, words s = w :: ws ∧ w ≠ [] ∧ words (c :: s) = (toLower c :: w) :: ws := by
  obtain ⟨w, ws, h1, h2⟩ := words_start s hs
  refine ⟨w, ws, h1, h2, ?_⟩
  obtain ⟨d, t, rfl, hd⟩ := hs
  rw [words]
  simp only [h, hd, h1]
  simp

theorem words_drop (s : Bytes) : words (s.dropWhile isSpace) = words s := by
  induction s with
  | nil => rfl
  | cons c s ih =>
    cases hc : isSpace c with
    | true => rw [List.dropWhile_cons_of_pos hc, ih, words_space hc]
    | false => rw [List.dropWhile_cons_of_neg (by simp [hc])]

theorem words_blank {s : Bytes} (h : s.all isSpace = true) : words s = [] := by
  induction s with
  | nil => rfl
  | cons c s ih =>
    simp only [List.all_cons, Bool.and_eq_true] at h
    rw [words_space h.1, ih h.2]

theorem words_nil {s : Bytes} (h : words s = []) : s.all isSpace = true := by
  induction s with
  | nil => rfl
  | cons c s ih =>
    cases hc : isSpace c with
    | true =>
      rw [words_space hc] at h
      simp [hc]
      simpa using ih h
    | false =>
      obtain ⟨w, ws, h1, _⟩ := words_start (c :: s) ⟨c, s, rfl, hc⟩
      rw [h1] at h
      simp at h

theorem blank_starts {s : Bytes} (h : s.all isSpace = true) : ¬ Starts s := by
  rintro ⟨c, t, rfl, hc⟩
  simp [hc] at h

theorem starts_drop (s : Bytes) : s.dropWhile isSpace = [] ∨ Starts (s.dropWhile isSpace) := by
  obtain ⟨a, r, _, _, hr, _, h⟩ := span_split isSpace s
  rw [h]
  rcases hr with rfl | ⟨c, b, rfl, hc⟩
  · exact Or.inl rfl
  · exact Or.inr ⟨c, b, rfl, hc⟩

theorem lower_space {c d : Byte} (h : toLower c = toLower d) : isSpace c = isSpace d := by
  have : ∀ c : Byte, isSpace (toLower c) = isSpace c := forall_byte (by decide +kernel)
  rw [← this c, h, this d]

theorem starts_cons (c : Byte) (s : Bytes) : Starts (c :: s) ↔ isSpace c = false := by
  constructor
  · rintro ⟨_, _, e, h⟩
    simp only [List.cons.injEq] at e
    rw [e.1, h]
  · exact fun h => ⟨c, s, rfl, h⟩

theorem compare_sound (n : Nat) : ∀ p t : Bytes, compare n p t = true → words p = words t ∧ (Starts p ↔ Starts t) := by
  have blank : ∀ p t : Bytes, (p.all isSpace && t.all isSpace) = true → words p = words t ∧ (Starts p ↔ Starts t) := by
    intro p t h
    rw [Bool.and_eq_true] at h
    rw [words_blank h.1, words_blank h.2]
    exact ⟨rfl, fun hs => absurd hs (blank_starts h.1), fun hs => absurd hs (blank_starts h.2)⟩
  induction n with
  | zero => intro p t h; exact blank p t (by simpa [compare] using h)
  | succ n ih =>
    intro p t h
    match p, t with
    | [], t => exact blank [] t (by simpa [compare] using h)
    | c :: p, [] => exact blank (c :: p) [] (by simpa [compare] using h)
    | c :: p, d :: t =>
      rw [compare] at h
      split at h
      · rename_i he
        obtain ⟨h1, h2⟩ := ih _ _ h
        have hsp := lower_space he
        rw [starts_cons, starts_cons, hsp]
        refine ⟨?_, Iff.rfl⟩
        cases hd : isSpace d with
        | true => rw [words_space (hsp.trans hd), words_space hd, h1]
        | false =>
          have hc := hsp.trans hd
          by_cases hp : Starts p
          · obtain ⟨w, ws, e1, _, e2⟩ := words_more hc hp
            obtain ⟨w', ws', e3, _, e4⟩ := words_more hd (h2.1 hp)
            rw [e1, e3, List.cons.injEq] at h1
            rw [e2, e4, he, h1.1, h1.2]
          · rw [words_last hc hp, words_last hd fun x => hp (h2.2 x), he, h1]
      · split at h
        · rename_i hs
          rw [Bool.and_eq_true] at hs
          obtain ⟨h1, h2⟩ := ih _ _ h
          rw [words_drop, words_drop] at h1
          rw [starts_cons, starts_cons, hs.1, hs.2]
          exact ⟨h1, Iff.rfl⟩
        · simp at h

theorem same_sound {i x : Bytes} (h : same i x = true) : words i = words x := by
  have := (compare_sound _ _ _ h).1
  rwa [words_drop, words_drop] at this

theorem tidy_tail {c : Byte} {s : Bytes} (h : Tidy (c :: s)) : Tidy s := by
  intro x y a b e
  exact h (c :: x) y a b (by rw [e]; simp)

theorem tidy_next {c : Byte} {s : Bytes} (h : Tidy (c :: s)) (hc : isSpace c = true) : s = [] ∨ Starts s := by
  cases s with
  | nil => exact Or.inl rfl
  | cons d s =>
    right
    rw [starts_cons]
    cases hd : isSpace d with
    | false => rfl
    | true => exact absurd ⟨(white_iff c).1 hc, (white_iff d).1 hd⟩ (h [] s c d rfl)

theorem tidy_drop (s : Bytes) (h : Tidy s) : Tidy (s.dropWhile isSpace) := by
  induction s with
  | nil => exact h
  | cons c s ih =>
    rw [List.dropWhile_cons]
    split
    · exact ih (tidy_tail h)
    · exact h

theorem starts_words {p t : Bytes} (h : words p = words t) (hp : p = [] ∨ Starts p) (ht : t = [] ∨ Starts t) : Starts p ↔ Starts t := by
  constructor
  · intro hs
    rcases ht with rfl | ht
    · obtain ⟨w, ws, e, _⟩ := words_start p hs
      rw [e] at h
      simp [words] at h
    · exact ht
  · intro hs
    rcases hp with rfl | hp
    · obtain ⟨w, ws, e, _⟩ := words_start t hs
      rw [e] at h
      simp [words] at h
    · exact hp

theorem compare_complete (n : Nat) : ∀ p t : Bytes, p.length < n → Tidy p → Tidy t → words p = words t → (Starts p ↔ Starts t) → compare n p t = true := by
  induction n with
  | zero => intro p t h; omega
  | succ n ih =>
    intro p t hn hp ht hw hs
    match p, t with
    | [], t =>
      rw [compare.eq_def]
      simp only []
      rw [words_nil (s := t) (by rw [← hw]; rfl)]
      rfl
    | c :: p, [] =>
      rw [compare.eq_def]
      simp only []
      rw [words_nil (s := c :: p) (by rw [hw]; rfl)]
      rfl
    | c :: p, d :: t =>
      rw [starts_cons, starts_cons] at hs
      simp only [List.length_cons] at hn
      rw [compare]
      cases hc : isSpace c with
      | true =>
        have hd : isSpace d = true := by
          cases h : isSpace d with
          | true => rfl
          | false =>
            have := hs.2 h
            rw [hc] at this
            simp at this
        have h1 := tidy_next hp hc
        have h2 := tidy_next ht hd
        rw [words_space hc, words_space hd] at hw
        have key := ih p t (by omega) (tidy_tail hp) (tidy_tail ht) hw (starts_words hw h1 h2)
        have drop : ∀ s : Bytes, s = [] ∨ Starts s → s.dropWhile isSpace = s := by
          rintro s (rfl | ⟨c, t, rfl, hc⟩)
          · rfl
          · rw [List.dropWhile_cons_of_neg (by simp [hc])]
        split
        · exact key
        · rw [if_pos (by rw [hd]; rfl), List.dropWhile_cons_of_pos hc, List.dropWhile_cons_of_pos hd, drop p h1, drop t h2]
          exact key
      | false =>
        have hd : isSpace d = false := hs.1 hc
        have : toLower c = toLower d ∧ words p = words t ∧ (Starts p ↔ Starts t) := by
          by_cases h1 : Starts p
          · obtain ⟨w, ws, e1, hw1, e2⟩ := words_more hc h1
            by_cases h2 : Starts t
            · obtain ⟨w', ws', e3, _, e4⟩ := words_more hd h2
              rw [e2, e4] at hw
              simp only [List.cons.injEq] at hw
              rw [e1, e3, hw.1.2, hw.2]
              exact ⟨hw.1.1, rfl, fun _ => h2, fun _ => h1⟩
            · rw [e2, words_last hd h2] at hw
              simp only [List.cons.injEq] at hw
              exact absurd hw.1.2 hw1
          · by_cases h2 : Starts t
            · obtain ⟨w', ws', e3, hw1, e4⟩ := words_more hd h2
              rw [e4, words_last hc h1] at hw
              simp only [List.cons.injEq] at hw
              exact absurd hw.1.2.symm hw1
            · rw [words_last hc h1, words_last hd h2] at hw
              simp only [List.cons.injEq, and_true] at hw
              exact ⟨hw.1, hw.2, fun h => absurd h h1, fun h => absurd h h2⟩
        rw [if_pos this.1]
        exact ih p t (by omega) (tidy_tail hp) (tidy_tail ht) this.2.1 this.2.2

theorem same_complete {i x : Bytes} (hi : Tidy i) (hx : Tidy x) (h : words i = words x) : same i x = true := by
  have hw : words (i.dropWhile isSpace) = words (x.dropWhile isSpace) := by rw [words_drop, words_drop, h]
  exact compare_complete _ _ _ (Nat.lt_succ_of_le (List.dropWhile_sublist isSpace).length_le) (tidy_drop _ hi) (tidy_drop _ hx) hw
    (starts_words hw (starts_drop i) (starts_drop x))

/-! ### Definitions -/

theorem gap_blank {w : Bytes} (h : Gap w) : ∀ c ∈ w, blank c = true := by
  intro c hc
  unfold blank
  rcases h c hc with rfl | rfl <;> rfl

theorem blank_gap {w : Bytes} (h : ∀ c ∈ w, blank c = true) : Gap w := by
  intro c hc
  simpa [blank] using h c hc

theorem defined_iff {l i : Bytes} : defined l = some i ↔ ∃ w r, l = w ++ b!"[" ++ i ++ b!"]:" ++ r ∧ Gap w ∧ i ≠ [] ∧ c!"]" ∉ i := by
  constructor
  · intro h
    unfold defined at h
    obtain ⟨w, r, e, hw, hr, _, h2⟩ := span_split blank l
    rw [h2] at h
    match r, h with
    | c :: t, h =>
      simp only [] at h
      split at h
      · rename_i hc
        obtain ⟨x, y, e', hx, hy, h3, h4⟩ := span_split (· != c!"]") t
        rw [h3, h4] at h
        match y, h with
        | b :: d :: y, h =>
          simp only [] at h
          split at h
          · rename_i hd
            simp only [Option.some.injEq] at h
            subst h
            rcases hy with h | ⟨b', y', h, hb⟩
            · simp at h
            · simp only [List.cons.injEq] at h
              obtain ⟨rfl, rfl⟩ := h
              have hb : b = c!"]" := by simpa using hb
              refine ⟨w, y, ?_, blank_gap hw, hd.2, fun hm => by simpa using hx _ hm⟩
              rw [e, e', hc, hb, hd.1]
              simp
          · simp at h
        | [], h => simp at h
        | [_], h => simp at h
      · simp at h
    | [], h => simp at h
  · rintro ⟨w, r, rfl, hw, hi, hn⟩
    have h1 : (w ++ b!"[" ++ i ++ b!"]:" ++ r).dropWhile blank = c!"[" :: (i ++ c!"]" :: (c!":" :: r)) := by
      rw [show w ++ b!"[" ++ i ++ b!"]:" ++ r = w ++ c!"[" :: (i ++ c!"]" :: (c!":" :: r)) by simp]
      exact (span_stop (gap_blank hw) (by decide)).2
    have h2 := span_stop (p := (· != c!"]")) (a := i) (b := c!":" :: r) (c := c!"]") (by
      intro x hx
      simp only [bne_iff_ne, ne_eq]
      rintro rfl
      exact hn hx) (by simp)
    unfold defined
    rw [h1]
    simp only []
    rw [if_pos trivial, h2.1, h2.2]
    simp only []
    rw [if_pos ⟨trivial, hi⟩]

theorem isLine_one {s l : Bytes} (hs : c!"\n" ∉ s) (h : IsLine s l) : l = s := by
  obtain ⟨_, x, y, rfl, hx, hy⟩ := h
  rcases hx with rfl | ⟨x, rfl⟩
  · rcases hy with rfl | ⟨y, rfl⟩
    · simp
    · simp at hs
  · simp at hs

theorem isLine_cons {a r l : Bytes} (ha : c!"\n" ∉ a) : IsLine (a ++ b!"\n" ++ r) l ↔ l = a ∨ IsLine r l := by
  constructor
  · rintro ⟨hl, x, y, e, hx, hy⟩
    rcases hx with rfl | ⟨x, rfl⟩
    · left
      rcases hy with rfl | ⟨y, rfl⟩
      · simp only [List.nil_append, List.append_nil] at e
        rw [← e] at hl
        simp at hl
      · have h1 := span_stop (p := (· != c!"\n")) (a := a) (b := r) (c := c!"\n") (by
          intro x hx
          simp only [bne_iff_ne, ne_eq]
          rintro rfl
          exact ha hx) (by simp)
        have h2 := span_stop (p := (· != c!"\n")) (a := l) (b := y) (c := c!"\n") (by
          intro x hx
          simp only [bne_iff_ne, ne_eq]
          rintro rfl
          exact hl hx) (by simp)
        have e' : a ++ c!"\n" :: r = l ++ c!"\n" :: y := by simpa using e
        rw [← h2.1, ← e', h1.1]
    · right
      refine ⟨hl, ?_⟩
      have h1 := span_stop (p := (· != c!"\n")) (a := a) (b := r) (c := c!"\n") (by
        intro x hx
        simp only [bne_iff_ne, ne_eq]
        rintro rfl
        exact ha hx) (by simp)
      obtain ⟨u, v, eu, hu, hv, h3, h4⟩ := span_split (· != c!"\n") (x ++ b!"\n")
      rcases hv with rfl | ⟨c, v, rfl, hc⟩
      · have := hu c!"\n" (by rw [List.append_nil] at eu; rw [← eu]; simp)
        simp at this
      · have hc : c = c!"\n" := by simpa using hc
        subst hc
        have h5 := span_stop (p := (· != c!"\n")) (a := u) (b := v ++ l ++ y) (c := c!"\n") hu (by simp)
        have e' : a ++ c!"\n" :: r = u ++ c!"\n" :: (v ++ l ++ y) := by
          have := e
          rw [eu] at this
          simpa using this
        have er : r = v ++ l ++ y := by
          have := h1.2
          rw [e', h5.2] at this
          simpa using this.symm
        refine ⟨v, y, er, ?_, hy⟩
        rcases List.eq_nil_or_concat v with rfl | ⟨v', z, rfl⟩
        · exact Or.inl rfl
        · right
          refine ⟨v', ?_⟩
          have := congrArg List.getLast? eu
          simp only [List.concat_eq_append] at this ⊢
          rw [show u ++ c!"\n" :: (v' ++ [z]) = (u ++ c!"\n" :: v') ++ [z] by simp, List.getLast?_append, List.getLast?_append] at this
          simp at this
          rw [this]
  · rintro (rfl | ⟨hl, x, y, rfl, hx, hy⟩)
    · exact ⟨ha, [], b!"\n" ++ r, by simp, Or.inl rfl, Or.inr ⟨r, rfl⟩⟩
    · refine ⟨hl, a ++ b!"\n" ++ x, y, by simp, Or.inr ?_, hy⟩
      rcases hx with rfl | ⟨x, rfl⟩
      · exact ⟨a, by simp⟩
      · exact ⟨a ++ b!"\n" ++ x, by simp⟩

theorem ids_mem (n : Nat) : ∀ (l : List Bytes) (s i : Bytes), s.length < n → (i ∈ ids n l s ↔ i ∈ l ∨ ∃ x, IsLine s x ∧ defined x = some i) := by
  induction n with
  | zero => intro l s i h; omega
  | succ n ih =>
    intro l s i hn
    cases s with
    | nil =>
      rw [ids]
      · constructor
        · exact Or.inl
        · rintro (h | ⟨x, hx, h⟩)
          · exact h
          · rw [isLine_one (by simp) hx] at h
            simp [defined] at h
      · simp
    | cons c s =>
      rw [ids]
      obtain ⟨a, r, e, ha, hr, h1, h2⟩ := span_split (· != c!"\n") (c :: s)
      rw [h1, h2]
      have hna : c!"\n" ∉ a := fun h => by simpa using ha _ h
      have hl : i ∈ add l (defined a) ↔ i ∈ l ∨ defined a = some i := by
        unfold add
        cases hd : defined a with
        | none => simp
        | some j =>
          simp only []
          split
          · rename_i hj
            simp only [Option.some.injEq]
            exact ⟨Or.inl, by rintro (h | rfl) <;> assumption⟩
          · simp [eq_comm]
      have hlen := congrArg List.length e
      simp only [List.length_cons, List.length_append] at hlen hn
      rcases hr with rfl | ⟨k, r, rfl, hk⟩
      · rw [List.append_nil] at e
        rw [ih _ _ _ (by simp; omega), hl, e, List.drop_nil]
        constructor
        · rintro ((h | h) | ⟨x, hx, h⟩)
          · exact Or.inl h
          · exact Or.inr ⟨a, ⟨hna, [], [], by simp, Or.inl rfl, Or.inl rfl⟩, h⟩
          · rw [isLine_one (by simp) hx] at h
            simp [defined] at h
        · rintro (h | ⟨x, hx, h⟩)
          · exact Or.inl (Or.inl h)
          · rw [isLine_one hna hx] at h
            exact Or.inl (Or.inr h)
      · have hk : k = c!"\n" := by simpa using hk
        subst hk
        rw [List.drop_one, List.tail_cons, ih _ _ _ (by simp at hlen; omega), hl, e, show a ++ c!"\n" :: r = a ++ b!"\n" ++ r by simp]
        constructor
        · rintro ((h | h) | ⟨x, hx, h⟩)
          · exact Or.inl h
          · exact Or.inr ⟨a, (isLine_cons hna).2 (Or.inl rfl), h⟩
          · exact Or.inr ⟨x, (isLine_cons hna).2 (Or.inr hx), h⟩
        · rintro (h | ⟨x, hx, h⟩)
          · exact Or.inl (Or.inl h)
          · rcases (isLine_cons hna).1 hx with rfl | hx
            · exact Or.inl (Or.inr h)
            · exact Or.inr ⟨x, hx, h⟩

theorem ids_def {text i : Bytes} : i ∈ ids (text.length + 1) [] text ↔ Def text i := by
  rw [ids_mem _ _ _ _ (by omega)]
  constructor
  · rintro (h | ⟨x, hx, h⟩)
    · simp at h
    · obtain ⟨w, r, e, h1, h2, h3⟩ := defined_iff.1 h
      exact ⟨x, w, r, hx, e, h1, h2, h3⟩
  · rintro ⟨x, w, r, hx, e, h1, h2, h3⟩
    exact Or.inr ⟨x, hx, defined_iff.2 ⟨w, r, e, h1, h2, h3⟩⟩

/-! ### Spans -/

theorem close_brackets {a : Bytes} (h : Brackets a) : ∀ (d : Nat) (s : Bytes), close d (a ++ s) = (close d s).map fun p => (a ++ p.1, p.2) := by
  induction h with
  | nil => intro d s; simp
  | @char c a h1 h2 _ ih =>
    intro d s
    rw [List.cons_append, close.eq_def]
    simp only []
    rw [if_neg h1, if_neg h2, ih]
    cases close d s <;> rfl
  | @group a s' _ _ ih1 ih2 =>
    intro d s
    rw [show b!"[" ++ a ++ b!"]" ++ s' ++ s = c!"[" :: (a ++ (c!"]" :: (s' ++ s))) by simp, close.eq_def]
    simp only []
    rw [if_pos trivial, ih1, close.eq_def]
    simp only []
    rw [if_neg (by decide), if_pos trivial, ih2]
    cases close d s <;> simp

theorem close_span {x : Bytes} (h : Brackets x) (r : Bytes) : close 0 (x ++ b!"]" ++ r) = some (x, r) := by
  rw [List.append_assoc, close_brackets h]
  simp [close]

/-- Text that closes `d` brackets. -/
inductive Open : Nat → Bytes → Prop
  | zero {x} : Brackets x → Open 0 x
  | succ {d y z} : Brackets y → Open d z → Open (d + 1) (y ++ b!"]" ++ z)

theorem brackets_append {a b : Bytes} (ha : Brackets a) (hb : Brackets b) : Brackets (a ++ b) := by
  induction ha with
  | nil => exact hb
  | char h1 h2 _ ih => exact .char h1 h2 ih
  | @group a s h1 _ _ ih =>
    rw [show b!"[" ++ a ++ b!"]" ++ s ++ b = b!"[" ++ a ++ b!"]" ++ (s ++ b) by simp]
    exact .group h1 ih

theorem open_append {d : Nat} {g z : Bytes} (hg : Brackets g) (h : Open d z) : Open d (g ++ z) := by
  cases h with
  | zero h => exact .zero (brackets_append hg h)
  | @succ d y z h1 h2 =>
    rw [show g ++ (y ++ b!"]" ++ z) = (g ++ y) ++ b!"]" ++ z by simp]
    exact .succ (brackets_append hg h1) h2

theorem close_open (s : Bytes) : ∀ (d : Nat) (x r : Bytes), close d s = some (x, r) → s = x ++ b!"]" ++ r ∧ Open d x := by
  induction s with
  | nil => intro d x r h; simp [close] at h
  | cons c s ih =>
    intro d x r h
    rw [close.eq_def] at h
    simp only [] at h
    split at h
    · rename_i hc
      cases hk : close (d + 1) s with
      | none => rw [hk] at h; simp at h
      | some q =>
        rw [hk] at h
        simp only [Option.map_some, Option.some.injEq, Prod.mk.injEq] at h
        obtain ⟨rfl, rfl⟩ := h
        obtain ⟨e, ho⟩ := ih _ _ _ hk
        refine ⟨by rw [e]; simp, ?_⟩
        revert ho
        generalize q.1 = y
        intro ho
        cases ho with
        | @succ _ y z h1 h2 =>
          have := open_append (.group h1 .nil) h2
          rw [hc]
          simpa using this
    · split at h
      · rename_i hc
        cases d with
        | zero =>
          simp only [Option.some.injEq, Prod.mk.injEq] at h
          obtain ⟨rfl, rfl⟩ := h
          exact ⟨by rw [hc]; rfl, .zero .nil⟩
        | succ d =>
          simp only [] at h
          cases hk : close d s with
          | none => rw [hk] at h; simp at h
          | some q =>
            rw [hk] at h
            simp only [Option.map_some, Option.some.injEq, Prod.mk.injEq] at h
            obtain ⟨rfl, rfl⟩ := h
            obtain ⟨e, ho⟩ := ih _ _ _ hk
            refine ⟨by rw [e]; simp, ?_⟩
            rw [hc]
            exact .succ .nil ho
      · rename_i h1 h2
        cases hk : close d s with
        | none => rw [hk] at h; simp at h
        | some q =>
          rw [hk] at h
          simp only [Option.map_some, Option.some.injEq, Prod.mk.injEq] at h
          obtain ⟨rfl, rfl⟩ := h
          obtain ⟨e, ho⟩ := ih _ _ _ hk
          exact ⟨by rw [e]; simp, open_append (.char h1 h2 .nil) ho⟩

theorem span_means {after : Bytes → Bytes} {refs : List Bytes} {x w a h s : Bytes} (hx : Brackets x) (hw : Gap w) (ha : c!"}" ∉ a) (hr : refs.any (fun i => same i x) = false)
    (hm : Means a h) : span after refs (x ++ b!"]" ++ w ++ b!"{" ++ a ++ b!"}" ++ s) = .val (some (h, x, s)) := by
  obtain ⟨items, sized, decls, h1, h2, h3, h4, h5, h6⟩ := hm
  unfold span
  rw [show x ++ b!"]" ++ w ++ b!"{" ++ a ++ b!"}" ++ s = x ++ b!"]" ++ (w ++ c!"{" :: (a ++ c!"}" :: s)) by simp, close_span hx]
  simp only []
  rw [(span_stop (gap_blank hw) (by decide)).2]
  simp only []
  have h7 := span_stop (p := (· != c!"}")) (a := a) (b := s) (c := c!"}") (by
    intro x hx
    simp only [bne_iff_ne, ne_eq]
    rintro rfl
    exact ha hx) (by simp)
  rw [if_pos ⟨trivial, by simp, hr⟩, h7.1, h7.2, Ial.parse_written h1 h2]
  have := Ial.toHtml_pieces (a := Ial.Spec.meaning items) h3 h4 (by rw [← h5]; exact h6)
  unfold Ial.Spec.meaning at this
  simp only [C.bind]
  rw [this, h5]
  rfl

theorem span_none {after : Bytes → Bytes} {refs : List Bytes} {s : Bytes}
    (h : ∀ x w a r, s = x ++ b!"]" ++ w ++ b!"{" ++ a ++ b!"}" ++ r → Brackets x → Gap w → refs.any (fun i => same i x) = true) : span after refs s = .val none := by
  unfold span
  cases hk : close 0 s with
  | none => rfl
  | some q =>
    obtain ⟨x, r⟩ := q
    obtain ⟨e, ho⟩ := close_open _ _ _ _ hk
    simp only []
    obtain ⟨w, y, e', hw, _, _, h2⟩ := span_split blank r
    rw [h2]
    cases y with
    | nil => rfl
    | cons c q =>
      simp only []
      rw [if_neg]
      rintro ⟨hc, hq, hn⟩
      obtain ⟨a, b, eb⟩ := List.append_of_mem hq
      have hx : Brackets x := by
        cases ho with
        | zero h => exact h
      rw [h x w a b (by rw [e, e', eb, hc]; simp) hx (blank_gap hw)] at hn
      simp at hn

/-! ### The loop -/

/-- From the block `b` to `b'`, behind which is only more text: it grows if there is need. -/
def Good (b b' : Buf) : Prop := b.out.length ≤ b.cap → b.out.length ≤ b'.out.length ∧ b'.out.length ≤ b'.cap ∧ (b'.out.length < b.cap → b'.cap = b.cap)

theorem good_refl (b : Buf) : Good b b := fun h => ⟨Nat.le_refl _, h, fun _ => rfl⟩

theorem good_trans {a b c : Buf} (h1 : Good a b) (h2 : Good b c) : Good a c := by
  intro h
  obtain ⟨p1, p2, p3⟩ := h1 h
  obtain ⟨q1, q2, q3⟩ := h2 p2
  refine ⟨by omega, q2, fun hc => ?_⟩
  have := p3 (by omega)
  rw [← this]
  exact q3 (by omega)

theorem copy_out (c : Byte) (b : Buf) : (copy c b).out = b.out ++ [c] := by
  unfold copy
  split <;> rfl

theorem copy_good (c : Byte) (b : Buf) : Good b (copy c b) := by
  intro h
  unfold copy
  split
  · simp only [List.length_append, List.length_cons, List.length_nil]
    exact ⟨by omega, by omega, fun _ => trivial⟩
  · simp only [List.length_append, List.length_cons, List.length_nil]
    exact ⟨by omega, by omega, fun _ => by omega⟩

/-- Several bytes are copied. -/
def copies (s : Bytes) (b : Buf) : Buf := s.foldl (fun b c => copy c b) b

theorem copies_out (s : Bytes) : ∀ b : Buf, (copies s b).out = b.out ++ s := by
  unfold copies
  induction s with
  | nil => intro b; simp
  | cons c s ih => intro b; rw [List.foldl_cons, ih, copy_out]; simp

theorem copies_good (s : Bytes) : ∀ b : Buf, Good b (copies s b) := by
  unfold copies
  induction s with
  | nil => intro b; exact good_refl b
  | cons c s ih => intro b; exact good_trans (copy_good c b) (ih _)

theorem write_spec (h x : Bytes) (b : Buf) (hb : b.out.length ≤ b.cap) :
    (write h x b).out = b.out ++ (b!"<span markdown=\"span\"" ++ h ++ b!">" ++ x ++ b!"</span>") ∧ Good b (write h x b) := by
  have key : ∀ b' : Buf, 20 + h.length + x.length + 10 ≤ b'.cap - b'.out.length →
      (let b := fit x (fit (b!"<span markdown=\"span\"" ++ h ++ b!">") b')
       if 7 ≤ b.cap - b.out.length then { b with out := b.out ++ b!"</span>" } else b) =
      (⟨b'.cap, b'.out ++ (b!"<span markdown=\"span\"" ++ h ++ b!">" ++ x ++ b!"</span>")⟩ : Buf) := by
    intro b' hr
    have h1 : fit (b!"<span markdown=\"span\"" ++ h ++ b!">") b' = ⟨b'.cap, b'.out ++ (b!"<span markdown=\"span\"" ++ h ++ b!">")⟩ := by
      unfold fit
      rw [if_pos]
      simp only [List.length_append, List.length_cons, List.length_nil]
      omega
    rw [h1]
    have h2 : fit x ⟨b'.cap, b'.out ++ (b!"<span markdown=\"span\"" ++ h ++ b!">")⟩ = ⟨b'.cap, b'.out ++ (b!"<span markdown=\"span\"" ++ h ++ b!">") ++ x⟩ := by
      unfold fit
      rw [if_pos]
      simp only [List.length_append, List.length_cons, List.length_nil]
      omega
    rw [h2]
    simp only []
    rw [if_pos]
    · simp only [List.append_assoc]
    · simp only [List.length_append, List.length_cons, List.length_nil]
      omega
  unfold write
  simp only []
  split
  · rename_i hlt
    have := key ⟨(b.out.length + (20 + h.length + x.length + 10) + 1) * 2, b.out⟩ (by simp only []; omega)
    simp only [] at this
    rw [this]
    refine ⟨rfl, fun _ => ?_⟩
    simp only [List.length_append, List.length_cons, List.length_nil]
    exact ⟨by omega, by omega, fun _ => by omega⟩
  · rename_i hlt
    have := key b (by omega)
    simp only [] at this
    rw [this]
    refine ⟨rfl, fun _ => ?_⟩
    simp only [List.length_append, List.length_cons, List.length_nil]
    exact ⟨by omega, by omega, fun _ => trivial⟩

theorem loop_copy {after : Bytes → Bytes} {refs : List Bytes} {n : Nat} {k k' : Code} {c : Byte} {t : Bytes} {b : Buf} (hk : tick (c :: t) k = k')
    (h : (k'.block = 0 && !k'.inline && c == c!"[") = false) : loop after refs (n + 1) k (c :: t) b = loop after refs n k' t (copy c b) := by
  rw [loop, hk, h]
  rfl

theorem tick_other {c : Byte} (h : c ≠ c!"`") (t : Bytes) (k : Code) : tick (c :: t) k = k := by
  unfold tick
  rw [if_neg (by simpa using h)]

theorem loop_inline {after : Bytes → Bytes} {refs : List Bytes} (x : Bytes) : ∀ (n : Nat) (s : Bytes) (b : Buf), c!"`" ∉ x →
    loop after refs (n + x.length) ⟨0, true⟩ (x ++ s) b = loop after refs n ⟨0, true⟩ s (copies x b) := by
  induction x with
  | nil => intro n s b _; rfl
  | cons c x ih =>
    intro n s b hx
    rw [List.length_cons, ← Nat.add_assoc, List.cons_append, loop_copy (tick_other (fun h => hx (by simp [h])) _ _) (by simp), ih n s _ fun h => hx (by simp [h])]
    rfl

theorem run_ge {s : Bytes} : 3 ≤ (s.takeWhile (· == c!"`")).length ↔ b!"```" <+: s := by
  constructor
  · intro h
    match s, h with
    | [], h => simp at h
    | [a], h =>
      have := (List.takeWhile_sublist (l := [a]) (· == c!"`")).length_le
      simp only [List.length_cons, List.length_nil] at this
      omega
    | [a, d], h =>
      have := (List.takeWhile_sublist (l := [a, d]) (· == c!"`")).length_le
      simp only [List.length_cons, List.length_nil] at this
      omega
    | a :: d :: e :: s, h =>
      simp only [List.takeWhile_cons] at h
      split at h
      · split at h
        · split at h
          · rename_i h1 h2 h3
            refine ⟨s, ?_⟩
            simp only [beq_iff_eq] at h1 h2 h3
            rw [h1, h2, h3]
            rfl
          · simp at h
        · simp at h
      · simp at h
  · rintro ⟨r, rfl⟩
    simp

theorem loop_block {after : Bytes → Bytes} {refs : List Bytes} (x : Bytes) : ∀ (n : Nat) (s : Bytes) (b : Buf), (∀ u v, x = u ++ v → v ≠ [] → ¬ b!"```" <+: v ++ s) →
    loop after refs (n + x.length) ⟨3, false⟩ (x ++ s) b = loop after refs n ⟨3, false⟩ s (copies x b) := by
  induction x with
  | nil => intro n s b _; rfl
  | cons c x ih =>
    intro n s b hx
    rw [List.length_cons, ← Nat.add_assoc, List.cons_append, loop_copy (k' := ⟨3, false⟩), ih n s _ fun u v e hv => hx (c :: u) v (by rw [e]; rfl) hv]
    · rfl
    · unfold tick
      split
      · have := hx [] (c :: x) rfl (by simp)
        rw [List.cons_append, ← run_ge] at this
        simp only []
        rw [if_neg (by simp), if_pos (by simp), if_neg this]
      · rfl
    · simp

theorem run_ticks (m : Nat) {s : Bytes} (hs : s.head? ≠ some c!"`") : ((List.replicate m c!"`" ++ s).takeWhile (· == c!"`")).length = m := by
  induction m with
  | zero =>
    cases s with
    | nil => rfl
    | cons c s => simp only [List.replicate_zero, List.nil_append, List.takeWhile_cons]; rw [if_neg (by simpa using hs)]; rfl
  | succ m ih => rw [List.replicate_succ, List.cons_append, List.takeWhile_cons_of_pos (by rfl), List.length_cons, ih]

theorem tick_on {s : Bytes} (hs : s.head? ≠ some c!"`") : tick (c!"`" :: s) ⟨0, false⟩ = ⟨0, true⟩ ∧ tick (c!"`" :: c!"`" :: s) ⟨0, false⟩ = ⟨0, true⟩ ∧
    tick (c!"`" :: c!"`" :: c!"`" :: s) ⟨0, false⟩ = ⟨3, false⟩ := by
  have h1 := run_ticks 1 hs
  have h2 := run_ticks 2 hs
  have h3 := run_ticks 3 hs
  simp only [List.replicate_succ, List.replicate_zero, List.cons_append, List.nil_append] at h1 h2 h3
  refine ⟨?_, ?_, ?_⟩
  · unfold tick; simp only [h1]; rfl
  · unfold tick; simp only [h2]; rfl
  · unfold tick; simp only [h3]; rfl

theorem tick_off (s : Bytes) : tick (c!"`" :: s) ⟨0, true⟩ = ⟨0, false⟩ := by
  unfold tick
  simp

theorem tick_in {s : Bytes} (hs : s.head? ≠ some c!"`") : tick (c!"`" :: s) ⟨3, false⟩ = ⟨3, false⟩ ∧ tick (c!"`" :: c!"`" :: s) ⟨3, false⟩ = ⟨3, false⟩ ∧
    tick (c!"`" :: c!"`" :: c!"`" :: s) ⟨3, false⟩ = ⟨0, false⟩ := by
  have h1 := run_ticks 1 hs
  have h2 := run_ticks 2 hs
  have h3 := run_ticks 3 hs
  simp only [List.replicate_succ, List.replicate_zero, List.cons_append, List.nil_append] at h1 h2 h3
  refine ⟨?_, ?_, ?_⟩
  · unfold tick; simp only [h1]; rfl
  · unfold tick; simp only [h2]; rfl
  · unfold tick; simp only [h3]; rfl

theorem loop_spans {after : Bytes → Bytes} {refs : List Bytes} {ref : Bytes → Prop} (h1 : ∀ x, refs.any (fun i => same i x) = true → ref x)
    {s o : Bytes} (h : Spans ref s o) : (∀ x, (b!"[" ++ x ++ b!"]" <:+: s) → ref x → refs.any (fun i => same i x) = true) →
    ∀ (n : Nat) (b : Buf), s.length < n → b.out.length ≤ b.cap → ∃ b', loop after refs n ⟨0, false⟩ s b = .val b' ∧ b'.out = b.out ++ o ∧ Good b b' := by
  have tail : ∀ {p s : Bytes}, (∀ x, (b!"[" ++ x ++ b!"]" <:+: p ++ s) → ref x → refs.any (fun i => same i x) = true) →
      ∀ x, (b!"[" ++ x ++ b!"]" <:+: s) → ref x → refs.any (fun i => same i x) = true := by
    intro p s h x hx
    obtain ⟨u, v, e⟩ := hx
    exact h x ⟨p ++ u, v, by rw [← e]; simp⟩
  have fin : ∀ {n s o p} {b b1 : Buf}, s.length < n → b1.out = b.out ++ p → Good b b1 → b.out.length ≤ b.cap →
      (∀ (n : Nat) (b : Buf), s.length < n → b.out.length ≤ b.cap → ∃ b', loop after refs n ⟨0, false⟩ s b = .val b' ∧ b'.out = b.out ++ o ∧ Good b b') →
      ∃ b', loop after refs n ⟨0, false⟩ s b1 = .val b' ∧ b'.out = b.out ++ (p ++ o) ∧ Good b b' := by
    intro n s o p b b1 hn ho hg hb ih
    obtain ⟨b', e1, e2, e3⟩ := ih n b1 hn (hg hb).2.1
    exact ⟨b', e1, by rw [e2, ho, List.append_assoc], good_trans hg e3⟩
  induction h with
  | nil =>
    intro _ n b hn hb
    refine ⟨b, ?_, by simp, good_refl b⟩
    cases n with
    | zero => omega
    | succ n => rw [loop]; simp
  | @char c s o hc hc' _ ih =>
    intro h2 n b hn hb
    obtain ⟨n, rfl⟩ : ∃ m, n = m + 1 := ⟨n - 1, by omega⟩
    rw [loop_copy (tick_other hc _ _) (by simpa using hc')]
    exact fin (p := [c]) (by simpa using hn) (copy_out c b) (copy_good c b) hb (ih (tail (p := [c]) h2))
  | @code x s o hx hx' _ ih =>
    intro h2 n b hn hb
    have hh : (x ++ c!"`" :: s).head? ≠ some c!"`" := by
      cases x with
      | nil => exact absurd rfl hx
      | cons c x => simp only [List.cons_append, List.head?_cons, ne_eq, Option.some.injEq]; rintro rfl; exact hx' (by simp)
    simp only [List.length_append, List.length_cons, List.length_nil] at hn
    obtain ⟨n, rfl⟩ : ∃ m, n = (m + 1 + x.length) + 1 := ⟨n - x.length - 2, by omega⟩
    rw [show b!"`" ++ x ++ b!"`" ++ s = c!"`" :: (x ++ c!"`" :: s) by simp, loop_copy (tick_on hh).1 (by simp), loop_inline x (n + 1) (c!"`" :: s) _ hx',
      loop_copy (tick_off s) (by simp)]
    exact fin (p := b!"`" ++ x ++ b!"`") (by omega) (by rw [copy_out, copies_out, copy_out]; simp)
      (good_trans (copy_good _ _) (good_trans (copies_good _ _) (copy_good _ _))) hb (ih (tail h2))
  | @«open» x hx hx' =>
    intro h2 n b hn hb
    have hh : x.head? ≠ some c!"`" := by
      cases x with
      | nil => exact absurd rfl hx
      | cons c x => simp only [List.head?_cons, ne_eq, Option.some.injEq]; rintro rfl; exact hx' (by simp)
    simp only [List.length_append, List.length_cons, List.length_nil] at hn
    obtain ⟨n, rfl⟩ : ∃ m, n = (m + 1 + x.length) + 1 := ⟨n - x.length - 2, by omega⟩
    have := loop_inline (after := after) (refs := refs) x (n + 1) [] (copy c!"`" b) hx'
    rw [List.append_nil] at this
    rw [show b!"`" ++ x = c!"`" :: x by simp, loop_copy (tick_on hh).1 (by simp), this]
    refine ⟨_, by rw [loop]; simp, by rw [copies_out, copy_out]; simp, good_trans (copy_good _ _) (copies_good _ _)⟩
  | @two s o hs _ ih =>
    intro h2 n b hn hb
    simp only [List.length_append, List.length_cons, List.length_nil] at hn
    obtain ⟨n, rfl⟩ : ∃ m, n = m + 1 + 1 := ⟨n - 2, by omega⟩
    rw [show b!"``" ++ s = c!"`" :: c!"`" :: s by simp, loop_copy (tick_on hs).2.1 (by simp), loop_copy (tick_off s) (by simp)]
    exact fin (p := b!"``") (by omega) (by rw [copy_out, copy_out]; simp) (good_trans (copy_good _ _) (copy_good _ _)) hb (ih (tail h2))
  | @fence x s o hx0 hx hf hs _ ih =>
    intro h2 n b hn hb
    simp only [List.length_append, List.length_cons, List.length_nil] at hn
    obtain ⟨n, rfl⟩ : ∃ m, n = (m + 1 + 1 + 1 + x.length) + 1 + 1 + 1 := ⟨n - x.length - 6, by omega⟩
    have hfree : ∀ u v : Bytes, x = u ++ v → v ≠ [] → ¬ b!"```" <+: v ++ c!"`" :: c!"`" :: c!"`" :: s := by
      rintro u v e hv ⟨t, ht⟩
      have : ∃ t', v ++ b!"```" = b!"```" ++ t' := by
        match v, hv, ht with
        | [a], _, ht =>
          simp only [List.cons_append, List.nil_append, List.cons.injEq] at ht
          refine ⟨b!"`", ?_⟩
          rw [← ht.1]
          rfl
        | [a, d], _, ht =>
          simp only [List.cons_append, List.nil_append, List.cons.injEq] at ht
          refine ⟨b!"``", ?_⟩
          rw [← ht.1, ← ht.2.1]
          rfl
        | a :: d :: f :: v, _, ht =>
          simp only [List.cons_append, List.nil_append, List.cons.injEq] at ht
          refine ⟨v ++ b!"```", ?_⟩
          rw [← ht.1, ← ht.2.1, ← ht.2.2.1]
          rfl
      obtain ⟨t', ht'⟩ := this
      have := hf.2 u t' (by rw [e, List.append_assoc, ht', List.append_assoc])
      have h0 := List.length_pos_iff.2 hv
      rw [e, List.length_append] at this
      omega
    have hh : (x ++ c!"`" :: c!"`" :: c!"`" :: s).head? ≠ some c!"`" := by
      cases x with
      | nil =>
        exact absurd rfl hx0
      | cons c x => simpa using hx
    rw [show b!"```" ++ x ++ b!"```" ++ s = c!"`" :: c!"`" :: c!"`" :: (x ++ c!"`" :: c!"`" :: c!"`" :: s) by simp, loop_copy (tick_on hh).2.2 (by simp),
      loop_copy (tick_in hh).2.1 (by simp), loop_copy (tick_in hh).1 (by simp), loop_block x _ _ _ hfree, loop_copy (tick_in hs).2.2 (by simp),
      loop_copy (tick_on hs).2.1 (by simp), loop_copy (tick_off s) (by simp)]
    refine fin (p := b!"```" ++ x ++ b!"```") (by omega) ?_ ?_ hb (ih (tail h2))
    · rw [copy_out, copy_out, copy_out, copies_out, copy_out, copy_out, copy_out]
      simp
    · exact good_trans (copy_good _ _) (good_trans (copy_good _ _) (good_trans (copy_good _ _) (good_trans (copies_good _ _)
        (good_trans (copy_good _ _) (good_trans (copy_good _ _) (copy_good _ _))))))
  | @span x w a h s o hx hw ha hr hm _ ih =>
    intro h2 n b hn hb
    simp only [List.length_append, List.length_cons, List.length_nil] at hn
    obtain ⟨n, rfl⟩ : ∃ m, n = m + 1 := ⟨n - 1, by omega⟩
    have hr' : refs.any (fun i => same i x) = false := by
      cases e : refs.any (fun i => same i x) with
      | false => rfl
      | true => exact absurd (h1 x e) hr
    have := span_means (after := after) (s := s) hx hw ha hr' hm
    rw [show b!"[" ++ x ++ b!"]" ++ w ++ b!"{" ++ a ++ b!"}" ++ s = c!"[" :: (x ++ b!"]" ++ w ++ b!"{" ++ a ++ b!"}" ++ s) by simp, loop, tick_other (by decide), this]
    simp only []
    rw [if_pos (by rfl)]
    obtain ⟨e1, e2⟩ := write_spec h x b hb
    exact fin (p := b!"<span markdown=\"span\"" ++ h ++ b!">" ++ x ++ b!"</span>") (by omega) e1 e2 hb (ih (tail h2))
  | @other s o hr _ ih =>
    intro h2 n b hn hb
    simp only [List.length_append, List.length_cons, List.length_nil] at hn
    obtain ⟨n, rfl⟩ : ∃ m, n = m + 1 := ⟨n - 1, by omega⟩
    have := span_none (after := after) (refs := refs) (s := s) fun x w a r e hx hw => h2 x ⟨[], w ++ b!"{" ++ a ++ b!"}" ++ r, by rw [e]; simp⟩ (hr x w a r e hx hw)
    rw [show b!"[" ++ s = c!"[" :: s by rfl, loop, tick_other (by decide), this]
    simp only []
    rw [if_pos (by rfl)]
    exact fin (p := b!"[") (by omega) (copy_out _ b) (copy_good _ b) hb (ih (tail h2))

theorem other_ref {s : Bytes} {ref : Bytes → Prop} (h : ∀ x q, close 0 s = some (x, q) → (∃ q', q.dropWhile blank = c!"{" :: q') → ref x) :
    ∀ x w a r, s = x ++ b!"]" ++ w ++ b!"{" ++ a ++ b!"}" ++ r → Brackets x → Gap w → ref x := by
  rintro x w a r e hx hw
  have e' : s = x ++ b!"]" ++ (w ++ c!"{" :: (a ++ c!"}" :: r)) := by rw [e]; simp
  exact h x _ (by rw [e', close_span hx]) ⟨_, (span_stop (gap_blank hw) (by decide)).2⟩

theorem tidy_check {s : Bytes} (h : (s.zip s.tail).all (fun p => !(isSpace p.1 && isSpace p.2)) = true) : Tidy s := by
  rintro x y a b rfl ⟨ha, hb⟩
  have hm : (a, b) ∈ (x ++ [a, b] ++ y).zip (x ++ [a, b] ++ y).tail := by
    clear h
    induction x with
    | nil => simp
    | cons c x ih =>
      cases x with
      | nil => simp
      | cons d x =>
        simp only [List.cons_append, List.tail_cons, List.zip_cons_cons] at ih ⊢
        exact List.mem_cons_of_mem _ ih
  have := List.all_eq_true.1 h _ hm
  simp [(white_iff a).2 ha, (white_iff b).2 hb] at this

end Verif.Spans
