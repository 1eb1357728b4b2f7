/-
Lemmas about emoji names.
-/
import Verif.Spec.Emoji
import Verif.Proof.MetaParse

namespace Verif.Emoji

open Spec MetaParse

/-! ### Edit distance -/

/-- The recursive definition (from the front). -/
def lev : Bytes → Bytes → Nat
  | [], ys => ys.length
  | x :: xs, [] => (x :: xs).length
  | x :: xs, y :: ys =>
    min (lev xs (y :: ys) + 1) (min (lev (x :: xs) ys + 1) (lev xs ys + if x = y then 0 else 1))
  termination_by a b => a.length + b.length

theorem lev_nil (ys : Bytes) : lev [] ys = ys.length := by unfold lev; rfl
theorem lev_nil' (xs : Bytes) : lev xs [] = xs.length := by
  cases xs <;> (unfold lev; rfl)
theorem lev_cons (x y : Byte) (xs ys : Bytes) : lev (x :: xs) (y :: ys) =
    min (lev xs (y :: ys) + 1) (min (lev (x :: xs) ys + 1) (lev xs ys + if x = y then 0 else 1)) := by
  conv => lhs; unfold lev

theorem cell_eq (a b c : Nat) : cell a b c = min a (min b c) := by
  unfold cell; repeat' split
  all_goals omega

/-- A row of the table: distances to the (reversed) prefixes. -/
def rowSpec (a : Bytes) : Bytes → Bytes → List Nat
  | b, [] => [lev a b]
  | b, y :: ys => lev a b :: rowSpec a (y :: b) ys

theorem rowLoop_eq (x : Byte) (a : Bytes) : ∀ (ys b : Bytes),
    lev (x :: a) b :: rowLoop x (lev (x :: a) b) (rowSpec a b ys) ys = rowSpec (x :: a) b ys := by
  intro ys
  induction ys with
  | nil => intro b; simp [rowSpec, rowLoop]
  | cons y ys ih =>
    intro b
    have h : rowSpec a b (y :: ys) = lev a b :: rowSpec a (y :: b) ys := rfl
    have h2 : ∃ t, rowSpec a (y :: b) ys = lev a (y :: b) :: t := by
      cases ys <;> exact ⟨_, rfl⟩
    obtain ⟨t, ht⟩ := h2
    rw [h, ht]
    simp only [rowLoop]
    have hc : cell (lev a (y :: b) + 1) (lev (x :: a) b + 1) (lev a b + if x = y then 0 else 1) =
        lev (x :: a) (y :: b) := by rw [cell_eq, lev_cons]
    rw [hc, ← ht]
    have := ih (y :: b)
    simp only [rowSpec]
    rw [← this]

theorem rows_eq (s2 : Bytes) : ∀ (xs a : Bytes),
    rows s2 a.length (rowSpec a [] s2) xs = rowSpec (xs.reverse ++ a) [] s2 := by
  intro xs
  induction xs with
  | nil => intro a; simp [rows]
  | cons x xs ih =>
    intro a
    unfold rows
    have h := rowLoop_eq x a s2 []
    rw [lev_nil'] at h
    simp only [List.length_cons] at h
    rw [h]
    have := ih (x :: a)
    simp only [List.length_cons] at this
    rw [this]
    simp

theorem rowSpec_nil : ∀ (ys b : Bytes), rowSpec [] b ys = List.range' b.length (ys.length + 1) := by
  intro ys
  induction ys with
  | nil => intro b; simp [rowSpec, lev_nil]
  | cons y ys ih => intro b; simp [rowSpec, lev_nil, ih, List.range'_succ]

theorem rowSpec_last (a : Bytes) : ∀ (ys b : Bytes), (rowSpec a b ys)[ys.length]? = some (lev a (ys.reverse ++ b)) := by
  intro ys
  induction ys with
  | nil => intro b; simp [rowSpec]
  | cons y ys ih => intro b; simp [rowSpec, ih]

theorem levenshtein_eq (a b : Bytes) : levenshtein a b = lev a.reverse b.reverse := by
  unfold levenshtein
  split
  · rename_i h; subst h; simp [lev_nil]
  · split
    · rename_i h; subst h; simp [lev_nil']
    · have h0 : List.range (b.length + 1) = rowSpec [] [] b := by
        rw [rowSpec_nil]; simp [List.range_eq_range']
      rw [h0]
      have := rows_eq b a []
      simp only [List.length_nil, List.append_nil] at this
      rw [this, rowSpec_last]
      simp

/-! Bounds for one step. -/

theorem lev_left (x : Byte) (xs ys : Bytes) : lev (x :: xs) ys ≤ lev xs ys + 1 := by
  cases ys with
  | nil => simp [lev_nil']
  | cons y ys => rw [lev_cons]; omega

theorem lev_right (y : Byte) (xs ys : Bytes) : lev xs (y :: ys) ≤ lev xs ys + 1 := by
  cases xs with
  | nil => simp [lev_nil]
  | cons x xs => rw [lev_cons]; omega

theorem lev_left' (x : Byte) (xs : Bytes) : ∀ ys, lev xs ys ≤ lev (x :: xs) ys + 1 := by
  intro ys
  induction ys with
  | nil => simp [lev_nil']; omega
  | cons y ys ih =>
    rw [lev_cons]
    have := lev_right y xs ys
    split <;> omega

theorem lev_subst (c d : Byte) (q : Bytes) : ∀ z, lev (c :: q) z ≤ lev (d :: q) z + 1 := by
  intro z
  induction z with
  | nil => simp [lev_nil']
  | cons y ys ih =>
    rw [lev_cons, lev_cons]
    split <;> split <;> omega

theorem lev_same (x : Byte) {a b : Bytes} (h : ∀ z, lev a z ≤ lev b z + 1) :
    ∀ z, lev (x :: a) z ≤ lev (x :: b) z + 1 := by
  intro z
  induction z with
  | nil => have := h []; simp [lev_nil'] at this ⊢; omega
  | cons y ys ih =>
    have h1 := h (y :: ys)
    have h2 := h ys
    rw [lev_cons, lev_cons]
    split <;> omega

theorem Spec.Step.lev_le {a b : Bytes} (h : Step a b) : ∀ z, lev a z ≤ lev b z + 1 := by
  rcases h with ⟨p, c, q, rfl, rfl⟩ | ⟨p, c, q, rfl, rfl⟩ | ⟨p, c, d, q, rfl, rfl⟩
  · induction p with
    | nil => exact lev_left' c q
    | cons x p ih => exact lev_same x ih
  · induction p with
    | nil => exact lev_left c q
    | cons x p ih => exact lev_same x ih
  · induction p with
    | nil => exact lev_subst c d q
    | cons x p ih => exact lev_same x ih

theorem lev_self (a : Bytes) : lev a a = 0 := by
  induction a with
  | nil => simp [lev_nil]
  | cons x a ih => rw [lev_cons]; simp [ih]

theorem Spec.Edits.lev_le {n : Nat} {a b : Bytes} (h : Edits n a b) : lev a b ≤ n := by
  induction h with
  | zero => simp [lev_self]
  | @succ n a b c hs _ ih => have := hs.lev_le c; omega

theorem Spec.Step.cons (x : Byte) {a b : Bytes} (h : Step a b) : Step (x :: a) (x :: b) := by
  rcases h with ⟨p, c, q, rfl, rfl⟩ | ⟨p, c, q, rfl, rfl⟩ | ⟨p, c, d, q, rfl, rfl⟩
  · exact .inl ⟨x :: p, c, q, rfl, rfl⟩
  · exact .inr (.inl ⟨x :: p, c, q, rfl, rfl⟩)
  · exact .inr (.inr ⟨x :: p, c, d, q, rfl, rfl⟩)

theorem Spec.Edits.cons (x : Byte) {n : Nat} {a b : Bytes} (h : Edits n a b) : Edits n (x :: a) (x :: b) := by
  induction h with
  | zero => exact .zero
  | succ hs _ ih => exact .succ (hs.cons x) ih

theorem Spec.Edits.snoc {n : Nat} {a b c : Bytes} (h : Edits n a b) (hs : Step b c) : Edits (n + 1) a c := by
  induction h with
  | zero => exact .succ hs .zero
  | succ h1 _ ih => exact .succ h1 (ih hs)

theorem lev_edits (n : Nat) : ∀ a b : Bytes, a.length + b.length ≤ n → Edits (lev a b) a b := by
  induction n with
  | zero =>
    intro a b h
    have h1 : a = [] := List.length_eq_zero_iff.1 (by omega)
    have h2 : b = [] := List.length_eq_zero_iff.1 (by omega)
    subst h1 h2
    rw [lev_nil]; exact .zero
  | succ n ih =>
    intro a b h
    cases a with
    | nil =>
      cases b with
      | nil => rw [lev_nil]; exact .zero
      | cons y ys =>
        have h1 := ih [] ys (by simp at h ⊢; omega)
        rw [lev_nil] at h1 ⊢
        exact h1.snoc (.inl ⟨[], y, ys, rfl, rfl⟩)
    | cons x xs =>
      cases b with
      | nil =>
        have h1 := ih xs [] (by simp at h ⊢; omega)
        rw [lev_nil'] at h1 ⊢
        exact .succ (.inr (.inl ⟨[], x, xs, rfl, rfl⟩)) h1
      | cons y ys =>
        have h1 := ih xs (y :: ys) (by simp at h ⊢; omega)
        have h2 := ih (x :: xs) ys (by simp at h ⊢; omega)
        have h3 := ih xs ys (by simp at h ⊢; omega)
        have hcase : lev (x :: xs) (y :: ys) = lev xs (y :: ys) + 1 ∨
            lev (x :: xs) (y :: ys) = lev (x :: xs) ys + 1 ∨
            lev (x :: xs) (y :: ys) = lev xs ys + if x = y then 0 else 1 := by
          rw [lev_cons]; omega
        rcases hcase with hc | hc | hc
        · rw [hc]
          exact .succ (.inr (.inl ⟨[], x, xs, rfl, rfl⟩)) h1
        · rw [hc]
          exact h2.snoc (.inl ⟨[], y, ys, rfl, rfl⟩)
        · rw [hc]
          by_cases hxy : x = y
          · rw [if_pos hxy, hxy]; exact h3.cons y
          · rw [if_neg hxy]
            exact .succ (.inr (.inr ⟨[], x, y, xs, rfl, rfl⟩)) (h3.cons y)

theorem Spec.Step.reverse {a b : Bytes} (h : Step a b) : Step a.reverse b.reverse := by
  rcases h with ⟨p, c, q, rfl, rfl⟩ | ⟨p, c, q, rfl, rfl⟩ | ⟨p, c, d, q, rfl, rfl⟩
  · exact .inl ⟨q.reverse, c, p.reverse, by simp, by simp⟩
  · exact .inr (.inl ⟨q.reverse, c, p.reverse, by simp, by simp⟩)
  · exact .inr (.inr ⟨q.reverse, c, d, p.reverse, by simp, by simp⟩)

theorem Spec.Edits.reverse {n : Nat} {a b : Bytes} (h : Edits n a b) : Edits n a.reverse b.reverse := by
  induction h with
  | zero => exact .zero
  | succ hs _ ih => exact .succ hs.reverse ih

theorem levenshtein_distance (a b : Bytes) : Distance a b (levenshtein a b) := by
  rw [levenshtein_eq]
  constructor
  · have := (lev_edits _ a.reverse b.reverse (Nat.le_refl _)).reverse
    simpa using this
  · intro m hm
    exact hm.reverse.lev_le

theorem distance_unique {a b : Bytes} {n m : Nat} (h1 : Distance a b n) (h2 : Distance a b m) : n = m :=
  Nat.le_antisymm (h1.2 _ h2.1) (h2.2 _ h1.1)

theorem distance_iff (a b : Bytes) (n : Nat) : Distance a b n ↔ n = levenshtein a b :=
  ⟨fun h => distance_unique h (levenshtein_distance a b), fun h => h ▸ levenshtein_distance a b⟩

/-! ### Lengths -/

theorem lev_length (n : Nat) : ∀ a b : Bytes, a.length + b.length ≤ n → b.length ≤ a.length + lev a b := by
  induction n with
  | zero => intro a b h; omega
  | succ n ih =>
    intro a b h
    cases a with
    | nil => simp [lev_nil]
    | cons x xs =>
      cases b with
      | nil => simp
      | cons y ys =>
        have h1 := ih xs (y :: ys) (by simp at h ⊢; omega)
        have h2 := ih (x :: xs) ys (by simp at h ⊢; omega)
        have h3 := ih xs ys (by simp at h ⊢; omega)
        rw [lev_cons]
        simp only [List.length_cons] at h1 h2 h3 ⊢
        split <;> omega

theorem lev_single (y : Byte) : ∀ a : Bytes, a ≠ [] → lev a [y] ≤ a.length := by
  intro a
  induction a with
  | nil => simp
  | cons x a ih =>
    intro _
    rw [lev_cons, lev_nil']
    have := lev_nil' a
    simp only [List.length_cons]
    split <;> omega

theorem levenshtein_length (a b : Bytes) : b.length ≤ a.length + levenshtein a b := by
  rw [levenshtein_eq]
  have := lev_length _ a.reverse b.reverse (Nat.le_refl _)
  simpa using this

theorem levenshtein_single (a : Bytes) (y : Byte) (h : a ≠ []) : levenshtein a [y] ≤ a.length := by
  rw [levenshtein_eq]
  have := lev_single y a.reverse (by simpa using h)
  simpa using this

theorem levenshtein_self (a : Bytes) : levenshtein a a = 0 := by rw [levenshtein_eq, lev_self]

theorem levenshtein_zero {a b : Bytes} (h : levenshtein a b = 0) : a = b := by
  have := (levenshtein_distance a b).1
  rw [h] at this
  cases this
  rfl

/-! ### Best match -/

/-- The state of the loop over the table. -/
def BestState (n : Bytes) (limit : Nat) (pre : List Bytes) (bd bl : Nat) (bm : Option Bytes) : Prop :=
  match bm with
  | none => bd = limit + 1 ∧ ∀ m ∈ pre, limit < levenshtein n m
  | some m => bd = levenshtein n m ∧ bl = m.length ∧ Best pre n limit m

theorem best_snoc {pre : List Bytes} {n m x : Bytes} {limit : Nat} (h : Best pre n limit m)
    (hx : levenshtein n m < levenshtein n x ∨ levenshtein n m = levenshtein n x ∧ m.length ≤ x.length) :
    Best (pre ++ [x]) n limit m := by
  obtain ⟨p, q, d, rfl, hd, hl, h1, h2⟩ := h
  rw [distance_iff] at hd
  refine ⟨p, q ++ [x], d, by simp, (distance_iff _ _ _).2 hd, hl, h1, ?_⟩
  intro m' hm' d' hd'
  rcases List.mem_append.1 hm' with h | h
  · exact h2 m' h d' hd'
  · rw [distance_iff] at hd'
    simp at h
    subst h
    rw [hd, hd']
    exact hx

theorem best_le {pre : List Bytes} {n m : Bytes} {limit : Nat} (h : Best pre n limit m) :
    levenshtein n m ≤ limit ∧ ∀ m' ∈ pre, levenshtein n m < levenshtein n m' ∨
      levenshtein n m = levenshtein n m' ∧ m.length ≤ m'.length := by
  obtain ⟨p, q, d, rfl, hd, hl, h1, h2⟩ := h
  rw [distance_iff] at hd
  subst hd
  refine ⟨hl, ?_⟩
  intro m' hm'
  rcases List.mem_append.1 hm' with h | h
  · rcases h1 m' h _ (levenshtein_distance _ _) with h | h
    · exact .inl h
    · exact .inr ⟨h.1, Nat.le_of_lt h.2⟩
  · rcases List.mem_cons.1 h with rfl | h
    · exact .inr ⟨rfl, Nat.le_refl _⟩
    · exact h2 m' h _ (levenshtein_distance _ _)

theorem best_new {pre : List Bytes} {n x : Bytes} {limit : Nat} (hl : levenshtein n x ≤ limit)
    (h : ∀ m ∈ pre, levenshtein n x < levenshtein n m ∨
      levenshtein n x = levenshtein n m ∧ x.length < m.length) : Best (pre ++ [x]) n limit x := by
  refine ⟨pre, [], _, rfl, levenshtein_distance _ _, hl, ?_, by simp⟩
  intro m' hm' d' hd'
  rw [distance_iff] at hd'
  subst hd'
  exact h m' hm'

theorem bestLoop_spec (n : Bytes) (limit : Nat) : ∀ (es : List Entry) (pre : List Bytes) bd bl bm,
    BestState n limit pre bd bl bm →
    ∃ bd' bl', BestState n limit (pre ++ es.map (·.name)) bd' bl' (bestLoop n limit bd bl bm es) := by
  intro es
  induction es with
  | nil => intro pre bd bl bm h; exact ⟨bd, bl, by simpa [bestLoop] using h⟩
  | cons e es ih =>
    intro pre bd bl bm h
    have hpre : pre ++ (e :: es).map (·.name) = (pre ++ [e.name]) ++ es.map (·.name) := by simp
    rw [hpre]
    simp only [bestLoop]
    by_cases hd : levenshtein n e.name ≤ limit
    · rw [if_pos hd]
      by_cases hb : levenshtein n e.name < bd ∨ levenshtein n e.name = bd ∧ e.name.length < bl
      · rw [if_pos hb]
        refine ih _ _ _ _ ⟨rfl, rfl, best_new hd ?_⟩
        cases bm with
        | none =>
          intro m hm
          have := h.2 m hm
          left; omega
        | some m0 =>
          obtain ⟨h1, h2, h3⟩ := h
          have h4 := (best_le h3).2
          intro m hm
          have := h4 m hm
          omega
      · rw [if_neg hb]
        cases bm with
        | none =>
          exfalso
          have := h.1
          omega
        | some m0 =>
          obtain ⟨h1, h2, h3⟩ := h
          refine ih _ _ _ _ ⟨h1, h2, best_snoc h3 ?_⟩
          omega
    · rw [if_neg hd]
      cases bm with
      | none =>
        refine ih _ _ _ _ ⟨h.1, ?_⟩
        intro m hm
        rcases List.mem_append.1 hm with hm | hm
        · exact h.2 m hm
        · simp at hm; subst hm; omega
      | some m0 =>
        obtain ⟨h1, h2, h3⟩ := h
        refine ih _ _ _ _ ⟨h1, h2, best_snoc h3 ?_⟩
        have := (best_le h3).1
        left; omega

theorem find_split {tab : List Entry} {n : Bytes} {e : Entry} (h : find tab n = some e) :
    ∃ pre post, tab = pre ++ e :: post ∧ e.name = n ∧ ∀ e' ∈ pre, e'.name ≠ n := by
  unfold find at h
  obtain ⟨h1, pre, post, h2, h3⟩ := List.find?_eq_some_iff_append.1 h
  refine ⟨pre, post, h2, by simpa using h1, ?_⟩
  intro e' he'
  simpa using h3 e' he'

theorem find_none {tab : List Entry} {n : Bytes} (h : find tab n = none) : n ∉ tab.map (·.name) := by
  unfold find at h
  rw [List.find?_eq_none] at h
  intro hm
  obtain ⟨e, he, hn⟩ := List.mem_map.1 hm
  exact absurd (by simpa using hn) (by simpa using h e he)

theorem best_spec (tab : List Entry) (name : Bytes) (limit : Nat) :
    match best tab name limit with
    | some m => Best (tab.map (·.name)) (normalize (name.take 63)) limit m
    | none => ∀ m ∈ tab.map (·.name), limit < levenshtein (normalize (name.take 63)) m := by
  unfold best
  simp only
  split
  · rename_i e hf
    split at hf
    · rename_i e' he'
      simp at hf
      subst hf
      obtain ⟨pre, post, h1, h2, h3⟩ := find_split he'
      rw [h2, h1]
      refine ⟨pre.map (·.name), post.map (·.name), 0, by simp [h2], ?_, by omega, ?_, ?_⟩
      · rw [distance_iff, levenshtein_self]
      · intro m' hm' d' hd'
        rw [distance_iff] at hd'
        obtain ⟨x, hx, rfl⟩ := List.mem_map.1 hm'
        left
        rcases Nat.eq_zero_or_pos d' with h | h
        · exfalso
          rw [h] at hd'
          exact h3 x hx (levenshtein_zero hd'.symm).symm
        · exact h
      · intro m' hm' d' hd'
        rw [distance_iff] at hd'
        rcases Nat.eq_zero_or_pos d' with h | h
        · right
          rw [h] at hd'
          rw [levenshtein_zero hd'.symm]
          exact ⟨h.symm, Nat.le_refl _⟩
        · exact .inl h
    · obtain ⟨bd, bl, hb⟩ := bestLoop_spec (normalize (name.take 63)) limit tab [] (limit + 1) (2 ^ 64 - 1) none
        ⟨rfl, by simp⟩
      rw [hf] at hb
      exact hb.2.2
  · rename_i hf
    split at hf
    · simp at hf
    · obtain ⟨bd, bl, hb⟩ := bestLoop_spec (normalize (name.take 63)) limit tab [] (limit + 1) (2 ^ 64 - 1) none
        ⟨rfl, by simp⟩
      rw [hf] at hb
      exact hb.2

/-! ### Texts -/

theorem candidate_some {sp name : Bytes} (h : IsName sp name) (rest : Bytes) :
    candidate sp (pattern name ++ rest) = some (name, rest) := by
  have he : pattern name ++ rest = c!":" :: (name ++ c!":" :: rest) := by simp [pattern]
  rw [he]
  unfold candidate
  simp only [if_pos, idx_append h.noColon]
  have h1 : name.length > 0 := List.length_pos_iff.2 h.nonempty
  have h2 := h.short
  have h3 : ¬ (name.any fun c => sp.contains c) = true := by
    rw [List.any_eq_true]
    rintro ⟨c, hc, hs⟩
    exact h.noBlank c hc (by simpa using hs)
  have hd : (name ++ c!":" :: rest).drop (name.length + 1) = rest := by
    rw [← List.drop_drop, List.drop_left]; rfl
  rw [List.take_left, hd, if_pos ⟨by omega, h1, h3⟩]

theorem candidate_spec {sp s name rest : Bytes} (h : candidate sp s = some (name, rest)) :
    s = pattern name ++ rest ∧ IsName sp name := by
  obtain ⟨h1, h2, h3, h4, h5⟩ := candidate_eq h
  exact ⟨by simp [h1, pattern], h2, by omega, h4, h5⟩

theorem candidate_none {sp s : Bytes} (h : candidate sp s = none) :
    ¬ ∃ name rest, IsName sp name ∧ s = pattern name ++ rest := by
  rintro ⟨name, rest, hn, rfl⟩
  rw [candidate_some hn] at h
  simp at h

theorem normalize_eq {name : Bytes} (h : c!":" ∉ name) : normalize name = folded name := by
  unfold normalize folded
  rw [List.filter_eq_self.2]
  intro c hc
  simp; rintro rfl; exact h hc

theorem take63 {name : Bytes} (h : name.length ≤ 48) : name.take 63 = name :=
  List.take_of_length_le (by omega)

theorem alignment_iff {name : Bytes} (h : c!":" ∉ name) : alignment name = true ↔ Align name := by
  unfold alignment Align
  rw [List.all_eq_true]
  constructor
  · intro h' c hc
    have := h' c hc
    simp at this
    rcases this with (h1 | h1) | h1
    · exact .inl h1
    · exact .inr h1
    · subst h1; exact absurd hc h
  · intro h' c hc
    rcases h' c hc with h1 | h1 <;> simp [h1]

theorem folded_length (name : Bytes) : (folded name).length = name.length := by simp [folded]

theorem pattern_length (name : Bytes) : (pattern name).length = name.length + 2 := by simp [pattern]

theorem copyIf_val {cap : Nat} {out p : Bytes} (h : out.length + p.length < cap) :
    copyIf cap out p = .val (out ++ p) := by
  unfold copyIf
  rw [if_pos (by omega), puts_val (by omega)]

theorem emitName_val {cap : Nat} {out name source : Bytes} (h : out.length + name.length + 2 ≤ cap) :
    emitName cap out name source = .val (out ++ pattern name) := by
  unfold emitName
  rw [if_pos (by omega), puts_val (by rw [pattern_length]; omega)]

theorem best_length {names : List Bytes} {n m : Bytes} {limit : Nat} (hn : n ≠ []) {x : Byte}
    (hx : [x] ∈ names) (h : Best names n limit m) : m.length ≤ 2 * n.length := by
  have h1 := (best_le h).2 [x] hx
  have h2 := levenshtein_single n x hn
  have h3 := levenshtein_length n m
  omega

theorem correctName_val {tab : List Entry} {x : Byte} (hx : [x] ∈ tab.map (·.name)) {cap : Nat}
    {out name : Bytes} (hn : IsName blanks name) (hcap : out.length + 2 * (name.length + 2) ≤ cap) :
    ∃ new, NewName (tab.map (·.name)) name new ∧ new.length ≤ 2 * name.length ∧
      correctName tab cap out name = .val (out ++ pattern new) := by
  have hpos : name.length > 0 := List.length_pos_iff.2 hn.nonempty
  unfold correctName
  by_cases ha : alignment name = true
  · rw [if_pos ha]
    exact ⟨name, .align ((alignment_iff hn.noColon).1 ha), by omega,
      copyIf_val (by rw [pattern_length]; omega)⟩
  · have ha' : ¬ Align name := fun h => ha ((alignment_iff hn.noColon).2 h)
    rw [if_neg ha, normalize_eq hn.noColon]
    have hb := best_spec tab name 4
    rw [take63 hn.short, normalize_eq hn.noColon] at hb
    split
    · rename_i e hf
      obtain ⟨pre, post, h1, h2, _⟩ := find_split hf
      refine ⟨folded name, .known ha' ?_, by rw [folded_length]; omega, emitName_val (by rw [folded_length]; omega)⟩
      rw [h1]; simp [h2]
    · rename_i hf
      have hnot := find_none hf
      split
      · rename_i m hm
        rw [hm] at hb
        have hne : folded name ≠ [] := by
          intro h
          have := congrArg List.length h
          rw [folded_length] at this
          simp at this
          exact hn.nonempty this
        have hl := best_length hne hx hb
        rw [folded_length] at hl
        exact ⟨m, .best ha' hnot hb, hl, emitName_val (name := m) (by omega)⟩
      · rename_i hm
        rw [hm] at hb
        refine ⟨name, .unknown ha' hnot ?_, by omega, copyIf_val (by rw [pattern_length]; omega)⟩
        rintro ⟨m, hm'⟩
        have := (best_le hm').1
        have hmem : m ∈ tab.map (·.name) := by
          obtain ⟨p, q, _, h, _⟩ := hm'; rw [h]; simp
        have := hb m hmem
        omega

theorem correctLoop_val {tab : List Entry} {x : Byte} (hx : [x] ∈ tab.map (·.name)) {cap : Nat} (n : Nat) :
    ∀ s : Bytes, s.length ≤ n → ∀ out : Bytes, out.length + 2 * s.length ≤ cap →
    (s = [] → out.length < cap) →
    ∃ o, Corrected (tab.map (·.name)) s o ∧ correctLoop tab cap out s = .val (out ++ o) := by
  induction n with
  | zero =>
    intro s hs out _ h2
    have : s = [] := by simpa using hs
    subst this
    refine ⟨[], .nil, ?_⟩
    unfold correctLoop
    rw [finish_val (h2 rfl), List.append_nil]
  | succ n ih =>
    intro s hs out h1 h2
    cases s with
    | nil =>
      refine ⟨[], .nil, ?_⟩
      unfold correctLoop
      rw [finish_val (h2 rfl), List.append_nil]
    | cons c t =>
      unfold correctLoop
      split
      · rename_i name rest hc
        obtain ⟨he, hn⟩ := candidate_spec hc
        have hlen : (c :: t).length = name.length + 2 + rest.length := by
          rw [he]; simp [pattern_length]
        have hpos : name.length > 0 := List.length_pos_iff.2 hn.nonempty
        obtain ⟨new, hnew, hl, hv⟩ := correctName_val hx (cap := cap) (out := out) hn (by omega)
        obtain ⟨o, ho, hv'⟩ := ih rest (by omega) (out ++ pattern new)
          (by rw [List.length_append, pattern_length]; omega)
          (by intro h; rw [List.length_append, pattern_length]; omega)
        refine ⟨pattern new ++ o, ?_, ?_⟩
        · rw [he]; exact .name hn hnew ho
        · rw [hv, C.val_bind, hv', List.append_assoc]
      · rename_i hc
        have hb : copyByte cap out c = .val (out ++ [c]) := by
          simp only [List.length_cons] at h1
          unfold copyByte
          rw [if_pos (by omega), put_val (by omega)]
        simp only [List.length_cons] at h1 hs
        obtain ⟨o, ho, hv'⟩ := ih t (by omega) (out ++ [c]) (by simp; omega) (by intro _; simp; omega)
        exact ⟨c :: o, .byte (candidate_none hc) ho, by rw [hb, C.val_bind, hv']; simp⟩

/-! ### Replacement in running text -/

theorem picture_iff {tab : List Entry} {name : Bytes} (hn : IsName blanks4 name) (u : Bytes) :
    Picture tab name u ↔ (alignment name = true ∧ u = pattern name) ∨
      (alignment name = false ∧ (find tab (normalize (name.take 63))).bind (·.unicode) = some u) := by
  rw [take63 hn.short, normalize_eq hn.noColon]
  constructor
  · intro h
    cases h with
    | align ha => exact .inl ⟨(alignment_iff hn.noColon).2 ha, rfl⟩
    | @emoji pre post e _ ha h1 h2 h3 h4 =>
      refine .inr ⟨?_, ?_⟩
      · cases hb : alignment name with
        | false => rfl
        | true => exact absurd ((alignment_iff hn.noColon).1 hb) ha
      · have : find tab (folded name) = some e := by
          unfold find
          rw [List.find?_eq_some_iff_append]
          refine ⟨by simpa using h2, pre, post, h1, ?_⟩
          intro e' he'
          simpa using h3 e' he'
        rw [this]
        exact h4
  · rintro (⟨ha, rfl⟩ | ⟨ha, hu⟩)
    · exact .align ((alignment_iff hn.noColon).1 ha)
    · rw [Option.bind_eq_some_iff] at hu
      obtain ⟨e, hf, hu⟩ := hu
      obtain ⟨pre, post, h1, h2, h3⟩ := find_split hf
      refine .emoji ?_ h1 h2 h3 hu
      intro h
      rw [(alignment_iff hn.noColon).2 h] at ha
      simp at ha

theorem textLoop_step {tab : List Entry} {cap : Nat} {out : Bytes} {c : Byte} {t name rest : Bytes}
    (h : candidate blanks4 (c :: t) = some (name, rest)) :
    textLoop tab cap out (c :: t) =
      match textPiece tab cap out name with
      | some o => o >>= fun o => textLoop tab cap o rest
      | none => copyByte cap out c >>= fun o => textLoop tab cap o t := by
  conv => lhs; unfold textLoop
  split
  · rename_i n r hc
    rw [h] at hc
    simp only [Option.some.injEq, Prod.mk.injEq] at hc
    obtain ⟨rfl, rfl⟩ := hc
    rfl
  · rename_i hc; rw [h] at hc; simp at hc

theorem textLoop_byte {tab : List Entry} {cap : Nat} {out : Bytes} {c : Byte} {t : Bytes}
    (h : candidate blanks4 (c :: t) = none) :
    textLoop tab cap out (c :: t) = copyByte cap out c >>= fun o => textLoop tab cap o t := by
  conv => lhs; unfold textLoop
  split
  · rename_i n r hc; rw [h] at hc; simp at hc
  · rfl

theorem copyByte_val {cap : Nat} {out : Bytes} {c : Byte} (h : out.length < cap) :
    copyByte cap out c = .val (out ++ [c]) := by
  unfold copyByte
  rw [if_pos (by omega), put_val h]

theorem textLoop_val {tab : List Entry} {cap : Nat} {s o : Bytes} (h : Replaced tab s o) :
    ∀ out : Bytes, out.length + o.length < cap → textLoop tab cap out s = .val (out ++ o) := by
  induction h with
  | nil =>
    intro out hc
    unfold textLoop
    simp only [List.length_nil] at hc
    rw [if_pos (by omega), finish_val (by omega), List.append_nil]
  | @name name u rest o hn hp _ ih =>
    intro out hc
    simp only [List.length_append] at hc
    have hcand := candidate_some hn rest
    have he : pattern name ++ rest = c!":" :: (name ++ [c!":"] ++ rest) := by simp [pattern]
    rw [he] at hcand ⊢
    rw [textLoop_step hcand]
    have hpiece : textPiece tab cap out name = some (.val (out ++ u)) := by
      unfold textPiece
      rcases (picture_iff hn u).1 hp with ⟨ha, rfl⟩ | ⟨ha, hu⟩
      · rw [if_pos ha, if_pos (by omega), puts_val (by omega)]
      · rw [ha, hu]
        simp only [Bool.false_eq_true, if_false]
        rw [if_pos (by omega), puts_val (by omega)]
    rw [hpiece]
    simp only [C.val_bind]
    rw [ih _ (by simp; omega), List.append_assoc]
  | @byte c t o hno _ ih =>
    intro out hc
    simp only [List.length_cons] at hc
    have hcopy := copyByte_val (cap := cap) (out := out) (c := c) (by omega)
    have hrest : textLoop tab cap (out ++ [c]) t = .val (out ++ c :: o) := by
      rw [ih _ (by simp; omega)]; simp
    cases hcand : candidate blanks4 (c :: t) with
    | none => rw [textLoop_byte hcand, hcopy, C.val_bind, hrest]
    | some r =>
      obtain ⟨name, rest⟩ := r
      obtain ⟨he, hn⟩ := candidate_spec hcand
      have hpic : ∀ u, ¬ Picture tab name u := fun u hu => hno ⟨name, u, rest, hn, hu, he⟩
      rw [textLoop_step hcand]
      have hpiece : textPiece tab cap out name = none := by
        unfold textPiece
        cases ha : alignment name with
        | true => exact absurd ((picture_iff hn _).2 (.inl ⟨ha, rfl⟩)) (hpic _)
        | false =>
          cases hu : (find tab (normalize (name.take 63))).bind (·.unicode) with
          | none => rfl
          | some u => exact absurd ((picture_iff hn _).2 (.inr ⟨ha, hu⟩)) (hpic _)
      rw [hpiece]
      simp only [hcopy, C.val_bind, hrest]

theorem replaced_exists (tab : List Entry) (n : Nat) : ∀ s : Bytes, s.length ≤ n → ∃ o, Replaced tab s o := by
  induction n with
  | zero => intro s hs; have : s = [] := by simpa using hs
            subst this; exact ⟨[], .nil⟩
  | succ n ih =>
    intro s hs
    cases s with
    | nil => exact ⟨[], .nil⟩
    | cons c t =>
      by_cases h : ∃ name u rest, IsName blanks4 name ∧ Picture tab name u ∧ c :: t = pattern name ++ rest
      · obtain ⟨name, u, rest, hn, hp, he⟩ := h
        have : (c :: t).length = name.length + 2 + rest.length := by rw [he]; simp [pattern_length]
        obtain ⟨o, ho⟩ := ih rest (by omega)
        exact ⟨u ++ o, he ▸ .name hn hp ho⟩
      · obtain ⟨o, ho⟩ := ih t (by simp at hs; omega)
        exact ⟨c :: o, .byte h ho⟩

/-- No undefined behaviour, whatever the text. -/
theorem textLoop_safe (tab : List Entry) (cap : Nat) (n : Nat) : ∀ s : Bytes, s.length ≤ n →
    ∀ out : Bytes, out.length ≤ cap → ∃ r, textLoop tab cap out s = .val r := by
  have hcb : ∀ (out : Bytes) c, out.length ≤ cap → ∃ o, copyByte cap out c = .val o ∧ o.length ≤ cap := by
    intro out c h
    unfold copyByte
    split
    · exact ⟨out ++ [c], put_val (by omega), by simp; omega⟩
    · exact ⟨out, rfl, h⟩
  induction n with
  | zero =>
    intro s hs out ho
    have : s = [] := by simpa using hs
    subst this
    unfold textLoop
    split
    · exact ⟨out, finish_val (by omega)⟩
    · exact ⟨_, rfl⟩
  | succ n ih =>
    intro s hs out ho
    cases s with
    | nil =>
      unfold textLoop
      split
      · exact ⟨out, finish_val (by omega)⟩
      · exact ⟨_, rfl⟩
    | cons c t =>
      obtain ⟨o1, ho1, hl1⟩ := hcb out c ho
      have ht := ih t (by simp at hs; omega)
      cases hcand : candidate blanks4 (c :: t) with
      | none => rw [textLoop_byte hcand, ho1, C.val_bind]; exact ht _ hl1
      | some r =>
        obtain ⟨name, rest⟩ := r
        obtain ⟨he, hn⟩ := candidate_spec hcand
        have hlen : (c :: t).length = name.length + 2 + rest.length := by
          rw [he]; simp [pattern_length]
        have hr := ih rest (by omega)
        rw [textLoop_step hcand]
        unfold textPiece
        split
        · rename_i o ho'
          split at ho'
          · split at ho'
            · rw [puts_val (by omega)] at ho'
              simp only [Option.some.injEq] at ho'
              subst ho'
              rw [C.val_bind]
              exact hr _ (by simp; omega)
            · simp only [Option.some.injEq] at ho'
              subst ho'
              rw [C.val_bind]
              exact hr _ ho
          · split at ho'
            · split at ho'
              · rw [puts_val (by omega)] at ho'
                simp only [Option.some.injEq] at ho'
                subst ho'
                rw [C.val_bind]
                exact hr _ (by simp; omega)
              · simp at ho'
            · simp at ho'
        · rw [ho1, C.val_bind]
          exact ht _ hl1

end Verif.Emoji
