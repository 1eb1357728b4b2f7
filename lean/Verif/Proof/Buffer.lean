import Verif.Spec.Buffer

namespace Verif.Buffer
open Spec

theorem growIter_add (cap n : Nat) : growIter cap (n + 1) = growIter (cap * 2) n := by
  induction n with
  | zero => rfl
  | succ n ih => rw [growIter, ih, growIter]

/-- `growLoop` returns the first value of the loop body iteration that is large enough. -/
theorem growLoop_some (needed cap r : Nat) (h : growLoop needed cap = some r) :
    ∃ n, r = growIter cap n ∧ needed ≤ r ∧ ∀ m < n, growIter cap m < needed := by
  fun_induction growLoop needed cap with
  | case1 => cases h
  | case2 cap h1 h2 ih =>
    obtain ⟨n, h3, h4, h5⟩ := ih h
    refine ⟨n + 1, by rw [growIter_add]; exact h3, h4, ?_⟩
    intro m hm
    cases m with
    | zero => exact h1
    | succ m => rw [growIter_add]; exact h5 m (by omega)
  | case3 cap h1 => cases h; exact ⟨0, rfl, by omega, by omega⟩

/-- `growLoop` has no result exactly when the loop condition holds after every number of rounds. -/
theorem growLoop_none (needed cap : Nat) :
    growLoop needed cap = none ↔ ∀ n, growIter cap n < needed := by
  constructor
  · intro h
    fun_induction growLoop needed cap with
    | case1 h1 =>
      intro n
      have : growIter 0 n = 0 := by
        induction n with
        | zero => rfl
        | succ n ih => simp [growIter, ih]
      omega
    | case2 cap h1 h2 ih =>
      intro n
      cases n with
      | zero => exact h1
      | succ n => rw [growIter_add]; exact ih h n
    | case3 => cases h
  · intro h
    cases hg : growLoop needed cap with
    | none => rfl
    | some r =>
      obtain ⟨n, h1, h2, _⟩ := growLoop_some _ _ _ hg
      have := h n; omega

theorem growLoop_pos (needed cap : Nat) (h : 0 < cap) :
    ∃ r, growLoop needed cap = some r ∧ needed ≤ r ∧ cap ≤ r := by
  fun_induction growLoop needed cap with
  | case1 => omega
  | case2 cap h1 h2 ih => obtain ⟨r, h3, h4, h5⟩ := ih (by omega); exact ⟨r, h3, h4, by omega⟩
  | case3 cap h1 => exact ⟨cap, rfl, by omega, by omega⟩

theorem init_holds (cap : Nat) : ∃ b, init cap = .val b ∧ Holds b [] := by
  unfold init
  have hpos : 0 < (if cap = 0 then 256 else cap) := by split <;> omega
  generalize (if cap = 0 then 256 else cap) = c at hpos
  have h1 : 1 ≤ (List.replicate c (none : Option Byte)).length := by simp; omega
  refine ⟨_, by simp only [store, List.length_singleton, Nat.zero_add, h1, if_true]; rfl, ?_⟩
  refine ⟨_, rfl, ?_, rfl, ?_, hpos⟩
  · simp; omega
  · simp

theorem clear_holds (b : Buf) (t : Bytes) (h : Holds b t) :
    ∃ b', clear b = .val b' ∧ Holds b' [] := by
  obtain ⟨blk, h1, h2, h3, h4, h5⟩ := h
  have hl : 0 + 1 ≤ blk.length := by omega
  refine ⟨{ data := some (some 0 :: blk.drop 1), size := 0, capacity := b.capacity }, ?_, ?_⟩
  · simp [clear, h1, store, hl]
  · refine ⟨_, rfl, ?_, rfl, ?_, ?_⟩
    · simp; omega
    · simp
    · simp; omega

/-- Like `Holds`, without the terminating NUL. -/
def HoldsU (b : Buf) (t : Bytes) : Prop :=
  ∃ blk, b.data = some blk ∧ blk.length = b.capacity ∧ b.size = t.length ∧
    blk.take t.length = t.map some

theorem Spec.Holds.toU {b : Buf} {t : Bytes} (h : Holds b t) : HoldsU b t := by
  obtain ⟨blk, h1, h2, h3, h4, h5⟩ := h
  refine ⟨blk, h1, h2, h3, ?_⟩
  have := congrArg (List.take t.length) h4
  rw [List.take_take] at this
  simpa [Nat.min_eq_left] using this

/-- Growing the block keeps its contents. -/
theorem realloc_holdsU (b : Buf) (t : Bytes) (r : Nat) (h : HoldsU b t) (hr : b.capacity ≤ r)
    (hl : t.length ≤ b.capacity) :
    HoldsU { data := realloc b.data r, size := b.size, capacity := r } t := by
  obtain ⟨blk, h1, h2, h3, h4⟩ := h
  refine ⟨_, by simp only [realloc, h1]; rfl, ?_, h3, ?_⟩
  · simp; omega
  · rw [List.take_append_of_le_length (by simp; omega), List.take_take]
    rw [← h4]; congr 1; omega

/-- `memcpy` of the new bytes and the NUL after them, when there is room. -/
theorem write_holds (g : Buf) (t d : Bytes) (h : HoldsU g t)
    (hroom : t.length + d.length + 1 ≤ g.capacity) :
    ∃ d1 d2, store g.data g.size d = .val d1 ∧ store d1 (g.size + d.length) [0] = .val d2 ∧
      Holds { data := d2, size := g.size + d.length, capacity := g.capacity } (t ++ d) := by
  obtain ⟨blk, h1, h2, h3, ht⟩ := h
  have hs1 : store g.data g.size d =
      .val (some (t.map some ++ d.map some ++ blk.drop (t.length + d.length))) := by
    simp only [store, h1, h3]
    rw [if_pos (by omega), ht]
  have hs2 : store (some (t.map some ++ d.map some ++ blk.drop (t.length + d.length)))
      (g.size + d.length) [0] =
      .val (some ((t ++ d).map some ++ [some 0] ++ blk.drop (t.length + d.length + 1))) := by
    simp only [store, h3]
    rw [if_pos (by simp; omega)]
    have e1 : (t.map some ++ d.map some ++ blk.drop (t.length + d.length)).take
        (t.length + d.length) = (t ++ d).map some := by
      rw [List.take_append_of_le_length (by simp)]
      rw [List.take_of_length_le (by simp)]; simp
    have e2 : (t.map some ++ d.map some ++ blk.drop (t.length + d.length)).drop
        (t.length + d.length + 1) = blk.drop (t.length + d.length + 1) := by
      rw [List.drop_append]
      rw [List.drop_of_length_le (by simp)]
      simp
    rw [e1]; simp only [List.length_singleton, e2]; rfl
  refine ⟨_, _, hs1, hs2, _, rfl, ?_, ?_, ?_, ?_⟩
  · simp; omega
  · simp; omega
  · exact List.take_left' (by simp; omega)
  · simp; omega

theorem append_holds (b : Buf) (t d : Bytes) (h : Holds b t) :
    ∃ b', append b d = some (.val b') ∧ Holds b' (t ++ d) := by
  unfold append
  by_cases hd : d.length = 0
  · simp [List.length_eq_zero_iff.1 hd]; exact h
  · simp only [hd, if_false]
    -- the buffer after growth still holds `t` and has room
    have hg : ∃ g : Buf, ensure b (b.size + d.length + 1) = some g ∧ HoldsU g t ∧
        t.length + d.length + 1 ≤ g.capacity := by
      unfold ensure
      have hU := h.toU
      obtain ⟨blk, h1, h2, h3, h4, h5⟩ := h
      split
      · obtain ⟨r, hr, hr2, hr3⟩ := growLoop_pos (b.size + d.length + 1) b.capacity (by omega)
        exact ⟨_, by simp only [grow, hr], realloc_holdsU b t r hU hr3 (by omega), by simp; omega⟩
      · exact ⟨b, rfl, hU, by omega⟩
    obtain ⟨g, hg1, hg2, hroom⟩ := hg
    obtain ⟨d1, d2, hs1, hs2, hh⟩ := write_holds g t d hg2 hroom
    simp only [hg1, hs1, hs2]
    exact ⟨_, rfl, hh⟩

theorem step_holds (b : Buf) (t : Bytes) (op : Op) (h : Holds b t) :
    ∃ b', step b op = some (.val b') ∧ Holds b' (text t [op]) := by
  cases op with
  | append d => exact append_holds b t d h
  | appendStr s => exact append_holds b t _ h
  | appendChar c => exact append_holds b t [c] h
  | clear =>
    obtain ⟨b', h1, h2⟩ := clear_holds b t h
    exact ⟨b', by simp [step, h1], h2⟩

theorem run_holds (ops : List Op) (b : Buf) (t : Bytes) (h : Holds b t) :
    ∃ b', run b ops = some (.val b') ∧ Holds b' (text t ops) := by
  induction ops generalizing b t with
  | nil => exact ⟨b, rfl, h⟩
  | cons op ops ih =>
    obtain ⟨b1, h1, h2⟩ := step_holds b t op h
    obtain ⟨b2, h3, h4⟩ := ih b1 _ h2
    refine ⟨b2, by simp [run, h1, h3], ?_⟩
    cases op <;> exact h4

end Verif.Buffer
