import Verif.Model.DropBuf

namespace Verif.DropBuf

/-- Everything fits: tokens without requests for room. -/
theorem fold_fits {cap : Nat} : ∀ (ts : List Tok) (out : Bytes), (∀ t ∈ ts, ∀ n e, t ≠ .reserve n e) →
    out.length + (ts.flatMap Tok.out).length < cap →
    ts.foldl St.write { cap := cap, out := out } = { cap := cap, out := out ++ ts.flatMap Tok.out } := by
  intro ts
  induction ts with
  | nil => intro out _ _; simp
  | cons t ts ih =>
    intro out hr h
    rw [List.foldl_cons, List.flatMap_cons]
    rw [List.flatMap_cons, List.length_append] at h
    have ht : St.write { cap := cap, out := out } t = { cap := cap, out := out ++ t.out } := by
      cases t with
      | byte c => simp only [St.write, Tok.out] at *; rw [if_pos (by simp at h; omega)]
      | chunk w => simp only [St.write, Tok.out] at *; rw [if_pos (by omega)]
      | reserve n e => exact absurd rfl (hr _ (by simp) n e)
    rw [ht, ih _ (fun t h => hr t (by simp [h])) (by rw [List.length_append]; omega), List.append_assoc]

theorem run_fits {cap : Nat} {ts : List Tok} (hr : ∀ t ∈ ts, ∀ n e, t ≠ .reserve n e)
    (h : (ts.flatMap Tok.out).length < cap) : run cap ts = .val (ts.flatMap Tok.out) := by
  unfold run
  rw [fold_fits ts [] hr (by simpa using h)]
  simp only [List.nil_append]
  exact finish_val h

/-- Without requests for room the capacity stays, and is never exceeded. -/
theorem fold_length {cap : Nat} (ts : List Tok) (out : Bytes) (hr : ∀ t ∈ ts, ∀ n e, t ≠ .reserve n e)
    (ho : out.length ≤ cap) :
    (ts.foldl St.write { cap := cap, out := out }).cap = cap ∧
    (ts.foldl St.write { cap := cap, out := out }).out.length ≤ cap := by
  induction ts generalizing out with
  | nil => exact ⟨rfl, ho⟩
  | cons t ts ih =>
    rw [List.foldl_cons]
    have hr' : ∀ t ∈ ts, ∀ n e, t ≠ .reserve n e := fun t h => hr t (by simp [h])
    cases t with
    | byte c =>
      simp only [St.write]
      split
      · exact ih _ hr' (by simp; omega)
      · exact ih _ hr' ho
    | chunk w =>
      simp only [St.write]
      split
      · exact ih _ hr' (by simp; omega)
      · exact ih _ hr' ho
    | reserve n e => exact absurd rfl (hr _ (by simp) n e)

/-- Requests for room never take any away. -/
theorem fold_room : ∀ (ts : List Tok) (cap : Nat) (out : Bytes), (∀ t ∈ ts, ∀ n e, t = .reserve n e → n ≤ e) →
    out.length + (ts.flatMap Tok.out).length < cap →
    ∃ cap', out.length + (ts.flatMap Tok.out).length < cap' ∧
      ts.foldl St.write { cap := cap, out := out } = { cap := cap', out := out ++ ts.flatMap Tok.out } := by
  intro ts
  induction ts with
  | nil => intro cap out _ h; exact ⟨cap, h, by simp⟩
  | cons t ts ih =>
    intro cap out hr h
    rw [List.foldl_cons, List.flatMap_cons]
    rw [List.flatMap_cons, List.length_append] at h
    obtain ⟨cap1, h1, ht⟩ : ∃ cap1, cap ≤ cap1 ∧ St.write { cap := cap, out := out } t = { cap := cap1, out := out ++ t.out } := by
      cases t with
      | byte c => simp only [St.write, Tok.out] at *; rw [if_pos (by simp at h; omega)]; exact ⟨_, Nat.le_refl _, rfl⟩
      | chunk w => simp only [St.write, Tok.out] at *; rw [if_pos (by omega)]; exact ⟨_, Nat.le_refl _, rfl⟩
      | reserve n e =>
        have := hr _ (by simp) n e rfl
        simp only [St.write, Tok.out, List.append_nil] at *
        split
        · exact ⟨_, by omega, rfl⟩
        · exact ⟨_, Nat.le_refl _, rfl⟩
    obtain ⟨cap', h2, h3⟩ := ih cap1 (out ++ t.out) (fun t h => hr t (by simp [h])) (by rw [List.length_append]; omega)
    refine ⟨cap', ?_, ?_⟩
    · rw [List.length_append] at h2 ⊢; omega
    · rw [ht, h3, List.append_assoc]

theorem run_room {cap : Nat} {ts : List Tok} (hr : ∀ t ∈ ts, ∀ n e, t = .reserve n e → n ≤ e)
    (h : (ts.flatMap Tok.out).length < cap) : run cap ts = .val (ts.flatMap Tok.out) := by
  obtain ⟨cap', h1, h2⟩ := fold_room ts cap [] hr (by simpa using h)
  unfold run
  rw [h2]
  simp only [List.nil_append]
  exact finish_val (by simpa using h1)

end Verif.DropBuf
