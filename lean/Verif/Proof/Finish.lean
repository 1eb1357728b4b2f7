/- Lemmas about the end of the work. -/
import Verif.Model.Finish
import Verif.Spec.Finish

namespace Verif.Finish

theorem override_eq (w : Int) : (0 < w ∧ override w = w) ∨ (w ≤ 0 ∧ override w = 0) := by
  unfold override
  split <;> omega

theorem effective_width {w tw : Int} {o : Option Nat} (h : Width w tw o) : effective w tw = ((o.getD 0 : Nat) : Int) ∧ (∀ n ∈ o, 0 < n) := by
  have ho := override_eq w
  unfold effective
  cases h with
  | line n h hn =>
    refine ⟨?_, fun m hm => by cases hm; exact hn⟩
    rw [Option.getD_some, if_pos (by omega)]
    omega
  | metadata n h ht hn =>
    refine ⟨?_, fun m hm => by cases hm; exact hn⟩
    rw [Option.getD_some, if_neg (by omega), if_pos (by omega)]
    exact ht
  | none h ht =>
    refine ⟨?_, fun m hm => by cases hm⟩
    rw [Option.getD_none, if_neg (by omega), if_neg (by omega)]
    rfl

/-- There is always one answer. -/
theorem width_total (w tw : Int) : ∃ o, Width w tw o := by
  by_cases h : 0 < w
  · exact ⟨some w.toNat, .line _ (by omega) (by omega)⟩
  · by_cases ht : 0 < tw
    · exact ⟨some tw.toNat, .metadata _ (by omega) (by omega) (by omega)⟩
    · exact ⟨none, .none (by omega) (by omega)⟩

theorem final_width {w tw : Int} {n : Nat} {f : Format} (html : Bytes) (hf : f = .terminal ∨ f = .terminal256) (h : Width w tw (some n)) :
    final f w tw html = Wrap.wrap html n := by
  obtain ⟨h1, h2⟩ := effective_width h
  rw [Option.getD_some] at h1
  have := h2 n rfl
  rw [final, if_pos hf, h1, if_pos (by omega), Int.toNat_natCast]

theorem final_same {w tw : Int} {f : Format} (html : Bytes) (h : f = .other ∨ Width w tw none) : final f w tw html = .val html := by
  rcases h with h | h
  · rw [final, h, if_neg (by decide)]
  · obtain ⟨h1, -⟩ := effective_width h
    rw [final, h1]
    split
    · rw [if_neg (by decide)]
    · rfl

end Verif.Finish
