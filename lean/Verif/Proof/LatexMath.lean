import Verif.Spec.LatexMath

namespace Verif.LatexMath
open Spec

theorem close_eq {e : Byte} {body : Bytes} (h : ∀ a b, body ++ b!"\\" ≠ a ++ [c!"\\", e] ++ b) (r : Bytes) : close e (body ++ c!"\\" :: e :: r) = some (body, r) := by
  induction body with
  | nil => simp [close]
  | cons c s ih =>
    have ih' := ih (fun a b he => h (c :: a) b (by rw [List.cons_append, he]; simp))
    cases s with
    | nil =>
      simp only [List.nil_append] at ih'
      rw [List.cons_append, List.nil_append, close, if_neg, ih']
      · rfl
      · rintro ⟨rfl, he⟩
        exact h [] [] (by rw [← he]; rfl)
    | cons d s =>
      simp only [List.cons_append] at ih' ⊢
      rw [close, if_neg, ih']
      · rfl
      · rintro ⟨rfl, rfl⟩
        exact h [] (s ++ b!"\\") (by simp)

theorem usual_ok : ∀ c : Byte, c ∈ usual → mathByte c = true := by
  intro c
  exact of_decide_eq_true (forall_byte (p := fun c => decide (c ∈ usual → mathByte c = true)) (by decide +kernel) c)

end Verif.LatexMath
