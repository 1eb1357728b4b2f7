import Verif.Proof.LatexMath

namespace Verif.LatexMath
open Spec

/-! C261: math between `\(` and `\)` or `\[` and `\]` is shown as math. -/

/-- It is never shown as math: the extension does nothing at a backslash. -/
theorem C261_fails (s : Bytes) : extension (c!"\\" :: s) = none := by
  unfold extension matchInline dollar
  simp

theorem C261_written_fails (display : Bool) (body rest : Bytes) : extension (written display body ++ rest) = none := by
  cases display
  · exact C261_fails _
  · exact C261_fails _

/-- The function that is not called would do it, for a text with a letter, a digit or an operator. -/
theorem C261_partial {display : Bool} {body : Bytes} (h0 : body ≠ []) (h1 : Ends display body) (h2 : display = true ∨ ∃ c ∈ body, c ∈ usual) (rest : Bytes) :
    backslash c!"\\" (written display body ++ rest) = some (shown display body, rest) := by
  have hl : 0 < body.length := List.length_pos_iff.mpr h0
  cases display with
  | true =>
    have e : written true body ++ rest = c!"\\" :: c!"[" :: (body ++ c!"\\" :: c!"]" :: rest) := by simp [written]
    have hc := close_eq (e := c!"]") h1 rest
    unfold backslash scan
    rw [e, if_neg (by simp), if_neg (by simp; omega)]
    simp only
    rw [if_pos (by simp), hc]
    simp [h0, shown, written]
  | false =>
    have e : written false body ++ rest = c!"\\" :: c!"(" :: (body ++ c!"\\" :: c!")" :: rest) := by simp [written]
    have hc := close_eq (e := c!")") h1 rest
    have ha : body.any mathByte = true := by
      rcases h2 with h2 | ⟨c, hc, hu⟩
      · cases h2
      · exact List.any_eq_true.mpr ⟨c, hc, usual_ok c hu⟩
    unfold backslash scan
    rw [e, if_neg (by simp), if_neg (by simp; omega)]
    simp only
    rw [if_neg (by simp), if_pos (by simp), hc]
    simp [h0, ha, shown, written]

theorem C261_case : written false b!"x^2" ++ b!" is" = b!"\\(x^2\\) is" ∧
    backslash c!"\\" b!"\\(x^2\\) is" = some (b!"<span class=\"math inline\">\\(x^2\\)</span>", b!" is") ∧ extension b!"\\(x^2\\) is" = none ∧
    extension b!"$x^2$ is" = some (b!"<span class=\"math inline\">\\(x^2\\)</span>", b!" is") :=
  ⟨by decide, by decide +kernel, by decide +kernel, by decide +kernel⟩

/-- At a dollar sign the extension does what C125 says. -/
theorem C261_dollar (s : Bytes) : extension (c!"$" :: s) = Math.match' (c!"$" :: s) := by
  unfold extension matchInline dollar
  simp [special]

end Verif.LatexMath
