/-
What math between dollar signs is.
-/
import Verif.Basic

namespace Verif.Math

/-- Blanks, tabs and line ends. -/
def Blank (c : Byte) : Prop := c = c!" " ∨ c = c!"\t" ∨ c = c!"\n"

/-- A text that begins with math: its body, and what follows. -/
inductive Begins : Bytes → Bool → Bytes → Bytes → Prop
  /-- Two dollar signs, text without two dollar signs, two dollar signs. -/
  | display {body rest : Bytes} : body ≠ [] → ¬ b!"$$" <:+: body → body.getLast? ≠ some c!"$" →
      Begins (b!"$$" ++ body ++ b!"$$" ++ rest) true body rest
  /-- A dollar sign, text that does not begin or end with a blank, in which dollar signs come behind backslashes, a dollar sign. -/
  | inline {body rest : Bytes} : (∀ c ∈ body.head?, ¬ Blank c ∧ c ≠ c!"$") → (∀ c ∈ body.getLast?, ¬ Blank c ∧ c ≠ c!"\\") → body ≠ [] →
      (∀ u v, body = u ++ c!"$" :: v → u.getLast? = some c!"\\") → Begins (b!"$" ++ body ++ b!"$" ++ rest) false body rest

/-- The HTML. -/
def html (display : Bool) (body : Bytes) : Bytes :=
  if display then b!"<span class=\"math display\">\\[" ++ body ++ b!"\\]</span>" else b!"<span class=\"math inline\">\\(" ++ body ++ b!"\\)</span>"

end Verif.Math
