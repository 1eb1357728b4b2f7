import Verif.Model.LatexMath

namespace Verif.LatexMath.Spec

/-- `\(body\)` or `\[body\]`. -/
def written (display : Bool) (body : Bytes) : Bytes := if display then b!"\\[" ++ body ++ b!"\\]" else b!"\\(" ++ body ++ b!"\\)"

/-- Math in HTML. -/
def shown (display : Bool) (body : Bytes) : Bytes :=
  (if display then b!"<span class=\"math display\">" else b!"<span class=\"math inline\">") ++ written display body ++ b!"</span>"

/-- A text that ends at the first `\)` or `\]`. -/
def Ends (display : Bool) (body : Bytes) : Prop := ∀ a b, body ++ b!"\\" ≠ a ++ (if display then b!"\\]" else b!"\\)") ++ b

/-- Letters, digits, operators and blanks. -/
def usual : Bytes := b!"abcdefghijklmnopqrstuvwxyzABCDEFGHIJKLMNOPQRSTUVWXYZ0123456789+-*/=^_ .,()\\"

end Verif.LatexMath.Spec
