import Verif.Model.SplitSimple
import Verif.Spec.Transforms

namespace Verif.SplitSimple.Spec

/-- Pieces with a text between them. -/
def between (d : Bytes) : List Bytes → Bytes
  | [] => []
  | [x] => x
  | x :: l => x ++ d ++ between d l

/-- A piece without bytes of `d`, and without white space at its ends. -/
def Piece (d x : Bytes) : Prop := x ≠ [] ∧ (∀ c ∈ x, c ∉ d) ∧ (∀ c, x.head? = some c → isSpace c = false) ∧ (∀ c, x.getLast? = some c → isSpace c = false)

end Verif.SplitSimple.Spec
