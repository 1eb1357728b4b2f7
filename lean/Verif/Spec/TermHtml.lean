/- What is meant by the text of a block of HTML. -/
import Verif.Basic

namespace Verif.Term.Html

/-- A block of HTML is text and tags. -/
inductive Piece
  | text (t : Bytes)
  | tag (t : Bytes)

/-- A piece as it is written. -/
def Piece.src : Piece → Bytes
  | .text t => t
  | .tag t => b!"<" ++ t ++ b!">"

/-- Text has no `<`, a tag ends with the first `>`. -/
def Piece.Ok : Piece → Prop
  | .text t => c!"<" ∉ t
  | .tag t => c!">" ∉ t

/-- What a reader sees of a piece. -/
def Piece.seen : Piece → Bytes
  | .text t => t
  | .tag _ => []

/-- A text without white space. -/
def ink (t : Bytes) : Bytes := t.filter fun c => c ≠ c!" " ∧ c ≠ c!"\t" ∧ c ≠ c!"\n"

end Verif.Term.Html
