/-
Specification for the headers of tables without a separator.
-/
import Verif.Spec.SepRows

namespace Verif.RelaxedHeads.Spec
open SepRows.Spec (Cell Row)

/-- What becomes of a page, whatever it is: bytes are kept, tags of a header become those of a body, an end of a header is
dropped with the beginning of the body behind it, and a whole header is dropped. -/
inductive Edited : Bytes → Bytes → Prop
  | nil : Edited [] []
  | keep {c s o} : Edited s o → Edited (c :: s) (c :: o)
  | tag {x y s o} : (x, y) ∈ [(b!"<thead>", b!"<tbody>"), (b!"<th>", b!"<td>"), (b!"<th ", b!"<td "), (b!"</th>", b!"</td>")] →
      Edited s o → Edited (x ++ s) (y ++ o)
  | close {s o} : Edited s o → Edited (b!"</thead>" ++ s) o
  | join {g s o} : (∀ c ∈ g, c ∈ b!" \n\t") → Edited s o → Edited (b!"</thead>" ++ g ++ b!"<tbody>" ++ s) o
  | drop {h s o} : ¬ b!"</thead>" <:+: h → Edited s o → Edited (b!"<thead>" ++ h ++ b!"</thead>" ++ s) o

/-- Header and body of a table: the header is one row, the body any number of rows; between them is white space. -/
structure Part where
  before : Bytes
  head : Row
  behind : Bytes
  between : Bytes
  rows : List (Bytes × Row)
  last : Bytes

def Part.body (p : Part) : Bytes := p.rows.flatMap (fun x => x.1 ++ x.2.html) ++ p.last ++ b!"</tbody>"

def Part.html (p : Part) : Bytes :=
  b!"<thead>" ++ p.before ++ p.head.html ++ p.behind ++ b!"</thead>" ++ p.between ++ b!"<tbody>" ++ p.body

/-- Headers and bodies as the renderer writes them. -/
structure Part.Ok (p : Part) : Prop where
  before : c!"<" ∉ p.before
  head : p.head.Ok
  cells : ∀ x ∈ p.head.cells, x.2.head = true ∧ (x.2.attrs = [] ∨ ∃ a, x.2.attrs = c!" " :: a)
  tags : ∀ x ∈ [b!"<thead>", b!"</thead>", b!"<tbody>"], ¬ x <:+: p.head.body
  behind : c!"<" ∉ p.behind
  between : ∀ c ∈ p.between, c ∈ b!" \n\t"
  rows : ∀ x ∈ p.rows, c!"<" ∉ x.1 ∧ x.2.Ok ∧ ∀ y ∈ [b!"<thead>", b!"</tbody>"], ¬ y <:+: x.2.body
  last : c!"<" ∉ p.last

/-- A header that was only made up: it has cells, and there is nothing but white space in them. -/
def Part.Empty (p : Part) : Prop := p.head.cells ≠ [] ∧ ∀ x ∈ p.head.cells, ∀ c ∈ x.2.text, c ∈ b!" \t\n\r" ∨ c = 11 ∨ c = 12

/-- A row of the body that is a separator. -/
def Part.Separated (p : Part) : Prop := ∃ x ∈ p.rows, ¬ x.2.Holds

/-- The row with data cells instead of heading cells. -/
def asData (r : Row) : Row := ⟨r.cells.map fun x => (x.1, ⟨false, x.2.attrs, x.2.text⟩), r.last⟩

/-- What becomes of a header: one without text goes, one with a separator in the body stays, any other becomes the first
row of the body. -/
inductive Becomes (p : Part) : Bytes → Prop
  | gone : p.Empty → Becomes p (p.between ++ b!"<tbody>" ++ p.body)
  | stays : ¬ p.Empty → p.Separated → Becomes p p.html
  | data : ¬ p.Empty → ¬ p.Separated → Becomes p (b!"<tbody>" ++ p.before ++ (asData p.head).html ++ p.behind ++ p.body)

/-- A page: parts, each with the text before it, and the text behind the last. -/
def page (l : List (Bytes × Part)) (tail : Bytes) : Bytes := l.flatMap (fun x => x.1 ++ x.2.html) ++ tail

def plain (s : Bytes) : Prop := ¬ b!"<thead>" <:+: s

inductive Done : List (Bytes × Part) → Bytes → Bytes → Prop
  | nil {tail} : Done [] tail tail
  | cons {a p l tail x o} : Becomes p x → Done l tail o → Done ((a, p) :: l) tail (a ++ x ++ o)

end Verif.RelaxedHeads.Spec
