/- What becomes of the tables in a page, said without the program. -/
import Verif.Basic

namespace Verif.TableHtml.Spec

/-- A cell: the attributes of its tag, and what is in it. -/
structure Cell where
  attrs : Bytes
  text : Bytes

/-- A table as it is rendered: the attributes of its tag, the row of headers, and the rows below. -/
structure Table where
  attrs : Bytes
  head : List Cell
  body : List (List Cell)

/-- A cell of the header. -/
def Cell.th (c : Cell) : Bytes := b!"<th" ++ c.attrs ++ b!">" ++ c.text ++ b!"</th>\n"

/-- A cell of the body. -/
def Cell.td (c : Cell) : Bytes := b!"<td" ++ c.attrs ++ b!">" ++ c.text ++ b!"</td>\n"

/-- A row of the body. -/
def row (l : List Cell) : Bytes := b!"<tr>\n" ++ l.flatMap Cell.td ++ b!"</tr>\n"

/-- The body, if there is one. -/
def bodyOf (f : List Cell → Bytes) (l : List (List Cell)) : Bytes := if l.isEmpty then [] else b!"<tbody>\n" ++ l.flatMap f ++ b!"</tbody>\n"

/-- A table up to its last tag; `f` are the rows of the body. -/
def Table.upTo (t : Table) (f : List Cell → Bytes) : Bytes :=
  b!"<table" ++ t.attrs ++ b!">\n" ++ (b!"<thead>\n<tr>\n" ++ t.head.flatMap Cell.th ++ b!"</tr>\n</thead>\n") ++ bodyOf f t.body

/-- A table in the page. -/
def Table.html (t : Table) : Bytes := t.upTo row ++ b!"</table>\n"

/-- Is the first cell of the header blank? -/
def Table.headed (t : Table) : Bool := t.head.head?.any fun c => c.text.all isSpace

/-- A row whose first cell is a header of the row. -/
def headedRow : List Cell → Bytes
  | c :: l => b!"<tr>\n" ++ (b!"<th scope=\"row\">" ++ c.text ++ b!"</th>\n") ++ l.flatMap Cell.td ++ b!"</tr>\n"
  | [] => row []

/-- A piece of a page: text, a paragraph with the caption of a table, or a table. -/
inductive Piece
  | text (t : Bytes)
  | caption (c : Bytes)
  | table (t : Table)

/-- The page. -/
def Piece.html : Piece → Bytes
  | .text t => t
  | .caption c => b!"<p>[" ++ c ++ b!"]</p>\n"
  | .table t => t.html

/-- The text of a caption. -/
def escape : Bytes → Bytes
  | [] => []
  | c :: s =>
    (if c = c!"&" then b!"&amp;" else if c = c!"<" then b!"&lt;" else if c = c!">" then b!"&gt;" else if c = c!"\"" then b!"&quot;" else [c]) ++ escape s

/-- A table with its caption: in a figure, the caption above or below. -/
def figure (below : Bool) (c : Bytes) (t : Bytes) : Bytes :=
  if below then b!"<figure class=\"table-figure\">\n" ++ t ++ b!"</table>" ++ (b!"<figcaption>" ++ escape c ++ b!"</figcaption>\n") ++ b!"</figure>\n\n"
  else b!"<figure class=\"table-figure\">\n<figcaption>" ++ escape c ++ b!"</figcaption>\n" ++ t ++ b!"</table>" ++ b!"</figure>\n\n"

/-- The table as it should be; `n` is its number. -/
def Table.wanted (captions : List (Int × Bytes)) (below : Bool) (n : Nat) (t : Table) : Bytes :=
  let s := t.upTo (if t.headed && n < 50 then headedRow else row)
  match captions.lookup (n : Int) with
  | some c => figure below c s
  | none => s ++ b!"</table>\n"

/-- The page as it should be: paragraphs with captions are gone. -/
def wanted (captions : List (Int × Bytes)) (below : Bool) : Nat → List Piece → Bytes
  | _, [] => []
  | n, .text t :: l => t ++ wanted captions below n l
  | n, .caption _ :: l => b!"\n" ++ wanted captions below n l
  | n, .table t :: l => t.wanted captions below n ++ wanted captions below (n + 1) l

/-! ### Plain pages -/

/-- The cell is closed once, and there is no colon at either end of it. -/
def Cell.Plain (c : Cell) : Prop :=
  (c.attrs = [] ∨ c.attrs.head? = some c!" ") ∧ c!">" ∉ c.attrs ∧ ¬ b!"</td>" <:+: c.text ∧ ¬ b!"</th>" <:+: c.text ∧
    (c.text.dropWhile isSpace).head? ≠ some c!":" ∧ (c.text.reverse.dropWhile isSpace).head? ≠ some c!":"

/-- The first header has less than a hundred bytes. -/
def Table.Plain (t : Table) : Prop :=
  (t.attrs = [] ∨ t.attrs.head? = some c!" ") ∧ c!"<" ∉ t.attrs ∧ (∀ c ∈ t.head, c.Plain) ∧ (∀ r ∈ t.body, ∀ c ∈ r, c.Plain) ∧
    ∀ c, t.head.head? = some c → c.attrs.length < 17 ∧ c.attrs.length + c.text.length < 96

/-- The texts are different before one of them ends. -/
def differs : Bytes → Bytes → Bool
  | a :: s, b :: t => a != b || differs s t
  | _, _ => false

/-- No table begins or ends here, and no paragraph that looks like a caption. -/
def quiet : Bytes → Bool
  | [] => true
  | c :: s =>
    (c != c!"<" || (differs b!"<table" (c :: s) && differs b!"</table>" (c :: s) &&
      (differs b!"<p>" (c :: s) || (differs b!"[" ((s.drop 2).dropWhile isSpace) && differs b!"&lt;" ((s.drop 2).dropWhile isSpace) &&
        differs b!":" ((s.drop 2).dropWhile isSpace))))) && quiet s

/-- The paragraph of a caption is that of a table. -/
def Piece.Plain (captions : List (Int × Bytes)) : Piece → Prop
  | .text t => quiet t = true
  | .caption c => c ≠ [] ∧ c.length < 512 ∧ c!"]" ∉ c ∧ ¬ b!"</p>" <:+: c ∧ ∃ n, (n, c) ∈ captions
  | .table t => t.Plain

/-- Nothing in the page looks like a mark for joined cells. -/
def Unmarked (s : Bytes) : Prop := ¬ b!"^^" <:+: s ∧ ¬ b!"<<" <:+: s ∧ ¬ b!"&lt;&lt;" <:+: s

end Verif.TableHtml.Spec
