/-
Specification for removing separator rows from tables.
-/
import Verif.Basic

namespace Verif.SepRows.Spec

/-- `o` is `s` without some of its rows. -/
inductive Less : Bytes → Bytes → Prop
  | nil : Less [] []
  | keep {c s o} : Less s o → Less (c :: s) (c :: o)
  | row {body s o} : ¬ b!"</tr>" <:+: body → Less s o → Less (b!"<tr>" ++ body ++ b!"</tr>" ++ s) o

/-- What may stand in a separator besides its dashes: white space and the bars of a row. -/
def filling : List Bytes := [b!" ", b!"\t", b!"\n", b!"\r", b!"|"]

/-- What a separator is made of: dashes, also as the typographic em dash, and the colons of an alignment. -/
def strokes : List Bytes := [b!"-", b!":", [0xE2, 0x80, 0x94]]

/-- The text of a separator cell: strokes and filling, and at least one stroke. -/
def Dashy (s : Bytes) : Prop :=
  ∃ l : List Bytes, s = l.flatten ∧ (∀ x ∈ l, x ∈ filling ∨ x ∈ strokes) ∧ ∃ x ∈ l, x ∈ strokes

/-- A cell of a table: heading or not, its attributes and its text. -/
structure Cell where
  head : Bool
  attrs : Bytes
  text : Bytes

def Cell.html (c : Cell) : Bytes :=
  if c.head then b!"<th" ++ c.attrs ++ b!">" ++ c.text ++ b!"</th>" else b!"<td" ++ c.attrs ++ b!">" ++ c.text ++ b!"</td>"

/-- A cell as the renderer writes it: no table in it. -/
def Cell.Ok (c : Cell) : Prop := c!">" ∉ c.attrs ∧ ∀ x ∈ [b!"<td", b!"<th", b!"</td>", b!"</th>"], ¬ x <:+: c.text

/-- A row: its cells, each with the white space before it, and white space at the end. -/
structure Row where
  cells : List (Bytes × Cell)
  last : Bytes

def Row.body (r : Row) : Bytes := r.cells.flatMap (fun x => x.1 ++ x.2.html) ++ r.last

def Row.html (r : Row) : Bytes := b!"<tr>" ++ r.body ++ b!"</tr>"

def Row.Ok (r : Row) : Prop := (∀ x ∈ r.cells, c!"<" ∉ x.1 ∧ x.2.Ok) ∧ c!"<" ∉ r.last ∧
  ∀ x ∈ [b!"<tr>", b!"</tr>", b!"</table>"], ¬ x <:+: r.body

/-- A row that holds something. -/
def Row.Holds (r : Row) : Prop := ∃ x ∈ r.cells, ¬ Dashy x.2.text

/-- A table: `<table>` or `<table ` with attributes; rows, each with the text before it (attributes of the table, other
tags, rows with attributes); and the text at the end. -/
structure Table where
  attrs : Bool
  rows : List (Bytes × Row)
  last : Bytes

def Table.start (t : Table) : Bytes := if t.attrs then b!"<table " else b!"<table>"

def Table.html (t : Table) : Bytes := t.start ++ t.rows.flatMap (fun x => x.1 ++ x.2.html) ++ t.last ++ b!"</table>"

def plainIn (s : Bytes) : Prop := ∀ x ∈ [b!"<tr>", b!"</table>"], ¬ x <:+: s

def Table.Ok (t : Table) : Prop := (∀ x ∈ t.rows, plainIn x.1 ∧ x.2.Ok) ∧ plainIn t.last

/-- Rows without the separators; what is between the rows stays. -/
inductive Kept : List (Bytes × Row) → Bytes → Prop
  | nil : Kept [] []
  | keep {a r l o} : r.Holds → Kept l o → Kept ((a, r) :: l) (a ++ r.html ++ o)
  | drop {a r l o} : ¬ r.Holds → Kept l o → Kept ((a, r) :: l) (a ++ o)

/-- A page: tables, each with the text before it, and the text behind the last. -/
def page (l : List (Bytes × Table)) (tail : Bytes) : Bytes := l.flatMap (fun x => x.1 ++ x.2.html) ++ tail

def plainOut (s : Bytes) : Prop := ∀ x ∈ [b!"<table>", b!"<table "], ¬ x <:+: s

/-- A page without the separators. -/
inductive Clean : List (Bytes × Table) → Bytes → Bytes → Prop
  | nil {tail} : Clean [] tail tail
  | cons {a t l tail rows o} : Kept t.rows rows → Clean l tail o →
      Clean ((a, t) :: l) tail (a ++ (t.start ++ rows ++ t.last ++ b!"</table>") ++ o)

end Verif.SepRows.Spec
