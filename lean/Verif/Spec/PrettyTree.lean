/-
Specification for the layout of pretty-printed pages.
-/
import Verif.Spec.Pretty

namespace Verif.Pretty.Spec
open Transforms.Spec (White)

/-- The elements HTML sets as blocks, without preformatted text. -/
def blocks : List Bytes :=
  [b!"html", b!"head", b!"body", b!"div", b!"section", b!"article", b!"nav", b!"header", b!"footer", b!"main", b!"aside",
   b!"h1", b!"h2", b!"h3", b!"h4", b!"h5", b!"h6", b!"p", b!"blockquote", b!"ul", b!"ol", b!"li", b!"dl", b!"dt", b!"dd",
   b!"table", b!"thead", b!"tbody", b!"tfoot", b!"tr", b!"th", b!"td", b!"figure", b!"figcaption", b!"details", b!"summary"]

/-- The elements of a table that hold other elements and no text. -/
def tableParts : List Bytes := [b!"table", b!"thead", b!"tbody", b!"tfoot", b!"tr"]

/-- Texts and block elements, one after the other. A text may be followed by a line end, and so may each of the two tags of an
element. -/
inductive Forest
  | nil
  | text (x : Bytes) (brk : Bool) (rest : Forest)
  | elem (name attrs : Bytes) (brk1 : Bool) (kids : Forest) (brk2 : Bool) (rest : Forest)

/-- A line end, or nothing. -/
def lineEnd (brk : Bool) : Bytes := if brk then b!"\n" else []

/-- The page as the renderer writes it. -/
def Forest.html : Forest → Bytes
  | .nil => []
  | .text x b r => x ++ lineEnd b ++ r.html
  | .elem n w b1 k b2 r =>
    b!"<" ++ n ++ w ++ b!">" ++ lineEnd b1 ++ k.html ++ (b!"</" ++ n ++ b!">") ++ lineEnd b2 ++ r.html

/-- What follows begins with a row, or ends the body of a table. -/
def Forest.rowNext (p : Bytes) : Forest → Bool
  | .nil => p = b!"tbody"
  | .text _ _ _ => false
  | .elem n _ _ _ _ _ => n = b!"tr"

/-- The lines of the pretty-printed page: a line for every tag and every text, indented by two blanks for every element
around it. A line end behind a tag gives an empty line, except between the rows of a table and at the end of its body. -/
def Forest.lines (p : Bytes) (depth : Nat) : Forest → List Bytes
  | .nil => []
  | .text x _ r => (List.replicate (2 * depth) c!" " ++ x) :: r.lines p depth
  | .elem n w b1 k b2 r =>
    [List.replicate (2 * depth) c!" " ++ (b!"<" ++ n ++ w ++ b!">")] ++ (if b1 then [[]] else []) ++ k.lines n (depth + 1) ++
      [List.replicate (2 * depth) c!" " ++ (b!"</" ++ n ++ b!">")] ++
      (if b2 && !(n = b!"tr" && r.rowNext p) then [[]] else []) ++ r.lines p depth

/-- The page with these lines. -/
def unlines (ls : List Bytes) : Bytes := ls.flatMap (· ++ b!"\n")

/-- What stands between the name of an element and the `>`: nothing, or a blank and attributes. -/
def Attrs (w : Bytes) : Prop :=
  w = [] ∨ ∃ d r, w = c!" " :: d :: r ∧ ¬ White d ∧ d ≠ c!"/" ∧ c!">" ∉ w ∧ c!"\n" ∉ w

/-- Text on one line with elements of text in it, each with its closing tag. -/
inductive Inline : Bytes → Prop
  | nil : Inline []
  | byte {x c} : Inline x → c ≠ c!"<" → c ≠ c!"\n" → Inline (x ++ [c])
  | elem {x y n w} : Inline x → n ∈ phrasing → Attrs w → Inline y → Inline (x ++ (b!"<" ++ n ++ w ++ b!">" ++ y ++ (b!"</" ++ n ++ b!">")))

/-- Such a text that begins with a character. -/
def Text (x : Bytes) : Prop := Inline x ∧ ∃ c t, x = c :: t ∧ c ≠ c!"<" ∧ ¬ White c

/-- The content of the element `p`: texts on one line are divided by elements, and do not stand directly in the parts of a table,
where alone rows stand. -/
def Forest.Ok (p : Bytes) : Forest → Prop
  | .nil => True
  | .text x b r => p ∉ tableParts ∧ Text x ∧ (b = false → ∀ y b' r', r ≠ .text y b' r') ∧ r.Ok p
  | .elem n w _ k _ r => n ∈ blocks ∧ Attrs w ∧ (n = b!"tr" → p ∈ tableParts) ∧ k.Ok n ∧ r.Ok p

/-- A text outside of all elements ends with its line. -/
def Forest.Closed : Forest → Prop
  | .nil => True
  | .text _ b r => b = true ∧ r.Closed
  | .elem _ _ _ _ _ r => r.Closed

end Verif.Pretty.Spec
