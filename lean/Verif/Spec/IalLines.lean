/-
Attribute lists on lines of their own: independently of the model.
-/
import Verif.Spec.Bibliography

namespace Verif.IalLines.Spec
open Bibliography.Spec (Blank Solid)

/-- The line is an attribute list with this content: braces, which begin with `:`, `#` or `.`, and white space around them. -/
def List' (l a : Bytes) : Prop :=
  ∃ w w', l = w ++ b!"{" ++ a ++ b!"}" ++ w' ∧ Blank w ∧ Blank w' ∧ c!"}" ∉ a ∧ (a.head? = some c!":" ∨ a.head? = some c!"#" ∨ a.head? = some c!".")

/-- The content is the marker of a table of contents with these options. -/
def Toc (a opts : Bytes) : Prop :=
  ∃ w t v w', a = b!":" ++ w ++ t ++ v ++ opts ++ w' ∧ Blank w ∧ t.map toLower = b!"toc" ∧ Blank v ∧ Blank w' ∧ (opts = [] ∧ v = [] ∨ v ≠ [] ∧ Solid opts)

/-- The marker that the table of contents takes the place of. -/
def marker (opts : Bytes) : Bytes := if opts = [] then b!"<!--TOC-->" else b!"<!--TOC " ++ opts ++ b!"-->"

/-- What becomes of a line; `b` says that the line before it is text. -/
inductive Line (b : Prop) : Bytes → Bytes → Prop
  | text {l} : (∀ a, ¬ List' l a) → Line b l l
  | list {l a} : List' l a → (∀ o, ¬ Toc a o) → ¬ b → Line b l l
  | after {l a} : List' l a → (∀ o, ¬ Toc a o) → b → Line b l (b!"\n" ++ l)
  | toc {l a o} : List' l a → Toc a o → ¬ b → Line b l (marker o)
  | tocAfter {l a o} : List' l a → Toc a o → b → Line b l (b!"\n" ++ marker o)

/-- What becomes of the lines of a text. -/
inductive Read : Prop → Bytes → Bytes → Prop
  | nil {b} : Read b [] []
  | last {b l o} : l ≠ [] → c!"\n" ∉ l → Line b l o → Read b l o
  | cons {b l o s t} : c!"\n" ∉ l → Line b l o → Read (¬ Blank l ∧ ∀ a, ¬ List' l a) s t → Read b (l ++ b!"\n" ++ s) (o ++ b!"\n" ++ t)

/-- A line of the text. -/
def IsLine (text l : Bytes) : Prop :=
  c!"\n" ∉ l ∧ ∃ x y, text = x ++ l ++ y ∧ (x = [] ∨ ∃ x', x = x' ++ b!"\n") ∧ (y = [] ∨ ∃ y', y = b!"\n" ++ y')

end Verif.IalLines.Spec
