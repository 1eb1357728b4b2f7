/-
Merging of files: independently of the model.
-/
import Verif.Spec.Text
import Verif.Spec.HtmlPass

namespace Verif.Merge.Spec
open HtmlPass.Spec (shifted HasHeader)

/-- Blanks and tabs. -/
def Gap (w : Bytes) : Prop := ∀ c ∈ w, c = c!" " ∨ c = c!"\t"

/-- Blanks, tabs and carriage returns. -/
def Tail (w : Bytes) : Prop := ∀ c ∈ w, c = c!" " ∨ c = c!"\t" ∨ c = c!"\r"

/-- Text that does not begin with a blank or tab, and does not end in one or a carriage return. -/
def Solid (s : Bytes) : Prop := (∃ c t, s = c :: t ∧ c ≠ c!" " ∧ c ≠ c!"\t") ∧ ∃ t c, s = t ++ [c] ∧ c ≠ c!" " ∧ c ≠ c!"\t" ∧ c ≠ c!"\r"

/-- The level of an indentation: tabs and groups of four blanks; from fewer blanks on nothing counts. -/
inductive Level : Bytes → Nat → Prop
  | nil : Level [] 0
  | tab {w n} : Level w n → Level (b!"\t" ++ w) (n + 1)
  | four {w n} : Level w n → Level (b!"    " ++ w) (n + 1)
  | few {w} : (∃ r, w = b!" " ++ r) → ¬ b!"    " <+: w → Level w 0

/-- The line of an index names a file at a level. -/
def Entry (l : Bytes) (n : Nat) (name : Bytes) : Prop :=
  ∃ w tail, l = w ++ name ++ tail ∧ Gap w ∧ Tail tail ∧ Solid name ∧ name.head? ≠ some c!"#" ∧ Level w n

/-- The path of a file. -/
def Path (base name p : Bytes) : Prop := if name.head? = some c!"/" then p = name else p = base ++ b!"/" ++ name

/-- The lines of an index and the text they stand for: all files that can be read, in order, each with the `#` at its headings for its level, and an empty line behind it. -/
inductive Merged (read : Bytes → Option Bytes) (base : Bytes) : List Bytes → Bytes → Prop
  | nil : Merged read base [] []
  | skip {l ls o} : (∀ n name, ¬ Entry l n name) → Merged read base ls o → Merged read base (l :: ls) o
  | missing {l n name p ls o} : Entry l n name → Path base name p → p.length < 4096 → read p = none → Merged read base ls o → Merged read base (l :: ls) o
  | file {l n name p c ls o} : Entry l n name → Path base name p → p.length < 4096 → read p = some c → n ≤ 1 ∨ ¬ HasHeader c → Merged read base ls o →
      Merged read base (l :: ls) (shifted n true c ++ b!"\n\n" ++ o)

/-- The first brackets of a line are a link; `q` is in its parentheses. -/
def Link (l q : Bytes) : Prop := ∃ a t z, l = a ++ b!"[" ++ t ++ b!"](" ++ q ++ b!")" ++ z ∧ c!"[" ∉ a ∧ c!"]" ∉ t ∧ c!")" ∉ q ∧ q ≠ []

/-- The line of a summary names a file: by its first link, which has no scheme; without a section. -/
def Names (l p : Bytes) : Prop :=
  ∃ w core tail z, Link l (w ++ core ++ tail) ∧ Gap w ∧ Tail tail ∧ Solid core ∧ core = p ++ z ∧ (z = [] ∨ z.head? = some c!"#") ∧ c!"#" ∉ p ∧ ¬ b!"://" <:+: p

/-- The texts of the files that can be read, in order. -/
inductive Texts (file : Bytes → Option Bytes) (base : Bytes) : List Bytes → List Bytes → Prop
  | nil : Texts file base [] []
  | skip {l ls ts} : (∀ p, ¬ Names l p) → Texts file base ls ts → Texts file base (l :: ls) ts
  | missing {l p ls ts} : Names l p → file (base ++ b!"/" ++ p) = none → Texts file base ls ts → Texts file base (l :: ls) ts
  | file {l p c ls ts} : Names l p → file (base ++ b!"/" ++ p) = some c → Texts file base ls ts → Texts file base (l :: ls) (c :: ts)

/-- Texts with empty lines between them. -/
def between : List Bytes → Bytes
  | [] => []
  | [t] => t
  | t :: u :: ts => t ++ b!"\n\n" ++ between (u :: ts)

end Verif.Merge.Spec
