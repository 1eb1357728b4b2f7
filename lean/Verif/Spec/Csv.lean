/-
What the table of a CSV file is.
-/
import Verif.Spec.Text
import Verif.Spec.Transforms
import Verif.Model.Csv

namespace Verif.Csv.Spec

open Text.Spec Transforms.Spec

/-- The rows and cells of a file. -/
def Rows (delim : Byte) (text : Bytes) (rows : List (List Bytes)) : Prop :=
  ∃ ls, Lines text ls ∧ ls.length = rows.length ∧ ∀ p ∈ ls.zip rows, Parts delim p.1 p.2

/-- The words that set an alignment, in any case and with blanks around. -/
def word : Align → Bytes
  | .left => b!"left"
  | .right => b!"right"
  | .center => b!"center"
  | .auto => b!"auto"

def Keyword (cell : Bytes) (a : Align) : Prop := ∃ t, Trimmed cell t ∧ t.map toLower = word a

/-- The alignment row. -/
def AlignRow (cols : Nat) (row : List Bytes) (as : List Align) : Prop :=
  row.length = cols ∧ as.length = cols ∧ ∀ p ∈ row.zip as, Keyword p.1 p.2

/-- A row has as many cells as the table has columns: extra cells go, missing cells are empty. -/
def fitted (cols : Nat) (row : List Bytes) : List Bytes := row.take cols ++ List.replicate (cols - row.length) []

def line (cells : List Bytes) : Bytes := b!"|" ++ cells.flatMap (fun c => b!" " ++ c ++ b!" |") ++ b!"\n"

def dashes : Align → Bytes
  | .left => b!" :--- "
  | .right => b!" ---: "
  | .center => b!" :---: "
  | .auto => b!" --- "

/-- The row under the heading. -/
def rule (as : List Align) : Bytes := b!"|" ++ as.flatMap (fun a => dashes a ++ b!"|") ++ b!"\n"

/-- The table of these rows. -/
inductive Table : List (List Bytes) → Bytes → Prop where
  | aligned (h r : List Bytes) (rest : List (List Bytes)) (as : List Align) (ha : AlignRow h.length r as) :
    Table (h :: r :: rest) (line h ++ rule as ++ rest.flatMap fun r => line (fitted h.length r))
  | plain (h : List Bytes) (rest : List (List Bytes)) (hn : ∀ r as, rest.head? = some r → ¬ AlignRow h.length r as) :
    Table (h :: rest) (line h ++ rule (List.replicate h.length .auto) ++ rest.flatMap fun r => line (fitted h.length r))

end Verif.Csv.Spec
