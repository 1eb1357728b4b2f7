/- Combining files: independently of the program. -/
import Verif.Model.CombineFiles
import Verif.Spec.Merge

namespace Verif.CombineFiles.Spec
open Merge.Spec (Texts between)

/-- A path to a file with the name `SUMMARY.md`, in any case. -/
def Summary (p : Bytes) : Prop := ∃ d n z, p = d ++ n ++ z ∧ (d = [] ∨ d.getLast? = some c!"/") ∧ n.map toLower = b!"summary.md" ∧ ∀ c ∈ z, c = c!"/"

/-- The texts that the arguments stand for, in order: that of each file, and those of the files that a summary names. -/
inductive All (read file : Bytes → Option Bytes) (dir : Bytes → Bytes) : List Bytes → List Bytes → Prop
  | nil : All read file dir [] []
  | file {p c ps ts} : ¬ Summary p → file p = some c → All read file dir ps ts → All read file dir (p :: ps) (c :: ts)
  | missing {p ps ts} : ¬ Summary p → file p = none → All read file dir ps ts → All read file dir (p :: ps) ts
  | summary {p s ls us ps ts} : Summary p → read p = some s → Text.Spec.Lines s ls → Texts file (dir p) ls us → All read file dir ps ts → All read file dir (p :: ps) (us ++ ts)

end Verif.CombineFiles.Spec
