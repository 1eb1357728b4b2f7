/- Removing and listing filters, without the program. -/
import Verif.Spec.FilterRun
import Verif.Model.FilterTools

namespace Verif.FilterTools.Spec
open FilterRun (Stat Kind)
open Install.Spec (Name Safe Words)

/-- `p` is what is installed for a filter: the first of these that exists, of the kind `k`. -/
def Installed (stat : Stat) (root id p : Bytes) (k : Kind) : Prop :=
  let q := root ++ b!"/" ++ id
  ∃ a b, [q, q ++ b!".lua", q ++ b!".py", q ++ b!".rb"] = a ++ p :: b ∧ stat p = some k ∧ ∀ x ∈ a, stat x = none

/-- Exactly this path is removed. -/
def Removes (k : Kind) (p : Bytes) : Act → Prop
  | .run cmd => k = .dir ∧ Words cmd [b!"rm", b!"-rf", p]
  | .unlink q => k ≠ .dir ∧ q = p

/-- A name of a filter in a directory: not that of the directory itself, of the one above or of one that is being installed. -/
def Visible (n : Bytes) : Prop := n ≠ b!"." ∧ n ≠ b!".." ∧ ∀ s, n ≠ b!".apex_" ++ s

end Verif.FilterTools.Spec
