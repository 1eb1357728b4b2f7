/-
Metadata that can be written as a line of YAML.
-/
import Verif.Model.FrontMatter
import Verif.Spec.MetaParse

namespace Verif.FrontMatter.Spec
open Transforms.Spec (White)

/-- A key of one line without colon and without white space around it. -/
structure Key (k : Bytes) : Prop where
  nonempty : k ≠ []
  head : ∀ c, k.head? = some c → ¬ White c
  last : ∀ c, k.getLast? = some c → ¬ White c
  chars : ∀ c ∈ k, c ≠ 10 ∧ c ≠ c!":"

/-- A value of one line without white space around it, and not in single quotes. -/
structure Value (v : Bytes) : Prop where
  head : ∀ c, v.head? = some c → ¬ White c
  last : ∀ c, v.getLast? = some c → ¬ White c
  line : (10 : Byte) ∉ v
  quotes : ¬ ∃ m, v = c!"'" :: (m ++ [c!"'"])

/-- An entry that fits a line. -/
structure Entry (it : Metadata.Item) : Prop where
  key : Key it.1
  value : Value it.2
  length : it.1.length + it.2.length + 4 ≤ 1023

/-- A mode with metadata. -/
def HasMeta (m : Options.Mode) : Prop := m = .multimarkdown ∨ m = .kramdown ∨ m = .unified

end Verif.FrontMatter.Spec
