/- What a bundle of plugins is, without the program. -/
import Verif.Model.Bundles

namespace Verif.Bundles.Spec
open Metadata (Meta)

/-- The keys are in lower case and each is there once. -/
def Clean (m : Meta) : Prop := (m.map (·.1)).Nodup ∧ ∀ it ∈ m, it.1.map toLower = it.1

/-- `v` is the value for `k`: that of the entry, or, when the entry has none, that of the whole bundle. -/
def Value (top entry : Meta) (k v : Bytes) : Prop := (k, v) ∈ entry ∨ (∀ w, (k, w) ∉ entry) ∧ (k, v) ∈ top

/-- There is no value for `k`. -/
def Missing (top entry : Meta) (k : Bytes) : Prop := ∀ w, (k, w) ∉ entry ∧ (k, w) ∉ top

/-- The command is given under one name only. -/
def OneName (top entry : Meta) : Prop := Missing top entry b!"handler.command" ∨ Missing top entry b!"handler_command"

/-- The phase with this name. -/
def phaseName : Plugins.Phase → Bytes
  | .pre => b!"pre_parse"
  | .post => b!"post_render"

/-- A name for a file. -/
def Plain (w : Bytes) : Prop := w ≠ [] ∧ c!"/" ∉ w

/-- A directory is only in a directory. -/
def Tree (d : Dirs) : Prop := ∀ b w, c!"/" ∉ w → d (b ++ b!"/" ++ w) → d b

end Verif.Bundles.Spec
