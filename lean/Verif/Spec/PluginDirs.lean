import Verif.Model.PluginDirs

namespace Verif.PluginDirs.Spec

/-- A file that begins with `---`. -/
def Begins (k : Disk) (path : Bytes) : Prop := ∃ s, k.file path = some (b!"---" ++ s)

/-- The file `path` is the manifest of the entry `name` of a directory: `plugin.yml` or `plugin.yaml` in a subdirectory, the first one if
there are both, or a file with `.yml` or `.yaml` behind a name.  Names with a dot in front are hidden. -/
def Manifest (k : Disk) (dir name path : Bytes) : Prop :=
  (∀ s, name ≠ c!"." :: s) ∧ Begins k path ∧
    let p := dir ++ b!"/" ++ name
    (k.dir p = some true ∧ path = p ++ b!"/plugin.yml" ∨
      k.dir p = some true ∧ ¬ Begins k (p ++ b!"/plugin.yml") ∧ path = p ++ b!"/plugin.yaml" ∨
      k.dir p = some false ∧ path = p ∧ ∃ s, s ≠ [] ∧ (name = s ++ b!".yml" ∨ name = s ++ b!".yaml"))

end Verif.PluginDirs.Spec
