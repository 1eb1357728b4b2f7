/-
src/plugins.c:62-93, 178-184, 247-288: the files in a directory that are taken for plugins, and the directory of the repository.  Paths
have no zero byte.  A directory is read completely, in any order.
-/
import Verif.Model.Bundles

namespace Verif.PluginDirs
open Bundles (clip)

/-- What there is at a path: `dir`, is it a directory (`none`: nothing is there); `file`, the bytes of a file that can be read. -/
structure Disk where
  dir : Bytes → Option Bool
  file : Bytes → Option Bytes

/-- plugins.c:178-184 `file_has_yaml_front_matter`. -/
def front (k : Disk) (path : Bytes) : Bool := (k.file path).any fun s => b!"---".isPrefixOf s

/-- plugins.c:282-283. -/
def yaml (name : Bytes) : Bool := (4 < name.length && b!".yml".isSuffixOf name) || (5 < name.length && b!".yaml".isSuffixOf name)

/-- plugins.c:257-288: the manifest for an entry of a directory; paths are cut to 1023 bytes by `snprintf`. -/
def manifest (k : Disk) (dir name : Bytes) : Option Bytes :=
  if name.head? = some c!"." then none
  else
    let p := clip (dir ++ b!"/" ++ name)
    match k.dir p with
    | none => none
    | some true =>
      let m := clip (p ++ b!"/plugin.yml")
      if front k m then some m
      else
        let m := clip (p ++ b!"/plugin.yaml")
        if front k m then some m else none
    | some false => if yaml name && front k p then some p else none

/-- plugins.c:256-288: the manifests in a directory with these entries. -/
def manifests (k : Disk) (dir : Bytes) (names : List Bytes) : List Bytes := names.filterMap (manifest k dir)

/-- `fgets` into 1024 bytes: up to a line break, which is read too. -/
def fgets : Nat → Bytes → Bytes
  | 0, _ => []
  | _, [] => []
  | n + 1, c :: s => if c = c!"\n" then [c] else c :: fgets n s

/-- plugins.c:62-93 `apex_git_toplevel`: `out` is what git writes, `ok`, did it succeed. -/
def gitTop (out : Bytes) (ok : Bool) : Option Bytes :=
  let buf := fgets 1023 out
  if buf = [] then none
  else if !ok then none
  else
    let s := (buf.reverse.dropWhile fun c => c = c!"\n" || c = c!"\r").reverse
    if s = [] then none else some s

end Verif.PluginDirs
