/-
cli/main.c:213-333 and 2184-2317: `--list-plugins`.  Allocations succeed.  A manifest is a file that can be opened; its items, those of
`apex_load_metadata_from_file`, are given by `load` (an empty list is NULL).  Of the output, what goes to `stdout` is modelled.
-/
import Verif.Model.PluginDirs
import Verif.Model.FilterTools

namespace Verif.ListPlugins
open Metadata (Meta)
open Plugins (lastValue)
open Install (clip)
open FilterTools (opt available)

/-- What is on the disk, with the names in each directory. -/
structure Disk extends PluginDirs.Disk where
  names : Bytes → Option (List Bytes)

/-- main.c `cli_installed_plugin`. -/
structure Item where
  id : Bytes
  title : Option Bytes
  author : Option Bytes
  description : Option Bytes
  homepage : Option Bytes
  deriving DecidableEq, Repr

/-- main.c:281-290: the items of a manifest. -/
def item (name : Bytes) (m : Meta) : Item where
  id := (lastValue m [b!"id"]).getD name
  title := lastValue m [b!"title"]
  author := lastValue m [b!"author"]
  description := lastValue m [b!"description"]
  homepage := lastValue m [b!"homepage"]

/-- main.c:254-290: an entry of a directory. -/
def read (k : Disk) (load : Bytes → Meta) (root name : Bytes) : Option Item :=
  if name.head? = some c!"." then none
  else
    let p := clip 1200 (root ++ b!"/" ++ name)
    if k.dir p = some true then
      match (k.file (clip 1300 (p ++ b!"/plugin.yml"))).or (k.file (clip 1300 (p ++ b!"/plugin.yaml"))) with
      | none => none
      | some s => if load s = [] then none else some (item name (load s))
    else none

/-- main.c:291-329: an item is put behind the others if its id is new. -/
def add (l : List Item) (i : Item) : List Item := if l.any fun j => j.id = i.id then l else l ++ [i]

/-- main.c:237-333 `cli_collect_installed_from_root`. -/
def collect (k : Disk) (load : Bytes → Meta) (l : List Item) (root : Bytes) : List Item :=
  (((k.names root).getD []).filterMap (read k load root)).foldl add l

/-- main.c:2133-2143 and 2194-2245: the directories; `none` for what is not there or empty. -/
def roots (cwd base git : Option Bytes) (user : Bytes) : List Bytes :=
  (match cwd with | some d => [clip 1200 (d ++ b!"/.apex/plugins")] | none => []) ++
  (match base with | some d => [clip 1200 (d ++ b!"/.apex/plugins")] | none => []) ++
  (match git, cwd with
    | some g, some d =>
      if g.isPrefixOf d ∧ (d.drop g.length = [] ∨ (d.drop g.length).head? = some c!"/") then [clip 1200 (g ++ b!"/.apex/plugins")] else []
    | _, _ => []) ++
  [user]

/-- main.c:2194-2245: all of them. -/
def installed (k : Disk) (load : Bytes → Meta) (dirs : List Bytes) : List Item := dirs.foldl (collect k load) []

/-- main.c:2254-2256: the author. -/
def byline : Option Bytes → Bytes
  | some (c :: s) => b!"  (author: " ++ c :: s ++ b!")"
  | _ => []

/-- main.c:2249-2264: what is printed for a plugin. -/
def line (i : Item) : Bytes :=
  i.id ++ List.replicate (20 - i.id.length) c!" " ++ b!" - " ++ i.title.getD i.id ++
    byline i.author ++ b!"\n" ++ opt [] i.description ++ opt b!"homepage: " i.homepage

/-- main.c:2247-2317: the output and the status; `remote` is the remote directory, if it was fetched. -/
def list (items : List Item) (remote : Option (List Remote.Entry)) : Bytes × Nat :=
  let a := (if items = [] then [] else b!"## Installed Plugins\n\n" ++ items.flatMap line) ++ b!"\n---\n\n## Available Plugins\n\n"
  match remote with
  | none => (a, 1)
  | some r => (a ++ (available (items.map (·.id)) r).flatMap FilterTools.entry, 0)

end Verif.ListPlugins
