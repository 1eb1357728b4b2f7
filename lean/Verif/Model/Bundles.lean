/-
src/plugins.c:218-245, 296-433: bundles of plugins in one manifest, and the directories in which plugins keep their
data.  That a manifest has a `bundle` array, and the items of its entries, are given
(`apex_extract_plugin_bundle`); regular expressions are as in `Plugins`.  Directories are the set of
their paths; links and permissions are not modelled.
-/
import Verif.Model.Plugins

namespace Verif.Bundles
open Metadata (Meta merge)
open Plugins (Plugin Rx lastValue phaseOf atoi)

/-- `snprintf` into 1024 bytes. -/
def clip (s : Bytes) : Bytes := s.take 1023

/-- plugins.c:300-421: one entry of a bundle; `top` are the items of the manifest.  An entry without items is NULL and skipped. -/
def fromEntry (regcomp : Bytes → Bool → Option Rx) (dir : Bytes) (base : Option Bytes) (top entry : Meta) : Option Plugin :=
  if entry = [] then none
  else
    let m := merge top [entry]
    match lastValue m [b!"id"], (lastValue m [b!"phase"]).bind phaseOf with
    | some id, some phase =>
      let command := lastValue m [b!"handler.command", b!"handler_command"]
      let priority := match lastValue m [b!"priority"] with
        | some s => atoi s
        | none => 100
      let plugin := fun rx => some (Plugin.mk id phase priority command rx dir (base.map fun b => clip (b ++ b!"/" ++ id)))
      match command, lastValue m [b!"pattern"], lastValue m [b!"replacement"] with
      | none, some pat, some rep =>
        match regcomp pat (((lastValue m [b!"flags"]).getD []).contains c!"i") with
        | some rx => plugin (some (rx, rep))
        | none => none
      | _, _, _ => plugin none
    | _, _ => none

/-- plugins.c:296-433: all entries, in their order. -/
def fromBundle (regcomp : Bytes → Bool → Option Rx) (dir : Bytes) (base : Option Bytes) (top : Meta) (entries : List Meta) : List Plugin :=
  entries.filterMap (fromEntry regcomp dir base top)

/-! ### Directories -/

/-- The directories that exist. -/
abbrev Dirs := Bytes → Prop

/-- What is in front of the last slash. -/
def parent (s : Bytes) : Bytes := ((s.reverse.dropWhile (· ≠ c!"/")).drop 1).reverse

/-- `mkdir`: only in a directory that exists. -/
def mkdir (d : Dirs) (p : Bytes) : Dirs := fun q => d q ∨ q = p ∧ d (parent p)

/-- plugins.c:218-245 `apex_get_support_base_dir`: an empty variable is like none. -/
def supportBase (xdg home : Option Bytes) (d : Dirs) : Dirs × Option Bytes :=
  match xdg.filter (· ≠ []), home.filter (· ≠ []) with
  | some x, _ =>
    let p := clip (x ++ b!"/apex/support")
    (mkdir d p, some p)
  | none, some h =>
    let p := clip (h ++ b!"/.config/apex/support")
    (mkdir (mkdir d (clip (h ++ b!"/.config/apex"))) p, some p)
  | none, none => (d, none)

/-- plugins.c:376-384, 499-505: the directory of a plugin. -/
def supportDir (xdg home : Option Bytes) (id : Bytes) (d : Dirs) : Dirs × Option Bytes :=
  match supportBase xdg home d with
  | (d, some b) => (mkdir d (clip (b ++ b!"/" ++ id)), some (clip (b ++ b!"/" ++ id)))
  | (d, none) => (d, none)

end Verif.Bundles
