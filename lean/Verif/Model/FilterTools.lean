/-
cli/main.c:2557-2611 `--uninstall-filter` and 2614-2652 `--list-filters`, with src/plugins_remote.c:233-269.  Allocations succeed; of the output, what goes to `stdout` is modelled.
-/
import Verif.Model.FilterRun
import Verif.Model.Remote

namespace Verif.FilterTools
open Install (clip quote)
open FilterRun (Stat Kind exts)

/-- What is done to remove a filter. -/
inductive Act
  | run (cmd : Bytes)
  | unlink (path : Bytes)
  deriving DecidableEq, Repr

/-- cli/main.c:2558-2578: the file or directory of a filter. -/
def target (stat : Stat) (root id : Bytes) : Option (Bytes × Kind) :=
  match stat (clip 1200 (root ++ b!"/" ++ id)) with
  | some k => some (clip 1200 (root ++ b!"/" ++ id), k)
  | none => (exts.map fun e => clip 1200 (root ++ b!"/" ++ id ++ e)).findSome? fun p => (stat p).map fun k => (p, k)

/-- cli/main.c:2557-2611: `answer` is the line that is read.  `none`: nothing is removed. -/
def remove (stat : Stat) (root id : Bytes) (answer : Option Bytes) : Option Act :=
  match target stat root id with
  | none => none
  | some (t, k) =>
    match answer with
    | some (c :: _) =>
      if c = c!"y" ∨ c = c!"Y" then some (if k = .dir then .run (clip 1400 (b!"rm -rf " ++ quote t)) else .unlink t) else none
    | _ => none

/-- cli/main.c:2618-2634: the names in the directory, at most 128. -/
def listed (entries : List Bytes) : List Bytes := (entries.filter fun n => n ≠ b!"." ∧ n ≠ b!".." ∧ ¬ b!".apex_" <+: n).take 128

/-- src/plugins_remote.c:241-251: the entries of the remote directory that are not installed. -/
def available (ids : List Bytes) (remote : List Remote.Entry) : List Remote.Entry := remote.filter fun e => e.id ∉ ids

/-- A line if the text is not empty. -/
def opt (label : Bytes) : Option Bytes → Bytes
  | some (c :: s) => b!"    " ++ label ++ c :: s ++ b!"\n"
  | _ => []

/-- src/plugins_remote.c:253-267: what is printed for an entry. -/
def entry (e : Remote.Entry) : Bytes :=
  e.id ++ List.replicate (20 - e.id.length) c!" " ++ b!" - " ++ e.title.getD e.id ++
    (match e.author with | some (c :: s) => b!"  (author: " ++ c :: s ++ b!")" | _ => []) ++ b!"\n" ++ opt [] e.description ++
    (match e.homepage with | some (c :: s) => opt b!"homepage: " (some (c :: s)) | _ => opt b!"repo: " (some e.repo))

/-- cli/main.c:2636-2646: the list. -/
def list (entries : List Bytes) (remote : List Remote.Entry) : Bytes :=
  b!"## Installed Filters\n" ++ (if listed entries = [] then b!"(none)\n" else (listed entries).flatMap (· ++ b!"\n")) ++
    b!"---\n## Available Filters\n" ++ (available (listed entries) remote).flatMap entry

end Verif.FilterTools
