/-
cli/main.c:3264-3489: the commands for the filters asked for with `--filters`, `--filter` and `--lua-filter`.  Allocations succeed.  Each command is run by `/bin/sh -c`, src/filters_ast.c:52.
-/
import Verif.Model.Install

namespace Verif.FilterRun
open Install (clip quote)

/-- What `stat` says about a path that exists. -/
inductive Kind | reg | dir | other
  deriving DecidableEq, Repr

abbrev Stat := Bytes → Option Kind

/-- cli/main.c:3270-3282: the directory of filters; an empty variable is like none. -/
def rootOf (xdg home : Option Bytes) : Option Bytes :=
  match xdg.filter (· ≠ []), home.filter (· ≠ []) with
  | some x, _ => some (clip 1024 (x ++ b!"/apex/filters"))
  | none, some h => some (clip 1024 (h ++ b!"/.config/apex/filters"))
  | none, none => none

/-- cli/main.c:3307-3332: the filters of the directory. -/
def ofDir (stat : Stat) (root : Bytes) (entries : List Bytes) : List Bytes :=
  entries.filterMap fun n =>
    if n.head? = some c!"." then none
    else
      let path := clip 1200 (root ++ b!"/" ++ n)
      if stat path = some .reg then some path else none

/-- cli/main.c:3381. -/
def exts : List Bytes := [b!".lua", b!".py", b!".rb"]

/-- cli/main.c:3365-3431: the script for a name; `none`, there is none. -/
def resolve (stat : Stat) (root name : Bytes) : Option Bytes :=
  let path := clip 1200 (root ++ b!"/" ++ name)
  if stat path = some .reg then some path
  else
    match (exts.map fun e => clip 1400 (root ++ b!"/" ++ name ++ e)).find? fun p => stat p = some .reg with
    | some p => some p
    | none =>
      if stat path = some .dir then (([] :: exts).map fun e => clip 1400 (path ++ b!"/" ++ name ++ e)).find? fun p => stat p = some .reg
      else none

/-- cli/main.c:3433-3442: the command for a script. -/
def command (p : Bytes) : Bytes := if p.length > 4 ∧ b!".lua" <:+ p then clip 1400 (b!"lua " ++ quote p) else p

/-- cli/main.c:3469-3474: the command for a script of `--lua-filter`. -/
def lua (script : Bytes) : Bytes := clip 1400 (b!"lua " ++ quote script)

/-- cli/main.c:3364-3448: the names in their order; the first one without a script is an error. -/
def named (stat : Stat) (root : Bytes) : List Bytes → Option (List Bytes)
  | [] => some []
  | n :: ns =>
    match resolve stat root n with
    | some p => (named stat root ns).map (command p :: ·)
    | none => none

/-- cli/main.c:3264-3489: all commands in their order; `entries` reads a directory.  `none`: an error. -/
def commands (stat : Stat) (entries : Bytes → Option (List Bytes)) (xdg home : Option Bytes) (all : Bool) (names luas : List Bytes) : Option (List Bytes) :=
  if all = false ∧ names = [] ∧ luas = [] then some []
  else
    match rootOf xdg home with
    | none => none
    | some root =>
      if (all = true ∨ names ≠ []) ∧ stat root ≠ some .dir then none
      else
        match if all then (entries root).map (ofDir stat root) else some [] with
        | none => none
        | some a => (named stat root names).map fun b => a ++ b ++ luas.map lua

end Verif.FilterRun
