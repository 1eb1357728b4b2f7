/-
cli/main.c:2071-2117 and 2901-2985: the files of `--combine` and `--mmd-merge`.  Files are read by parameters, as in `Merge`: `read` gives
the bytes of a file, `file` its text with what it includes, `dir` its directory.  Allocations succeed, and the output can be written.
-/
import Verif.Model.Merge

namespace Verif.CombineFiles

/-- An argument: one of the two options, or the name of a file. -/
inductive Arg
  | combine
  | merge
  | name (s : Bytes)
  deriving DecidableEq, Repr

/-- What the arguments have set. -/
structure St where
  combine : Bool := false
  merge : Bool := false
  combined : List Bytes := []
  merged : List Bytes := []
  input : Option Bytes := none
  deriving DecidableEq, Repr

/-- cli/main.c:2071-2109: an argument. -/
def St.arg (s : St) : Arg → St
  | .combine => { s with combine := true }
  | .merge => { s with merge := true }
  | .name p =>
    if s.combine then { s with combined := s.combined ++ [p] }
    else if s.merge then { s with merged := s.merged ++ [p] }
    else { s with input := some p }

/-- `basename` of libgen.h. -/
def basename (p : Bytes) : Bytes :=
  let t := Merge.trimEnd (· == c!"/") p
  if t = [] then (if p = [] then b!"." else b!"/") else (t.reverse.takeWhile (· != c!"/")).reverse

/-- cli/main.c:2958-2959, `strcasecmp`. -/
def isSummary (p : Bytes) : Bool := (basename p).map toLower == b!"summary.md"

/-- cli/main.c:2946-2980, with 1270-1281 `apex_cli_write_combined_chunk`: the files; the text written and the status. -/
def combineFiles (read file : Bytes → Option Bytes) (dir : Bytes → Bytes) : List Bytes → Bool → Bytes → Bytes × Nat
  | [], _, out => (out, 0)
  | p :: ps, sep, out =>
    if isSummary p then
      match read p with
      | none => (out, 1)
      | some s => combineFiles read file dir ps true (out ++ Merge.combine file (dir p) s)
    else
      match file p with
      | none => combineFiles read file dir ps sep out
      | some c => combineFiles read file dir ps true (out ++ (if sep then b!"\n\n" else []) ++ c)

/-- cli/main.c:2918-2927: the indexes. -/
def mergeFiles (read : Bytes → Option Bytes) (dir : Bytes → Bytes) : List Bytes → Bytes → C (Bytes × Nat)
  | [], out => .val (out, 0)
  | p :: ps, out =>
    match read p with
    | none => .val (out, 1)
    | some s => (Merge.merge read (dir p) s).bind fun t => mergeFiles read dir ps (out ++ t)

/-- cli/main.c:2112-2121 and 2901-2985: what is written, and the status; `none`, if neither option is there. -/
def run (read file : Bytes → Option Bytes) (dir : Bytes → Bytes) (args : List Arg) : Option (C (Bytes × Nat)) :=
  let s := args.foldl St.arg {}
  if s.combine && s.combined.isEmpty then some (.val ([], 1))
  else if s.combine && s.merge then some (.val ([], 1))
  else if s.merge then some (if s.merged = [] then .val ([], 1) else mergeFiles read dir s.merged [])
  else if s.combine then some (.val (combineFiles read file dir s.combined false []))
  else none

end Verif.CombineFiles
