/- cli/main.c:1090-1219, 1266-1374: merging of the files an index or a summary names.  Files are read by a parameter; allocations succeed; neither the index nor the
files have a zero byte.  The directory of the index is a parameter. -/
import Verif.Model.Text
import Verif.Model.Embed
import Verif.Model.HtmlPass

namespace Verif.Merge
open Text (splitLines)

/-- A blank or tab. -/
def blank (c : Byte) : Bool := c == c!" " || c == c!"\t"

/-- Bytes at the end are left out. -/
def trimEnd (p : Byte → Bool) (s : Bytes) : Bytes := (s.reverse.dropWhile p).reverse

/-- cli/main.c:1139-1159: tabs and groups of four blanks at the front. -/
def indent : Bytes → Nat
  | [] => 0
  | 9 :: s => indent s + 1
  | 32 :: 32 :: 32 :: 32 :: s => indent s + 1
  | _ :: _ => 0

/-- cli/main.c:1116-1169: the level and the name of a line of the index, if it has one. -/
def entry (line : Bytes) : Option (Nat × Bytes) :=
  let t := trimEnd (fun c => blank c || c == c!"\r") line
  let p := t.dropWhile blank
  if p = [] ∨ p.head? = some c!"#" then none else some (indent t, p)

/-- cli/main.c:1172-1180: the path, in a block of 4096 bytes. -/
def path (base name : Bytes) : Bytes := (if name.head? = some c!"/" then name else base ++ b!"/" ++ name).take 4095

/-- cli/main.c:1109-1214: the lines of the index; the text written. -/
def mergeGo (read : Bytes → Option Bytes) (base : Bytes) : List Bytes → Bytes → C Bytes
  | [], out => .val out
  | l :: ls, out =>
    match entry l with
    | none => mergeGo read base ls out
    | some (n, name) =>
      match read (path base name) with
      | none => mergeGo read base ls out
      | some c => (HtmlPass.shift c n).bind fun s => mergeGo read base ls (out ++ s ++ b!"\n\n")

/-- cli/main.c:1096-1219 `apex_cli_mmd_merge_index`. -/
def merge (read : Bytes → Option Bytes) (base index : Bytes) : C Bytes := mergeGo read base (splitLines index) []

/-- cli/main.c:1309-1322: what is in the parentheses of the first link of a line. -/
def link (line : Bytes) : Option Bytes :=
  match (line.dropWhile (· != c!"[")).dropWhile (· != c!"]") with
  | _ :: d :: r =>
    if d = c!"(" then
      match r.dropWhile (· != c!")") with
      | _ :: _ => if r.takeWhile (· != c!")") = [] then none else some (r.takeWhile (· != c!")"))
      | [] => none
    else none
  | _ => none

/-- cli/main.c:1322-1347: the path a line of a summary names. -/
def target (line : Bytes) : Option Bytes :=
  match link line with
  | none => none
  | some q =>
    let t := trimEnd (fun c => blank c || c == c!"\r") (q.dropWhile blank)
    if t = [] then none
    else
      let p := t.takeWhile (· != c!"#")
      if (Embed.find b!"://" p).isSome then none else some p

/-- cli/main.c:1300-1369, with 1270-1281 `apex_cli_write_combined_chunk`: the lines of the summary; whether text was written before.  `file` is the text of a file with what it
includes, cli/main.c:1228-1264. -/
def combineGo (file : Bytes → Option Bytes) (base : Bytes) : List Bytes → Bool → Bytes → Bytes
  | [], _, out => out
  | l :: ls, sep, out =>
    match target l with
    | none => combineGo file base ls sep out
    | some p =>
      match file (base ++ b!"/" ++ p) with
      | none => combineGo file base ls sep out
      | some c => combineGo file base ls true (out ++ (if sep then b!"\n\n" else []) ++ c)

/-- cli/main.c:1289-1374 `apex_cli_combine_from_summary`. -/
def combine (file : Bytes → Option Bytes) (base summary : Bytes) : Bytes := combineGo file base (splitLines summary) false []

end Verif.Merge
