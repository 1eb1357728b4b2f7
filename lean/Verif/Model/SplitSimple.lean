/-
src/extensions/metadata.c:1003-1060 and 1080-1088: the transform `split` with a text that is no regular expression.  Allocations succeed.
-/
import Verif.Model.Transforms

namespace Verif.SplitSimple
open Transforms (Matcher trimTok)

/-- The loop of `strtok` (metadata.c:1027, 1056): the longest pieces without a byte of `d`; `acc` is the piece so far, from its end. -/
def tokens (d : Bytes) (acc : Bytes) : Bytes → List Bytes
  | [] => if acc = [] then [] else [acc.reverse]
  | c :: s =>
    if c ∈ d then if acc = [] then tokens d [] s else acc.reverse :: tokens d [] s
    else tokens d (c :: acc) s

/-- metadata.c:1004-1060 `split_string_simple`. -/
def splitSimple (d v : Bytes) : List Bytes := (tokens (if d = [] then b!"," else d) [] v).map trimTok

/-- metadata.c:1065-1088 `split_string`: `regcomp` gives the matcher of a pattern that is a regular expression.  `none`: it does not return. -/
def split (regcomp : Bytes → Option Matcher) (d v : Bytes) : Option (List Bytes) :=
  match regcomp (if d = [] then b!"\\s+" else d) with
  | some rx => Transforms.split rx v
  | none => some (splitSimple (if d = [] then b!"," else d) v)

end Verif.SplitSimple
