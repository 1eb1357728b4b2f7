/-
Walking over the lines of a text, and splitting a line, as several passes do.
-/
import Verif.Basic

namespace Verif.Text

/-- The lines of a text: the loop with `strchr(line_start, '\n')` (e.g. includes.c:195-297, 734-778). -/
def linesFrom (cur : Bytes) : Bytes → List Bytes
  | [] => if cur = [] then [] else [cur]
  | c :: t => if c = c!"\n" then cur :: linesFrom [] t else linesFrom (cur ++ [c]) t

def splitLines (text : Bytes) : List Bytes := linesFrom [] text

/-- The parts of a line between the bytes `d` (includes.c:233-289). -/
def partsFrom (d : Byte) (cur : Bytes) : Bytes → List Bytes
  | [] => [cur]
  | c :: t => if c = d then cur :: partsFrom d [] t else partsFrom d (cur ++ [c]) t

def split (d : Byte) (line : Bytes) : List Bytes := partsFrom d [] line

end Verif.Text
