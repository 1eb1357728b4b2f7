/-
Special markers: src/extensions/special_markers.c.
Simplified: `malloc` and `realloc` succeed; `read - 1` is only ever computed, not read, at the start of the text
(line 34), and this is not counted as an error.
-/
import Verif.Model.DropBuf
import Verif.Model.Man

namespace Verif.Markers

open DropBuf

/-- `*before == ' ' || *before == '\t'` (special_markers.c:38). -/
def blank (c : Byte) : Bool := c == c!" " || c == c!"\t"

/-- special_markers.c:34-43.  `rev` is the text in front of `read`, last byte first. -/
def lineStart (rev : Bytes) : Bool :=
  match rev with
  | [] => true
  | _ => (rev.dropWhile blank).head? == some c!"\n"

/-- special_markers.c:46-53, `after` being `read + 1`: the place where `after` stops. -/
def lineEnd (after : Bytes) : Option Bytes :=
  match after.dropWhile blank with
  | [] => none
  | c :: t => if c = c!"\n" ∨ c = 0 then some (c :: t) else none

/-- special_markers.c:59 -/
def endOfBlock : Bytes := [10, 10, 0xE2, 0x80, 0x8B, 10, 10]

/-- special_markers.c:75-80, 126-131 -/
def pageBreak : Bytes :=
  b!"\n\n<div class=\"mkpagebreak manualbreak\" title=\"Page break created by marker\" data-description=\"PAGE (Marker)\" style=\"page-break-after:always\"><span style=\"display:none\">&nbsp;</span></div>\n\n"

/-- special_markers.c:81-97: room is made when `repl_len >= remaining`. -/
def grow (w : Bytes) : List Tok := [.reserve (w.length + 1) (w.length + 100), .chunk w]

/-- `atoi` of decimal digits. -/
def value (ds : Bytes) : Nat := ds.foldl (fun n c => n * 10 + (c.toNat - 48)) 0

/-- special_markers.c:109-113 -/
def pause (n : Nat) : Bytes :=
  b!"<div class=\"autoscroll-pause\" data-pause=\"" ++ Man.decimal n ++ b!"\"></div>"

/-- The loop (special_markers.c:29-190), as what it writes.  `mem` is the memory from `read` on, with the
terminator and what lies behind it: `strncmp(read, "{index}", 8)` (line 162) compares the terminator of both
strings, so it only succeeds at the end of the text, and `read += 8` (line 180) goes behind it.  `rev` is the
text in front, last byte first; the first argument bounds the number of rounds. -/
def tokens : Nat → Bytes → Bytes → C (List Tok)
  | 0, _, _ => .ub
  | _, _, [] => .ub
  | n + 1, rev, c :: t =>
    let read := c :: t
    let copy := tokens n (c :: rev) t >>= fun ts => .val (.byte c :: ts)
    if c = 0 then .val []
    else match (if c = c!"^" ∧ lineStart rev then lineEnd t else none) with
    | some after =>
      let rest := if after.head? = some c!"\n" then after.drop 1 else after
      tokens n ((read.take (read.length - rest.length)).reverse ++ rev) rest >>= fun ts => .val (.chunk endOfBlock :: ts)
    | none =>
      if b!"<!--BREAK-->".isPrefixOf read then
        tokens n (b!"<!--BREAK-->".reverse ++ rev) (read.drop 12) >>= fun ts => .val (grow pageBreak ++ ts)
      else if b!"<!--PAUSE:".isPrefixOf read then
        let num := (read.drop 10).takeWhile isDigit
        let numEnd := (read.drop 10).dropWhile isDigit
        if b!"-->".isPrefixOf numEnd then
          if value num < 2 ^ 31 then
            tokens n ((read.take (13 + num.length)).reverse ++ rev) (numEnd.drop 3) >>= fun ts =>
              .val (.chunk (pause (value num)) :: ts)
          else .ub
        else copy
      else if b!"{::pagebreak /}".isPrefixOf read then
        tokens n (b!"{::pagebreak /}".reverse ++ rev) (read.drop 15) >>= fun ts => .val (grow pageBreak ++ ts)
      else if (b!"{index}" ++ [0]).isPrefixOf read then
        tokens n ((b!"{index}" ++ [0]).reverse ++ rev) (read.drop 8) >>= fun ts => .val (grow b!"<!--INDEX-->" ++ ts)
      else copy

/-- `apex_process_special_markers` (special_markers.c:16-194); `behind` is the memory behind the terminator. -/
def process (behind text : Bytes) : C Bytes :=
  tokens (text.length + 1 + behind.length) [] (text ++ 0 :: behind) >>= fun ts => run (text.length * 4) ts

end Verif.Markers
