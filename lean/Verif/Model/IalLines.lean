/- src/extensions/ial.c:1519-1706: attribute lists on lines of their own, and the marker of a table of contents.  The allocation
succeeds, the text has no zero byte, and `ctype.h` is that of the C locale. -/
import Verif.Model.Ial

namespace Verif.IalLines

/-- src/extensions/ial.c:1522-1548 `is_ial_line`, and the content of the list (1606-1610): what is between the braces. -/
def list (line : Bytes) : Option Bytes :=
  match line.dropWhile isSpace with
  | o :: k :: t =>
    if o = c!"{" ∧ (k = c!":" ∨ k = c!"#" ∨ k = c!".") then
      match t.dropWhile (· != c!"}") with
      | [] => none
      | _ :: after => if after.all isSpace then some (k :: t.takeWhile (· != c!"}")) else none
    else none
  | _ => none

/-- src/extensions/ial.c:1602-1641: the options of a marker `{:toc ...}`. -/
def toc : Bytes → Option Bytes
  | [] => none
  | k :: t =>
    let inner := Ial.trimEnd (t.dropWhile isSpace)
    if k = c!":" ∧ (inner.take 3).map toLower = b!"toc" then
      match inner.drop 3 with
      | [] => some []
      | c :: r => if isSpace c then some ((c :: r).dropWhile isSpace) else none
    else none

/-- src/extensions/ial.c:1646-1663: the marker. -/
def marker (opts : Bytes) : Bytes := b!"<!--TOC" ++ (if opts = [] then [] else b!" " ++ opts) ++ b!"-->"

/-- src/extensions/ial.c:1592-1690: what is written for a line; `content` says whether the line before it is text. -/
def piece (content : Bool) (line : Bytes) : Bytes :=
  match list line with
  | some a => (if content then b!"\n" else []) ++ (match toc a with | some o => marker o | none => line)
  | none => line

/-- src/extensions/ial.c:1570-1702: the lines.  The counter is enough with more than the length of the text. -/
def loop : Nat → Bool → Bytes → Bytes
  | 0, _, _ => []
  | _, _, [] => []
  | n + 1, content, c :: s =>
    let line := (c :: s).takeWhile (· != c!"\n")
    piece content line ++
      match (c :: s).dropWhile (· != c!"\n") with
      | [] => []
      | _ :: r => b!"\n" ++ loop n (!line.all isSpace && (list line).isNone) r

/-- src/extensions/ial.c:1556-1706 `apex_preprocess_ial`: everything is written to a block of twice the length of the text and one
byte, without checks. -/
def process (text : Bytes) : C Bytes := finish (text.length * 2 + 1) (loop (text.length + 1) false text)

end Verif.IalLines
