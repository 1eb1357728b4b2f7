/-
What the special markers mean.
-/
import Verif.Basic

namespace Verif.Markers.Spec

inductive Seg where
  | plain (c : Byte)
  /-- A line with nothing but `^`: the blanks behind it, and whether a newline ends it. -/
  | block (ws : Bytes) (nl : Bool)
  /-- `<!--BREAK-->` -/
  | break
  /-- `{::pagebreak /}` -/
  | leanpub
  /-- `<!--PAUSE:ds-->` -/
  | pause (ds : Bytes)

def Seg.source : Seg → Bytes
  | plain c => [c]
  | block ws nl => b!"^" ++ ws ++ (if nl then b!"\n" else [])
  | .break => b!"<!--BREAK-->"
  | leanpub => b!"{::pagebreak /}"
  | pause ds => b!"<!--PAUSE:" ++ ds ++ b!"-->"

def pageBreak : Bytes :=
  b!"\n\n<div class=\"mkpagebreak manualbreak\" title=\"Page break created by marker\" data-description=\"PAGE (Marker)\" style=\"page-break-after:always\"><span style=\"display:none\">&nbsp;</span></div>\n\n"

/-- The digits with leading zeros removed. -/
def plainNumber (ds : Bytes) : Bytes :=
  match ds.dropWhile (· == c!"0") with
  | [] => b!"0"
  | d => d

def Seg.html : Seg → Bytes
  | plain c => [c]
  | block .. => b!"\n\n" ++ [0xE2, 0x80, 0x8B] ++ b!"\n\n"
  | .break => Spec.pageBreak
  | leanpub => Spec.pageBreak
  | pause ds => b!"<div class=\"autoscroll-pause\" data-pause=\"" ++ plainNumber ds ++ b!"\"></div>"

def Blanks (s : Bytes) : Prop := ∀ c ∈ s, c = c!" " ∨ c = c!"\t"

/-- The text ends in front of the first column, up to blanks (but nothing may stand in front on the first line). -/
def AtLineStart (text : Bytes) : Prop := text = [] ∨ ∃ p ws, text = p ++ b!"\n" ++ ws ∧ Blanks ws

/-- A marker `e` stands between `before` and `after`. -/
def Marks (before : Bytes) (e : Seg) (after : Bytes) : Prop :=
  match e with
  | .plain _ => False
  | .block ws nl => AtLineStart before ∧ Blanks ws ∧ (nl = false → after = [])
  | .break => True
  | .leanpub => True
  | .pause ds => ∀ c ∈ ds, isDigit c = true

/-- How a text is read, given the text in front of it. -/
inductive Reads : Bytes → Bytes → List Seg → Prop where
  | nil {before} : Reads before [] []
  | plain {before c t d} : (∀ e after, c :: t = e.source ++ after → ¬ Marks before e after) →
      Reads (before ++ [c]) t d → Reads before (c :: t) (.plain c :: d)
  | marker {before e after d} : Marks before e after → Reads (before ++ e.source) after d →
      Reads before (e.source ++ after) (e :: d)

end Verif.Markers.Spec
