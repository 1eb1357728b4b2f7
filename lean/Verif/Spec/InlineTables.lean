/-
What inline tables are supposed to do, in terms of the pieces of a document.
-/
import Verif.Spec.Csv

namespace Verif.InlineTables

open Csv.Spec (Rows Table)

/-- The pieces between which there is ordinary text. -/
inductive Item where
  /-- A fenced code block with the language `info`. -/
  | code (info body : Bytes)
  /-- A fenced block of the language `table`: blanks, the word, blanks, the data, and what stands behind the closing fence on its line. -/
  | table (pre word post data tail : Bytes)
  /-- The marker, blanks behind it, and the lines of data. -/
  | marked (blanks : Bytes) (lines : List Bytes)
deriving DecidableEq

/-- How a piece is written. -/
def Item.source : Item → Bytes
  | .code info body => b!"```" ++ info ++ b!"\n" ++ body ++ b!"```"
  | .table pre word post data tail => b!"```" ++ pre ++ word ++ post ++ b!"\n" ++ data ++ b!"```" ++ tail ++ b!"\n"
  | .marked blanks lines => b!"<!--TABLE-->" ++ blanks ++ b!"\n" ++ lines.flatMap (· ++ b!"\n")

/-- The word `table` in any case. -/
def IsWord (w : Bytes) : Prop := w.map toLower = b!"table"

/-- White space other than a line end. -/
def Blanks (s : Bytes) : Prop := ∀ c ∈ s, isSpace c = true ∧ c ≠ c!"\n"

/-- A line of blanks, tabs and carriage returns. -/
def BlankLine (l : Bytes) : Prop := ∀ c ∈ l, c = c!" " ∨ c = c!"\t" ∨ c = c!"\r"

/-- Text that can stand in a fenced block. -/
def Inner (s : Bytes) : Prop := ¬ b!"```" <:+: s ∧ s.getLast? ≠ some c!"`"

/-- The byte between the cells, if there is one: a tab, or a comma if there is no tab. -/
inductive Delim (data : Bytes) : Byte → Prop
  | tab : c!"\t" ∈ data → Delim data c!"\t"
  | comma : c!"\t" ∉ data → c!"," ∈ data → Delim data c!","

/-- Data without a byte between the cells. -/
def NoDelim (data : Bytes) : Prop := c!"\t" ∉ data ∧ c!"," ∉ data

/-- Conditions on the single pieces. -/
def Item.Ok : Item → Prop
  | .code info body => c!"\n" ∉ info ∧ Inner body ∧ ((∀ pre w post, info = pre ++ w ++ post → Blanks pre → Blanks post → ¬ IsWord w) ∨ NoDelim body)
  | .table pre word post data tail => Blanks pre ∧ IsWord word ∧ Blanks post ∧ Inner data ∧ ¬ NoDelim data ∧ c!"\n" ∉ tail
  | .marked blanks lines => (∀ c ∈ blanks, c = c!" " ∨ c = c!"\t") ∧ lines ≠ [] ∧ ∀ l ∈ lines, c!"\n" ∉ l ∧ ¬ BlankLine l

/-- What a piece is turned into, given the table of its data. -/
inductive Item.Result : Item → Bytes → Prop
  | code {info body : Bytes} : Result (.code info body) (Item.source (.code info body))
  | table {pre word post data tail : Bytes} {d : Byte} {rows : List (List Bytes)} {out : Bytes} : Delim data d → Rows d data rows → Table rows out →
      Result (.table pre word post data tail) (out ++ b!"\n")
  | marked {blanks : Bytes} {lines : List Bytes} {d : Byte} {rows : List (List Bytes)} {out : Bytes} : Delim (lines.flatMap (· ++ b!"\n")) d →
      Rows d (lines.flatMap (· ++ b!"\n")) rows → Table rows out → Result (.marked blanks lines) out
  | plain {blanks : Bytes} {lines : List Bytes} : NoDelim (lines.flatMap (· ++ b!"\n")) → Result (.marked blanks lines) (Item.source (.marked blanks lines))

/-- The data of a piece. -/
def Item.data : Item → Bytes
  | .code _ _ => []
  | .table _ _ _ data _ => data
  | .marked _ lines => lines.flatMap (· ++ b!"\n")

/-- Text between the pieces. -/
def Between (t : Bytes) : Prop := ¬ b!"```" <:+: t ∧ ¬ b!"<!--TABLE-->" <:+: t ∧ t.getLast? ≠ some c!"`"

/-- The data of a marker end at a blank line or at the end of the document. -/
def Ends : Item → Bytes → List (Item × Bytes) → Prop
  | .marked _ _, t, more => (∃ l u, t = l ++ b!"\n" ++ u ∧ BlankLine l) ∨ (BlankLine t ∧ more = [])
  | _, _, _ => True

/-- A document: text, and pieces each followed by text. -/
def source (t : Bytes) (ps : List (Item × Bytes)) : Bytes := t ++ ps.flatMap fun p => p.1.source ++ p.2

/-- The document with the results of its pieces. -/
def result (t : Bytes) (ps : List (Item × Bytes)) (outs : List Bytes) : Bytes := t ++ (ps.zip outs).flatMap fun p => p.2 ++ p.1.2

/-- Conditions on the whole. -/
def Good : List (Item × Bytes) → Prop
  | [] => True
  | p :: ps => p.1.Ok ∧ Between p.2 ∧ Ends p.1 p.2 ps ∧ Good ps

/-- The results of the pieces, each table shorter than four times its data and 64 bytes. -/
def Fits : List (Item × Bytes) → List Bytes → Prop
  | [], [] => True
  | p :: ps, out :: outs => p.1.Result out ∧ (out.length < p.1.data.length * 4 + 64 ∨ ∃ a b, p.1 = .code a b) ∧ Fits ps outs
  | _, _ => False

end Verif.InlineTables
