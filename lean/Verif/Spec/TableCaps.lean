/- What the captions of tables are, without the program. -/
import Verif.Model.TableCaps

namespace Verif.TableCaps.Spec
open TableSpans (Inl Cell Row gone)

/-- Two lists of the same length whose elements are related one by one. -/
inductive Each {α β : Type} (R : α → β → Prop) : List α → List β → Prop
  | nil : Each R [] []
  | cons {a : α} {b : β} {l : List α} {m : List β} : R a b → Each R l m → Each R (a :: l) (b :: m)

/-- The texts that are children of a paragraph. -/
def text (ks : List Inl) : Bytes := ks.flatMap fun
  | .text s => s
  | _ => []

/-- A block that has nothing to do with captions: one that is no paragraph, or a paragraph whose text does not begin with a bracket, a colon or a space. -/
def Quiet : Block → Prop
  | .para ks _ => (text ks).head? ≠ some c!"[" ∧ (text ks).head? ≠ some c!":" ∧ (text ks).head? ≠ some c!" "
  | .table _ _ => False
  | .heading _ => True
  | .other _ => True

/-- A caption: its text, without braces, quotes and brackets, and whether it is written as `[Caption]` or as `: Caption`. -/
structure Caption where
  text : Bytes
  bracket : Bool

/-- The paragraph that is written for the caption. -/
def Caption.write (c : Caption) : Bytes := if c.bracket then b!"[" ++ c.text ++ b!"]" else b!": " ++ c.text

/-- The caption has text on one line, and no bytes that end a caption. -/
def Caption.Ok (c : Caption) : Prop :=
  (∀ x ∈ c.text, x ≠ c!"]" ∧ x ≠ c!"{" ∧ x ≠ c!"\"" ∧ x ≠ c!"\n") ∧ (∃ x t, c.text = x :: t ∧ isSpace x = false) ∧ ∃ t x, c.text = t ++ [x] ∧ isSpace x = false

/-- The paragraph of a caption. -/
def Caption.para (c : Caption) : Block := .para [.text c.write] none

/-- The same paragraph, taken out. -/
def Caption.taken (c : Caption) : Block := .para [.text c.write] (some gone)

/-- The table with this caption. -/
def Caption.table (c : Caption) (rows : List Row) : Block := .table rows (some (b!" data-caption=\"" ++ c.text ++ b!"\""))

/-- A table without a caption, with one above it, or below it. -/
inductive Place
  | bare
  | above (c : Caption)
  | below (c : Caption)

/-- A part of a document: a table, its caption, and the blocks behind them. -/
structure Part where
  place : Place
  rows : List Row
  rest : List Block

/-- What is written. -/
def Part.write (p : Part) : List Block :=
  (match p.place with
  | .bare => [.table p.rows none]
  | .above c => [c.para, .table p.rows none]
  | .below c => [.table p.rows none, c.para]) ++ p.rest

/-- What it means. -/
def Part.means (p : Part) : List Block :=
  (match p.place with
  | .bare => [.table p.rows none]
  | .above c => [c.taken, c.table p.rows]
  | .below c => [c.table p.rows, c.taken]) ++ p.rest

/-- No cell of the row begins with a bracket. -/
def Bare (r : Row) : Prop := ∀ c ∈ r.cells, ∀ s ks, c.kids = .text s :: ks → s.head? ≠ some c!"["

/-- The blocks behind have nothing to do with captions; if the caption is not below the table, something is behind the table. -/
def Part.Ok (p : Part) : Prop :=
  (∀ b ∈ p.rest, Quiet b) ∧ (∀ r ∈ p.rows, Bare r) ∧
    match p.place with
    | .bare => p.rest ≠ []
    | .above c => c.Ok ∧ p.rest ≠ []
    | .below c => c.Ok

/-! ### What is kept -/

/-- The paragraph may be a caption. -/
def Looks (ks : List Inl) : Prop := (text ks).head? = some c!"[" ∨ ((text ks).dropWhile (· = c!" ")).head? = some c!":"

/-- Some cell of the row begins with a bracket. -/
def LooksRow (r : Row) : Prop := ∃ c ∈ r.cells, ∃ s ks, c.kids = .text s :: ks ∧ s.head? = some c!"["

/-- A row is the same, or is taken out. -/
def KeptRow (r r' : Row) : Prop := r' = r ∨ (LooksRow r ∧ r' = { r with data := some gone })

/-- What may become of a block. -/
def Kept : Block → Block → Prop
  | .para ks d, b => b = .para ks d ∨ (Looks ks ∧ b = .para ks (some gone))
  | .table rows d, b => ∃ rows' d', b = .table rows' d' ∧ Each KeptRow rows rows' ∧ (d' = d ∨ ∃ cap, d' = some (d.getD [] ++ b!" data-caption=\"" ++ cap))
  | .heading s, b => b = .heading s
  | .other s, b => b = .other s

/-! ### Attributes -/

/-- A name. -/
def Name (w : Bytes) : Prop := w ≠ [] ∧ ∀ c ∈ w, isAlnum c = true ∨ c = c!"-" ∨ c = c!"_"

/-- Attributes as they are written: a name or not, classes, and other attributes with their values in quotes. -/
structure Marks where
  id : Option Bytes
  classes : List Bytes
  keys : List (Bytes × Bytes)

/-- What is written between the braces, a blank in front of each. -/
def Marks.write (l : Marks) : Bytes :=
  (l.id.map fun i => b!" #" ++ i).getD [] ++ (l.classes.flatMap (fun c => b!" ." ++ c) ++ l.keys.flatMap fun k => b!" " ++ k.1 ++ b!"=\"" ++ k.2 ++ b!"\"")

/-- The attributes in HTML. -/
def Marks.html (l : Marks) : Bytes :=
  (l.id.map fun i => b!" id=\"" ++ i ++ b!"\"").getD [] ++ (if l.classes = [] then [] else b!" class=\"" ++ (List.intersperse b!" " l.classes).flatten ++ b!"\"") ++
    l.keys.flatMap fun k => b!" " ++ k.1 ++ b!"=\"" ++ k.2 ++ b!"\""

/-- Names, values without quotes, braces and backslashes, not too long. -/
def Marks.Ok (l : Marks) : Prop :=
  (∀ i, l.id = some i → Name i) ∧ (∀ c ∈ l.classes, Name c) ∧ (∀ k ∈ l.keys, Name k.1 ∧ (∀ c ∈ k.2, c ≠ c!"\"" ∧ c ≠ c!"\\" ∧ c ≠ c!"}" ∧ c ≠ c!"{") ∧ k.1.length + k.2.length < 1000) ∧
    l.write.length < 2000

/-- A caption with attributes behind it. -/
def Caption.marked (c : Caption) (l : Marks) : Bytes := b!"[" ++ c.text ++ b!"] {:" ++ l.write ++ b!"}"

/-- The text is not too long, and in front of each closing brace there is a blank. -/
def Loose (t : Bytes) : Prop := t.length < 2048 ∧ ∀ a b, t = a ++ c!"}" :: b → a.getLast? = some c!" "

/-- All texts of a block that may be captions are so. -/
def LooseBlock : Block → Prop
  | .para ks _ => Loose (text ks)
  | .table rows _ => ∀ r ∈ rows, ∀ c ∈ r.cells, ∀ s ks, c.kids = .text s :: ks → Loose s
  | _ => True

end Verif.TableCaps.Spec
