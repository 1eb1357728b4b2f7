/- What the file of a theme says: sections of keys with values, in lines as one writes them, and as YAML. -/
import Verif.Model.ThemeFile

namespace Verif.ThemeFile.Spec

/-- Text of one byte or more that neither starts nor ends with white space. -/
def Trimmed (s : Bytes) : Prop := s ≠ [] ∧ (∀ c ∈ s.head?, isSpace c = false) ∧ ∀ c ∈ s.getLast?, isSpace c = false

/-- White space. -/
def Blank (s : Bytes) : Prop := ∀ c ∈ s, isSpace c = true

/-- A name of a section or key: up to 63 bytes, with no colon, and no comment. -/
def Name (s : Bytes) : Prop := Trimmed s ∧ s.length ≤ 63 ∧ c!":" ∉ s ∧ s.head? ≠ some c!"#"

/-- A line of a file. -/
inductive Row
  /-- An empty line or a comment. -/
  | note (s : Bytes)
  /-- `name:`, with white space before the colon and anything behind it. -/
  | section (name gap tail : Bytes)
  /-- `  key: value`, the value with or without quotes. -/
  | entry (indent key gap lead : Bytes) (quote : Option Byte) (value tail : Bytes)
  /-- `list_marker: value`, without quotes. -/
  | marker (gap lead value tail : Bytes)

/-- The line. -/
def Row.text : Row → Bytes
  | .note s => s
  | .section name gap tail => name ++ gap ++ b!":" ++ tail
  | .entry indent key gap lead quote value tail =>
    match quote with
    | some q => indent ++ key ++ gap ++ b!":" ++ lead ++ [q] ++ value ++ [q] ++ tail
    | none => indent ++ key ++ gap ++ b!":" ++ lead ++ value ++ tail
  | .marker gap lead value tail => b!"list_marker" ++ gap ++ b!":" ++ lead ++ value ++ tail

/-- What makes a line one of its kind. -/
def Row.Fine : Row → Prop
  | .note s => ∃ a b, s = a ++ b ∧ Blank a ∧ (b = [] ∨ b.head? = some c!"#")
  | .section name gap _ => Name name ∧ name ≠ b!"list_marker" ∧ Blank gap
  | .entry indent key gap lead quote value tail =>
    indent ≠ [] ∧ Blank indent ∧ Name key ∧ Blank gap ∧ Blank lead ∧ Trimmed value ∧
      match quote with
      | some q => (q = c!"\"" ∨ q = c!"'") ∧ q ∉ tail
      | none => value.head? ≠ some c!"\"" ∧ value.head? ≠ some c!"'" ∧ Blank tail
  | .marker gap lead value tail => Blank gap ∧ Blank lead ∧ Trimmed value ∧ Blank tail

/-- A line of a file, of up to 1021 bytes. -/
def Row.Good (r : Row) : Prop := r.Fine ∧ r.text.length ≤ 1021 ∧ ∀ c ∈ r.text, c ≠ 0 ∧ c ≠ c!"\r" ∧ c ≠ c!"\n"

/-- A file of lines, each with its end: `true` for one of two bytes. -/
def file (rows : List (Row × Bool)) : Bytes := rows.flatMap fun r => r.1.text ++ if r.2 then b!"\r\n" else b!"\n"

/-- A part of a theme: a section with its keys and values, or the style of marks of lists. -/
inductive Part
  | section (name : Bytes) (keys : List (Bytes × Bytes))
  | marker (value : Bytes)

/-- The keys and values before the first part of some lines, and the parts, if all other keys are in sections. -/
def group : List Row → Option (List (Bytes × Bytes) × List Part)
  | [] => some ([], [])
  | .note _ :: rs => group rs
  | .entry _ key _ _ _ value _ :: rs => (group rs).map fun x => ((key, value) :: x.1, x.2)
  | .section name _ _ :: rs => (group rs).map fun x => ([], .section name x.1 :: x.2)
  | .marker _ _ value _ :: rs => (group rs).bind fun x => if x.1 = [] then some ([], .marker value :: x.2) else none

/-- The parts of a file, if all keys are in sections. -/
def parts (rs : List Row) : Option (List Part) := (group rs).bind fun x => if x.1 = [] then some x.2 else none

/-- Sections, keys and values, in order. -/
def entries : List Part → List (Bytes × Bytes × Bytes)
  | [] => []
  | .section name keys :: ps => keys.map (fun k => (name, k.1, k.2)) ++ entries ps
  | .marker value :: ps => (b!"list_marker", [], value) :: entries ps

/-- The value of a key in a section: the last one. -/
def says (es : List (Bytes × Bytes × Bytes)) (sec key : Bytes) : Option Bytes := (es.reverse.find? fun e => e.1 = sec && e.2.1 = key).map fun e => e.2.2

/-- A part as YAML: a key with a mapping, or with a value; a section with nothing in it has an empty value. -/
def Part.yaml : Part → List Event
  | .section name [] => [.scalar name, .scalar []]
  | .section name (k :: ks) => [.scalar name, .open] ++ (k :: ks).flatMap (fun k => [.scalar k.1, .scalar k.2]) ++ [.close]
  | .marker value => [.scalar b!"list_marker", .scalar value]

/-- A document as YAML: one mapping of all parts. -/
def yaml (ps : List Part) : List Event := [.open] ++ ps.flatMap Part.yaml ++ [.close]

/-- The style of an element with this colour that is to be bold or not. -/
def styled (colour : Option Bytes) (bold : Bool) : Option Bytes :=
  if bold then
    match colour with
    | some c => some (b!"b " ++ c)
    | none => some b!"b"
  else colour

/-- Words for yes. -/
def affirms (v : Bytes) : Bool := v.map toLower ∈ [b!"true", b!"yes", b!"on"] || v = b!"1"

/-- The keys of styles, as documented, with the style they are of. -/
def elements : List (Bytes × Bytes × Field) :=
  [(b!"h1", b!"color", .head 1), (b!"h2", b!"color", .head 2), (b!"h3", b!"color", .head 3), (b!"h4", b!"color", .head 4), (b!"h5", b!"color", .head 5), (b!"h6", b!"color", .head 6),
   (b!"link", b!"text", .linkText), (b!"code_span", b!"color", .codeSpan), (b!"code_block", b!"color", .codeBlock), (b!"blockquote", b!"color", .quoteColour), (b!"table", b!"border", .border)]

end Verif.ThemeFile.Spec
