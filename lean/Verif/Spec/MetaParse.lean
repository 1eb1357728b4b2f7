/-
What the removed header of a document consists of.
-/
import Verif.Model.MetaParse
import Verif.Spec.Metadata

namespace Verif.MetaParse.Spec

open Transforms.Spec (White Trimmed)

/-- Complete lines, each ended by a newline. -/
def lines (ls : List Bytes) : Bytes := (ls.map fun l => l ++ [10]).flatten

/-- The part of a line that is looked at: its first 1023 bytes. -/
def seen (l : Bytes) : Bytes := l.take 1023

/-- Only white space (in the part looked at). -/
def Blank (l : Bytes) : Prop := ∀ c ∈ seen l, White c

/-- The starts of lines that are neither metadata nor the end of the search for it. -/
def skipStarts : List Bytes :=
  [b!"*[", b!"[>", b!"<!--", b!"{::", b!"#", b!"{:", b!"{{TOC"]

/-- An abbreviation definition, comment, Kramdown marker, heading, attribute list or TOC marker. -/
def Skipped (l : Bytes) : Prop := ∃ t, Trimmed (seen l) t ∧ ∃ p ∈ skipStarts, p <+: t

/-- A `key: value` line: the text before the first colon and behind it, both trimmed, not empty. -/
def MetaLine (l k v : Bytes) : Prop :=
  ∃ a b, seen l = a ++ c!":" :: b ∧ c!":" ∉ a ∧ Trimmed a k ∧ Trimmed b v ∧ k ≠ [] ∧ v ≠ []

/-- A line that ends a YAML block. -/
def YamlClose (l : Bytes) : Prop := Trimmed (seen l) b!"---" ∨ Trimmed (seen l) b!"..."

/-- How the header ends: at a line that is not metadata, with a blank line, or (without newline) with
the document. -/
inductive HeaderEnd : Bytes → Bytes → Prop
  | line {rest} : HeaderEnd [] rest
  | blank {l rest} : Blank l → (10 : Byte) ∉ l → HeaderEnd (l ++ [10]) rest
  | document {tail} : (10 : Byte) ∉ tail → HeaderEnd tail []

/-- The lines are metadata lines with these keys and values. -/
inductive MetaLines : List Bytes → List Metadata.Item → Prop
  | nil : MetaLines [] []
  | cons {l k v ls its} : MetaLine l k v → (10 : Byte) ∉ l → MetaLines ls its →
      MetaLines (l :: ls) ((k, v) :: its)

/-- An ordinary key: letters, digits, blanks, hyphens, starting with a letter, not ending in a blank. -/
structure PlainKey (k : Bytes) : Prop where
  start : ∃ c r, k = c :: r ∧ isAlpha c = true
  chars : ∀ c ∈ k, isAlnum c = true ∨ c = 32 ∨ c = c!"-"
  last : ∀ c, k.getLast? = some c → ¬ White c

/-- An ordinary value: on one line, trimmed, without brackets, braces and URLs. -/
structure PlainValue (v : Bytes) : Prop where
  nonempty : v ≠ []
  head : ∀ c, v.head? = some c → ¬ White c
  last : ∀ c, v.getLast? = some c → ¬ White c
  chars : ∀ c ∈ v, c ≠ 10 ∧ c ≠ c!"[" ∧ c ≠ c!"{"
  noUrl : ¬ b!"://" <:+: v

/-- `Key: value` lines with ordinary keys and values, none longer than 1023 bytes. -/
inductive Header : List Metadata.Item → Bytes → Prop
  | nil : Header [] []
  | cons {k v its s} : PlainKey k → PlainValue v → k.length + 2 + v.length ≤ 1023 → Header its s →
      Header ((k, v) :: its) (k ++ c!":" :: 32 :: (v ++ 10 :: s))

/-- What stands in front of a list item: `-`, `+`, `*`, or a number with `.` or `)`. -/
inductive ListMarker : Bytes → Prop
  | bullet {c} : c ∈ b!"-+*" → ListMarker [c]
  | num {ds c} : ds ≠ [] → (∀ d ∈ ds, isDigit d = true) → c ∈ b!".)" → ListMarker (ds ++ [c])

/-- A key that can be given on the command line: it starts with a letter, digit or underscore, has no
`=` or `,`, and does not end in white space. -/
structure KeyOk (k : Bytes) : Prop where
  start : ∃ c r, k = c :: r ∧ (isAlnum c = true ∨ c = c!"_")
  noEq : c!"=" ∉ k
  noComma : c!"," ∉ k
  last : ∀ c, k.getLast? = some c → ¬ White c

/-- `text` writes the pair: the value as it is (no comma in it, no quote in front, no white space
behind), or between quotes that do not occur in it. -/
inductive Written : Bytes → Bytes → Bytes → Prop
  | plain {k v} : KeyOk k → c!"," ∉ v → (∀ c, v.head? = some c → c ≠ c!"\"" ∧ c ≠ c!"'") →
      (∀ c, v.getLast? = some c → ¬ White c) → Written k v (k ++ c!"=" :: v)
  | quoted {k v q} : KeyOk k → q = c!"\"" ∨ q = c!"'" → q ∉ v →
      Written k v (k ++ c!"=" :: q :: (v ++ [q]))

/-- Pairs written one after the other, separated by a comma and white space. -/
inductive WrittenList : List Metadata.Item → Bytes → Prop
  | one {k v t} : Written k v t → WrittenList [(k, v)] t
  | cons {k v t w its s} : Written k v t → (∀ c ∈ w, White c) → WrittenList its s →
      WrittenList ((k, v) :: its) (t ++ c!"," :: (w ++ s))

end Verif.MetaParse.Spec
