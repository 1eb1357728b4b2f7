/- What a user relies on when a plugin or a filter is looked up in a directory: JSON of objects of strings. -/
import Verif.Model.Remote

namespace Verif.Remote.Spec

/-- Blanks of JSON. -/
def Gap (s : Bytes) : Prop := ∀ c ∈ s, c = c!" " ∨ c = c!"\t" ∨ c = c!"\n" ∨ c = c!"\r"

/-- Blanks on one line. -/
def Near (s : Bytes) : Prop := ∀ c ∈ s, c = c!" " ∨ c = c!"\t"

/-- A byte between strings. -/
def Sep (c : Byte) : Prop := c ≠ c!"\"" ∧ isAlpha c = false

/-- The text of a string of JSON: a quote or a backslash in it is behind a backslash. -/
inductive Str : Bytes → Prop
  | nil : Str []
  | plain {c : Byte} {s : Bytes} : c ≠ c!"\"" → c ≠ c!"\\" → Str s → Str (c :: s)
  | esc {c : Byte} {s : Bytes} : Str s → Str (c!"\\" :: c :: s)

/-- A string of JSON. -/
def str (s : Bytes) : Bytes := b!"\"" ++ s ++ b!"\""

/-- A member of an object with the blanks around its parts. -/
structure Member where
  key : Bytes
  val : Bytes
  g1 : Bytes
  g2 : Bytes
  g3 : Bytes
  g4 : Bytes

/-- Its text. -/
def Member.text (m : Member) : Bytes := m.g1 ++ str m.key ++ m.g2 ++ b!":" ++ m.g3 ++ str m.val ++ m.g4

/-- A member of JSON whose key is a word and whose value is on the line of its colon and has no braces. -/
structure Member.Ok (m : Member) : Prop where
  gaps : Gap m.g1 ∧ Gap m.g2 ∧ Near m.g3 ∧ Gap m.g4
  key : ∀ c ∈ m.key, isAlpha c = true
  val : Str m.val
  flat : c!"{" ∉ m.val ∧ c!"}" ∉ m.val

/-- The value cannot be taken for a key. -/
def Quiet (k : Bytes) (m : Member) : Prop := ¬ str k <:+: str m.val

/-- The members behind the first. -/
def tail (ms : List Member) : Bytes := ms.flatMap fun m => c!"," :: m.text

/-- An object. -/
def object : List Member → Bytes
  | [] => b!"{}"
  | m :: ms => b!"{" ++ m.text ++ tail ms ++ b!"}"

/-- The value of a key. -/
def value (k : Bytes) (ms : List Member) : Option Bytes := (ms.find? fun m => m.key = k).map Member.val

/-- An object in an array with the blanks around it. -/
structure Item where
  g1 : Bytes
  members : List Member
  g2 : Bytes

/-- Its text. -/
def Item.text (x : Item) : Bytes := x.g1 ++ object x.members ++ x.g2

/-- The objects behind the first. -/
def rest (xs : List Item) : Bytes := xs.flatMap fun x => c!"," :: x.text

/-- The objects of an array. -/
def array : List Item → Bytes
  | [] => []
  | x :: xs => x.text ++ rest xs

/-- A directory: the array of a key somewhere in a text. -/
def directory (word before g1 g2 after : Bytes) (xs : List Item) : Bytes :=
  before ++ str word ++ g1 ++ b!":" ++ g2 ++ b!"[" ++ array xs ++ b!"]" ++ after

/-- The keys looked at. -/
def keys : List Bytes := [b!"id", b!"repo", b!"title", b!"description", b!"author", b!"homepage"]

/-- An object of a directory. -/
structure Item.Ok (x : Item) : Prop where
  gaps : Gap x.g1 ∧ Gap x.g2
  members : ∀ m ∈ x.members, m.Ok

/-- The entry an object stands for; it needs an id and a repository. -/
def entryOf (ms : List Member) : Option Entry :=
  match value b!"id" ms, value b!"repo" ms with
  | some i, some r => some ⟨i, r, value b!"title" ms, value b!"description" ms, value b!"author" ms, value b!"homepage" ms⟩
  | _, _ => none

/-- The object has one id, and these members behind it.  No value can be taken for one of the keys looked at. -/
def Named (x : Item) (i : Bytes) (b : List Member) : Prop :=
  ∃ a m, x.members = a ++ m :: b ∧ m.key = b!"id" ∧ m.val = i ∧ c!"\"" ∉ i ∧ (∀ y ∈ a ++ b, y.key ≠ b!"id") ∧
    ∀ y ∈ a ++ m :: b, y.Ok ∧ ∀ k ∈ [b!"id", b!"repo", b!"path"], Quiet k y

/-- The last one of a list that is there. -/
def Last (p : Entry → Prop) (l : List Entry) (e : Entry) : Prop := ∃ a b, l = a ++ e :: b ∧ p e ∧ ∀ x ∈ b, ¬ p x

end Verif.Remote.Spec
