/-
Specification for abbreviations, independent of the model.
-/
import Verif.Spec.Ial
import Verif.Spec.Text

namespace Verif.Abbr.Spec
open Transforms.Spec Ial.Spec

/-- An abbreviation and its expansion. -/
abbrev Pair := Bytes × Bytes

/-- `[>(abbr) expansion]`, with blanks (`sp`) between. -/
structure Inline (a sp e : Bytes) : Prop where
  abbr : Free b!")" a
  abbrSize : 0 < a.length ∧ a.length < 256
  gap : ∀ c ∈ sp, c = c!" "
  start : ∀ c ∈ e.head?, c ≠ c!" "
  exp : Free b!"]" e
  expSize : 0 < e.length ∧ e.length < 1024

/-- How it is written. -/
def inlineText (a sp e : Bytes) : Bytes := b!"[>(" ++ a ++ b!")" ++ sp ++ e ++ b!"]"

/-- How a text with inline abbreviations reads: the text left, and the abbreviations in order. `ok a` is what is asked
of every abbreviation. -/
inductive Reads (ok : Bytes → Prop) : Bytes → Bytes → List Pair → Prop where
  | nil : Reads ok [] [] []
  | byte {c t o l} : (∀ a sp e r, Inline a sp e → c :: t ≠ inlineText a sp e ++ r) → Reads ok t o l →
      Reads ok (c :: t) (c :: o) l
  | inline {a sp e r o l a' e'} : Inline a sp e → ok a → Trimmed a a' → Trimmed e e' → Reads ok r o l →
      Reads ok (inlineText a sp e ++ r) (a ++ o) ((a', e') :: l)

/-- No white space at the end. -/
def EndsInk (a : Bytes) : Prop := ∀ c ∈ a.getLast?, ¬ White c

/-- A line defining an abbreviation: `*[abbr]: expansion` or `[>abbr]: expansion`. -/
def Defines (line a e : Bytes) : Prop :=
  ∃ mark, (mark = b!"*[" ∨ mark = b!"[>") ∧ line = mark ++ a ++ b!"]:" ++ e ∧ Free b!"]" a

/-- The lines are sorted into those kept and the definitions; definitions where either part is blank are dropped. -/
inductive Sorted : List Bytes → List Bytes → List Pair → Prop where
  | nil : Sorted [] [] []
  | keep {l ls kept defs} : (∀ a e, ¬ Defines l a e) → Sorted ls kept defs → Sorted (l :: ls) (l :: kept) defs
  | take {l ls kept defs a e a' e'} : Defines l a e → Trimmed a a' → Trimmed e e' → a' ≠ [] → e' ≠ [] →
      Sorted ls kept defs → Sorted (l :: ls) kept ((a', e') :: defs)
  | blank {l ls kept defs a e} : Defines l a e → Trimmed a [] ∨ Trimmed e [] →
      Sorted ls kept defs → Sorted (l :: ls) kept defs

/-- The element for an abbreviation. -/
def element (p : Pair) : Bytes := b!"<abbr title=\"" ++ p.2 ++ b!"\">" ++ p.1 ++ b!"</abbr>"

/-- A letter or a digit. -/
def Word (c : Byte) : Prop := (48 ≤ c ∧ c ≤ 57) ∨ (65 ≤ c ∧ c ≤ 90) ∨ (97 ≤ c ∧ c ≤ 122)

/-- The abbreviation stands at the beginning of `s` as a whole word; `prev` is the byte before. -/
def Stands (a : Bytes) (prev : Option Byte) (s : Bytes) : Prop :=
  ∃ r, s = a ++ r ∧ (∀ c ∈ prev, ¬ Word c) ∧ ∀ c ∈ r.head?, ¬ Word c

/-- The first pair for which `P` holds. -/
def First (l : List Pair) (P : Pair → Prop) (p : Pair) : Prop :=
  ∃ u v, l = u ++ p :: v ∧ P p ∧ ∀ q ∈ u, ¬ P q

/-- `x` is the text between `[&gt;` and `]`. -/
def Body (x : Bytes) : Prop := Free b!"]\n<" x

/-- How bracketed text is written in HTML. -/
def bracket (x : Bytes) : Bytes := b!"[&gt;" ++ x ++ b!"]"

/-- `[&gt;name]` refers to the abbreviation `p`. -/
def Refers (l : List Pair) (x : Bytes) (p : Pair) : Prop :=
  Body x ∧ x.head? ≠ some c!"(" ∧ 0 < x.length ∧ x.length < 256 ∧ ∃ n, Trimmed x n ∧ First l (fun q => q.1 = n) p

/-- `[&gt;(abbr) expansion]`, which gives its own expansion. -/
def Gives (x : Bytes) (p : Pair) : Prop :=
  ∃ a e, x = b!"(" ++ a ++ b!")" ++ e ∧ Body x ∧ Free b!")" a ∧ a ≠ [] ∧ e ≠ [] ∧ Trimmed a p.1 ∧ Trimmed e p.2

/-- How abbreviations are to be marked in HTML. -/
inductive Marks (l : List Pair) : Option Byte → Bytes → Bytes → Prop where
  | nil {prev} : Marks l prev [] []
  | bracket {prev x p t o} : Refers l x p ∨ Gives x p → Marks l (some c!"]") t o →
      Marks l prev (bracket x ++ t) (element p ++ o)
  | word {prev p t o} : (∀ x q r, Refers l x q ∨ Gives x q → p.1 ++ t ≠ Spec.bracket x ++ r) → p.1 ≠ [] →
      First l (fun q => Stands q.1 prev (p.1 ++ t)) p → Marks l p.1.getLast? t o →
      Marks l prev (p.1 ++ t) (element p ++ o)
  | byte {prev c t o} : (∀ x q r, Refers l x q ∨ Gives x q → c :: t ≠ Spec.bracket x ++ r) →
      (∀ q ∈ l, ¬ Stands q.1 prev (c :: t)) → Marks l (some c) t o → Marks l prev (c :: t) (c :: o)

end Verif.Abbr.Spec
