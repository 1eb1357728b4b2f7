/-
What is expected of a list of AST filters and of the exchange with a child process.
-/
import Verif.Model.Filters

namespace Verif.Filters.Spec

variable {D : Type}

/-- The filter answers with a document: the document can be written as JSON, the command exits with 0 and its
output (up to a NUL) is a document again. -/
def Answers (w : World D) (d : D) (cmd : Bytes) (d' : D) : Prop :=
  ∃ j out o, w.toJson d = some j ∧ w.run cmd j = some (0, out) ∧
    (0 : Byte) ∉ o ∧ (out = o ∨ ∃ r, out = o ++ 0 :: r) ∧ w.fromJson o = some d'

/-- The filter fails on this document. -/
def Fails (w : World D) (d : D) (cmd : Bytes) : Prop := ∀ d', ¬ Answers w d cmd d'

/-- A command that is to be run at all. -/
def Proper (c : Option Bytes) (cmd : Bytes) : Prop := c = some cmd ∧ cmd ≠ []

/-- A missing or empty command. -/
def Blank (c : Option Bytes) : Prop := c = none ∨ c = some []

/-- The document after an answer: an answer without blocks does not replace a document with blocks. -/
def taken (w : World D) (d d' : D) : D := if w.hasBlocks d' = false ∧ w.hasBlocks d = true then d else d'

/-- Every filter of the list answers; `d'` is the document after all of them. -/
inductive AllAnswer (w : World D) : List (Option Bytes) → D → D → Prop
  | nil {d} : AllAnswer w [] d d
  | blank {c cs d d'} : Blank c → AllAnswer w cs d d' → AllAnswer w (c :: cs) d d'
  | step {c cmd cs d new d'} : Proper c cmd → Answers w d cmd new → AllAnswer w cs (taken w d new) d' →
      AllAnswer w (c :: cs) d d'

/-- Filters that fail are passed over. -/
inductive Lenient (w : World D) : List (Option Bytes) → D → D → Prop
  | nil {d} : Lenient w [] d d
  | blank {c cs d d'} : Blank c → Lenient w cs d d' → Lenient w (c :: cs) d d'
  | fail {c cmd cs d d'} : Proper c cmd → Fails w d cmd → Lenient w cs d d' → Lenient w (c :: cs) d d'
  | step {c cmd cs d new d'} : Proper c cmd → Answers w d cmd new → Lenient w cs (taken w d new) d' →
      Lenient w (c :: cs) d d'

/-- The non-empty commands of a list. -/
def commands (cs : List (Option Bytes)) : List Bytes := cs.filterMap fun c => c.bind fun s => if s = [] then none else some s

/-! ### Pipes -/

/-- Reachable by moves. -/
inductive Reach (cap buf : Nat) : Pipes → Pipes → Prop
  | refl {s} : Reach cap buf s s
  | tail {s t u} : Reach cap buf s t → Move cap buf t u → Reach cap buf s u

/-- The start with `n` bytes to send. -/
def start (n : Nat) : Pipes := ⟨n, 0, 0, 0, 0⟩

/-- Everything has come back. -/
def Finished (n : Nat) (s : Pipes) : Prop := s = ⟨0, 0, 0, 0, n⟩

/-- Nothing can move any more. -/
def Stuck (cap buf : Nat) (s : Pipes) : Prop := ∀ t, ¬ Move cap buf s t

end Verif.Filters.Spec
