/-
Edit distance, best names, corrected and replaced texts.
-/
import Verif.Model.Emoji

namespace Verif.Emoji.Spec

/-- One character inserted, deleted or substituted. -/
def Step (a b : Bytes) : Prop :=
  (∃ p c q, a = p ++ q ∧ b = p ++ c :: q) ∨
  (∃ p c q, a = p ++ c :: q ∧ b = p ++ q) ∨
  (∃ p c d q, a = p ++ c :: q ∧ b = p ++ d :: q)

/-- `b` is reached from `a` in `n` steps. -/
inductive Edits : Nat → Bytes → Bytes → Prop
  | zero {a} : Edits 0 a a
  | succ {n a b c} : Step a b → Edits n b c → Edits (n + 1) a c

/-- The least number of steps. -/
def Distance (a b : Bytes) (n : Nat) : Prop := Edits n a b ∧ ∀ m, Edits m a b → n ≤ m

/-- `m` is the name to suggest for `n`: within the limit, no name is closer, no name that is equally
close is shorter, and it is the first of the remaining ones. -/
def Best (names : List Bytes) (n : Bytes) (limit : Nat) (m : Bytes) : Prop :=
  ∃ pre post d, names = pre ++ m :: post ∧ Distance n m d ∧ d ≤ limit ∧
    (∀ m' ∈ pre, ∀ d', Distance n m' d' → d < d' ∨ d = d' ∧ m.length < m'.length) ∧
    (∀ m' ∈ post, ∀ d', Distance n m' d' → d < d' ∨ d = d' ∧ m.length ≤ m'.length)

/-- Lower case, and underscores for hyphens. -/
def folded (name : Bytes) : Bytes := name.map fun c => if c = c!"-" then c!"_" else toLower c

/-- What can stand between two colons as an emoji name. -/
structure IsName (blanks name : Bytes) : Prop where
  nonempty : name ≠ []
  short : name.length ≤ 48
  noColon : c!":" ∉ name
  noBlank : ∀ c ∈ name, c ∉ blanks

/-- Only dashes and bars: a table alignment. -/
def Align (name : Bytes) : Prop := ∀ c ∈ name, c = c!"|" ∨ c = c!"-"

/-- What a name is corrected to. -/
inductive NewName (names : List Bytes) : Bytes → Bytes → Prop
  | align {name} : Align name → NewName names name name
  | known {name} : ¬ Align name → folded name ∈ names → NewName names name (folded name)
  | best {name m} : ¬ Align name → folded name ∉ names → Best names (folded name) 4 m →
      NewName names name m
  | unknown {name} : ¬ Align name → folded name ∉ names → (¬ ∃ m, Best names (folded name) 4 m) →
      NewName names name name

/-- The text with its names corrected, everything else as it was. -/
inductive Corrected (names : List Bytes) : Bytes → Bytes → Prop
  | nil : Corrected names [] []
  | name {name new rest out} : IsName blanks name → NewName names name new →
      Corrected names rest out → Corrected names (pattern name ++ rest) (pattern new ++ out)
  | byte {c t out} : (¬ ∃ name rest, IsName blanks name ∧ c :: t = pattern name ++ rest) →
      Corrected names t out → Corrected names (c :: t) (c :: out)

/-- What a `:name:` in running text is replaced by: a table alignment by itself, the name of an emoji
with a Unicode form by that form. -/
inductive Picture (tab : List Entry) : Bytes → Bytes → Prop
  | align {name} : Align name → Picture tab name (pattern name)
  | emoji {name pre post e u} : ¬ Align name → tab = pre ++ e :: post → e.name = folded name →
      (∀ e' ∈ pre, e'.name ≠ folded name) → e.unicode = some u → Picture tab name u

/-- The text with its emoji names replaced, everything else as it was. -/
inductive Replaced (tab : List Entry) : Bytes → Bytes → Prop
  | nil : Replaced tab [] []
  | name {name u rest out} : IsName blanks4 name → Picture tab name u →
      Replaced tab rest out → Replaced tab (pattern name ++ rest) (u ++ out)
  | byte {c t out} : (¬ ∃ name u rest, IsName blanks4 name ∧ Picture tab name u ∧
      c :: t = pattern name ++ rest) → Replaced tab t out → Replaced tab (c :: t) (c :: out)

end Verif.Emoji.Spec
