/-
What the metadata transforms are supposed to do, in terms of byte strings only.
-/
import Verif.Model.Transforms

namespace Verif.Transforms.Spec

/-- The white space bytes of the C locale. -/
def White (c : Byte) : Prop := c = 32 ∨ c = 9 ∨ c = 10 ∨ c = 11 ∨ c = 12 ∨ c = 13

/-- `t` is `v` without its surrounding white space. -/
def Trimmed (v t : Bytes) : Prop :=
  ∃ a b, v = a ++ t ++ b ∧ (∀ c ∈ a, White c) ∧ (∀ c ∈ b, White c) ∧
    (∀ c, t.head? = some c → ¬ White c) ∧ (∀ c, t.getLast? = some c → ¬ White c)

/-- A slug: lower case letters, digits and hyphens, no two hyphens together, none at the end. -/
structure Slug (s : Bytes) : Prop where
  chars : ∀ c ∈ s, (97 ≤ c ∧ c ≤ 122) ∨ (48 ≤ c ∧ c ≤ 57) ∨ c = 45
  noDouble : ¬ [45, 45] <:+: s
  noTrailing : s.getLast? ≠ some 45

/-- `pre` ends right before the leftmost occurrence of `old` in `v`, and `rest` follows it. -/
def FirstOcc (old v pre rest : Bytes) : Prop :=
  v = pre ++ old ++ rest ∧ ∀ p r, v = p ++ old ++ r → pre.length ≤ p.length

/-- `r` is `v` with every leftmost non-overlapping occurrence of `old` replaced by `new`. -/
inductive ReplaceAll (old new : Bytes) : Bytes → Bytes → Prop
  | none {v} : ¬ old <:+: v → ReplaceAll old new v v
  | some {v pre rest r} : FirstOcc old v pre rest → ReplaceAll old new rest r →
      ReplaceAll old new v (pre ++ new ++ r)

/-- The pieces of `v` between the successive matches of `rx`. -/
inductive Pieces (rx : Matcher) : Bytes → List Bytes → Prop
  | last {s} : rx s = none → Pieces rx s [s]
  | stop {s a e} : rx s = some (a, e) → s.drop e = [] → Pieces rx s [s.take a]
  | cut {s a e ps} : rx s = some (a, e) → s.drop e ≠ [] → Pieces rx (s.drop e) ps →
      Pieces rx s (s.take a :: ps)

/-- `s` with every match of `rx` replaced by `new`. -/
inductive RegexReplaced (rx : Matcher) (new : Bytes) : Bytes → Bytes → Prop
  | none {s} : rx s = none → RegexReplaced rx new s s
  | some {s a e r} : rx s = some (a, e) → RegexReplaced rx new (s.drop e) r →
      RegexReplaced rx new s (s.take a ++ new ++ r)

/-- The tokens occur in the text in this order, without overlap. -/
inductive InOrder : List Bytes → Bytes → Prop
  | nil {s} : InOrder [] s
  | cons {t ts p s} : InOrder ts s → InOrder (t :: ts) (p ++ t ++ s)

/-- Applying string functions one after the other. -/
def compose : List (Bytes → Bytes) → Bytes → Bytes
  | [], v => v
  | f :: fs, v => compose fs (f v)

end Verif.Transforms.Spec
