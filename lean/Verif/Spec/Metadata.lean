/-
What metadata lookup, merging and variables are supposed to do.
-/
import Verif.Model.Metadata
import Verif.Spec.Transforms

namespace Verif.Metadata.Spec

open Transforms.Spec (White FirstOcc)

/-- ASCII lower case. -/
def fold (c : Byte) : Byte := if 65 ≤ c ∧ c ≤ 90 then c + 32 else c

/-- Equal up to case. -/
def SameCase (a b : Bytes) : Prop := a.map fold = b.map fold

instance (c : Byte) : Decidable (White c) := by unfold White; infer_instance

/-- Equal up to case and white space. -/
def SameKey (a b : Bytes) : Prop :=
  (a.filter fun c => ¬ White c).map fold = (b.filter fun c => ¬ White c).map fold

/-- `(k, v)` is the first item of `md` whose key satisfies `p`. -/
def IsFirst (md : Meta) (p : Bytes → Prop) (k v : Bytes) : Prop :=
  ∃ pre post, md = pre ++ (k, v) :: post ∧ p k ∧ ∀ it ∈ pre, ¬ p it.1

/-- The value the last of the lists that knows the key gives it. -/
def lastValue : List Meta → Bytes → Option Bytes
  | [], _ => none
  | l :: rest, key =>
    match lastValue rest key with
    | some v => some v
    | none => get l key

/-- No two items of the list have the same key up to case and white space. -/
def Distinct (md : Meta) : Prop := md.Pairwise fun a b => ¬ SameKey a.1 b.1

/-- Brackets in `p` are balanced and never close more than was opened. -/
def Balanced (p : Bytes) : Prop :=
  p.count c!"[" = p.count c!"]" ∧ ∀ q, q <+: p → q.count c!"]" ≤ q.count c!"["

/-- The text after variables have been replaced: `value` gives the replacement of a known
variable.  Text outside closed variables is kept. -/
inductive Expands (value : Bytes → Option Bytes) : Bytes → Bytes → Prop
  /-- no variable -/
  | plain {s} : ¬ b!"[%" <:+: s → Expands value s s
  /-- the first variable is not closed -/
  | unclosed {s pre t} : FirstOcc b!"[%" s pre t →
      (∀ p, Balanced p → ¬ p ++ b!"]" <+: t) → Expands value s s
  /-- the first variable is closed and known: its value, then the expansion of what follows -/
  | known {s pre p t v r} : FirstOcc b!"[%" s pre (p ++ b!"]" ++ t) → Balanced p →
      p.length < 512 → value p = some v → Expands value t r → Expands value s (pre ++ v ++ r)
  /-- the first variable is closed and not known (or too long): kept -/
  | unknown {s pre p t r} : FirstOcc b!"[%" s pre (p ++ b!"]" ++ t) → Balanced p →
      (512 ≤ p.length ∨ value p = none) → Expands value t r →
      Expands value s (pre ++ b!"[%" ++ p ++ b!"]" ++ r)

end Verif.Metadata.Spec
