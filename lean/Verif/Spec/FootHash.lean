/-
Specification for footnote id prefixes.
-/
import Verif.Basic

namespace Verif.FootHash.Spec

/-- A lower-case hexadecimal digit. -/
def HexDigit (c : Byte) : Prop := (48 ≤ c ∧ c ≤ 57) ∨ (97 ≤ c ∧ c ≤ 102)

/-- The beginnings of footnote ids and of references to them. -/
inductive Mark : Bytes → Prop where
  | note : Mark b!"id=\"fn-"
  | back : Mark b!"id=\"fnref-"
  | toNote : Mark b!"href=\"#fn-"
  | toBack : Mark b!"href=\"#fnref-"

/-- `o` is `s` with `p` inserted behind every mark. -/
inductive Inserts (p : Bytes) : Bytes → Bytes → Prop where
  | nil : Inserts p [] []
  | mark {m t o} : Mark m → Inserts p t o → Inserts p (m ++ t) (m ++ p ++ o)
  | byte {c t o} : (∀ m, Mark m → ¬ m <+: c :: t) → Inserts p t o → Inserts p (c :: t) (c :: o)

/-- The number a document stands for, with 33 for the base, and 5381 in front. -/
def number (doc : Bytes) : Nat := doc.foldl (fun n c => 33 * n + c.toNat) 5381

end Verif.FootHash.Spec
