/-
Where includes begin, and what texts hold none.
-/
import Verif.Basic

namespace Verif.Includes.Spec

/-- What comes next is at the start of a line. -/
def LineStart (before : Bytes) : Prop := before = [] ∨ before.getLast? = some c!"\n"

/-- An include may begin between the two: `{{`, or at the start of a line `/` or `<<`. -/
def IncludeAt (before after : Bytes) : Prop :=
  b!"{{" <+: after ∨ LineStart before ∧ (b!"/" <+: after ∨ b!"<<" <+: after)

/-- No include begins in `s`, where it stands. -/
def Quiet (before s after : Bytes) : Prop :=
  ∀ a b, s = a ++ b → b ≠ [] → ¬ IncludeAt (before ++ a) (b ++ after)

/-- No line starts with an even number, four or more, of backticks. -/
def NoEvenFence (text : Bytes) : Prop :=
  ∀ a n b, text = a ++ List.replicate n c!"`" ++ b → LineStart a → b.head? ≠ some c!"`" → 4 ≤ n → n % 2 = 1

/-- The number of backticks is even. -/
def Balanced (s : Bytes) : Prop := s.count c!"`" % 2 = 0

/-- The address after an include. -/
def addressText : Option Bytes → Bytes
  | none => []
  | some a => b!"[" ++ a ++ b!"]"

/-- A file name that can be written between braces: not empty, below 1024 bytes, no `}`, no wildcard. -/
structure Name (file : Bytes) : Prop where
  ne : 0 < file.length
  short : file.length < 1024
  plain : ∀ c ∈ file, c ≠ c!"}" ∧ c ≠ c!"*" ∧ c ≠ c!"?" ∧ c ≠ c!"[" ∧ c ≠ c!"{"

end Verif.Includes.Spec
