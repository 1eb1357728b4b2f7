/- Independent description of UTF-8 text. -/
import Verif.Basic

namespace Verif.Utf8.Spec

/-- A continuation byte. -/
def Cont (b : Byte) : Prop := 0x80 ≤ b ∧ b ≤ 0xBF

/-- One structurally complete sequence: a lead byte and as many continuation bytes as it announces. -/
inductive Seq : Bytes → Prop
  | one (a : Byte) : a ≤ 0x7F → Seq [a]
  | two (a b : Byte) : 0xC0 ≤ a → a ≤ 0xDF → Cont b → Seq [a, b]
  | three (a b c : Byte) : 0xE0 ≤ a → a ≤ 0xEF → Cont b → Cont c → Seq [a, b, c]
  | four (a b c d : Byte) : 0xF0 ≤ a → a ≤ 0xF7 → Cont b → Cont c → Cont d → Seq [a, b, c, d]

/-- Text that can be cut into structurally complete sequences. -/
def Structured (s : Bytes) : Prop := ∃ qs : List Bytes, (∀ q ∈ qs, Seq q) ∧ s = qs.flatten

/-- Unicode scalar values. -/
def Scalar (n : Nat) : Prop := n ≤ 0x10FFFF ∧ ¬ (0xD800 ≤ n ∧ n ≤ 0xDFFF)

/-- RFC 3629 encoding of a scalar value. -/
def encode (n : Nat) : Bytes :=
  if n < 0x80 then [.ofNat n]
  else if n < 0x800 then [.ofNat (0xC0 + n / 64), .ofNat (0x80 + n % 64)]
  else if n < 0x10000 then
    [.ofNat (0xE0 + n / 4096), .ofNat (0x80 + n / 64 % 64), .ofNat (0x80 + n % 64)]
  else [.ofNat (0xF0 + n / 262144), .ofNat (0x80 + n / 4096 % 64), .ofNat (0x80 + n / 64 % 64),
    .ofNat (0x80 + n % 64)]

/-- Well-formed UTF-8 in the sense of RFC 3629. -/
def WellFormed (s : Bytes) : Prop :=
  ∃ ns : List Nat, (∀ n ∈ ns, Scalar n) ∧ s = (ns.map encode).flatten

end Verif.Utf8.Spec
