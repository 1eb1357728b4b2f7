/- Base64 decoding after RFC 4648, section 4. -/
import Verif.Basic

namespace Verif.Base64.Spec

/-- Value of a base64 character. -/
def val (c : Byte) : Option Nat :=
  if 65 ≤ c ∧ c ≤ 90 then some (c.toNat - 65)
  else if 97 ≤ c ∧ c ≤ 122 then some (c.toNat - 71)
  else if 48 ≤ c ∧ c ≤ 57 then some (c.toNat + 4)
  else if c = 43 then some 62
  else if c = 47 then some 63
  else none

/-- Groups of four characters; the last may end in one or two `=`. -/
def decode : Bytes → Option Bytes
  | [] => some []
  | a :: b :: c :: d :: t =>
    match val a, val b with
    | some x, some y =>
      match val c, val d with
      | some z, some w => (decode t).map fun r =>
        .ofNat (x * 4 + y / 16) :: .ofNat (y % 16 * 16 + z / 4) :: .ofNat (z % 4 * 64 + w) :: r
      | some z, none =>
        if d = c!"=" ∧ t = [] then some [.ofNat (x * 4 + y / 16), .ofNat (y % 16 * 16 + z / 4)] else none
      | none, _ => if c = c!"=" ∧ d = c!"=" ∧ t = [] then some [.ofNat (x * 4 + y / 16)] else none
    | _, _ => none
  | _ => none

end Verif.Base64.Spec
