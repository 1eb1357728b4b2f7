/- JSON string literals, after RFC 8259 section 7. -/
import Verif.Spec.Html

namespace Verif.Json

/-- The value of the characters between the quotes of a JSON string literal; `none` when they are not
legal there. Bytes from 0x80 on are taken as they are (UTF-8). Surrogate pairs are not needed here and
are rejected. -/
def value : Bytes → Option Bytes
  | [] => some []
  | 92 :: 117 :: a :: b :: c :: d :: t =>                         -- \uXXXX
    match Html.hexVal a, Html.hexVal b, Html.hexVal c, Html.hexVal d with
    | some a, some b, some c, some d =>
      let n := ((a * 16 + b) * 16 + c) * 16 + d
      if 0xD800 ≤ n ∧ n ≤ 0xDFFF then none
      else (value t).map (Utf8.Spec.encode n ++ ·)
    | _, _, _, _ => none
  | 92 :: e :: t =>
    if e = c!"\"" ∨ e = c!"\\" ∨ e = c!"/" then (value t).map (e :: ·)
    else if e = c!"b" then (value t).map (8 :: ·)
    else if e = c!"f" then (value t).map (12 :: ·)
    else if e = c!"n" then (value t).map (10 :: ·)
    else if e = c!"r" then (value t).map (13 :: ·)
    else if e = c!"t" then (value t).map (9 :: ·)
    else none
  | c :: t => if c = 92 ∨ c = c!"\"" ∨ c < 0x20 then none else (value t).map (c :: ·)

end Verif.Json
