/- Independent description of HTML character references. -/
import Verif.Spec.Utf8

namespace Verif.Html

def decVal (c : Byte) : Option Nat := if 48 ≤ c ∧ c ≤ 57 then some (c.toNat - 48) else none
def hexVal (c : Byte) : Option Nat :=
  if 48 ≤ c ∧ c ≤ 57 then some (c.toNat - 48)
  else if 65 ≤ c ∧ c ≤ 70 then some (c.toNat - 55)
  else if 97 ≤ c ∧ c ≤ 102 then some (c.toNat - 87)
  else none

/-- Digits up to and including the closing semicolon. -/
def digits (val : Byte → Option Nat) (base acc : Nat) : Bytes → Option (Nat × Bytes)
  | [] => none
  | c :: t =>
    if c = c!";" then some (acc, t)
    else match val c with
      | some d => digits val base (acc * base + d) t
      | none => none

/-- A character reference, given the text after `&`: the code point and the text after it. -/
def ref : Bytes → Option (Nat × Bytes)
  | 108 :: 116 :: 59 :: t => some (0x3C, t)                       -- lt;
  | 103 :: 116 :: 59 :: t => some (0x3E, t)                       -- gt;
  | 97 :: 109 :: 112 :: 59 :: t => some (0x26, t)                 -- amp;
  | 113 :: 117 :: 111 :: 116 :: 59 :: t => some (0x22, t)         -- quot;
  | 97 :: 112 :: 111 :: 115 :: 59 :: t => some (0x27, t)          -- apos;
  | 35 :: 120 :: d :: t =>                                        -- #x
    match hexVal d with
    | some v => digits hexVal 16 v t
    | none => none
  | 35 :: d :: t =>                                               -- #
    match decVal d with
    | some v => digits decVal 10 v t
    | none => none
  | _ => none

/-- Decoding with a bound on the number of steps. -/
def decodeN : Nat → Bytes → Bytes
  | 0, s => s
  | _ + 1, [] => []
  | n + 1, c :: t =>
    if c = c!"&" then
      match ref t with
      | some (v, r) => Utf8.Spec.encode v ++ decodeN n r
      | none => c :: decodeN n t
    else c :: decodeN n t

/-- The text a browser shows for `s`: every character reference replaced by the UTF-8 encoding of its
code point. (`s.length` steps suffice, every step consumes a byte.) -/
def decode (s : Bytes) : Bytes := decodeN s.length s

/-- Text in which no byte can open or close a tag or end a double-quoted attribute, and in which every
`&` starts one of the listed references. -/
def SafeText (refs : List Bytes) (forbidden : Bytes) (s : Bytes) : Prop :=
  ∃ toks : List Bytes, s = toks.flatten ∧
    ∀ t ∈ toks, t ∈ refs ∨ ∃ c, t = [c] ∧ c ≠ c!"&" ∧ c ∉ forbidden

end Verif.Html
