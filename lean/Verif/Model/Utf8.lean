/- Model of src/utf8.c (complete file). -/
import Verif.Basic

namespace Verif.Utf8

/-- src/utf8.c:12-17 `apex_utf8_is_valid_start`. -/
def isValidStart (b : Byte) : Bool :=
  b &&& 0x80 == 0 || b &&& 0xE0 == 0xC0 || b &&& 0xF0 == 0xE0 || b &&& 0xF8 == 0xF0

/-- src/utf8.c:22-28 `apex_utf8_char_length` (0 means invalid). -/
def charLength (b : Byte) : Nat :=
  if b &&& 0x80 == 0 then 1
  else if b &&& 0xE0 == 0xC0 then 2
  else if b &&& 0xF0 == 0xE0 then 3
  else if b &&& 0xF8 == 0xF0 then 4
  else 0

/-- src/utf8.c:45-49, the loop over continuation bytes from `j` on; `false` is the early
`return false`. Reads are checked against the array. `(char & 0xC0) != 0x80` does not depend on the
signedness of `char`. -/
def contLoop (s : Bytes) (i j charLen : Nat) : C Bool :=
  if j < charLen then
    match rd s (i + j) with
    | .ub => .ub
    | .val c => if c &&& 0xC0 != 0x80 then .val false else contLoop s i (j + 1) charLen
  else .val true
termination_by charLen - j

/-- src/utf8.c:36-52, the main loop from index `i` on; `len` is the length of the array. -/
def validateFrom (s : Bytes) (i : Nat) : C Bool :=
  if h : i < s.length then
    if h2 : charLength s[i] = 0 ∨ i + charLength s[i] > s.length then .val false
    else
      match contLoop s i 1 (charLength s[i]) with
      | .ub => .ub
      | .val false => .val false
      | .val true => validateFrom s (i + charLength s[i])
  else .val true
termination_by s.length - i

/-- src/utf8.c:33-55 `apex_utf8_validate` for an array of exactly `len` bytes. -/
def validate (s : Bytes) : C Bool := validateFrom s 0

end Verif.Utf8
