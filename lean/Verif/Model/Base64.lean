/- Model of `apex_base64_encode` (src/apex.c), used to embed images. -/
import Verif.Basic

namespace Verif.Base64

/-- src/apex.c:85-86 `base64_chars`. -/
def table : Bytes := b!"ABCDEFGHIJKLMNOPQRSTUVWXYZabcdefghijklmnopqrstuvwxyz0123456789+/"

/-- `base64_chars[n & 0x3F]`. -/
def chr (n : Nat) : Byte := table.getD (n % 64) 0

/-- src/apex.c:102-118, the four characters of one turn; `i` is the index after reading the up to three
bytes (missing ones are 0). Shifts are written as divisions. -/
def group (i b1 b2 b3 : Nat) : Bytes :=
  let combined := b1 * 65536 + b2 * 256 + b3
  [chr (combined / 262144), chr (combined / 4096),
   if i ≥ 2 then chr (combined / 64) else c!"=",
   if i ≥ 3 then chr combined else c!"="]

/-- src/apex.c:96-119, the loop, from index `i` with the remaining data. -/
def loop (cap i : Nat) : Bytes → Bytes → C Bytes
  | [], out => finish cap out
  | [a], out =>
    match puts cap out (group (i + 1) a.toNat 0 0) with
    | .val o => finish cap o
    | .ub => .ub
  | [a, b], out =>
    match puts cap out (group (i + 2) a.toNat b.toNat 0) with
    | .val o => finish cap o
    | .ub => .ub
  | a :: b :: c :: t, out =>
    match puts cap out (group (i + 3) a.toNat b.toNat c.toNat) with
    | .val o => loop cap (i + 3) t o
    | .ub => .ub

/-- src/apex.c:82-123 `apex_base64_encode`; `none` is the NULL return for empty data. -/
def encode (data : Bytes) : C (Option Bytes) :=
  if data.length = 0 then .val none
  else
    match loop ((data.length + 2) / 3 * 4 + 1) 0 data [] with
    | .val o => .val (some o)
    | .ub => .ub

end Verif.Base64
