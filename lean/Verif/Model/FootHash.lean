/-
Model of the footnote id prefix, src/apex.c:3203-3415.
-/
import Verif.Basic

namespace Verif.FootHash

/-- One lower-case hexadecimal digit. -/
def digit (n : Nat) : Byte := if n < 10 then UInt8.ofNat (48 + n) else UInt8.ofNat (87 + n)

/-- `%lx` of snprintf: the digits without leading zeros. `k` is more than the number of digits. -/
def hex : Nat → Nat → Bytes
  | 0, _ => []
  | k + 1, n => if n < 16 then [digit n] else hex k (n / 16) ++ [digit (n % 16)]

/-- apex.c:3212-3215: djb2 in an `unsigned long` of 64 bits. -/
def djb2 (content : Bytes) : UInt64 := content.foldl (fun h c => (h <<< 5) + h + c.toUInt64) 5381

/-- apex.c:3208-3222 (`apex_compute_document_hash`): `snprintf` into 9 bytes keeps the first 8 digits, of which there
may be 16. `none`: the NULL pointer. Allocation is assumed to succeed. -/
def hash (content : Bytes) : Option Bytes :=
  if content = [] then none else
  let d := hex 17 (djb2 content).toNat
  some ((List.replicate (8 - d.length) c!"0" ++ d).take 8)

/-- apex.c:3243-3378: the four beginnings of attributes that are looked for, in order. -/
def marks : List Bytes := [b!"id=\"fn-", b!"id=\"fnref-", b!"href=\"#fn-", b!"href=\"#fnref-"]

/-- The `realloc`s, e.g. apex.c:3246-3256: when no more than `n` bytes remain, the buffer becomes
`2 * (written + extra)` bytes long. Allocation is assumed to succeed. -/
def room (cap : Nat) (out : Bytes) (n extra : Nat) : Nat :=
  if cap - out.length ≤ n then (out.length + extra) * 2 else cap

/-- apex.c:3243-3378, one attribute found: its beginning, the prefix and a hyphen. The stores are not checked again. -/
def writeMark (h : Bytes) (cap : Nat) (out m : Bytes) : C (Nat × Bytes) := do
  let cap := room cap out m.length (m.length + h.length + 100)
  let out ← puts cap out m
  let cap := room cap out h.length (h.length + 100)
  let out ← puts cap out h
  let out ← put cap out c!"-"
  .val (cap, out)

/-- apex.c:3241-3395 with the terminator at :3397. Every turn reads at least one byte. -/
def loop (h : Bytes) : Nat → Nat → Bytes → Bytes → C Bytes
  | 0, cap, out, _ => finish cap out
  | _, cap, out, [] => finish cap out
  | n + 1, cap, out, c :: t =>
    match marks.find? fun m => m.isPrefixOf (c :: t) with
    | some m => do
      let (cap, out) ← writeMark h cap out m
      loop h n cap out ((c :: t).drop m.length)
    | none => do
      let cap := room cap out 9 100
      let out ← put cap out c
      loop h n cap out t

/-- apex.c:3228-3399 (`apex_add_hash_to_footnote_ids`). -/
def addHash (html h : Bytes) : C Bytes :=
  loop h html.length (html.length + (h.length + 1) * 100 + 1) [] html

end Verif.FootHash
