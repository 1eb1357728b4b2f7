/-
Shared conventions: bytes, byte-string literals, the `C` outcome type and bounded output buffers.
Nothing in this file models a particular function of apex.
-/
import Lean.Elab.Term

namespace Verif

/-- A byte of a C string. -/
abbrev Byte := UInt8

/-- A C string (the bytes before the terminating NUL) or a byte array. -/
abbrev Bytes := List UInt8

open Lean in
/-- `b!"text"` is the explicit list of the UTF-8 bytes of a string literal. -/
macro:max "b!" s:str : term => do
  let bytes := s.getString.toUTF8.toList
  let elems ← bytes.toArray.mapM fun b => do
    let n := Syntax.mkNumLit (toString b.toNat)
    `(($n : UInt8))
  `(([$elems,*] : List UInt8))

open Lean in
/-- `c!"x"` is the byte of a one-character ASCII string literal. -/
macro:max "c!" s:str : term => do
  let n := Syntax.mkNumLit (toString s.getString.front.toNat)
  `(($n : UInt8))

/-- Outcome of a piece of C code: a value, or undefined behaviour (out-of-bounds access, read of
uninitialised memory). -/
inductive C (α : Type) where
  | val : α → C α
  | ub : C α
  deriving DecidableEq, Repr

namespace C

def bind {α β : Type} : C α → (α → C β) → C β
  | val a, f => f a
  | ub, _ => ub

instance : Monad C where
  pure := val
  bind := bind

@[simp] theorem pure_eq {α : Type} (a : α) : (pure a : C α) = val a := rfl
@[simp] theorem val_bind {α β : Type} (a : α) (f : α → C β) : (val a >>= f) = f a := rfl
@[simp] theorem ub_bind {α β : Type} (f : α → C β) : ((ub : C α) >>= f) = ub := rfl

end C

/-- Read `s[i]` of an array of exactly `s.length` bytes. -/
def rd (s : Bytes) (i : Nat) : C Byte :=
  match s[i]? with
  | some c => .val c
  | none => .ub

/-- Read `s[i]` of a NUL-terminated C string: index `s.length` holds the NUL, anything beyond is
out of bounds. -/
def rdz (s : Bytes) (i : Nat) : C Byte :=
  match s[i]? with
  | some c => .val c
  | none => if i = s.length then .val 0 else .ub

/-- One byte stored at index `out.length` of a buffer of `cap` bytes. -/
def put (cap : Nat) (out : Bytes) (c : Byte) : C Bytes :=
  if out.length < cap then .val (out ++ [c]) else .ub

/-- `memcpy`/`strcpy` of `s` at index `out.length` of a buffer of `cap` bytes (no terminator). -/
def puts (cap : Nat) (out : Bytes) (s : Bytes) : C Bytes :=
  if out.length + s.length ≤ cap then .val (out ++ s) else .ub

/-- The final `*write = '\0'` followed by returning the buffer as a C string. -/
def finish (cap : Nat) (out : Bytes) : C Bytes :=
  if out.length < cap then .val out else .ub

theorem puts_val {cap : Nat} {out s : Bytes} (h : out.length + s.length ≤ cap) :
    puts cap out s = .val (out ++ s) := by simp [puts, h]

theorem put_val {cap : Nat} {out : Bytes} {c : Byte} (h : out.length < cap) :
    put cap out c = .val (out ++ [c]) := by simp [put, h]

theorem finish_val {cap : Nat} {out : Bytes} (h : out.length < cap) :
    finish cap out = .val out := by simp [finish, h]

/-- A statement about all 256 byte values follows from checking each of them. -/
theorem forall_byte {p : UInt8 → Prop} (h : ∀ n : Fin 256, p (UInt8.ofFin n)) : ∀ c, p c := by
  intro c
  have := h c.toFin
  simpa using this

/-- `n` executions of a loop body. -/
def iter {α : Type} (f : α → α) : Nat → α → α
  | 0, a => a
  | n + 1, a => iter f n (f a)

/-! ### `ctype.h` in the C locale -/

/-- `isspace`. -/
def isSpace (c : Byte) : Bool := c == 32 || (9 ≤ c && c ≤ 13)
/-- `isdigit`. -/
def isDigit (c : Byte) : Bool := 48 ≤ c && c ≤ 57
/-- `isupper`. -/
def isUpper (c : Byte) : Bool := 65 ≤ c && c ≤ 90
/-- `islower`. -/
def isLower (c : Byte) : Bool := 97 ≤ c && c ≤ 122
/-- `isalpha`. -/
def isAlpha (c : Byte) : Bool := isUpper c || isLower c
/-- `isalnum`. -/
def isAlnum (c : Byte) : Bool := isAlpha c || isDigit c
/-- `isxdigit`. -/
def isXDigit (c : Byte) : Bool := isDigit c || (65 ≤ c && c ≤ 70) || (97 ≤ c && c ≤ 102)
/-- `tolower`. -/
def toLower (c : Byte) : Byte := if isUpper c then c + 32 else c
/-- `toupper`. -/
def toUpper (c : Byte) : Byte := if isLower c then c - 32 else c

end Verif
