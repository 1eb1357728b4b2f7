/- Model of src/buffer.c (complete file). -/
import Verif.Basic

namespace Verif.Buffer

/-- A heap block; `none` is an uninitialised byte. Its length is the allocated size. -/
abbrev Block := List (Option Byte)

/-- include/apex/buffer.h `apex_buffer`; `data = none` is the NULL pointer. -/
structure Buf where
  data : Option Block
  size : Nat
  capacity : Nat
  deriving DecidableEq, Repr

/-- Store `bytes` at offset `off`; a null pointer or a range outside the block is `ub`. -/
def store (data : Option Block) (off : Nat) (bytes : Bytes) : C (Option Block) :=
  match data with
  | none => .ub
  | some blk =>
    if off + bytes.length ≤ blk.length then
      .val (some (blk.take off ++ bytes.map some ++ blk.drop (off + bytes.length)))
    else .ub

/-- src/buffer.c:13-25 `apex_buffer_init` (malloc succeeds). -/
def init (cap : Nat) : C Buf :=
  let cap := if cap = 0 then 256 else cap
  match store (some (List.replicate cap none)) 0 [0] with
  | .val d => .val { data := d, size := 0, capacity := cap }
  | .ub => .ub

/-- src/buffer.c:27-34 `apex_buffer_free`. -/
def free (b : Buf) : Buf :=
  match b.data with
  | none => b
  | some _ => { data := none, size := 0, capacity := 0 }

/-- src/buffer.c:36-41 `apex_buffer_clear`. -/
def clear (b : Buf) : C Buf :=
  match b.data with
  | none => .val { b with size := 0 }
  | some _ =>
    match store b.data 0 [0] with
    | .val d => .val { b with data := d, size := 0 }
    | .ub => .ub

/-- src/buffer.c:44-48, the capacity after `n` executions of the loop body
`new_capacity *= BUFFER_GROWTH_FACTOR`. -/
def growIter (cap : Nat) : Nat → Nat
  | 0 => cap
  | n + 1 => growIter cap n * 2

/-- src/buffer.c:44-48, the value with which the growth loop ends; `none` when it never ends.
`growLoop_some`/`growLoop_none` in Proof/Buffer.lean tie this to the iterated loop body. -/
def growLoop (needed cap : Nat) : Option Nat :=
  if cap < needed then
    if cap = 0 then none else growLoop needed (cap * 2)
  else some cap
termination_by needed - cap

/-- `realloc` that succeeds: keeps the common prefix, new bytes are uninitialised. -/
def realloc (data : Option Block) (n : Nat) : Option Block :=
  match data with
  | none => some (List.replicate n none)
  | some blk => some (blk.take n ++ List.replicate (n - blk.length) none)

/-- src/buffer.c:43-55 `apex_buffer_grow`; `none` when its loop never ends. -/
def grow (b : Buf) (needed : Nat) : Option Buf :=
  match growLoop needed b.capacity with
  | none => none
  | some cap => some { data := realloc b.data cap, size := b.size, capacity := cap }

/-- src/buffer.c:62-65, the capacity check of `apex_buffer_append`. -/
def ensure (b : Buf) (needed : Nat) : Option Buf :=
  if needed > b.capacity then grow b needed else some b

/-- src/buffer.c:57-70 `apex_buffer_append`; the outer `Option` is `none` when the call never
returns. -/
def append (b : Buf) (d : Bytes) : Option (C Buf) :=
  if d.length = 0 then some (.val b)
  else
    match ensure b (b.size + d.length + 1) with
    | none => none
    | some b =>
      match store b.data b.size d with
      | .ub => some .ub
      | .val d1 =>
        match store d1 (b.size + d.length) [0] with
        | .ub => some .ub
        | .val d2 => some (.val { b with data := d2, size := b.size + d.length })

/-- src/buffer.c:72-76 `apex_buffer_append_str`: the argument is the memory behind the pointer, the
string ends at its first NUL (the array given is assumed to contain one or to be a C string). -/
def appendStr (b : Buf) (s : Bytes) : Option (C Buf) := append b (s.takeWhile (· != 0))

/-- src/buffer.c:78-80 `apex_buffer_append_char`. -/
def appendChar (b : Buf) (c : Byte) : Option (C Buf) := append b [c]

/-- src/buffer.c:86-92 `apex_buffer_detach`: the returned pointer and the buffer left behind. -/
def detach (b : Buf) : Option Block × Buf := (b.data, { data := none, size := 0, capacity := 0 })

/-- Calls a client can make between `apex_buffer_init` and reading the string. -/
inductive Op
  | append (d : Bytes)
  | appendStr (s : Bytes)
  | appendChar (c : Byte)
  | clear
  deriving Repr

def step (b : Buf) : Op → Option (C Buf)
  | .append d => Buffer.append b d
  | .appendStr s => Buffer.appendStr b s
  | .appendChar c => Buffer.appendChar b c
  | .clear => some (Buffer.clear b)

/-- Run a history of calls. -/
def run (b : Buf) : List Op → Option (C Buf)
  | [] => some (.val b)
  | op :: ops =>
    match step b op with
    | none => none
    | some .ub => some .ub
    | some (.val b') => run b' ops

/-- `init` followed by a history. -/
def session (cap : Nat) (ops : List Op) : Option (C Buf) :=
  match init cap with
  | .ub => some .ub
  | .val b => run b ops

end Verif.Buffer
