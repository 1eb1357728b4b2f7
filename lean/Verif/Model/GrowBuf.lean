/-
Models of the growing output buffers of the serialisers. They start as a NULL pointer and grow on the
first append. Blocks, `store` and `realloc` are those of Model/Buffer.lean.
-/
import Verif.Model.Buffer

namespace Verif.GrowBuf
open Buffer (Buf store realloc growLoop)

/-- src/ast_man.c:25-29 `man_buf_init`; src/ast_markdown.c:20-24 and src/ast_terminal.c:74-78
`buffer_init`. -/
def init : Buf := { data := none, size := 0, capacity := 0 }

/-- The capacity check at the head of the append functions: `first` is the first allocation. -/
def ensure (first : Nat) (b : Buf) (needed : Nat) : Buf :=
  if needed > b.capacity then
    let cap := if b.capacity ≠ 0 then b.capacity * 2 else first
    let cap := if cap < needed then needed else cap
    { data := realloc b.data cap, size := b.size, capacity := cap }
  else b

/-- The stores at the end of the append functions. -/
def write (b : Buf) (d : Bytes) : C Buf :=
  match store b.data b.size d with
  | .ub => .ub
  | .val d1 =>
    match store d1 (b.size + d.length) [0] with
    | .ub => .ub
    | .val d2 => .val { data := d2, size := b.size + d.length, capacity := b.capacity }

/-- src/ast_man.c:31-45 `man_buf_append` (`first = 512`), src/ast_markdown.c:26-43 and
src/ast_terminal.c:80-97 `buffer_append` (`first = 256`). -/
def append (first : Nat) (b : Buf) (d : Bytes) : C Buf :=
  if d.length = 0 then .val b else write (ensure first b (b.size + d.length + 1)) d

/-- A history of appends. -/
def run (first : Nat) (b : Buf) : List Bytes → C Buf
  | [] => .val b
  | d :: ds =>
    match append first b d with
    | .ub => .ub
    | .val b' => run first b' ds

/-- src/ast_json.c:18-25 `apex_json_buf_init`. -/
def jsonInit : C Buf := Buffer.init 4096

/-- src/ast_json.c:27-39 `apex_json_buf_ensure`; `none` when its loop never ends. -/
def jsonEnsure (b : Buf) (extra : Nat) : Option Buf :=
  if b.size + extra + 1 ≤ b.capacity then some b
  else
    match growLoop (b.size + extra + 1) (b.capacity * 2) with
    | none => none
    | some cap => some { data := realloc b.data cap, size := b.size, capacity := cap }

/-- src/ast_json.c:41-49 `apex_json_buf_append` (the argument is a C string). -/
def jsonAppend (b : Buf) (d : Bytes) : Option (C Buf) :=
  match jsonEnsure b d.length with
  | none => none
  | some b => some (write b d)

/-- A history of appends. -/
def jsonRun (b : Buf) : List Bytes → Option (C Buf)
  | [] => some (.val b)
  | d :: ds =>
    match jsonAppend b d with
    | none => none
    | some .ub => some .ub
    | some (.val b') => jsonRun b' ds

end Verif.GrowBuf
