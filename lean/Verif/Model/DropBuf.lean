/-
Buffers of a fixed size that lose what does not fit: `remaining`, `write` and the copying statements shared by
src/extensions/critic.c:277-329, highlight.c:41-163, insert.c:48-248 and special_markers.c:16-194.
-/
import Verif.Basic

namespace Verif.DropBuf

/-- One thing written: a single byte (highlight.c:151-158), a chunk that is left out when it does not fit
(highlight.c:124-148), or a request for room (special_markers.c:79-92, insert.c:137-151): when less than `n`
bytes remain, the buffer becomes `2 * (written + extra)` bytes long. -/
inductive Tok where
  | byte (c : Byte)
  | chunk (w : Bytes)
  | reserve (n extra : Nat)
deriving DecidableEq, Repr

/-- What a token contributes when there is room. -/
def Tok.out : Tok → Bytes
  | .byte c => [c]
  | .chunk w => w
  | .reserve .. => []

/-- Capacity and what has been written; `remaining` is the difference. -/
structure St where
  cap : Nat
  out : Bytes
deriving DecidableEq, Repr

/-- Writing one token: highlight.c:151-158 (`if (remaining > 0)`), :124-148 (`if (len < remaining)`),
special_markers.c:79-92 (`realloc`, assumed to succeed). -/
def St.write (s : St) : Tok → St
  | .byte c => if 0 < s.cap - s.out.length then { s with out := s.out ++ [c] } else s
  | .chunk w => if w.length < s.cap - s.out.length then { s with out := s.out ++ w } else s
  | .reserve n extra =>
    if s.cap - s.out.length < n then { s with cap := (s.out.length + extra) * 2 } else s

/-- `malloc(cap)`, all tokens, then `*write = '\0'` (highlight.c:161), which is not checked. -/
def run (cap : Nat) (ts : List Tok) : C Bytes :=
  let s := ts.foldl St.write { cap := cap, out := [] }
  finish s.cap s.out

end Verif.DropBuf
