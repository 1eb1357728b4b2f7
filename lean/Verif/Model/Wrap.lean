/- cli/main.c:713-826, 965-1004: wrapping of text for the terminal, and reading of the standard input.  Allocations succeed. -/
import Verif.Basic

namespace Verif.Wrap

/-- The block, without the byte for the terminator. -/
structure Buf where
  cap : Nat
  out : Bytes

/-- cli/main.c:735-744, 751-760, 790-799, 804-813: a byte, behind which there is room for one more. -/
def push1 (c : Byte) (b : Buf) : C Buf :=
  let cap := if b.cap ≤ b.out.length + 1 then b.cap * 2 else b.cap
  if b.out.length < cap then .val ⟨cap, b.out ++ [c]⟩ else .ub

/-- cli/main.c:775-785: a sequence. -/
def pushSeq (s : Bytes) (b : Buf) : C Buf :=
  let cap := if b.cap ≤ b.out.length + s.length + 1 then b.cap + s.length + 16 else b.cap
  if b.out.length + s.length ≤ cap then .val ⟨cap, b.out ++ s⟩ else .ub

/-- cli/main.c:730-817: the loop; `col` is the column.  The counter is enough with the length of the text. -/
def wrapGo (width : Nat) : Nat → Nat → Bytes → Buf → C Buf
  | n + 1, col, c :: s, b =>
    if c = c!"\n" then (push1 c b).bind (wrapGo width n 0 s)
    else if c = c!"\r" then (push1 c b).bind (wrapGo width n col s)
    else if c = 27 ∧ s.head? = some c!"[" then
      let x := (s.drop 1).takeWhile (!isAlpha ·)
      let r := (s.drop 1).dropWhile (!isAlpha ·)
      (pushSeq (c :: c!"[" :: (x ++ r.take 1)) b).bind (wrapGo width n col (r.drop 1))
    else
      (if width ≤ col then push1 c!"\n" b else .val b).bind fun b =>
        (push1 c b).bind (wrapGo width n ((if width ≤ col then 0 else col) + 1) s)
  | _, _, _, b => .val b

/-- cli/main.c:717-826 `wrap_ansi_to_width`, for a width that is not zero. -/
def wrap (text : Bytes) (width : Nat) : C Bytes :=
  (wrapGo width text.length 0 text ⟨text.length + (text.length / width + 2) * 2 + 1, []⟩).bind fun b => if b.out.length < b.cap then .val b.out else .ub

/-- cli/main.c:978-991: the loop.  `pieces` are what is there to be read, one after the other; as much of one is read as there is room for.  Without room, `read` gives
zero, as at the end.  The counter is enough with the length of all that is to be read. -/
def readGo : Nat → List Bytes → Nat → Bytes → C (Nat × Bytes)
  | n + 1, p :: ps, cap, buf =>
    let room := cap - buf.length
    let got := p.take room
    if got = [] then .val (cap, buf)
    else if buf.length + got.length ≤ cap then
      let buf := buf ++ got
      let cap := if cap < buf.length + 4096 then cap * 2 else cap
      readGo n (if p.drop room = [] then ps else p.drop room :: ps) cap buf
    else .ub
  | _, _, cap, buf => .val (cap, buf)

/-- cli/main.c:965-1004 `read_stdin`, without errors while reading. -/
def readStdin (pieces : List Bytes) : C Bytes :=
  (readGo (pieces.flatten.length + 1) pieces 4096 []).bind fun r => if r.2.length < r.1 then .val r.2 else .ub

end Verif.Wrap
