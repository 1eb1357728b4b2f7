/- src/apex.c:1766-1999 `apex_preprocess_table_colspans` and its call, src/apex.c:4441-4475: pipes next to each other become
   marks for cells that span columns.  The allocations succeed, and there are fewer than 2^31 pipes next to each other. -/
import Verif.Model.FencedDivs

namespace Verif.Colspans

open FencedDivs (Buf Buf.store inLine)

/-- src/apex.c:1861-1873, 1881-1892, 1912-1923, 1931-1942 and 1965-1976: a new block of `size` bytes when fewer than `needed` are left. -/
def room (b : Buf) (needed size : Nat) : Buf := if b.cap - b.out.length < needed then ⟨b.out, size⟩ else b

/-- src/apex.c:1880-1903, the marks of `k` pipes; `left` is the length of the rest of the line. -/
def marks (left : Nat) : Nat → Buf → C Buf
  | 0, b => .val b
  | k + 1, b =>
    match (room b 5 ((b.out.length + left * 2 + 1) * 2)).store b!" << |" with
    | .ub => .ub
    | .val b => marks left k b

/-- src/apex.c:1844-1927, a row.  `n` bounds the steps; each takes a byte. -/
def row (n : Nat) (b : Buf) (cur : Bytes) : C Buf :=
  match n with
  | 0 => .ub
  | n + 1 =>
    match cur with
    | [] => .val b
    | c :: t =>
      let pipes := (cur.takeWhile (· == c!"|")).length
      if pipes ≥ 2 then
        match (room b 5 ((b.out.length + cur.length * 2 + 1) * 2)).store b!"|" with
        | .ub => .ub
        | .val b =>
          match marks cur.length (pipes - 1) b with
          | .ub => .ub
          | .val b => row n b (cur.drop pipes)
      else
        match (room b 1 ((b.out.length + cur.length + 1) * 2)).store [c] with
        | .ub => .ub
        | .val b => row n b t

/-- src/apex.c:1814-1829: a fence of a code block. -/
def fence (line : Bytes) : Bool :=
  let p := line.dropWhile fun c => c == 32 || c == 9
  b!"```".isPrefixOf p || b!"~~~".isPrefixOf p

/-- src/apex.c:1795-1811 and 1949-1994: the end of the line, and what is behind it. -/
def eol (s : Bytes) : Bytes × Bytes :=
  match s with
  | [] => ([], [])
  | c :: t =>
    if c == 13 then
      match t with
      | d :: r => if d == 10 then ([13, 10], r) else ([13], t)
      | [] => ([13], [])
    else ([10], t)

/-- src/apex.c:1792-1995, the lines.  `n` bounds their number. -/
def loop (n : Nat) (code : Bool) (b : Buf) (read : Bytes) : C Buf :=
  match n with
  | 0 => .ub
  | n + 1 =>
    if read = [] then .val b
    else
      let line := read.takeWhile inLine
      let (nl, rest) := eol (read.dropWhile inLine)
      let code := if fence line then !code else code
      match (if !code && line.contains c!"|" then row (line.length + 1) b line
        else (room b line.length ((b.out.length + line.length + 1) * 2)).store line) with
      | .ub => .ub
      | .val b =>
        match (if nl = [] then C.val b else (room b 3 ((b.out.length + 10) * 2)).store nl) with
        | .ub => .ub
        | .val b => loop n code b rest

/-- src/apex.c:1778-1999 `apex_preprocess_table_colspans`. -/
def process (text : Bytes) : C Bytes :=
  match loop (text.length + 1) false ⟨[], text.length * 2 + 1⟩ text with
  | .ub => .ub
  | .val b =>
    match b.store [0] with
    | .ub => .ub
    | .val b => .val (b.out.takeWhile (· != 0))

/-- src/apex.c:4443-4459: the call, with an end for the last line. -/
def call (text : Bytes) : C Bytes :=
  process (match text.getLast? with
    | none => text
    | some c => if c != 10 && c != 13 then text ++ [10] else text)

end Verif.Colspans
