/-
Inline tables: src/extensions/inline_tables.c:14-332, called for the whole text by src/apex.c:4282-4289.
Simplified: the text is the bytes in front of its terminator; `malloc` and `realloc` succeed.
-/
import Verif.Model.Csv

namespace Verif.InlineTables

/-- Writing into the output: a byte that is copied and followed by a check for room (src/extensions/inline_tables.c:314-326), a block with a
check in front (:80-92, :115-127, :133-146, :160-172 and the same in the second half), and the line end behind a table, which is not
checked (:152-154). -/
inductive Tok where
  | byte (c : Byte)
  | block (w : Bytes)
  | lineEnd
deriving DecidableEq, Repr

/-- What a token contributes. -/
def Tok.out : Tok → Bytes
  | .byte c => [c]
  | .block w => w
  | .lineEnd => b!"\n"

/-- The buffer: capacity and what has been written. -/
structure St where
  cap : Nat
  out : Bytes
deriving DecidableEq, Repr

/-- See `Tok`. -/
def St.write (s : St) : Tok → C St
  | .byte c => put s.cap s.out c >>= fun out => .val { cap := if out.length + 1 ≥ s.cap then out.length * 2 + 1 else s.cap, out := out }
  | .block w =>
    let cap := if s.out.length + w.length ≥ s.cap then (s.out.length + w.length + 1) * 2 else s.cap
    puts cap s.out w >>= fun out => .val { cap := cap, out := out }
  | .lineEnd => put s.cap s.out c!"\n" >>= fun out => .val { s with out := out }

/-- All tokens. -/
def writeAll (s : St) : List Tok → C St
  | [] => .val s
  | t :: ts => s.write t >>= fun s => writeAll s ts

/-- src/extensions/inline_tables.c:14-27: the byte between the cells. -/
def delimiter (data : Bytes) : Option Byte :=
  if c!"\t" ∈ data then some c!"\t" else if c!"," ∈ data then some c!"," else none

/-- src/extensions/inline_tables.c:66-74: the text in front of three backticks, and the text behind them. -/
def closing : Bytes → Option (Bytes × Bytes)
  | [] => none
  | c :: t =>
    if b!"```" <+: c :: t then some ([], t.drop 2)
    else (closing t).map fun r => (c :: r.1, r.2)

/-- src/extensions/inline_tables.c:49-60: whether the rest of the line behind three backticks is the word `table`. -/
def isTable (info : Bytes) : Bool :=
  let w := ((info.dropWhile isSpace).reverse.dropWhile isSpace).reverse
  w.length == 5 && w.map toLower == b!"table"

/-- One line with its end, and the rest. -/
def line (s : Bytes) : Bytes × Bytes :=
  let l := s.takeWhile (· != c!"\n")
  match s.drop l.length with
  | [] => (l, [])
  | c :: t => (l ++ [c], t)

/-- src/extensions/inline_tables.c:192-208: the lines up to a blank one, and the rest. -/
def dataLines : Nat → Bytes → Bytes × Bytes
  | 0, s => ([], s)
  | n + 1, s =>
    if s = [] then ([], [])
    else
      let l := line s
      if (s.takeWhile (· != c!"\n")).all (fun c => c == c!" " || c == c!"\t" || c == c!"\r") = true then ([], s)
      else
        let r := dataLines n l.2
        (l.1 ++ r.1, r.2)

/-- src/extensions/inline_tables.c:183-187: blanks, a carriage return and a line end. -/
def gap (s : Bytes) : Bytes :=
  let s := s.dropWhile fun c => c == c!" " || c == c!"\t"
  let s := match s with | c :: t => if c = c!"\r" then t else s | [] => s
  match s with | c :: t => if c = c!"\n" then t else s | [] => s

/-- The beginning of a text, up to its ending `rest`. -/
def upTo (s rest : Bytes) : Bytes := s.take (s.length - rest.length)

/-- src/extensions/inline_tables.c:41-176, from three backticks on: what is written, and the text to go on with. -/
def fence (s : Bytes) : C (List Tok × Bytes) :=
  let info := (s.drop 3).takeWhile (· != c!"\n")
  let content := (s.drop 3).drop (info.length + 1)
  let data := match closing content with | some r => r.1 | none => content
  let rest := match closing content with | some r => r.2 | none => []
  if isTable info = true then
    match delimiter data with
    | none => .val ([.block (upTo s rest)], rest)
    | some d =>
      Csv.toTable data (d == c!"\t") >>= fun table =>
        match table with
        | none => .val ([.block (upTo s rest)], rest)
        | some w =>
          if (closing content).isSome = true then
            match rest.dropWhile (· != c!"\n") with
            | [] => .val ([.block w], [])
            | _ :: t => .val ([.block w, .lineEnd], t)
          else .val ([.block w], [])
  else .val ([.block (upTo s rest)], rest)

/-- src/extensions/inline_tables.c:179-311, from the marker on. -/
def marker (s : Bytes) : C (List Tok × Bytes) :=
  let start := gap (s.drop 12)
  let r := dataLines start.length start
  if r.1 = [] then .val ([.block (upTo s start)], start)
  else
    match delimiter r.1 with
    | none => .val ([.block (upTo s r.2)], r.2)
    | some d =>
      Csv.toTable r.1 (d == c!"\t") >>= fun table =>
        match table with
        | none => .val ([.block (upTo s r.2)], r.2)
        | some w => .val ([.block w], r.2)

/-- src/extensions/inline_tables.c:39-327. -/
def loop : Nat → Bytes → C (List Tok)
  | 0, _ => .val []
  | _, [] => .val []
  | n + 1, c :: t =>
    if b!"```" <+: c :: t then fence (c :: t) >>= fun r => loop n r.2 >>= fun ts => .val (r.1 ++ ts)
    else if b!"<!--TABLE-->" <+: c :: t then marker (c :: t) >>= fun r => loop n r.2 >>= fun ts => .val (r.1 ++ ts)
    else loop n t >>= fun ts => .val (.byte c :: ts)

/-- `apex_process_inline_tables`, src/extensions/inline_tables.c:30-332. -/
def process (text : Bytes) : C Bytes :=
  loop text.length text >>= fun ts => writeAll { cap := text.length * 3 + 1, out := [] } ts >>= fun s => finish s.cap s.out

end Verif.InlineTables
