/-
Model of src/extensions/relaxed_tables.c:1-1113 (`apex_process_relaxed_tables`), of
`apex_process_headerless_tables` (relaxed_tables.c:1115-1286) and of the two stages that call them
(src/apex.c:4356-4437). Not modelled: failing allocations, the progress callback (unused) and the
overflow of the `int` that counts columns (a line of more than 300 million bars).
-/
import Verif.Basic

namespace Verif.RelaxedTables

/-- The lines of a text as the loops at relaxed_tables.c:310-318 and 1142-1153 cut them: the line without its
newline, and `has_newline`. Only the last line can be without one, and it is then not empty. -/
def lines : Bytes → List (Bytes × Bool)
  | [] => []
  | c :: s =>
    if c = 10 then ([], true) :: lines s
    else match lines s with
      | [] => [([c], false)]
      | (l, b) :: r => (c :: l, b) :: r

/-- A blank or a tab (relaxed_tables.c:29, 102, 634). -/
def blank (c : Byte) : Bool := c == 32 || c == 9

/-- relaxed_tables.c:633-637, 1193-1198: the first byte after blanks is a bar. -/
def startsWithPipe (l : Bytes) : Bool := (l.dropWhile blank).head? == some c!"|"

/-- relaxed_tables.c:21-77 (`count_columns`). The callers only ask whether the count is positive and use it then, so
the -1 of a line without a bar is modelled as 0. -/
def countColumns (l : Bytes) : Nat :=
  let pipes := (l.dropWhile blank).countP (· == c!"|")
  if pipes = 0 then 0 else if startsWithPipe l then pipes - 1 else pipes + 1

/-- relaxed_tables.c:82-92 (`is_blank_line`). -/
def isBlankLine (l : Bytes) : Bool := l.all isSpace

/-- relaxed_tables.c:97-118 (`is_horizontal_rule`). -/
def isRule (l : Bytes) : Bool :=
  let t := l.dropWhile blank
  t.all (fun c => c == c!"-" || c == 32 || c == 9 || c == 10 || c == 13) && 3 ≤ t.countP (· == c!"-")

/-- relaxed_tables.c:124-149 (`is_separator_row`). -/
def isSeparator (l : Bytes) : Bool :=
  !isRule l && l.all (fun c => c == c!"-" || c == c!"|" || c == 32 || c == 9 || c == c!":" || c == c!"+")
    && l.contains c!"-" && l.contains c!"|"

/-- relaxed_tables.c:180-193: the cells of the separator row, `k` of them left. -/
def sepCells (pipe : Bool) : Nat → Bytes
  | 0 => []
  | k + 1 =>
    b!"---" ++ (if pipe then b!" |" ++ (if k > 0 then b!" " else []) else b!"|") ++ sepCells pipe k

/-- relaxed_tables.c:157-199 (`generate_separator_row`): `none` for NULL. -/
def separatorRow (n : Nat) (pipe : Bool) : C (Option Bytes) :=
  if n < 1 then .val none
  else
    let cap := if pipe then 2 + n * 6 + 1 + 1 else 1 + n * 4 + 1 + 1
    puts cap [] ((if pipe then b!"| " else []) ++ sepCells pipe n ++ b!"\n") >>= fun out =>
    finish cap out >>= fun out => .val (some out)

/-- relaxed_tables.c:204-223 (`is_table_row`). -/
def isTableRow (l : Bytes) : Bool :=
  l.contains c!"|" && l.any (fun c => c != c!"|" && !isSpace c && c != c!"-")

/-- relaxed_tables.c:253-259: the cells of the empty header row, `k` of them left. -/
def headCells (pipe : Bool) : Nat → Bytes
  | 0 => []
  | k + 1 => b!" |" ++ (if k > 0 || !pipe then b!" " else []) ++ headCells pipe k

/-- relaxed_tables.c:231-265 (`generate_dummy_header_row`). -/
def headerRow (n : Nat) (pipe : Bool) : C (Option Bytes) :=
  if n < 1 then .val none
  else
    let cap := if pipe then 2 + n * 4 + 1 + 1 else n * 3 + 1 + 1
    puts cap [] ((if pipe then b!"| " else []) ++ headCells pipe n ++ b!"\n") >>= fun out =>
    finish cap out >>= fun out => .val (some out)

/-- The output block: bytes written and capacity. `remaining` is the difference. -/
structure Buf where
  cap : Nat
  out : Bytes

/-- A row that waits for its table to end (relaxed_tables.c:295-300). -/
structure TRow where
  text : Bytes
  columns : Nat
  pipe : Bool

/-- The copy of a row, a line or a separator, with the block doubled once if there is not more than enough room
(relaxed_tables.c:328-357, 371-396 and the other copies of the same code). -/
def write (b : Buf) (s : Bytes) : C Buf :=
  if s.length < b.cap - b.out.length then
    puts b.cap b.out s >>= fun t => .val { b with out := t }
  else
    puts (b.cap * 2) b.out s >>= fun t => .val ⟨b.cap * 2, t⟩

/-- `if (has_newline && remaining > 0) *write++ = '\n'`. -/
def newline (b : Buf) (nl : Bool) : Buf :=
  if nl && b.out.length < b.cap then { b with out := b.out ++ [10] } else b

/-- A row or a line and its newline. `nl` is `has_newline` of the line being read, also for rows read before. -/
def writeLine (b : Buf) (s : Bytes) (nl : Bool) : C Buf := write b s >>= fun b => .val (newline b nl)

/-- relaxed_tables.c:461-500, 548-588, 643-682, 751-792: the waiting rows as they are. -/
def flushPlain (nl : Bool) : Buf → List TRow → C Buf
  | b, [] => .val b
  | b, r :: rs => writeLine b r.text nl >>= fun b => flushPlain nl b rs

/-- `generate_separator_row` and the copy of what it returns (relaxed_tables.c:366-399, 848-881). -/
def writeSep (b : Buf) (r : TRow) : C Buf :=
  separatorRow r.columns r.pipe >>= fun o =>
  match o with
  | some sep => write b sep
  | none => .val b

/-- relaxed_tables.c:324-400, 809-882: the waiting rows with a separator after the first. -/
def flushTable (nl : Bool) (b : Buf) : List TRow → C Buf
  | [] => .val b
  | r :: rs =>
    writeLine b r.text nl >>= fun b =>
    writeSep b r >>= fun b =>
    flushPlain nl b rs

/-- What the loop carries from line to line. -/
structure St where
  buf : Buf
  rows : List TRow
  changed : Bool

/-- relaxed_tables.c:320-455: a blank line. A single waiting row stays where it is. -/
def onBlank (s : St) (l : Bytes) (nl : Bool) : C St :=
  if s.rows.length ≥ 2 then
    flushTable nl s.buf s.rows >>= fun b => .val ⟨newline b true, [], true⟩
  else
    writeLine s.buf l nl >>= fun b => .val { s with buf := b }

/-- relaxed_tables.c:457-543, 545-630, 639-724: a separator row or a rule; the waiting rows have their separator. -/
def onBar (s : St) (l : Bytes) (nl : Bool) : C St :=
  flushPlain nl s.buf s.rows >>= fun b =>
  writeLine b l nl >>= fun b => .val ⟨b, [], s.changed⟩

/-- relaxed_tables.c:726-805: a line with cells. The array of rows always has room; it is leaked when a new one is
started. -/
def onRow (s : St) (l : Bytes) (nl : Bool) : C St :=
  let row : TRow := ⟨l, countColumns l, startsWithPipe l⟩
  match s.rows with
  | [] => .val { s with rows := [row] }
  | r :: rs =>
    if r.columns ≠ row.columns then
      flushPlain nl s.buf (r :: rs) >>= fun b => .val { s with buf := b, rows := [row] }
    else .val { s with rows := (r :: rs) ++ [row] }

/-- relaxed_tables.c:807-965: any other line. -/
def onOther (s : St) (l : Bytes) (nl : Bool) : C St :=
  if s.rows.length ≥ 2 then
    flushTable nl s.buf s.rows >>= fun b =>
    writeLine b l nl >>= fun b => .val ⟨b, [], true⟩
  else
    flushPlain nl s.buf s.rows >>= fun b =>
    writeLine b l nl >>= fun b => .val ⟨b, [], s.changed⟩

/-- relaxed_tables.c:320-965: one turn of the loop. -/
def step (s : St) (l : Bytes) (nl : Bool) : C St :=
  if isBlankLine l then onBlank s l nl
  else if isSeparator l || isRule l then onBar s l nl
  else if countColumns l > 0 then onRow s l nl
  else onOther s l nl

/-- relaxed_tables.c:310-965. -/
def loop : St → List (Bytes × Bool) → C St
  | s, [] => .val s
  | s, (l, nl) :: t => step s l nl >>= fun s => loop s t

/-- relaxed_tables.c:977-979, 999-1001: `*write++ = '\n'` without a look at the room. -/
def putNewline (b : Buf) : C Buf := put b.cap b.out 10 >>= fun t => .val { b with out := t }

/-- relaxed_tables.c:970-1002 for the rows after the first. -/
def lastRows : Buf → List TRow → C Buf
  | b, [] => .val b
  | b, r :: rs => write b r.text >>= fun b => putNewline b >>= fun b => lastRows b rs

/-- relaxed_tables.c:967-1078: the rows that wait at the end of the text. -/
def atEnd (s : St) (ends : Bool) : C Buf :=
  match s.rows with
  | [] => .val s.buf
  | [r] => writeLine s.buf r.text ends
  | r :: rs =>
    write s.buf r.text >>= fun b => putNewline b >>= fun b =>
    writeSep b r >>= fun b => lastRows b rs

/-- relaxed_tables.c:1097-1112, 1269-1285: `none` for NULL, "no changes". -/
def outcome (text out : Bytes) (changed : Bool) : Option Bytes :=
  if !changed && text.length == out.length then none
  else if text == out then none
  else some out

/-- relaxed_tables.c:270-1113 (`apex_process_relaxed_tables`). There is always room for the terminator, the block
grows by a byte if need be (1082-1095). -/
def relaxed (text : Bytes) : C (Option Bytes) :=
  if text.length = 0 then .val none
  else
    loop ⟨⟨text.length * 2, []⟩, [], false⟩ (lines text) >>= fun s =>
    atEnd s (text.getLast? == some 10) >>= fun b =>
    .val (outcome text b.out s.changed)

/-! ### Tables that begin with their separator -/

/-- relaxed_tables.c:1166-1187: the next line that is not blank is a table row. -/
def rowFollows : List (Bytes × Bool) → Bool
  | [] => false
  | (l, _) :: t => if isBlankLine l then rowFollows t else isTableRow l

/-- relaxed_tables.c:1205-1217: the block is doubled until header and line and ten more bytes fit. The capacity is at
least 2, so `need` turns are enough. -/
def growTo (need : Nat) : Nat → Nat → C Nat
  | 0, cap => if need > cap then .ub else .val cap
  | n + 1, cap => if need > cap then growTo need n (cap * 2) else .val cap

/-- relaxed_tables.c:1189-1228: the header in front of a separator. -/
def putHeader (b : Buf) (l : Bytes) : C Buf :=
  if countColumns l > 0 then
    headerRow (countColumns l) (startsWithPipe l) >>= fun o =>
    match o with
    | some h =>
      growTo (b.out.length + h.length + l.length + 10) (b.out.length + h.length + l.length + 10) b.cap >>= fun cap =>
      puts cap b.out h >>= fun t => .val ⟨cap, t⟩
    | none => .val b
  else .val b

/-- relaxed_tables.c:1231-1253: the copy of a line. -/
def copyLine (b : Buf) (l : Bytes) (nl : Bool) : C Buf :=
  let cap := if l.length + 1 > b.cap - b.out.length then b.cap * 2 else b.cap
  puts cap b.out l >>= fun t =>
  if nl then put cap t 10 >>= fun t => .val ⟨cap, t⟩ else .val ⟨cap, t⟩

/-- relaxed_tables.c:1164, 1189: a header is missing in front of this line. -/
def headless (l : Bytes) (t : List (Bytes × Bool)) (prev : Bool) : Bool :=
  isSeparator l && !prev && rowFollows t

/-- relaxed_tables.c:1142-1260. `prev` is `prev_line_is_table_row`. The Boolean of the result is `made_changes`. -/
def heads : Buf → Bool → Bool → List (Bytes × Bool) → C (Buf × Bool)
  | b, _, ch, [] => .val (b, ch)
  | b, prev, ch, (l, nl) :: t =>
    (if headless l t prev then putHeader b l else .val b) >>= fun b' =>
    copyLine b' l nl >>= fun b'' =>
    heads b'' (isTableRow l && !isSeparator l) (ch || (headless l t prev && decide (countColumns l > 0))) t

/-- relaxed_tables.c:1119-1286 (`apex_process_headerless_tables`). NULL also if the block is full. -/
def headerless (text : Bytes) : C (Option Bytes) :=
  if text.length = 0 then .val none
  else
    heads ⟨text.length * 2, []⟩ false false (lines text) >>= fun r =>
    if r.1.out.length < r.1.cap then .val (outcome text r.1.out r.2) else .val none

/-! ### The stages of the conversion -/

/-- apex.c:4361-4372, 4405-4416: a newline at the end of a text that has neither newline nor carriage return there. -/
def normalized (text : Bytes) : Bytes :=
  match text.getLast? with
  | none => text
  | some c => if c ≠ 10 ∧ c ≠ 13 then text ++ [10] else text

/-- apex.c:4376-4395, 4419-4436: the text goes on as it was if the pass returns NULL. -/
def stage (pass : Bytes → C (Option Bytes)) (text : Bytes) : C Bytes :=
  pass (normalized text) >>= fun o => .val (o.getD text)

/-- apex.c:4356-4397. -/
def relaxedStage (text : Bytes) : C Bytes := stage relaxed text

/-- apex.c:4399-4437. -/
def headerlessStage (text : Bytes) : C Bytes := stage headerless text

end Verif.RelaxedTables
