/- src/extensions/advanced_tables.c:358-399, 814-1763: the captions of tables.  A paragraph `[Caption]` or `: Caption`, perhaps with attributes behind it, is taken from the document and
written to the mark (`user_data`) of a table; so is a row of a table.

The tree built by cmark-gfm is an input.  The blocks that are children of one node are handled at a time: the code looks at nothing but the siblings of a table.  What is done with the cells
of the table afterwards (1757-1758, `process_table_spans`) is in `TableSpans` and looks at neither the mark of the table nor its siblings.  Allocations succeed; no text has a zero byte. -/
import Verif.Model.TableSpans

namespace Verif.TableCaps
open ElemAttrs (has)
open ImgCaptions (trim)
open TableSpans (Inl Cell Row gone cut)

/-- A child of the document, or of another block: a paragraph with its children and its mark, a table with its rows and its mark, a heading, something else. -/
inductive Block
  | para (kids : List Inl) (data : Option Bytes)
  | table (rows : List Row) (data : Option Bytes)
  | heading (src : Bytes)
  | other (src : Bytes)

/-! ### Attributes -/

/-- `apex_attributes`. -/
structure Attrs where
  id : Option Bytes := none
  classes : List Bytes := []
  keys : List (Bytes × Bytes) := []
deriving DecidableEq

/-- advanced_tables.c:904-921: what is behind the last `{:`, or from the last `{#` or `{.` on without the brace. -/
def lastOpen : Bytes → Option Bytes
  | [] => none
  | c :: s =>
    match lastOpen s with
    | some r => some r
    | none =>
      if c = c!"{" then
        if s.head? = some c!":" then some (s.drop 1)
        else if s.head? = some c!"#" || s.head? = some c!"." then some s
        else none
      else none

/-- advanced_tables.c:998-1011: the text up to the quote and what is behind it, if there is the quote; a backslash hides the next byte. -/
def quoted (q : Byte) : Bytes → Option (Bytes × Bytes)
  | [] => none
  | [c] => if c = q then some ([], []) else none
  | c :: d :: s =>
    if c = q then some ([], d :: s)
    else if c = c!"\\" then (quoted q s).map fun p => (c :: d :: p.1, p.2)
    else (quoted q (d :: s)).map fun p => (c :: p.1, p.2)

/-- advanced_tables.c:996-1019: a value and what is behind it. -/
def value (s : Bytes) : Bytes × Bytes :=
  match s with
  | [] => ([], [])
  | c :: r =>
    if c = c!"\"" || c = c!"'" then (quoted c r).getD ([], [])
    else (s.takeWhile fun c => !isSpace c && c ≠ c!"}", s.dropWhile fun c => !isSpace c && c ≠ c!"}")

/-- advanced_tables.c:949-1030: the content between the braces.  Behind a word without `=` one byte is skipped, also when that is the end of the text. -/
def parse : Nat → Attrs → Bytes → C Attrs
  | 0, a, _ => .val a
  | n + 1, a, s =>
    match s.dropWhile isSpace with
    | [] => .val a
    | c :: r =>
      if c = c!"#" then
        let w := r.takeWhile fun c => !isSpace c && c ≠ c!"." && c ≠ c!"}"
        parse n (if w = [] then a else { a with id := some w }) (r.dropWhile fun c => !isSpace c && c ≠ c!"." && c ≠ c!"}")
      else if c = c!"." then
        let w := r.takeWhile fun c => !isSpace c && c ≠ c!"." && c ≠ c!"#" && c ≠ c!"}"
        parse n (if w = [] then a else { a with classes := a.classes ++ [w] }) (r.dropWhile fun c => !isSpace c && c ≠ c!"." && c ≠ c!"#" && c ≠ c!"}")
      else
        match (c :: r).dropWhile fun c => c ≠ c!"=" && c ≠ c!" " && c ≠ c!"\t" && c ≠ c!"}" with
        | [] => .ub
        | d :: t =>
          if d = c!"=" then
            parse n { a with keys := a.keys ++ [((c :: r).takeWhile fun c => c ≠ c!"=" && c ≠ c!" " && c ≠ c!"\t" && c ≠ c!"}", (value t).1)] } (value t).2
          else parse n a t

/-- advanced_tables.c:898-1033 `parse_ial_from_text`; at most 2047 bytes are kept. -/
def attrsIn (text : Bytes) : C (Option Attrs) :=
  match lastOpen text with
  | none => .val none
  | some s =>
    if c!"}" ∈ s then
      let content := (s.takeWhile (· ≠ c!"}")).take 2047
      if content = [] then .val none
      else do
        let a ← parse (content.length + 1) {} content
        .val (some a)
    else .val none

/-- advanced_tables.c:1045-1051 `APPEND`: what does not fit is left out. -/
def append (buf s : Bytes) : Bytes := if buf.length + s.length < 4096 then buf ++ s else buf

/-- advanced_tables.c:1066-1069: the classes, with blanks between them. -/
def classList (buf : Bytes) : List Bytes → Bytes
  | [] => buf
  | [c] => append buf c
  | c :: cs => classList (append (append buf c) b!" ") cs

/-- advanced_tables.c:1074-1084: the other attributes; there is no blank in front of the first of all attributes. -/
def keyList (first : Bool) (buf : Bytes) : List (Bytes × Bytes) → Bytes
  | [] => buf
  | k :: ks => keyList false (append buf (cut 1024 ((if first then [] else b!" ") ++ k.1 ++ b!"=\"" ++ k.2 ++ b!"\""))) ks

/-- advanced_tables.c:1038-1091 `attributes_to_html_string`. -/
def html (a : Attrs) : Bytes :=
  let b := match a.id with
    | some i => append (append (append [] b!" id=\"") i) b!"\""
    | none => []
  let b := if a.classes = [] then b else append (classList (append b b!" class=\"") a.classes) b!"\""
  keyList (a.id = none && a.classes = []) b a.keys

/-! ### Captions -/

/-- advanced_tables.c:1101-1137, 1276-1310: the texts that are children of the paragraph. -/
def texts (ks : List Inl) : Bytes := ks.flatMap fun
  | .text s => s
  | _ => []

/-- The bytes that begin attributes. -/
def opens (c : Option Byte) : Bool := c = some c!":" || c = some c!"#" || c = some c!"."

/-- advanced_tables.c:1141-1188, 1314-1365: `[Caption]` with nothing or attributes behind it. -/
def bracket (t : Bytes) : Option Bytes :=
  match t with
  | [] => none
  | c :: r =>
    if c = c!"[" && c!"]" ∈ r then
      let after := ((r.dropWhile (· ≠ c!"]")).drop 1).dropWhile isSpace
      if after = [] || (after.head? = some c!"{" && opens after[1]? && c!"}" ∈ after) then some (r.takeWhile (· ≠ c!"]")) else none
    else none

/-- advanced_tables.c:1205-1224, 1388-1409: what is in front of the last attributes, from the end of the text backwards. -/
def beforeAttrs : Bytes → Option Bytes
  | [] => none
  | c :: r =>
    if c = c!"}" && c!"{" ∈ r && opens (r.takeWhile (· ≠ c!"{")).getLast? then some ((r.dropWhile (· ≠ c!"{")).drop 1).reverse
    else beforeAttrs r

/-- advanced_tables.c:1190-1262, 1367-1448: `: Caption` behind at most `n` spaces, perhaps with attributes at its end. -/
def colon (n : Nat) (t : Bytes) : Option Bytes :=
  let s := t.drop (min n (t.takeWhile (· = c!" ")).length)
  match s with
  | c :: d :: r =>
    if c = c!":" && (d = c!" " || d = c!"\t") then
      let b := beforeAttrs r.reverse
      let cap := trim (b.getD r)
      if cap ≠ [] then some cap else if b.isSome then some [] else none
    else none
  | _ => none

/-- advanced_tables.c:1096-1268 `is_table_caption_format`: the caption that the paragraph is. -/
def format (ks : List Inl) : Option Bytes := (bracket (texts ks)).or (colon 4 (texts ks))

/-- advanced_tables.c:1270-1453 `is_table_caption` on a paragraph behind a table (so that 820-891 `is_adjacent_to_table` holds), and 1691-1704, the test that follows it. -/
def formatAfter (ks : List Inl) : Option Bytes := ((bracket (texts ks)).or (colon 3 (texts ks))).or (format ks)

/-- advanced_tables.c:1458-1536 `add_table_caption`: the mark of the table with the caption, if it has none. -/
def add (d : Option Bytes) (caption text : Bytes) : C (Option Bytes) := do
  let a ← attrsIn text
  if has b!"data-caption=" (d.getD []) then .val d
  else .val (some (d.getD [] ++ b!" data-caption=\"" ++ caption ++ b!"\"" ++ (a.map html).getD []))

/-- advanced_tables.c:1573-1595: the paragraph has no children, or the first one is a text of nothing but white space. -/
def blank : List Inl → Bool
  | [] => true
  | .text s :: _ => s.all isSpace
  | _ => false

/-- advanced_tables.c:1602-1623: the paragraph begins with a bracket or a colon. -/
def might : List Inl → Bool
  | .text s :: _ =>
    let t := s.drop (min 3 (s.takeWhile (· = c!" ")).length)
    t.head? = some c!"[" || t.head? = some c!":"
  | _ => false

/-- advanced_tables.c:1599-1601: the paragraph is the caption of another table. -/
def used (d : Option Bytes) : Bool := has b!"data-remove" (d.getD [])

/-- advanced_tables.c:1556-1670: a caption above the table.  The blocks above it, the nearest one first, and the mark of the table. -/
def above (d : Option Bytes) : List Block → C (List Block × Option Bytes)
  | [] => .val ([], d)
  | .para ks pd :: r =>
    let on : C (List Block × Option Bytes) := do
      let x ← above d r
      .val (.para ks pd :: x.1, x.2)
    if blank ks || used pd || !might ks then on
    else
      match format ks with
      | some cap => do
        let d' ← add d cap (texts ks)
        .val (.para ks (some gone) :: r, d')
      | none => on
  | .heading s :: r => do
    let x ← above d r
    .val (.heading s :: x.1, x.2)
  | b :: r => .val (b :: r, d)

/-- advanced_tables.c:1672-1708: a caption in the block below the table. -/
def below (d : Option Bytes) : List Block → C (List Block × Option Bytes)
  | .para ks pd :: r =>
    if used pd then .val (.para ks pd :: r, d)
    else
      match formatAfter ks with
      | some cap => do
        let d' ← add d cap (texts ks)
        .val (.para ks (some gone) :: r, d')
      | none => .val (.para ks pd :: r, d)
  | r => .val (r, d)

/-- The first text of a cell, if it is the first child. -/
def cellText (c : Cell) : Option Bytes :=
  match c.kids with
  | .text s :: _ => some s
  | _ => none

/-- advanced_tables.c:377-390: a cell `[Caption]`. -/
def capCell (c : Cell) : Bool :=
  match cellText c with
  | some (x :: r) => x = c!"[" && c!"]" ∈ r && ((r.dropWhile (· ≠ c!"]")).drop 1).all isSpace
  | _ => false

/-- advanced_tables.c:364-399 `is_caption_row`. -/
def capRow (r : Row) : Bool := r.cells.any capCell && (r.cells.length = 1 || r.cells.all capCell)

/-- advanced_tables.c:1723-1753: the text of the first cell that begins with a bracket. -/
def capText : List Cell → Option Bytes
  | [] => none
  | c :: r =>
    match cellText c with
    | some (x :: t) => if x = c!"[" && c!"]" ∈ t then some (x :: t) else capText r
    | _ => capText r

/-- advanced_tables.c:1710-1755: the last row that is a caption. -/
def inRows (d : Option Bytes) : List Row → C (List Row × Option Bytes)
  | [] => .val ([], d)
  | r :: rs =>
    if capRow r && !rs.any capRow then
      match capText r.cells with
      | some t => do
        let d' ← add d ((t.drop 1).takeWhile (· ≠ c!"]")) t
        .val ({ r with data := some gone } :: rs, d')
      | none => .val (r :: rs, d)
    else do
      let x ← inRows d rs
      .val (r :: x.1, x.2)

/-- advanced_tables.c:1541-1761: the blocks in order; `done` are those before, the nearest one first. -/
def walk : Nat → List Block → List Block → C (List Block)
  | 0, done, _ => .val done
  | _, done, [] => .val done
  | n + 1, done, .table rows d :: post => do
    let x ← above d done
    let y ← below x.2 post
    let z ← inRows y.2 rows
    walk n (.table z.1 z.2 :: x.1) y.1
  | n + 1, done, b :: post => walk n (b :: done) post

/-- advanced_tables.c:1541-1763 `apex_process_advanced_tables` on the children of one node. -/
def process (doc : List Block) : C (List Block) := do
  let out ← walk doc.length [] doc
  .val out.reverse

end Verif.TableCaps
