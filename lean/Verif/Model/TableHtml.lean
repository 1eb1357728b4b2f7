/- src/extensions/table_html_postprocess.c: what becomes of the tables in the page (`apex_inject_table_attributes`): attributes of joined cells, captions,
the foot, aligned cells, and first cells of rows that become headers.  The page is rendered by cmark-gfm and is an input, as is the tree.  Allocations succeed, no text has a zero
byte, and the work takes less than ten seconds (715-726). -/
import Verif.Model.TableSpans

namespace Verif.TableHtml
open Embed (find)
open ElemAttrs (has)
open ImgCaptions (trim)
open TableSpans (Row Cell Inl number removed)

/-! ### What is collected from the tree -/

/-- table_html_postprocess.c:26-33 `cell_attr`. -/
structure CellAttr where
  table : Int
  row : Int
  col : Nat
  attrs : Bytes
  text : Bytes
  deriving DecidableEq

/-- table_html_postprocess.c:57-63 `all_cell`. -/
structure Slot where
  table : Int
  row : Int
  col : Nat
  gone : Bool

/-- What is collected: cells with attributes, rows of the foot (table and row), captions (of tables), paragraphs to be left out (number and the first
50 bytes), and all cells.  The lists begin with the last one. -/
structure Doc where
  attrs : List CellAttr
  feet : List (Int × Int)
  caps : List (Int × Bytes)
  paras : List (Int × Bytes)
  slots : List Slot

/-- The blocks of a document: a paragraph with its mark and its first node when that is text, a table with its mark and rows, and blocks with others
in them. -/
inductive Blk
  | para (data : Option Bytes) (first : Option Bytes)
  | table (data : Option Bytes) (rows : List Row)
  | other (kids : List Blk)

/-- table_html_postprocess.c:154-172: the first text in a cell, or in its children. -/
def textOf : List Inl → Option Bytes
  | [] => none
  | .text s :: _ => some s
  | .para _ ks :: l | .other ks :: l =>
    (ks.findSome? fun | .text s => some s | _ => none).or (textOf l)
  | _ :: l => textOf l

/-- table_html_postprocess.c:151-191: the attributes of the cells of a row, from column `j` on. -/
def rowAttrs (t r : Int) : Nat → List Cell → List CellAttr
  | _, [] => []
  | j, c :: l => rowAttrs t r (j + 1) l ++ (c.data.map fun d => ⟨t, r, j, d, (textOf c.kids).getD b!"?"⟩).toList

/-- table_html_postprocess.c:88-106: the cells of a row, from column `j` on. -/
def rowSlots (t r : Int) : Nat → List Cell → List Slot
  | _, [] => []
  | j, c :: l => rowSlots t r (j + 1) l ++ [⟨t, r, j, removed c.data⟩]

/-- The lists of the rows of a table, from row `r` on; 505-521: the rows of the foot. -/
def rowsOf (t : Int) : Int → List Row → List CellAttr × List (Int × Int) × List Slot
  | _, [] => ([], [], [])
  | r, w :: l =>
    let x := rowsOf t (r + 1) l
    (x.1 ++ rowAttrs t r 0 w.cells, x.2.1 ++ (if w.data.any (has b!"data-tfoot") then [(t, r)] else []), x.2.2 ++ rowSlots t r 0 w.cells)

/-- table_html_postprocess.c:392-397, 427-432: a paragraph that is nothing but `[caption]`. -/
def bracketed (s : Bytes) : Option Bytes :=
  match s with
  | c :: u =>
    if c = c!"[" && c!"]" ∈ u && ((u.dropWhile (· ≠ c!"]")).drop 1).all isSpace then some (u.takeWhile (· ≠ c!"]")) else none
  | [] => none

/-- The caption in a neighbour of a table. -/
def neighbour : Option Blk → Option Bytes
  | some (.para _ (some s)) => bracketed s
  | _ => none

/-- table_html_postprocess.c:349-455: the caption of a table. -/
def captionOf (data : Option Bytes) (before behind : Option Blk) : Option Bytes :=
  match data.bind (find b!"data-caption=") with
  | some (_, s) =>
    match s with
    | c :: u =>
      let t := (u.takeWhile (· ≠ c!"\"")).take 511
      if c = c!"\"" && t ≠ [] then some t else none
    | [] => none
  | none => (neighbour before).or (neighbour behind)

/-- What has been found so far, with the numbers of tables and of paragraphs. -/
structure Found where
  doc : Doc
  tables : Nat
  paras : Nat

mutual
/-- table_html_postprocess.c:68-205, 311-484, 491-526: a block of the document, with its neighbours. -/
def collect (before behind : Option Blk) (f : Found) : Blk → Found
  | .para data first =>
    let i : Int := f.paras
    { f with paras := f.paras + 1
             doc := match first with
               | some s => if data.any (has b!"data-remove") then { f.doc with paras := (i, s.take 50) :: f.doc.paras } else f.doc
               | none => f.doc }
  | .table data rows =>
    let t : Int := f.tables
    let x := rowsOf t 0 rows
    { f with tables := f.tables + 1
             doc := { f.doc with attrs := x.1 ++ f.doc.attrs, feet := x.2.1 ++ f.doc.feet, slots := x.2.2 ++ f.doc.slots,
                                 caps := ((captionOf data before behind).map fun c => (t, c)).toList ++ f.doc.caps } }
  | .other kids => collects none f kids
/-- The blocks in a block. -/
def collects (before : Option Blk) (f : Found) : List Blk → Found
  | [] => f
  | b :: l => collects (some b) (collect before l.head? f b) l
end

/-- table_html_postprocess.c:531-540. -/
def docOf (l : List Blk) : Doc := (collects none ⟨⟨[], [], [], [], []⟩, 0, 0⟩ l).doc

/-! ### The output -/

/-- table_html_postprocess.c:671-712: the output, how much of it has been counted, its size, and the place in the page.  `heads` are the tables whose
rows begin with a header. -/
structure St where
  out : Bytes
  written : Nat
  cap : Nat
  table : Int
  row : Int
  ast : Int
  col : Nat
  para : Int
  inTable : Bool
  inRow : Bool
  inBody : Bool
  inFoot : Bool
  inHead : Bool
  cols : List Nat
  heads : List Int
  prev : Option CellAttr

/-- Bytes are written and counted. -/
def St.write (st : St) (s : Bytes) : C St :=
  if st.out.length + s.length ≤ st.cap then .val { st with out := st.out ++ s, written := st.written + s.length } else .ub

/-- Bytes are written but not counted. -/
def St.slip (st : St) (s : Bytes) : C St :=
  if st.out.length + s.length ≤ st.cap then .val { st with out := st.out ++ s } else .ub

/-- table_html_postprocess.c:727-734: writing goes on at the place that has been counted. -/
def St.grow (st : St) : St :=
  if st.written + 100 > st.cap then { st with cap := st.cap * 2, out := st.out.take st.written } else st

/-- Doubling until there is room; `k` times are enough. -/
def doubled (need : Nat) : Nat → Nat → Nat
  | 0, cap => cap
  | k + 1, cap => if need > cap then doubled need k (cap * 2) else cap

/-- table_html_postprocess.c:762-769 and others: room for `n` more bytes. -/
def St.room (st : St) (n : Nat) : St :=
  if st.written + n > st.cap then { st with cap := doubled (st.written + n) (st.written + n) st.cap, out := st.out.take st.written } else st

/-- table_html_postprocess.c:775-802: the text of a caption. -/
def escape (s : Bytes) : Bytes :=
  s.flatMap fun c => if c = c!"&" then b!"&amp;" else if c = c!"<" then b!"&lt;" else if c = c!">" then b!"&gt;" else if c = c!"\"" then b!"&quot;" else [c]

/-- What a part of the loop does: the turn is over, or it goes on. -/
inductive Next
  | done (st : St) (rest : Bytes)
  | go (st : St) (rest : Bytes)

/-! ### Tables and captions -/

/-- `strncmp(s, w, strlen(w)) == 0`. -/
def begins (w s : Bytes) : Bool := w.isPrefixOf s

/-- table_html_postprocess.c:737. -/
def opensTable (s : Bytes) : Bool := begins b!"<table" s && (s[6]?.any fun c => c = c!">" || c = c!" " || isAlnum c)

/-- table_html_postprocess.c:743-750. -/
def caption (D : Doc) (t : Int) : Option Bytes := (D.caps.find? fun c => c.1 = t).map (·.2)

/-- table_html_postprocess.c:752-822, 842-912: the figure around a table with a caption begins.  For positions other than 0 and 1 nothing is
written in front of a tag with a missing blank. -/
def figure (cap : Option Bytes) (pos : Int) (fixed : Bool) (st : St) : C St :=
  match cap with
  | none => .val st
  | some c =>
    if pos = 0 then (st.room (b!"<figure class=\"table-figure\">\n<figcaption>".length + c.length * 6 + 14 + 100)).write
      (b!"<figure class=\"table-figure\">\n<figcaption>" ++ escape c ++ b!"</figcaption>\n")
    else if pos = 1 || !fixed then (st.room (30 + 100)).write b!"<figure class=\"table-figure\">\n"
    else .val st

/-- Up to the next `>`. -/
def tag (s : Bytes) : Bytes := s.takeWhile (· ≠ c!">")

/-- From the next `>` on. -/
def tagEnd (s : Bytes) : Bytes := s.dropWhile (· ≠ c!">")

/-- table_html_postprocess.c:737-912. -/
def tableTurn (D : Doc) (pos : Int) (st : St) (s : Bytes) : C Next := do
  let st := { st with inTable := true, table := st.table + 1, row := -1, inHead := false }
  let cap := caption D st.table
  if begins b!"<tableid=" s then
    let st ← figure cap pos true st
    let st ← st.write (b!"<table " ++ tag (s.drop 6) ++ (tagEnd (s.drop 6)).take 1)
    .val (.done st ((tagEnd (s.drop 6)).drop 1))
  else
    let st ← figure cap pos false st
    .val (.go st s)

/-- table_html_postprocess.c:913-1037. -/
def closeTurn (D : Doc) (pos : Int) (st : St) (s : Bytes) : C Next := do
  let st ←
    if st.inFoot then ({ st with inFoot := false }.room 9).write b!"</tfoot>\n"
    else if st.inBody then ({ st with inBody := false }.room 9).write b!"</tbody>\n"
    else .val st
  match caption D st.table with
  | some c =>
    let st ← st.write b!"</table>"
    let st ← if pos = 1 then (st.room (12 + c.length * 6 + 14 + 100)).write (b!"<figcaption>" ++ escape c ++ b!"</figcaption>\n") else .val st
    let st ← (st.room (10 + 100)).write b!"</figure>\n"
    .val (.done { st with inTable := false } (s.drop 8))
  | none => .val (.go { st with inTable := false } s)

/-! ### Rows -/

/-- Has row `r` of a table a cell that is shown? -/
def shown (D : Doc) (t : Int) (r : Int) : Bool := D.slots.any fun c => c.table = t && c.row = r && !c.gone

/-- table_html_postprocess.c:1073-1092: the rows that are shown, the first hundred. -/
def rows (D : Doc) (t : Int) : List Nat := (List.range 100).filter fun r => shown D t r

/-- table_html_postprocess.c:1060-1102: the row of the tree for a row of the page. -/
def astRow (D : Doc) (t row : Int) : Int :=
  match (rows D t)[row.toNat]? with
  | some r => r
  | none => row

/-- table_html_postprocess.c:1127-1175: a row above reaches down to this one in column `j`. -/
def covered (D : Doc) (t row : Int) (j : Nat) : Bool :=
  (List.range row.toNat).any fun p =>
    match (rows D t)[p]? with
    | some r => D.attrs.any fun a => a.table = t && a.row = r && a.col = j && has b!"rowspan=" a.attrs && row - p < number b!"rowspan=" (some a.attrs)
    | none => false

/-- table_html_postprocess.c:1104-1183: the columns of the cells in a row of the page. -/
def mapping (D : Doc) (t row ast : Int) : List Nat :=
  (List.range 50).filter fun j => (D.slots.any fun c => c.table = t && c.row = ast && c.col = j && !c.gone) && !covered D t row j

/-- All cells of a row, at least one, are not shown. -/
def allGone (D : Doc) (t : Int) (r : Int) : Bool :=
  let l := D.slots.filter fun c => c.table = t && c.row = r
  l ≠ [] && l.all (·.gone)

/-- table_html_postprocess.c:1206-1221: the first row of `===`. -/
def equalsRow (D : Doc) (t : Int) : Option Nat := (List.range 100).find? fun r => allGone D t r

/-- table_html_postprocess.c:1238-1252: the rows shown up to row `m`, less one. -/
def beforeEquals (D : Doc) (t : Int) (m : Nat) : Int := ((List.filter (fun r : Nat => shown D t r) (List.range (m + 1))).length : Int) - 1

/-- table_html_postprocess.c:1434-1448, 1461-1466: a cell of `===` in row `r`. -/
def hasEquals (D : Doc) (t r : Int) : Bool :=
  D.attrs.any fun a => a.table = t && a.row = r && has b!"data-remove" a.attrs && begins b!"===" (a.text.dropWhile isSpace)

/-- table_html_postprocess.c:1223-1340: is the row one of the foot? -/
def rowOfFoot (D : Doc) (t row ast : Int) : Bool :=
  let marked := D.feet.any fun x => x.1 = t && x.2 = ast
  match equalsRow D t with
  | some m => marked && !(ast ≤ m || (0 ≤ beforeEquals D t m && row ≤ beforeEquals D t m + 2) || row ≤ 3)
  | none => marked && !(row ≤ 2)

/-- table_html_postprocess.c:1376-1559: is the row left out?  (1382-1401: never one of the first four.) -/
def skipped (D : Doc) (t row ast : Int) : Bool :=
  let forced := match equalsRow D t with
    | some m => (0 ≤ beforeEquals D t m && row ≤ beforeEquals D t m + 1) || (0 ≤ ast && ast ≤ m)
    | none => false
  !(row ≤ 3) && rowOfFoot D t row ast && !forced &&
    (allGone D t ast || hasEquals D t ast || (0 < ast && hasEquals D t (ast - 1) && row ≤ 4))

/-- table_html_postprocess.c:1055-1585. -/
def rowTurn (D : Doc) (st : St) (s : Bytes) : C Next := do
  let row := st.row + 1
  let ast := if D.slots = [] then row else astRow D st.table row
  let st := { st with row := row, col := 0, prev := none, ast := ast, cols := mapping D st.table row ast }
  let st ←
    if rowOfFoot D st.table row ast && st.inBody && !st.inFoot then do
      let st ← ({ st with inBody := false }.room 9).write b!"</tbody>\n"
      ({ st with inFoot := true }.room 8).write b!"<tfoot>\n"
    else .val st
  if skipped D st.table row ast then
    .val (.done st (match find b!"</tr>" (s.drop 4) with | some x => x.2 | none => []))
  else do
    let st ← { st with inRow := true }.write b!"<tr>"
    .val (.go st (s.drop 4))

/-! ### Paragraphs that are captions -/

/-- table_html_postprocess.c:1657-1675: the caption in front of an attribute list; the text is given backwards. -/
def frontOf : Bytes → Option Bytes
  | [] => none
  | c :: r =>
    if c = c!"}" then
      match r.dropWhile (· ≠ c!"{") with
      | _ :: q => if (r.takeWhile (· ≠ c!"{")).getLast?.any (· ∈ b!":#.") then some q.reverse else frontOf r
      | [] => frontOf r
    else frontOf r

/-- table_html_postprocess.c:1602-1617: does the text of a paragraph look like a caption? -/
def looksLike (t : Bytes) : Bool :=
  t.head? = some c!"[" || (begins b!"&lt;" t && 4 < t.length) || (t.head? = some c!":" && t[1]?.any fun c => c = c!" " || c = c!"\t")

/-- table_html_postprocess.c:1638-1685: the caption in the text of a paragraph, when it ends before the paragraph does. -/
def paraCaption (t : Bytes) : Option Bytes :=
  if t.head? = some c!"[" then
    let u := t.drop 1
    if c!"]" ∈ u then some (u.takeWhile (· ≠ c!"]")) else (find b!"&gt;" u).map (·.1)
  else if begins b!"&lt;" t && 4 < t.length then (find b!"&gt;" (t.drop 4)).map (·.1)
  else if t.head? = some c!":" && (t[1]?.any fun c => c = c!" " || c = c!"\t") then
    let u := t.drop 2
    match frontOf u.reverse with
    | some v => some (trim v)
    | none => if (u.getLast?.any isSpace) then some (trim u) else none
  else none

/-- table_html_postprocess.c:1588-1706: a caption with a mark is left out; one with the text of a caption too, but then the turn goes on. -/
def paraTurn (D : Doc) (st : St) (s : Bytes) : Next :=
  let st := { st with para := st.para + 1 }
  match find b!"</p>" (s.drop 3) with
  | some (body, rest) =>
    let t := body.dropWhile isSpace
    if looksLike t then
      if ((D.paras.find? fun p => p.1 = st.para).any fun p => p.2 ≠ [] && has p.2 (s.drop 3)) then .done st rest
      else if ((paraCaption t).any fun c => c ≠ [] && c.length < 512 && D.caps.any fun x => x.2 = c) then .go st rest
      else .go st s
    else .go st s
  | none => .go st s

/-! ### Cells -/

/-- table_html_postprocess.c:1708-1713. -/
def opensCell (st : St) (s : Bytes) : Bool :=
  (st.inRow || st.inHead) && (begins b!"<td" s || begins b!"<th" s) && !begins b!"<thead>" s && !begins b!"<tbody>" s && !begins b!"<tfoot>" s

/-- The end of the cell. -/
def closing (s : Bytes) : Bytes := if begins b!"<th" s then b!"</th>" else b!"</td>"

/-- table_html_postprocess.c:1729-1751 and others: the content of the cell when it has less than 99 bytes, without white space at its end. -/
def preview (s : Bytes) : Bytes :=
  match tagEnd s with
  | _ :: u =>
    match find (closing s) u with
    | some (x, _) => if x.length < 99 then (x.reverse.dropWhile isSpace).reverse else []
    | none => []
  | [] => []

/-- table_html_postprocess.c:1753-1791: is the first cell of the header empty?  It is taken to be when its end is too far away. -/
def emptyHead (s : Bytes) : Bool :=
  match tagEnd s with
  | _ :: u =>
    if (tag s).length < 20 then
      match find b!"</th>" u with
      | some (x, _) => if (tag s).length + 1 + x.length < 100 then x.all isSpace else true
      | none => true
    else true
  | [] => true

/-- table_html_postprocess.c:1721-1724. -/
def firstHead (st : St) (s : Bytes) : Bool :=
  st.inTable && !st.inBody && !st.inFoot && st.inHead && 0 ≤ st.table && st.table < 50 && st.row = 0 && st.col = 0 && begins b!"<th" s

/-- table_html_postprocess.c:1840-1850: the text of the tree is at the start of the cell. -/
def startsWith (p text : Bytes) : Bool :=
  p = [] ||
    let a := text.dropWhile isSpace
    let h := p.dropWhile isSpace
    a.isPrefixOf h && (h.drop a.length).head?.all isSpace

/-- table_html_postprocess.c:1958-1971 and others: both texts are the same, without white space around them. -/
def sameText (p text : Bytes) : Bool := trim text ≠ [] && trim p ≠ [] && trim text = trim p

/-- table_html_postprocess.c:1793-2145: the entry for the cell in column `tgt` of the tree.  The text of an entry is taken not to be empty, so
the content of the cell has always been looked at. -/
def match? (D : Doc) (t ast : Int) (tgt : Option Nat) (p : Bytes) : Option CellAttr :=
  let here := D.attrs.find? fun a => a.table = t && a.row = ast && some a.col = tgt && startsWith p a.text
  let above := if 0 < ast then
      D.attrs.find? fun a => a.table = t && a.row = ast - 1 && some a.col = tgt && has b!"data-remove" a.attrs && startsWith p a.text
    else none
  let same := if D.attrs.length ≤ 500 then
      (D.attrs.find? fun a => a.table = t && a.row = ast && sameText p a.text && (has b!"colspan" a.attrs || has b!"rowspan" a.attrs)).or
        (D.attrs.find? fun a => a.table = t && a.row = ast && sameText p a.text)
    else none
  let wide := (D.attrs.find? fun a => a.table = t && a.row = ast && has b!"colspan" a.attrs && sameText p a.text).or
    (D.attrs.find? fun a => a.table = t && (a.row = ast || a.row = ast - 1 || a.row = ast + 1) && has b!"colspan" a.attrs && sameText p a.text)
  let high :=
    match D.attrs.filter fun a => a.table = t && (ast - a.row = 0 || ast - a.row = 1) && has b!"rowspan" a.attrs && sameText p a.text with
    | [a] => some a
    | _ => none
  if 0 ≤ ast then here.or (above.or (same.or (wide.or high))) else here

/-- table_html_postprocess.c:2152-2161, 2170-2179: what is looked at for marks, up to the next `</td>`. -/
def near (s : Bytes) : Bytes :=
  match tagEnd s with
  | _ :: u =>
    match (find b!"</td>" u).or (find b!"</th>" u) with
    | some (x, _) => if x.length < 100 then x else []
    | none => []
  | [] => []

/-- table_html_postprocess.c:2147-2181: a mark for joined cells. -/
def marked (p s : Bytes) : Bool :=
  has b!"^^" p || has b!"^^" (near s) || has b!"<<" p || has b!"&lt;&lt;" p || has b!"<<" (near s) || has b!"&lt;&lt;" (near s)

/-- table_html_postprocess.c:2197-2232: an empty cell is part of the one in front of it. -/
def swallowed (D : Doc) (st : St) (tgt : Option Nat) : Bool :=
  0 ≤ st.ast &&
    match tgt with
    | some j => D.attrs.any fun a => a.table = st.table && a.row = st.ast && a.col = j && has b!"data-remove" a.attrs
    | none => st.prev.any fun q => q.row = st.ast && has b!"colspan" q.attrs && 1 < number b!"colspan=" (some q.attrs)

/-- table_html_postprocess.c:213-306 `process_cell_alignment`: the style, and the content without the colons. -/
def alignment (x : Bytes) : Option (Bytes × Bytes) :=
  let l := x.takeWhile isSpace
  let u := x.dropWhile isSpace
  let lead := u.head? = some c!":" && u[1]? ≠ some c!":" && l.getLast? ≠ some c!"\\"
  let v := (x.reverse.dropWhile isSpace).reverse
  let trail := v.getLast? = some c!":" && v.dropLast.getLast? ≠ some c!"\\"
  if !lead && !trail then none
  else
    let y := if lead then u.drop 1 else x
    let w := (y.reverse.dropWhile isSpace).reverse
    let z := if trail && w.getLast? = some c!":" then w.dropLast else y
    some (if lead && trail then b!"text-align: center" else if lead then b!"text-align: left" else b!"text-align: right", z)

/-- table_html_postprocess.c:2446-2468: a colon at the start or at the end. -/
def hasColon (x : Bytes) : Bool :=
  (x.dropWhile isSpace).head? = some c!":" || ((x.reverse.dropWhile isSpace).reverse.getLast? = some c!":")

/-- The text behind the second quote. -/
def behindQuotes (s : Bytes) : Option Bytes :=
  match s.dropWhile (· ≠ c!"\"") with
  | _ :: u =>
    match u.dropWhile (· ≠ c!"\"") with
    | _ :: v => some v
    | [] => none
  | [] => none

/-- table_html_postprocess.c:2404-2420, 2495-2536: the tag of a cell with a style: what is in front of the style, and whether the style follows.  `rest` is what
is behind the tag. -/
def styled (t rest : Bytes) : Bytes × Bool :=
  match find b!"align=" t with
  | some (pre, post) =>
    match behindQuotes (post ++ c!">" :: rest) with
    | some r => (pre, (if rest.length < r.length then r.dropWhile fun c => c = c!" " || c = c!"\t" else r).head? = some c!">")
    | none => (t, true)
  | none => (t, true)

/-- table_html_postprocess.c:2385-2561: the cell is aligned; otherwise how many columns are counted. -/
def alignCell (st : St) (s : Bytes) : C (Sum Next Nat) :=
  let t := tag s
  match tagEnd s with
  | _ :: u =>
    if t.length ≤ 100 then
      match find (closing s) u with
      | some (x, rest) =>
        if x.length < 500 then
          if x = [] then .val (.inr 0)
          else if hasColon x then
            match alignment x with
            | some (style, z) => do
              let (pre, ok) := styled t u
              let st ← st.slip (pre ++ (if ok then b!" style=\"" ++ style ++ b!"\">" else []) ++ z ++ closing s)
              .val (.inl (.done { st with col := st.col + 1 } rest))
            | none => .val (.inr 0)
          else .val (.inr 1)
        else .val (.inr 1)
      | none => .val (.inr 1)
    else .val (.inr 1)
  | [] => .val (.inr 1)

/-- table_html_postprocess.c:2244-2249: behind a cell that is left out. -/
def behindCell (s : Bytes) : Bytes :=
  match tagEnd s with
  | _ :: u => match find (closing s) u with | some x => x.2 | none => []
  | [] => []

/-- table_html_postprocess.c:2337-2349: the first end of a cell. -/
def firstClose (u : Bytes) : Option (Bytes × Bytes) :=
  match find b!"</td>" u, find b!"</th>" u with
  | some x, some y => if x.1.length < y.1.length then some x else some y
  | some x, none => some x
  | none, y => y

/-- table_html_postprocess.c:2563-2590: the cell as it is, and what is behind it. -/
def wholeCell (s : Bytes) : Bytes × Bytes :=
  match tagEnd s with
  | e :: u => match find (closing s) u with | some x => (tag s ++ e :: x.1 ++ closing s, x.2) | none => (s, [])
  | [] => (s, [])

/-- table_html_postprocess.c:1708-2595: a cell.  `align` says that there are colons. -/
def cellTurn (D : Doc) (align : Bool) (st : St) (s : Bytes) : C Next := do
  let st := if firstHead st s && emptyHead s then { st with heads := st.table :: st.heads } else st
  let tgt := st.cols[st.col]?
  let p := if firstHead st s || (D.attrs ≠ [] && 0 ≤ st.ast) then preview s else []
  let m := match? D st.table st.ast tgt p
  if m.any (fun a => has b!"data-remove" a.attrs) || marked p s || (p = [] && swallowed D st tgt) then
    .val (.done { st with col := st.col + 1 } (behindCell s))
  else if m.any (fun a => has b!"rowspan" a.attrs || has b!"colspan" a.attrs) then do
    let a := (m.map (·.attrs)).getD []
    let st ← st.slip (s.take 3 ++ b!" " ++ a.dropWhile (fun c => c = c!" " || c = c!"\t") ++ b!">")
    .val (.done { st with col := st.col + 1, prev := m } ((tagEnd (s.drop 3)).drop 1))
  else do
    let header := !begins b!"<th" s && st.inBody && st.inRow && 0 ≤ st.table && st.table < 50 && st.table ∈ st.heads && st.col = 0
    match if header then ((tagEnd s).tail?).bind firstClose else none with
    | some (x, rest) =>
      let st ← st.write (b!"<th scope=\"row\">" ++ x ++ b!"</th>")
      .val (.done { st with col := st.col + 1, prev := m } rest)
    | none =>
      let r ← if align then alignCell { st with prev := m } s else .val (.inr 0)
      match r with
      | .inl n => .val n
      | .inr k =>
        let st := { st with col := st.col + k + 1, prev := m }
        if m.isNone && !header then
          let st ← st.write (wholeCell s).1
          .val (.done st (wholeCell s).2)
        else .val (.go st s)

/-! ### The page -/

/-- table_html_postprocess.c:735-1706: what is done for tags of tables and for paragraphs. -/
def tagTurn (D : Doc) (pos : Int) (st : St) (s : Bytes) : C Next :=
  if opensTable s then tableTurn D pos st s
  else if begins b!"</table>" s then closeTurn D pos st s
  else if st.inTable && begins b!"<thead>" s then .val (.go { st with inHead := true } s)
  else if st.inTable && begins b!"</thead>" s then .val (.go { st with inHead := false } s)
  else if st.inTable && begins b!"<tbody>" s then .val (.go { st with inBody := true, inFoot := false } s)
  else if st.inTable && begins b!"</tbody>" s then
    if st.inFoot then .val (.done st (s.drop 8)) else .val (.go { st with inBody := false } s)
  else if st.inTable && begins b!"<tr>" s then rowTurn D st s
  else if st.inRow && begins b!"</tr>" s then .val (.go { st with inRow := false } s)
  else if begins b!"<p>" s then .val (paraTurn D st s)
  else .val (.go st s)

/-- table_html_postprocess.c:712-2600: a turn of the loop.  Behind a tag `<tr>` or a paragraph at the end of the page the zero byte is copied too,
and reading goes on behind it. -/
def turn (D : Doc) (align : Bool) (pos : Int) (st : St) (s : Bytes) : C (St × Bytes) := do
  match ← tagTurn D pos st.grow s with
  | .done st rest => .val (st, rest)
  | .go st rest =>
    let n ← if opensCell st rest then cellTurn D align st rest else .val (.go st rest)
    match n with
    | .done st rest => .val (st, rest)
    | .go st rest =>
      match rest with
      | c :: u => do
        let st ← st.write [c]
        .val (st, u)
      | [] => .ub

/-- table_html_postprocess.c:712-2602: the loop; `n` turns are enough for `n` bytes. -/
def loop (D : Doc) (align : Bool) (pos : Int) : Nat → St → Bytes → C Bytes
  | _, st, [] => finish st.cap st.out
  | 0, st, _ => finish st.cap st.out
  | n + 1, st, c :: s => do
    let (st, rest) ← turn D align pos st (c :: s)
    loop D align pos n st rest

/-- table_html_postprocess.c:2636-2675: the place of `\<<`. -/
def literal : Nat → Bytes → Bytes
  | _, [] => []
  | 0, s => s
  | n + 1, c :: s => if begins b!"APEXLTLT" (c :: s) then b!"&lt;&lt;" ++ literal n (s.drop 7) else c :: literal n s

/-- table_html_postprocess.c:554, 565, 582. -/
def endColon (h : Bytes) : Bool := has b!":</td>" h || has b!":</th>" h

/-- table_html_postprocess.c:583-601: is the first `:<` in front of the end of a cell? -/
def leadColon (h : Bytes) : Bool :=
  match find b!":<" h with
  | some (_, u) => (List.range 200).any fun i => begins b!"</td>" (u.drop i) || begins b!"</th>" (u.drop i)
  | none => false

/-- How often a word is found, up to 100 times. -/
def count (w : Bytes) : Nat → Bytes → Nat
  | 0, _ => 0
  | n + 1, s => match find w s with | some (_, u) => count w n u + 1 | none => 0

/-- The state at the start. -/
def start (cap : Nat) : St := ⟨[], 0, cap, -1, -1, -1, 0, -1, false, false, false, false, false, [], [], none⟩

/-- table_html_postprocess.c:528-2678 `apex_inject_table_attributes`. -/
def inject (D : Doc) (pos : Int) (h : Bytes) : C Bytes :=
  let run (D : Doc) (align : Bool) : C Bytes := do
    let o ← loop D align pos h.length (start (h.length * 2)) h
    .val (literal o.length o)
  if D.attrs = [] && D.caps = [] && D.paras = [] && D.feet = [] then
    if 50000 < h.length && !endColon h && !has b!"^^" h then .val h
    else if !endColon h && !has b!"^^" h && !has b!"<thead>" h then .val h
    else run { D with slots := [] } (endColon h || leadColon h)
  else
    let align := !(20 ≤ count b!"align=" 100 h) && endColon h
    if D.attrs = [] && D.caps = [] && D.feet = [] && !align then .val h
    else run D align

end Verif.TableHtml
