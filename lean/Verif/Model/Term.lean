/- src/ast_terminal.c: writing a document tree for a terminal.

   What is appended to the buffer is the value of each function (the growth of the buffer, lines 74-103, is that of `Verif.GrowBuf`; allocations succeed).  cmark-gfm is not part of the checkout; its
   accessors are taken to behave as documented.  A theme that could not be loaded is the same as one that says nothing: each use of it (e.g. lines 1274, 1313) tests for both.  The stack of open `<span>`
   elements (lines 1197-1198) is written but never read, so it is left out, and so is `printed` (line 62), as each place of a table is drawn once. -/
import Verif.Basic
import Verif.Model.Man
import Verif.Model.Embed
import Verif.Model.Plugins
import Verif.Model.TermStyle

namespace Verif.Term

open TermStyle (style reset words)
open Embed (find)

/-- ast_terminal.c:395-424 `terminal_theme`; `head` has the styles of headings by their level. -/
structure Theme where
  head : Nat → Option Bytes := fun _ => none
  linkText : Option Bytes := none
  linkUrl : Option Bytes := none
  codeSpan : Option Bytes := none
  codeBlock : Option Bytes := none
  quoteMarker : Option Bytes := none
  quoteColour : Option Bytes := none
  border : Option Bytes := none
  listMarker : Option Bytes := none
  classes : List (Bytes × Bytes) := []

/-- What the writer is given: the theme, whether there are 256 colours, what is done with `:emoji:` in text (lines 1216-1226), and, if code is to be coloured with Pygments, what a shell command prints for a
code block if it ends well (lines 2078-2200). -/
structure Opt where
  theme : Theme := {}
  wide : Bool := true
  emoji : Bytes → Bytes := id
  colour : Option (Bytes → Bytes → Option Bytes) := none

/-- The node types of cmark-gfm the writer distinguishes, and those reaching its `default` branches. -/
inductive Kind
  | document | para | heading (level : Nat) | list (bullet : Bool) (start : Nat) | item | quote | codeBlock (info literal : Bytes) | htmlBlock (literal : Bytes) | rule
  | table | row | cell
  | text (literal : Bytes) | soft | hard | code (literal : Bytes) | emph | strong | link (url : Bytes) | image (url : Bytes) | html (literal : Bytes) | other
  deriving DecidableEq

/-- A node with its attributes (the `user_data`) and its children. -/
inductive Node
  | mk (kind : Kind) (attrs : Option Bytes) (kids : List Node)

/-- `cmark_node_get_type`, with the data of the node. -/
def Node.kind : Node → Kind
  | .mk k _ _ => k

/-- `cmark_node_get_user_data`. -/
def Node.attrs : Node → Option Bytes
  | .mk _ a _ => a

/-- The children of a node. -/
def Node.kids : Node → List Node
  | .mk _ _ ks => ks

/-! ### Styles of classes -/

/-- ast_terminal.c:1092-1127 `theme_style_for_span_classes`: of the first class that has a style. -/
def classStyle (t : Theme) (s : Bytes) : Option Bytes := (words s).findSome? fun w => (t.classes.find? fun e => e.1 = w).map Prod.snd

/-- ast_terminal.c:1131-1176 `theme_style_for_node_attrs`; the classes are cut to 255 bytes. -/
def attrStyle (t : Theme) (attrs : Bytes) : Option Bytes :=
  match find b!"class=" attrs with
  | none => none
  | some (_, r) =>
    let v :=
      match r with
      | q :: s => if q = c!"\"" || q = c!"'" then s.takeWhile (· ≠ q) else r.takeWhile fun c => !isSpace c && c ≠ c!">" && c ≠ c!"/"
      | [] => []
    classStyle t (v.take 255)

/-- ast_terminal.c:1181-1192 `theme_style_for_node`. -/
def nodeStyle (t : Theme) (attrs : Option Bytes) : Option Bytes := attrs.bind (attrStyle t)

/-! ### Inlines -/

/-- ast_terminal.c:1228-1256: each `APEXLTLT` becomes `<<`. -/
def ltlt : Nat → Bytes → Bytes
  | 0, s => s
  | n + 1, s =>
    match find b!"APEXLTLT" s with
    | some (a, r) => a ++ b!"<<" ++ ltlt n r
    | none => s

/-- ast_terminal.c:1392-1410: inline HTML without its tags. -/
def strip : Bool → Bytes → Bytes
  | _, [] => []
  | inTag, c :: s =>
    if c = c!"<" then strip true s
    else if inTag then strip (c ≠ c!">") s
    else c :: strip false s

/-- ast_terminal.c:1358-1414: inline HTML. -/
def html (o : Opt) (s : Bytes) : Bytes :=
  if s = [] then []
  else if b!"<span ".isPrefixOf s || b!"<span>".isPrefixOf s then
    if c!">" ∈ s then
      match attrStyle o.theme (s.drop 5) with
      | some st => style o.wide st
      | none => []
    else []
  else if b!"</span".isPrefixOf s then reset
  else strip false s

mutual
/-- ast_terminal.c:1200-1421 `serialize_inline`. -/
def inline (o : Opt) : Node → Bytes
  | .mk k attrs kids =>
    let cs := nodeStyle o.theme attrs
    match k with
    | .text s =>
      let t := o.emoji s
      (match cs with | some st => style o.wide st | none => []) ++ ltlt t.length t ++ (match cs with | some _ => reset | none => [])
    | .soft => b!"\n"
    | .hard => b!"  \n"
    | .code s => style o.wide ((cs <|> o.theme.codeSpan).getD b!"b white on_intense_black") ++ s ++ reset
    | .emph => (match cs with | some st => style o.wide st | none => []) ++ style o.wide b!"i" ++ inlines o kids ++ reset
    | .strong => (match cs with | some st => style o.wide st | none => []) ++ style o.wide b!"b" ++ inlines o kids ++ reset
    | .link url =>
      style o.wide ((cs <|> o.theme.linkText).getD b!"u b blue") ++ inlines o kids ++ reset ++
        (if url = [] then [] else b!" " ++ style o.wide (o.theme.linkUrl.getD b!"cyan") ++ b!"(" ++ url ++ b!")" ++ reset)
    | .image url => b!"![" ++ inlines o kids ++ b!"]" ++ (if url = [] then [] else b!"(" ++ url ++ b!")")
    | .html s => html o s
    -- the types that have no children as inlines but for those cmark-gfm adds
    | _ => inlines o kids
/-- The loops over children, e.g. ast_terminal.c:1290-1292. -/
def inlines (o : Opt) : List Node → Bytes
  | [] => []
  | n :: ns => inline o n ++ inlines o ns
end

/-- ast_terminal.c:1083-1087 `indent_spaces`. -/
def spaces (indent : Nat) : Bytes := List.replicate (2 * indent) c!" "

/-! ### Tables -/

/-- ast_terminal.c:105-135 `parse_alignment_from_attrs`. -/
inductive Align
  | default | left | center | right
  deriving DecidableEq

/-- ast_terminal.c:106-135. -/
def alignOf (attrs : Option Bytes) : Align :=
  match attrs with
  | none => .default
  | some s =>
    let has := fun w : Bytes => (find w s).isSome
    if has b!"text-align: center" || has b!"text-align:center" then .center
    else if has b!"text-align: right" || has b!"text-align:right" then .right
    else if has b!"text-align: left" || has b!"text-align:left" then .left
    else if has b!"align=\"center\"" then .center
    else if has b!"align=\"right\"" then .right
    else if has b!"align=\"left\"" then .left
    else .default

/-- ast_terminal.c:138-156 `parse_span_attr`. -/
def spanAttr (attrs : Option Bytes) (name : Bytes) : Nat :=
  match attrs.bind (find name) with
  | none => 1
  | some (_, r) =>
    match r with
    | c :: s =>
      if c = c!"=" then
        let v := Plugins.atoi (match s with | q :: s' => if q = c!"\"" || q = c!"'" then s' else s | [] => [])
        if v ≤ 0 then 1 else v.toNat
      else 1
    | [] => 1

/-- Whether a cell is marked to be left out, ast_terminal.c:1484, or a table, line 1441. -/
def removed (attrs : Option Bytes) : Bool := (attrs.bind (find b!"data-remove")).isSome

mutual
/-- ast_terminal.c:1039-1067 `node_plain_text_width`: the bytes of the texts in a node. -/
def plainWidth : Node → Nat
  | .mk k _ kids =>
    match k with
    | .text s => s.length
    | .code s => s.length
    | .html s => s.length
    | _ => plainWidths kids
/-- The loop over children, ast_terminal.c:1061-1063. -/
def plainWidths : List Node → Nat
  | [] => 0
  | n :: ns => plainWidth n + plainWidths ns
end

/-- ast_terminal.c:55-63 `term_cell`: a place that belongs to a cell. -/
structure Slot where
  cell : Node
  span : Nat
  owner : Bool

/-- ast_terminal.c:65-72: the places of a table by row and column. -/
abbrev Grid := Nat → Nat → Option Slot

/-- The rows of a table, ast_terminal.c:1447. -/
def rowsOf (table : List Node) : List Node := table.filter fun n => n.kind = .row

/-- The cells of a row, ast_terminal.c:1463. -/
def cellsOf (row : Node) : List Node := row.kids.filter fun n => n.kind = .cell

/-- ast_terminal.c:1458-1471: the columns of a table. -/
def colsOf (rows : List Node) : Nat := (rows.map fun r => ((cellsOf r).map fun c => spanAttr c.attrs b!"colspan").sum).foldl max 0

/-- ast_terminal.c:1496-1503: the next column without a cell; `n` columns are left. -/
def freeCol (g : Grid) (r : Nat) : Nat → Nat → Nat
  | 0, c => c
  | n + 1, c =>
    match g r c with
    | none => c
    | some _ => freeCol g r n (c + 1)

/-- ast_terminal.c:1504-1519: a cell is put at its places. -/
def place (rows cols : Nat) (g : Grid) (r c h w : Nat) (cell : Node) : Grid := fun i j =>
  if r ≤ i ∧ i < r + h ∧ c ≤ j ∧ j < c + w ∧ i < rows ∧ j < cols then some ⟨cell, w, i = r ∧ j = c⟩ else g i j

/-- ast_terminal.c:1483-1526: the cells of a row, from column `c` on.  A column or row beyond what an `int` holds is undefined. -/
def placeRow (rows cols r : Nat) : Nat → List Node → Grid → C Grid
  | _, [], g => .val g
  | c, cell :: cs, g =>
    let w := spanAttr cell.attrs b!"colspan"
    let h := spanAttr cell.attrs b!"rowspan"
    if removed cell.attrs then
      if c + w < 2147483648 ∧ h < 2147483648 then placeRow rows cols r (c + w) cs g else .ub
    else
      let c := freeCol g r (cols - c) c
      if c ≥ cols then .val g
      else if c + w < 2147483648 ∧ r + h < 2147483648 then placeRow rows cols r (c + w) cs (place rows cols g r c h w cell)
      else .ub

/-- ast_terminal.c:1479-1528: all rows. -/
def placeRows (rows cols : Nat) : Nat → List Node → Grid → C Grid
  | _, [], g => .val g
  | r, row :: rs, g => do
    let g ← placeRow rows cols r 0 (cellsOf row) g
    placeRows rows cols (r + 1) rs g

/-- ast_terminal.c:1536-1549: what one place adds to the widths. -/
def widen (g : Grid) (cols : Nat) (ws : Nat → Nat) (p : Nat × Nat) : Nat → Nat :=
  match g p.1 p.2 with
  | some s =>
    if s.owner then
      let w := plainWidth s.cell
      if s.span = 1 then fun j => if j = p.2 then max w (ws j) else ws j
      else
        let per := (w + s.span - 1) / s.span
        fun j => if p.2 ≤ j ∧ j < p.2 + s.span ∧ j < cols then max per (ws j) else ws j
    else ws
  | none => ws

/-- The places of a table in order. -/
def places (rows cols : Nat) : List (Nat × Nat) := (List.range rows).flatMap fun r => (List.range cols).map fun c => (r, c)

/-- ast_terminal.c:1528-1549: the widths of columns. -/
def widths (g : Grid) (rows cols : Nat) : Nat → Nat := (places rows cols).foldl (widen g cols) fun _ => 0

/-- ast_terminal.c:1551-1563: the columns up to the last one used. -/
def visual (g : Grid) (rows cols : Nat) : Nat :=
  (((places rows cols).filter fun p => (g p.1 p.2).isSome).map fun p => p.2 + 1).foldl max 0

/-- ast_terminal.c:1577-1586: the alignment of a column is that of its cell in the first row. -/
def colAlign (g : Grid) (c : Nat) : Align :=
  match g 0 c with
  | some s => if s.owner then alignOf s.cell.attrs else .default
  | none => .default

/-- What is drawn in: the grid, its size, the widths, what begins and ends each border, and what begins each line. -/
structure Frame where
  grid : Grid
  vis : Nat
  width : Nat → Nat
  border : Bytes
  indent : Bytes

/-- `col_widths[c] > 0 ? col_widths[c] : 1`, e.g. ast_terminal.c:1616. -/
def Frame.inner (f : Frame) (c : Nat) : Nat := if f.width c > 0 then f.width c else 1

/-- The columns of a border from column `c` on, `n` of them, ast_terminal.c:1615-1627. -/
def Frame.bars (f : Frame) (sep right : Bytes) : Nat → Nat → Bytes
  | 0, _ => []
  | n + 1, c => (List.replicate (f.inner c + 2) b!"─").flatten ++ (if n = 0 then right else sep) ++ f.bars sep right n (c + 1)

/-- A border, ast_terminal.c:1609-1629, 1676-1699, 1845-1866 and 1872-1889. -/
def Frame.edge (f : Frame) (left sep right nl : Bytes) : Bytes :=
  f.indent ++ f.border ++ left ++ f.bars sep right f.vis 0 ++ nl ++ reset

/-- ast_terminal.c:1721-1727. -/
def Frame.bar (f : Frame) : Bytes := f.border ++ b!"│" ++ reset

/-- A place without text, ast_terminal.c:1714-1728 and 1734-1748. -/
def Frame.blank (f : Frame) (c : Nat) : Bytes := b!" " ++ List.replicate (f.inner c + 1) c!" " ++ f.bar

/-- ast_terminal.c:1752-1774: the room for a cell. -/
def Frame.room (f : Frame) (c span : Nat) : Nat :=
  ((List.range (min span (f.vis - c))).map fun k => f.inner (c + k)).sum + (if span > 1 then 3 * span - 3 else 0)

/-- ast_terminal.c:1781-1791: the alignment of a cell. -/
def Frame.align (f : Frame) (c : Nat) (cell : Node) : Align :=
  let a := if colAlign f.grid c ≠ .default then colAlign f.grid c else .left
  if alignOf cell.attrs ≠ .default then alignOf cell.attrs else a

/-- ast_terminal.c:1749-1838: a cell. -/
def Frame.cell (f : Frame) (o : Opt) (header : Bool) (c : Nat) (s : Slot) : Bytes :=
  let extra := f.room c s.span - plainWidth s.cell
  let left := match f.align c s.cell with
    | .right => extra
    | .center => extra / 2
    | _ => 0
  List.replicate (1 + left) c!" " ++ (if header then style o.wide b!"b" else []) ++ inlines o s.cell.kids ++ (if header then reset else []) ++
    List.replicate (1 + (extra - left)) c!" " ++ f.bar

/-- ast_terminal.c:1712-1842: the places of a row from column `c` on. -/
def Frame.line (f : Frame) (o : Opt) (header : Bool) (r : Nat) : Nat → Nat → Bytes
  | 0, _ => []
  | n + 1, c =>
    if c < f.vis then
      match f.grid r c with
      | none => f.blank c ++ f.line o header r n (c + 1)
      | some s => if s.owner then f.cell o header c s ++ f.line o header r n (c + s.span) else f.blank c ++ f.line o header r n (c + 1)
    else []

/-- ast_terminal.c:1644-1667: whether a cell is a text of nothing but equal signs. -/
def equals (cell : Node) : Bool :=
  match cell.kids.head?.map Node.kind with
  | some (.text s) =>
    let t := (s.dropWhile isSpace).reverse.dropWhile isSpace
    t ≠ [] && t.all (· = c!"=")
  | _ => false

/-- ast_terminal.c:1634-1672: whether a row is a rule: it has cells, and all of them are of equal signs. -/
def Frame.footer (f : Frame) (r : Nat) : Bool :=
  let owners := (List.range f.vis).filterMap fun c => (f.grid r c).bind fun s => if s.owner then some s.cell else none
  owners ≠ [] && owners.all equals

/-- ast_terminal.c:1633-1870: a row. -/
def Frame.row (f : Frame) (o : Opt) (r : Nat) : Bytes :=
  if f.footer r then f.edge b!"├" b!"┼" b!"┤" b!"\n"
  else f.indent ++ f.bar ++ f.line o (r = 0) r f.vis 0 ++ b!"\n" ++ (if r = 0 then f.edge b!"├" b!"┼" b!"┤" b!"\n" else [])

/-- ast_terminal.c:1439-1895: a table. -/
def table (o : Opt) (indent : Nat) (attrs : Option Bytes) (kids : List Node) : C Bytes :=
  if removed attrs then .val []
  else
    let rs := rowsOf kids
    let rows := rs.length
    let cols := colsOf rs
    if rows = 0 ∨ cols = 0 then .val []
    else if rows * cols < 2147483648 then do
      let g ← placeRows rows cols 0 rs fun _ _ => none
      let vis := visual g rows cols
      if vis = 0 then .val []
      else
        let f : Frame := ⟨g, vis, widths g rows cols, style o.wide (o.theme.border.getD (if o.wide then b!"38;5;250" else b!"white")), spaces indent⟩
        .val (f.edge b!"┌" b!"┬" b!"┐" b!"\n" ++ (List.range rows).flatMap (f.row o) ++ f.edge b!"└" b!"┴" b!"┘" b!"\n\n")
    else .ub

/-! ### HTML blocks -/

/-- ast_terminal.c:2233-2282: lists of definitions; `n` bounds the steps. -/
def defs (indent : Nat) : Nat → Bool → Bool → Bool → Bytes → Bytes
  | 0, _, _, _, _ => []
  | _ + 1, _, _, _, [] => []
  | n + 1, dt, dd, first, c :: s =>
    let p := c :: s
    if b!"<dt>".isPrefixOf p then (if first then [] else b!"\n") ++ defs indent n true dd false (p.drop 4)
    else if b!"</dt>".isPrefixOf p then b!"\n" ++ defs indent n false dd first (p.drop 5)
    else if b!"<dd>".isPrefixOf p then spaces (indent + 1) ++ defs indent n dt true first (p.drop 4)
    else if b!"</dd>".isPrefixOf p then b!"\n" ++ defs indent n dt false first (p.drop 5)
    else if b!"<dl>".isPrefixOf p then defs indent n dt dd first (p.drop 4)
    else if b!"</dl>".isPrefixOf p then defs indent n dt dd first (p.drop 5)
    else (if dt || dd then (if c = c!"\n" || c = c!"\r" then b!" " else if c ≠ c!"<" then [c] else []) else []) ++ defs indent n dt dd first s

/-- ast_terminal.c:2321-2332: a title without its tags. -/
def title : Bool → Bytes → Bytes
  | _, [] => []
  | inTag, c :: s =>
    if inTag then title (c ≠ c!">") s
    else if c = c!"<" then title true s
    else c :: title false s

/-- ast_terminal.c:2343-2358: the text of a callout without its tags; `n` bounds the steps. -/
def content : Nat → Bytes → Bytes
  | 0, _ => []
  | _ + 1, [] => []
  | n + 1, c :: s =>
    if c = c!"<" ∧ c!">" ∈ s then content n ((s.dropWhile (· ≠ c!">")).drop 1)
    else (if c = c!"\n" || c = c!"\r" then c!" " else c) :: content n s

/-- ast_terminal.c:2314 and 2339: what follows the next `>`.  Where there is none, the code goes on at the address behind NULL. -/
def behind (s : Bytes) : C Bytes :=
  match find b!">" s with
  | some (_, r) => .val r
  | none => .ub

/-- ast_terminal.c:2288-2305: the type of a callout. -/
def calloutType (o : Opt) (indent : Nat) (s : Bytes) : Option Bytes :=
  match find b!"callout-" s with
  | some (_, r) =>
    match r.takeWhile fun c => c ≠ c!" " && c ≠ c!"\"" && c ≠ c!">" with
    | [] => none
    | t => some (spaces indent ++ style o.wide b!"b yellow" ++ b!"[" ++ t ++ b!"]" ++ reset)
  | none => none

/-- ast_terminal.c:2307-2334: the title of a callout. -/
def calloutTitle (found : Bool) (s : Bytes) : C Bytes := do
  let start ← match find b!"<summary>" s with
    | some (_, r) => .val (some r)
    | none =>
      match find b!"callout-title" s with
      | some (_, r) => do let t ← behind r; .val (some t)
      | none => .val none
  match start with
  | none => .val []
  | some r =>
    match find b!"</" r with
    | some (c :: t, _) => .val ((if found then b!" " else []) ++ title false (c :: t) ++ b!"\n")
    | _ => .val []

/-- ast_terminal.c:2336-2361: the text of a callout. -/
def calloutContent (s : Bytes) : C Bytes :=
  match find b!"callout-content" s with
  | none => .val []
  | some (_, r) => do
    let r ← behind r
    match (match find b!"</div>" r with | some x => some x | none => find b!"</details>" r) with
    | some (c :: t, _) => .val (content (t.length + 1) (c :: t) ++ b!"\n\n")
    | _ => .val []

/-- ast_terminal.c:2364-2411: other HTML, without its tags. -/
def plainHtml : Bool → Bool → Bytes → Bytes
  | _, _, [] => []
  | inTag, skip, c :: s =>
    if c = c!"<" then plainHtml true skip s
    else if inTag then (if c = c!">" then plainHtml false true s else plainHtml true skip s)
    else if skip && (c = c!" " || c = c!"\t" || c = c!"\n") then plainHtml false true s
    else if c = c!"\n" then
      -- the second newline is skipped like any white space there
      if s = [] || s.head? = some c!"\n" then b!"\n\n" ++ plainHtml false true s else b!" " ++ plainHtml false false s
    else c :: plainHtml false false s

/-- ast_terminal.c:2413-2418: an empty line at the end of the buffer. -/
def padded (out : Bytes) : Bytes :=
  match out.reverse with
  | [] => out
  | c :: r =>
    if c ≠ c!"\n" then out ++ b!"\n\n"
    else
      match r with
      | [] => out
      | d :: _ => if d ≠ c!"\n" then out ++ b!"\n" else out

/-- ast_terminal.c:2229-2422: an HTML block, written behind `out`. -/
def htmlBlock (o : Opt) (indent : Nat) (out s : Bytes) : C Bytes :=
  if (find b!"<dl>" s).isSome || (find b!"<dt>" s).isSome || (find b!"<dd>" s).isSome then .val (out ++ defs indent s.length false false true s ++ b!"\n")
  else if (find b!"callout" s).isSome then do
    let ty := calloutType o indent s
    let t ← calloutTitle ty.isSome s
    let c ← calloutContent s
    .val (out ++ ty.getD [] ++ t ++ c)
  else .val (padded (out ++ plainHtml false true s))

/-! ### Blocks -/

/-- ast_terminal.c:2089-2113: the command that colours code: the language is the first word of the info string, cut to 63 bytes. -/
def command (wide : Bool) (info : Bytes) : Bytes :=
  let lang := (info.takeWhile fun c => !isSpace c).take 63
  let tail := if wide then b!" -f terminal256 -O style=paraiso-dark" else b!" -f terminal -O style=pastie"
  (if lang ≠ [] then b!"pygmentize -l " ++ lang else b!"pygmentize -g") ++ tail

/-- ast_terminal.c:2073-2227: a code block.  What the command prints is taken up to a zero byte. -/
def codeBlock (o : Opt) (indent : Nat) (info s : Bytes) : Bytes :=
  let fenced := spaces indent ++ style o.wide (o.theme.codeBlock.getD b!"white on_black") ++ b!"```" ++ info ++ b!"\n" ++ s ++ b!"\n```" ++ reset ++ b!"\n\n"
  match o.colour with
  | some run =>
    if s = [] then fenced
    else
      match run (command o.wide info) s with
      | some out => out.takeWhile (· ≠ 0) ++ (if out.getLast? = some c!"\n" then [] else b!"\n") ++ b!"\n"
      | none => fenced
  | none => fenced

/-- ast_terminal.c:1935-1956: the style of a heading. -/
def headStyle (t : Theme) (level : Nat) : Bytes :=
  ((if 1 ≤ level ∧ level ≤ 6 then t.head level else none)).getD
    (if level = 1 then b!"b intense_black on_white" else if level = 2 then b!"b white on_intense_black" else if level = 3 then b!"u b yellow" else b!"b white")

/-- ast_terminal.c:2026-2030: the mark of a block quote. -/
def quoteMark (o : Opt) (indent : Nat) : Bytes := spaces indent ++ style o.wide b!"yellow" ++ o.theme.quoteMarker.getD b!">" ++ b!" " ++ reset

/-- ast_terminal.c:2032-2052: the children of a paragraph in a block quote. -/
def quoted (o : Opt) (indent : Nat) : List Node → Bytes
  | [] => []
  | n :: ns =>
    (match n.kind with
      | .soft => b!"\n" ++ quoteMark o indent
      | _ => style o.wide (o.theme.quoteColour.getD (if o.wide then b!"i 38;5;250" else b!"i white")) ++ inline o n ++ reset) ++
      quoted o indent ns

/-- ast_terminal.c:1973-1990: the mark of an item. -/
def itemMark (o : Opt) (indent : Nat) (bullet : Bool) (number : Nat) : Bytes :=
  spaces indent ++ style o.wide (o.theme.listMarker.getD b!"b intense_red") ++ (if bullet then b!"* " else Man.decimal number ++ b!"." ++ b!" ") ++ reset

mutual
/-- ast_terminal.c:1424-2437 `serialize_block`, written behind `out`; `inList` says whether the parent is a list or an item. -/
def block (o : Opt) (indent : Nat) (inList : Bool) (out : Bytes) : Node → C Bytes
  | .mk k attrs kids =>
    match k with
    | .table => do
      let t ← table o indent attrs kids
      .val (out ++ t)
    | .para => .val (out ++ spaces indent ++ inlines o kids ++ (if inList then b!"\n" else b!"\n\n"))
    | .heading level => .val (out ++ spaces indent ++ style o.wide (headStyle o.theme level) ++ inlines o kids ++ reset ++ b!"\n\n")
    | .list bullet start => do
      let out ← items o indent bullet (if start = 0 then 1 else start) out kids
      .val (out ++ b!"\n")
    | .item => blocks o indent true out kids
    | .quote => quotes o indent out kids
    | .codeBlock info s => .val (out ++ codeBlock o indent info s)
    | .htmlBlock s => htmlBlock o indent out s
    | .rule => .val (out ++ spaces indent ++ b!"----------------------------------------\n\n")
    -- the document and all others
    | _ => blocks o indent false out kids
/-- The loops over children, e.g. ast_terminal.c:1902-1904. -/
def blocks (o : Opt) (indent : Nat) (inList : Bool) (out : Bytes) : List Node → C Bytes
  | [] => .val out
  | n :: ns => do
    let out ← block o indent inList out n
    blocks o indent inList out ns
/-- ast_terminal.c:1972-1996: the items of a list. -/
def items (o : Opt) (indent : Nat) (bullet : Bool) (number : Nat) (out : Bytes) : List Node → C Bytes
  | [] => .val out
  | n :: ns => do
    let out ← block o (indent + 1) true (out ++ itemMark o indent bullet number) n
    items o indent bullet (number + 1) out ns
/-- ast_terminal.c:2021-2068: the children of a block quote. -/
def quotes (o : Opt) (indent : Nat) (out : Bytes) : List Node → C Bytes
  | [] => .val out
  | n :: ns => do
    let out ← match n with
      | .mk .para _ kids => .val (out ++ quoteMark o indent ++ quoted o indent kids ++ (match ns with | [] => b!"\n\n" | _ => b!"\n"))
      | _ => block o indent false (out ++ quoteMark o indent) n
    quotes o indent out ns
end

/-- ast_terminal.c:2443-2479 `apex_cmark_to_terminal`; `none` is the NULL for a node that is no document. -/
def render (o : Opt) (doc : Node) : C (Option Bytes) :=
  match doc.kind with
  | .document => do
    let out ← block o 0 false [] doc
    .val (some out)
  | _ => .val none

end Verif.Term
