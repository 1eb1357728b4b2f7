/- src/extensions/advanced_tables.c:31-404, 406-813: the cells of a table that join the one on their left (`<<`) or the one above (`^^`), the rows of the foot, and the colons that align
a single cell (`process_table_spans`).  The tree built by cmark-gfm is an input: a table has only rows, a row has only cells, and the mark of a cell (`user_data`) may already hold the
text of the cell.  Allocations succeed; no text has a zero byte. -/
import Verif.Model.ElemAttrs
import Verif.Model.ImgCaptions
import Verif.Model.Plugins
import Verif.Model.Man

namespace Verif.TableSpans
open Embed (find)
open ElemAttrs (has)
open ImgCaptions (trim)

/-! ### The tree -/

/-- What is in a cell: literal nodes, a paragraph with its source text, and other nodes with children. -/
inductive Inl
  | text (s : Bytes) | code (s : Bytes) | html (s : Bytes) | para (src : Bytes) (kids : List Inl) | other (kids : List Inl)

/-- A cell: its mark (`user_data`), its source text (`cmark_node_get_string_content`) and its children. -/
structure Cell where
  data : Option Bytes
  src : Bytes
  kids : List Inl

/-- A row: its mark and its cells. -/
structure Row where
  data : Option Bytes
  cells : List Cell

mutual
/-- advanced_tables.c:35-73 `get_node_full_text`. -/
def fullText : Inl → Bytes
  | .text s | .code s | .html s => s
  | .para _ ks | .other ks => fullTexts ks
/-- advanced_tables.c:51-71: the texts of the children. -/
def fullTexts : List Inl → Bytes
  | [] => []
  | k :: ks => fullText k ++ fullTexts ks
end

mutual
/-- advanced_tables.c:76-86 `count_literal_nodes`. -/
def countLits : Inl → Nat
  | .text s | .code s | .html s => if s = [] then 0 else 1
  | .para _ ks | .other ks => countLitss ks
/-- advanced_tables.c:83-84: those of the children. -/
def countLitss : List Inl → Nat
  | [] => 0
  | k :: ks => countLits k + countLitss ks
end

/-! ### Marks -/

/-- `snprintf` into an array of `n` bytes. -/
def cut (n : Nat) (s : Bytes) : Bytes := s.take (n - 1)

/-- The mark of a cell that is not shown. -/
def gone : Bytes := b!" data-remove=\"true\""

/-- The mark of a row of the foot. -/
def foot : Bytes := b!" data-tfoot=\"true\""

/-- `attrs && strstr(attrs, "data-remove")`. -/
def removed : Option Bytes → Bool
  | some s => has b!"data-remove" s
  | none => false

/-- advanced_tables.c:538-543 and 106-112: the mark, when it does not look like attributes. -/
def rawOf : Option Bytes → Bytes
  | some s => if has b!"colspan" s || has b!"rowspan" s || has b!"data-" s then [] else s
  | none => []

/-- advanced_tables.c:103-119: the text looked at for `<<`. -/
def raw (ov : Bytes) (c : Cell) : Bytes :=
  if ov ≠ [] then ov else if rawOf c.data ≠ [] then rawOf c.data else if c.src ≠ [] then c.src else
  match c.kids with
  | [.para t _] => t
  | _ => []

/-- advanced_tables.c:96-180 `is_colspan_cell`, and 573-587, the test that follows it. -/
def isLeft (ov : Bytes) (c : Cell) : Bool :=
  (raw ov c ≠ [] || countLitss c.kids ≤ 1) && trim (if raw ov c ≠ [] then raw ov c else fullTexts c.kids) = b!"<<" &&
    !(c.src ≠ [] && (trim c.src).length > 2) && !((trim (fullTexts c.kids)).length > 2)

/-- advanced_tables.c:186-205 `is_rowspan_cell`. -/
def isUp (c : Cell) : Bool :=
  match c.kids with
  | .text s :: _ => trim s = b!"^^"
  | _ => false

/-- advanced_tables.c:336-347 and 459-466: a cell of nothing but `===`. -/
def isRule (c : Cell) : Bool :=
  match c.kids with
  | .text s :: _ =>
    let t := s.dropWhile isSpace
    b!"===".isPrefixOf t && ((t.drop 3).dropWhile (· = c!"=")).all isSpace
  | _ => false

/-- advanced_tables.c:485-499: a cell that is empty or a dash. -/
def isDash (c : Cell) : Bool :=
  match c.kids with
  | [] => true
  | .text s :: _ => s = b!"—"
  | _ => false

/-! ### Colons -/

/-- advanced_tables.c:237-320: the alignment, and the text without the colons. -/
def alignText (s : Bytes) : Option (Bytes × Bytes) :=
  let m := trim s
  let a := s.takeWhile isSpace
  let z := (s.reverse.takeWhile isSpace).reverse
  if m = [] then none
  else if m.head? = some c!":" then
    if m.getLast? = some c!":" then some (b!"center", a ++ (m.drop 1).dropLast ++ z) else some (b!"left", a ++ m.drop 1 ++ z)
  else if m.getLast? = some c!":" then some (b!"right", a ++ m.dropLast ++ z)
  else none

/-- advanced_tables.c:226-232: the first text among the children. -/
def direct : List Inl → Option (List Inl × Bytes × List Inl)
  | [] => none
  | .text s :: r => some ([], s, r)
  | k :: r => (direct r).map fun p => (k :: p.1, p.2)

/-- advanced_tables.c:219-234: the first text among the children and theirs, and the children with another text at that place. -/
def firstText : List Inl → Option (Bytes × (Bytes → List Inl))
  | [] => none
  | .text s :: r => some (s, fun t => .text t :: r)
  | .para p ks :: r =>
    match direct ks with
    | some (a, s, b) => some (s, fun t => .para p (a ++ .text t :: b) :: r)
    | none => (firstText r).map fun q => (q.1, fun t => .para p ks :: q.2 t)
  | .other ks :: r =>
    match direct ks with
    | some (a, s, b) => some (s, fun t => .other (a ++ .text t :: b) :: r)
    | none => (firstText r).map fun q => (q.1, fun t => .other ks :: q.2 t)
  | k :: r => (firstText r).map fun q => (q.1, fun t => k :: q.2 t)

/-- advanced_tables.c:552-566: the mark with the alignment. -/
def alignMark (d : Option Bytes) (a : Bytes) : Bytes :=
  cut 256 (d.getD [] ++ b!" style=\"text-align: " ++ a ++ b!"\"")

/-- advanced_tables.c:212-321 `process_cell_alignment` and 548-569: the cell after its colons are taken off, or nothing when it has none. -/
def aligned (c : Cell) : Option Cell :=
  match firstText c.kids with
  | some (s, f) =>
    match alignText s with
    | some (a, t) => some { c with data := some (alignMark c.data a), kids := f t }
    | none => none
  | none => none

/-! ### Spans -/

/-- `%d` of `printf`. -/
def int (n : Int) : Bytes := if n < 0 then c!"-" :: Man.decimal n.natAbs else Man.decimal n.natAbs

/-- `sscanf(strstr(s, w), w "\"%d\"", &n)` with `n` one before.  Numbers do not overflow. -/
def number (w : Bytes) (d : Option Bytes) : Int :=
  match d with
  | some s =>
    match find w s with
    | some (_, c :: r) =>
      if c = c!"\"" then
        let u := r.dropWhile isSpace
        let v := match u with
          | c :: t => if c = c!"-" ∨ c = c!"+" then t else u
          | [] => u
        match v with
        | c :: _ => if isDigit c then Plugins.atoi r else 1
        | [] => 1
      else 1
    | _ => 1
  | none => 1

/-- advanced_tables.c:669-693: the alignment kept when a cell is joined. -/
def style (d : Option Bytes) : Bytes :=
  match d with
  | some s =>
    match find b!"style=" s with
    | some (_, r) =>
      match find b!"\"" r with
      | some (a, r1) =>
        match find b!"\"" r1 with
        | some (b, r2) =>
          let e := b!"style=" ++ a ++ c!"\"" :: b ++ c!"\"" :: r2.takeWhile fun c => c ≠ c!" " ∧ c ≠ c!"\t"
          if e.length < 256 then e else []
        | none => []
      | none => []
    | none => []
  | none => []

/-- advanced_tables.c:661-704: the mark of a cell that the one on its right joins. -/
def addLeft (d : Option Bytes) : Bytes :=
  cut 512 ((if style d ≠ [] then b!" " ++ style d else []) ++ b!" colspan=\"" ++ int (number b!"colspan=" d + 1) ++ b!"\"")

/-- advanced_tables.c:743-763: the mark of a cell that the one below joins. -/
def addUp (d : Option Bytes) : Bytes :=
  cut 256 ((match d with
    | some s => if c!"=" ∈ s ∧ has b!"rowspan=" s = false then s else []
    | none => []) ++ b!" rowspan=\"" ++ int (number b!"rowspan=" d + 1) ++ b!"\"")

/-- advanced_tables.c:606-626, 654-708: the cells on the left, the nearest first, when the next one joins them: the nearest one that is shown. -/
def mergeLeft : List Cell → Option (List Cell)
  | [] => none
  | c :: r => if removed c.data then (mergeLeft r).map (c :: ·) else some ({ c with data := some (addLeft c.data) } :: r)

/-- The cell of a row and a column. -/
def cellAt (t : List Row) (r c : Nat) : Option Cell := t[r]?.bind fun row => row.cells[c]?

/-- The mark of one cell changed. -/
def modData (f : Option Bytes → Bytes) (t : List Row) (r c : Nat) : List Row :=
  t.modify r fun row => { row with cells := row.cells.modify c fun cell => { cell with data := some (f cell.data) } }

/-- The state in a row: the rows above, the row of the last cell seen in each of fifty columns (`active_rowspan`), and the cells on the left, the nearest first. -/
structure St where
  above : List Row
  active : List (Option Nat)
  left : List Cell

/-- advanced_tables.c:715-738: the row of the cell that `^^` joins.  The row before is looked at when the column has had no cell. -/
def target (prev : Option Nat) (st : St) : Option Nat :=
  match st.active[st.left.length]? with
  | some (some r) => some r
  | _ =>
    match prev with
    | some p =>
      match cellAt st.above p st.left.length with
      | some c => if removed c.data then none else some p
      | none => none
    | none => none

/-- advanced_tables.c:775-785: a cell that was not joined.  `active_rowspan` has fifty entries, and the column is not checked. -/
def keep (st : St) (c : Cell) : C St :=
  if !isUp c && !removed c.data then
    if st.left.length < 50 then
      .val { st with active := st.active.set st.left.length (some st.above.length), left := c :: st.left }
    else .ub
  else .val { st with left := c :: st.left }

/-- advanced_tables.c:589-785: a cell, with the text found in its mark before. -/
def spanCell (prev : Option Nat) (st : St) (ov : Bytes) (c : Cell) : C St :=
  if isLeft ov c then
    match st.left with
    | [] => .val { st with left := [if c.kids.isEmpty then { c with data := some gone } else c] }
    | _ :: _ =>
      match mergeLeft st.left with
      | some l => .val { st with left := { c with data := some gone } :: l }
      | none => keep st c
  else if isUp c && st.left.length < 50 then
    match target prev st with
    | some r => .val ⟨modData addUp st.above r st.left.length, st.active.set st.left.length (some r), { c with data := some gone } :: st.left⟩
    | none => .val { st with left := { c with data := some gone } :: st.left }
  else keep st c

/-- advanced_tables.c:533-570 and 571: a cell.  When its mark held its text and the colons were taken off, the mark has been freed before it is read as that text. -/
def stepCell (al : Bool) (prev : Option Nat) (st : St) (c : Cell) : C St :=
  if al && !removed c.data then
    match aligned c with
    | some c' => if rawOf c.data ≠ [] then .ub else spanCell prev st [] c'
    | none => spanCell prev st (rawOf c.data) c
  else spanCell prev st (rawOf c.data) c

/-- advanced_tables.c:531-792: the cells of a row. -/
def stepCells (al : Bool) (prev : Option Nat) : St → List Cell → C St
  | st, [] => .val st
  | st, c :: r => stepCell al prev st c >>= fun st' => stepCells al prev st' r

/-- advanced_tables.c:326-356 `is_tfoot_row`. -/
def isFoot (row : Row) : Bool := row.cells.any isRule

/-- advanced_tables.c:434-476: the marks of a row of the foot and of its `===`. -/
def footRow (inFoot : Bool) (row : Row) : Row :=
  { data := if inFoot || isFoot row then some foot else row.data,
    cells := row.cells.map fun c => if isRule c then { c with data := some gone } else c }

/-- The state between rows: the rows seen, the last cells of the columns, the last row that was not dropped, and whether the foot has begun. -/
structure Rows where
  above : List Row
  active : List (Option Nat)
  prev : Option Nat
  inFoot : Bool

/-- advanced_tables.c:426-795: a row.  One of nothing but dashes and empty cells is dropped. -/
def stepRow (al : Bool) (s : Rows) (row : Row) : C Rows :=
  let row' := footRow s.inFoot row
  let inFoot := s.inFoot || isFoot row
  if row.cells ≠ [] ∧ row.cells.all isDash then
    .val ⟨s.above ++ [{ row' with cells := row'.cells.map fun c => { c with data := some gone } }], s.active, s.prev, inFoot⟩
  else
    stepCells al s.prev ⟨s.above, s.active, []⟩ row'.cells >>= fun st =>
      .val ⟨st.above ++ [{ row' with cells := st.left.reverse }], st.active, some st.above.length, inFoot⟩

/-- advanced_tables.c:426-797: the rows. -/
def stepRows (al : Bool) : Rows → List Row → C Rows
  | s, [] => .val s
  | s, row :: r => stepRow al s row >>= fun s' => stepRows al s' r

/-- advanced_tables.c:406-798 `process_table_spans`. -/
def spans (al : Bool) (t : List Row) : C (List Row) :=
  stepRows al ⟨[], List.replicate 50 none, none, false⟩ t >>= fun s => .val s.above

end Verif.TableSpans
