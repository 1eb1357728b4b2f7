/-
CSV and TSV files as Markdown tables: `apex_csv_to_table` of src/extensions/includes.c.
Simplified: `malloc`, `calloc` and `realloc` succeed; counts fit in `int`.
-/
import Verif.Model.Text
import Verif.Model.Transforms

namespace Verif.Csv

/-- includes.c:315 -/
inductive Align where
  | left | right | center | auto
deriving DecidableEq, Repr

/-- One cell of the alignment row (includes.c:331-361): trimmed, at most 15 bytes, lower case. -/
def alignment (cell : Bytes) : Option Align :=
  let t := Transforms.trimTok cell
  if t.length = 0 then none
  else if t.length ≥ 16 then none
  else
    let buf := t.map toLower
    if buf = b!"left" then some .left
    else if buf = b!"right" then some .right
    else if buf = b!"center" then some .center
    else if buf = b!"auto" then some .auto
    else none

/-- The loop over the cells of the alignment row (includes.c:331-361). -/
def alignments : List Bytes → Option (List Align)
  | [] => some []
  | c :: cs => match alignment c with
    | none => none
    | some a => match alignments cs with
      | none => none
      | some as => some (a :: as)

/-- includes.c:313-371: the alignments, if the second row has as many cells as the first, and all are keywords. -/
def alignRow (cols : Nat) (rows : List (List Bytes)) : Option (List Align) :=
  match rows with
  | _ :: r :: _ => if r.length = cols then alignments r else none
  | _ => none

/-- includes.c:408-417 -/
def spec : Align → Bytes
  | .left => b!" :--- "
  | .right => b!" ---: "
  | .center => b!" :---: "
  | .auto => b!" --- "

/-- Stores and copies one after the other, into a buffer of `cap` bytes, without a check. -/
def writes (cap : Nat) (out : Bytes) : List Bytes → C Bytes
  | [] => .val out
  | s :: ss => puts cap out s >>= fun out => writes cap out ss

/-- What is stored for the cells `c`, `c + 1`, … of a row, `n` in all (includes.c:390-400, 429-439). -/
def cellWrites (row : List Bytes) : Nat → Nat → List Bytes
  | 0, _ => []
  | n + 1, c => b!" " :: (match row[c]? with | some v => [v] | none => []) ++ b!" " :: b!"|" :: cellWrites row n (c + 1)

/-- One row (includes.c:387-402, 426-441). -/
def rowWrites (cols : Nat) (row : List Bytes) : List Bytes := b!"|" :: cellWrites row cols 0 ++ [b!"\n"]

/-- The separator row (includes.c:404-422). -/
def sepWrites (cols : Nat) (align : Option (List Align)) : List Bytes :=
  b!"|" :: (List.range cols).flatMap (fun c => [spec (match align with | some as => as.getD c .auto | none => .auto), b!"|"])
    ++ [b!"\n"]

/-- `apex_csv_to_table` (includes.c:174-455); `none` is `NULL`. -/
def toTable (csv : Bytes) (isTsv : Bool) : C (Option Bytes) :=
  let delim := if isTsv then c!"\t" else c!","
  if csv.length = 0 then .val none
  else
    let rows := (Text.splitLines csv).map (Text.split delim)
    match rows with
    | [] => .val none
    | header :: _ =>
      let cols := header.length
      if cols = 0 then .val none
      else
        let align := alignRow cols rows
        let data := rows.drop (if align.isSome then 2 else 1)
        let cap := csv.length * 4 + 64
        writes cap [] (rowWrites cols header ++ sepWrites cols align ++ data.flatMap (rowWrites cols)) >>= fun out =>
        finish cap out >>= fun out => .val (some out)

end Verif.Csv
