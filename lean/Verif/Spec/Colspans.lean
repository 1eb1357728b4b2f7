/- Texts with rows of tables. -/
import Verif.Model.Colspans

namespace Verif.Colspans.Spec

/-- A row: pipes, with the text in front of them and their number, and the text behind them. -/
structure Row where
  cells : List (Bytes × Nat)
  rest : Bytes

/-- There are no pipes in the texts, at least one in every place for them, and two such places are apart. -/
def Row.Ok (r : Row) : Prop :=
  (∀ c ∈ r.cells, c!"|" ∉ c.1 ∧ 1 ≤ c.2) ∧ (∀ c ∈ r.cells.tail, c.1 ≠ []) ∧ c!"|" ∉ r.rest

/-- The row as bytes. -/
def Row.line (r : Row) : Bytes := r.cells.flatMap (fun c => c.1 ++ List.replicate c.2 c!"|") ++ r.rest

/-- The row with a mark for every pipe that is directly behind another. -/
def Row.out (r : Row) : Bytes :=
  r.cells.flatMap (fun c => c.1 ++ c!"|" :: (List.replicate (c.2 - 1) b!" << |").flatten) ++ r.rest

/-- An end of a line. -/
def Eol (e : Bytes) : Prop := e = [10] ∨ e = [13] ∨ e = [13, 10]

/-- A text: its lines, as rows, with their ends. -/
def source (ls : List (Row × Bytes)) : Bytes := ls.flatMap fun l => l.1.line ++ l.2

/-- A carriage return and the line feed behind it are one end. -/
def Apart : List (Row × Bytes) → Prop
  | [] => True
  | [_] => True
  | a :: b :: r => (a.2 = [13] → (b.1.line ++ b.2).head? ≠ some 10) ∧ Apart (b :: r)

/-- The lines are lines. -/
def Ok (ls : List (Row × Bytes)) : Prop :=
  (∀ l ∈ ls, l.1.Ok ∧ 10 ∉ l.1.line ∧ 13 ∉ l.1.line ∧ Eol l.2) ∧ Apart ls

/-- A fence: spaces and tabs, and three of the same sign. -/
def Fence (s : Bytes) : Prop :=
  ∃ a r, (∀ c ∈ a, c = 32 ∨ c = 9) ∧ (s = a ++ b!"```" ++ r ∨ s = a ++ b!"~~~" ++ r)

open Classical in
/-- The new text: the lines behind a first, a third, … fence stay. -/
noncomputable def result (code : Bool) : List (Row × Bytes) → Bytes
  | [] => []
  | l :: ls =>
    let code := if Fence l.1.line then !code else code
    (if code then l.1.line else l.1.out) ++ l.2 ++ result code ls

end Verif.Colspans.Spec
