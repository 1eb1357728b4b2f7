/- What the author of a table relies on when cells are joined, rows are put into the foot, and single cells are aligned. -/
import Verif.Model.TableSpans

namespace Verif.TableSpans.Spec

/-- A text of blanks. -/
def Blank (s : Bytes) : Prop := ∀ c ∈ s, isSpace c = true

/-- A word with nothing but blanks around it. -/
def Padded (w s : Bytes) : Prop := ∃ a b, s = a ++ w ++ b ∧ Blank a ∧ Blank b

/-- Three or more equal signs. -/
def Rule (s : Bytes) : Prop := ∃ n, 3 ≤ n ∧ Padded (List.replicate n c!"=") s

mutual
/-- The words a node shows. -/
def word : Inl → Bytes
  | .text s => s
  | .code s => s
  | .html s => s
  | .para _ ks => words ks
  | .other ks => words ks
/-- The words a list of nodes shows. -/
def words : List Inl → Bytes
  | [] => []
  | k :: ks => word k ++ words ks
end

/-- The children of a node. -/
def children : Inl → List Inl
  | .para _ ks | .other ks => ks
  | _ => []

/-- A text begins or ends with a colon, blanks aside. -/
def Colon (s : Bytes) : Prop := (∃ a m, s = a ++ c!":" :: m ∧ Blank a) ∨ ∃ m b, s = m ++ c!":" :: b ∧ Blank b

/-- No text at the top of a cell begins or ends with a colon. -/
def Colonless (ks : List Inl) : Prop := ∀ s, (.text s ∈ ks ∨ ∃ k ∈ ks, .text s ∈ children k) → ¬ Colon s

/-- The cell holds nothing but a word, and its mark is absent or the text of the cell. -/
def Holds (w : Bytes) (x : Cell) : Prop := ∃ s, x.kids = [.text s] ∧ Padded w s ∧ x.src = [] ∧ (x.data = none ∨ x.data = some s)

/-- `<<`: joined to the cell on the left. -/
def Left : Cell → Prop := Holds b!"<<"

/-- `^^`: joined to the cell above. -/
def Up : Cell → Prop := Holds b!"^^"

/-- A text without an equal sign and without the words that marks are recognised by. -/
def Clean (s : Bytes) : Prop := c!"=" ∉ s ∧ ¬ b!"colspan" <:+: s ∧ ¬ b!"rowspan" <:+: s ∧ ¬ b!"data-" <:+: s

/-- A cell of its own: its mark is absent or its text. -/
structure Text (al : Bool) (x : Cell) : Prop where
  src : x.src = []
  inl : ∀ p ks, x.kids ≠ [.para p ks]
  data : x.data = none ∨ ∃ s, x.data = some s ∧ Clean s ∧ ¬ Padded b!"<<" s
  left : ¬ Padded b!"<<" (words x.kids)
  up : ∀ s ks, x.kids = .text s :: ks → ¬ Padded b!"^^" s ∧ ¬ Rule s
  colons : al = true → Colonless x.kids

/-- An empty cell or a dash. -/
def Dash (x : Cell) : Prop := x.kids = [] ∨ ∃ ks, x.kids = .text b!"—" :: ks

/-- The cell of a row and a column is such a cell. -/
def At (t : List Row) (p : Cell → Prop) (r c : Nat) : Prop := ∃ x, cellAt t r c = some x ∧ p x

/-- A table in which every `<<` is behind a cell or another `<<`, and every `^^` under a cell or another `^^`; of at most fifty columns, and no row of nothing but dashes. -/
structure Sound (al : Bool) (t : List Row) : Prop where
  wide : ∀ row ∈ t, row.cells.length ≤ 50
  tall : t.length < 2 ^ 31
  reads : ∀ r c x, cellAt t r c = some x → Text al x ∨ Left x ∨ Up x
  shown : ∀ row ∈ t, row.cells ≠ [] → ∃ x ∈ row.cells, ¬ Dash x
  left : ∀ r c, At t Left r c → ∃ c' < c, At t (Text al) r c' ∧ ∀ j, c' < j → j < c → At t Left r j
  up : ∀ r c, At t Up r c → ∃ r' < r, At t (Text al) r' c ∧ ∀ i, r' < i → i < r → At t Up i c

/-- The number of `<<` right behind a cell. -/
def Lefts (t : List Row) (r c n : Nat) : Prop := (∀ j, c < j → j ≤ c + n → At t Left r j) ∧ ¬ At t Left r (c + n + 1)

/-- The number of `^^` right under a cell. -/
def Ups (t : List Row) (r c m : Nat) : Prop := (∀ i, r < i → i ≤ r + m → At t Up i c) ∧ ¬ At t Up (r + m + 1) c

/-- An attribute with a number. -/
def attr (w : Bytes) (n : Nat) : Bytes := b!" " ++ w ++ b!"=\"" ++ Man.decimal n ++ b!"\""

/-- The mark of a cell with `n` cells joined on the right and `m` below.  The width is lost when there are two or more below. -/
def mark (d : Option Bytes) : Nat → Nat → Option Bytes
  | 0, 0 => d
  | n + 1, 0 => some (attr b!"colspan" (n + 2))
  | n + 1, 1 => some (attr b!"colspan" (n + 2) ++ attr b!"rowspan" 2)
  | _, m + 1 => some (attr b!"rowspan" (m + 2))

/-- A cell that is shown. -/
def Kept (x : Cell) : Prop := ∀ s, x.data = some s → ¬ b!"data-remove" <:+: s

/-- The number of columns or rows a cell covers, as its mark tells. -/
def Covers (w : Bytes) (x : Cell) (n : Nat) : Prop :=
  (∃ s, x.data = some s ∧ attr w n <:+: s) ∨ n = 1 ∧ ∀ s, x.data = some s → ¬ w <:+: s

/-- The cells shown cover every place of the table once, and nothing else. -/
def Tiles (t : List Row) : Prop :=
  ∃ w h : Nat → Nat → Nat,
    (∀ r c x, cellAt t r c = some x → Kept x → Covers b!"colspan" x (w r c) ∧ Covers b!"rowspan" x (h r c)) ∧
    (∀ r c x, cellAt t r c = some x → Kept x → ∀ i j, r ≤ i → i < r + h r c → c ≤ j → j < c + w r c → (cellAt t i j).isSome) ∧
    ∀ i j, (cellAt t i j).isSome → ∃ r c, (At t Kept r c ∧ r ≤ i ∧ i < r + h r c ∧ c ≤ j ∧ j < c + w r c) ∧
      ∀ r' c', At t Kept r' c' → r' ≤ i → i < r' + h r' c' → c' ≤ j → j < c' + w r' c' → r' = r ∧ c' = c

/-- No cell joins cells on both sides. -/
def NoBlock (al : Bool) (t : List Row) : Prop := ∀ r c, At t (Text al) r c → ¬ (At t Left r (c + 1) ∧ At t Up (r + 1) c)

/-- The row has a cell of equal signs. -/
def RuleRow (row : Row) : Prop := ∃ x ∈ row.cells, ∃ s ks, x.kids = .text s :: ks ∧ Rule s

/-- A text with its colons taken off, and the alignment they tell. -/
def Aligned (s t a : Bytes) : Prop :=
  ∃ p m q, Blank p ∧ Blank q ∧ t = p ++ m ++ q ∧
    ((a = b!"center" ∧ (s = p ++ c!":" :: m ++ c!":" :: q ∨ m = [] ∧ s = p ++ c!":" :: q)) ∨
     (a = b!"left" ∧ s = p ++ c!":" :: m ++ q ∧ ∃ y c, m = y ++ [c] ∧ isSpace c = false ∧ c ≠ c!":") ∨
     (a = b!"right" ∧ s = p ++ m ++ c!":" :: q ∧ ∃ c y, m = c :: y ∧ isSpace c = false ∧ c ≠ c!":"))

/-- A cell of one text, without a mark, that joins no other cell. -/
structure Own (x : Cell) (s : Bytes) : Prop where
  kids : x.kids = [.text s]
  src : x.src = []
  data : x.data = none
  left : ¬ Padded b!"<<" s
  up : ¬ Padded b!"^^" s ∧ ∀ u a, Aligned s u a → ¬ Padded b!"^^" u
  rule : ¬ Rule s

end Verif.TableSpans.Spec
