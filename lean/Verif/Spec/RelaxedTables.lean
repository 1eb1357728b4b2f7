/-
What tables without a separator row, and tables without a header, become before the Markdown parser sees them,
stated on the lines of the document.
-/
import Verif.Basic

namespace Verif.RelaxedTables.Spec

/-- The document with these lines. -/
def page (ls : List Bytes) : Bytes := (ls.map (· ++ [10])).flatten

/-- The text given to apex consists of these lines; the newline of the last one may be missing. -/
def Source (ls : List Bytes) (text : Bytes) : Prop :=
  text = page ls ∨
  text ++ [10] = page ls ∧ ∃ c, text.getLast? = some c ∧ c ≠ 10 ∧ c ≠ 13

/-- The lines are lines: no newline in them. -/
def Lines (ls : List Bytes) : Prop := ∀ l ∈ ls, (10 : Byte) ∉ l

/-- Nothing but white space. -/
def Blank (l : Bytes) : Prop := ∀ c ∈ l, isSpace c = true

/-- A separator row: dashes and bars, and otherwise only blanks, tabs, colons and plus signs. -/
def Separator (l : Bytes) : Prop := (∀ c ∈ l, c ∈ b!"-| \t:+") ∧ c!"-" ∈ l ∧ c!"|" ∈ l

/-- A rule: three dashes or more, and otherwise only blanks. -/
def Rule (l : Bytes) : Prop := (∀ c ∈ l, c ∈ b!"- \t\n\r") ∧ 3 ≤ l.count c!"-"

/-- A separator row or a rule. -/
def Bar (l : Bytes) : Prop := Separator l ∨ Rule l

/-- There is a bar before anything but blanks and tabs. -/
def Leading (l : Bytes) : Prop := ∃ w t, l = w ++ c!"|" :: t ∧ ∀ c ∈ w, c = 32 ∨ c = 9

/-- The line has `n` columns: one less than bars if it begins with a bar, one more than bars if it does not. -/
def Columns (l : Bytes) (n : Nat) : Prop :=
  (Leading l ∧ l.count c!"|" = n + 1) ∨ (¬ Leading l ∧ l.count c!"|" ≠ 0 ∧ n = l.count c!"|" + 1)

/-- A row of a table with `n` columns. -/
def Row (l : Bytes) (n : Nat) : Prop := ¬ Bar l ∧ Columns l n ∧ n ≠ 0

/-- The separator that fits a row. -/
def Fits (r sep : Bytes) : Prop :=
  ∃ n, Columns r n ∧
    (Leading r ∧ sep = b!"|" ++ (List.replicate n b!" --- |").flatten ∨
     ¬ Leading r ∧ sep = (List.replicate n b!"---|").flatten)

/-- Lines in a row with the same number of columns. -/
def Run (n : Nat) (run : List Bytes) : Prop := run ≠ [] ∧ ∀ r ∈ run, Row r n

/-- The next line is a separator row or a rule, or a row with another number of columns: the lines before it are left
as they are. -/
def Closed (n : Nat) (rest : List Bytes) : Prop :=
  ∃ l t, rest = l :: t ∧ (Bar l ∨ ∃ m, Row l m ∧ m ≠ n)

/-- The next line is nothing of a table. -/
def Other (rest : List Bytes) : Prop := ∃ l t, rest = l :: t ∧ ¬ Blank l ∧ ¬ Bar l ∧ ∀ n, ¬ Row l n

/-- The next line is blank. -/
def BlankNext (rest : List Bytes) : Prop := ∃ l t, rest = l :: t ∧ Blank l

/-- What should happen: after the first of two or more rows with the same number of columns comes a separator, unless
the rows are followed by a separator or by rows with other columns. `k` counts the separators. -/
inductive Tables : Nat → List Bytes → List Bytes → Prop
  | nil : Tables 0 [] []
  | line {k l t t'} : (∀ n, ¬ Row l n) → Tables k t t' → Tables k (l :: t) (l :: t')
  | single {k r n t t'} : Row r n → (t = [] ∨ BlankNext t ∨ Other t) → Tables k t t' → Tables k (r :: t) (r :: t')
  | closed {k n run t t'} : Run n run → Closed n t → Tables k t t' → Tables k (run ++ t) (run ++ t')
  | table {k n r run sep t t'} : Row r n → Run n run → Fits r sep → (t = [] ∨ BlankNext t ∨ Other t) →
      Tables k t t' → Tables (k + 1) (r :: run ++ t) (r :: sep :: run ++ t')

/-- What does happen. Two differences: a single row in front of a blank line is moved behind it (`moved`), and the
blanks in the line behind a table go (`tableBlank`). -/
inductive Page : Nat → List Bytes → List Bytes → Prop
  | nil : Page 0 [] []
  | line {k l t t'} : (∀ n, ¬ Row l n) → Page k t t' → Page k (l :: t) (l :: t')
  | single {k r n t t'} : Row r n → (t = [] ∨ Other t) → Page k t t' → Page k (r :: t) (r :: t')
  | moved {k r n b t t'} : Row r n → Blank b → Page k (r :: t) t' → Page k (r :: b :: t) (b :: t')
  | closed {k n run t t'} : Run n run → Closed n t → Page k t t' → Page k (run ++ t) (run ++ t')
  | table {k n r run sep t t'} : Row r n → Run n run → Fits r sep → (t = [] ∨ Other t) →
      Page k t t' → Page (k + 1) (r :: run ++ t) (r :: sep :: run ++ t')
  | tableBlank {k n r run sep b t t'} : Row r n → Run n run → Fits r sep → Blank b →
      Page k t t' → Page (k + 1) (r :: run ++ b :: t) (r :: sep :: run ++ [] :: t')

/-- In front of every blank line that follows a row there is a second row with the same number of columns, and that
line is empty. -/
def Tidy (ls : List Bytes) : Prop :=
  ∀ a r b t n, ls = a ++ r :: b :: t → Row r n → Blank b → b = [] ∧ ∃ a' q, a = a' ++ [q] ∧ Row q n

/-- No empty line of the new document begins at the byte with number `n`. -/
def Room (n : Nat) (out : List Bytes) : Prop := ∀ a b, out = a ++ [] :: b → (page a).length ≠ n

/-! ### Headers -/

/-- A line with a bar and with something that is neither bar nor blank nor dash. -/
def TableRow (l : Bytes) : Prop := c!"|" ∈ l ∧ ∃ c ∈ l, c ≠ c!"|" ∧ c ≠ c!"-" ∧ isSpace c = false

/-- A separator row with columns that is the beginning of a table: no row before it, a row behind it, possibly after
blank lines. -/
def Headless (prev : Option Bytes) (l : Bytes) (t : List Bytes) : Prop :=
  Separator l ∧ (∃ n, n ≠ 0 ∧ Columns l n) ∧ ¬ (∃ p, prev = some p ∧ TableRow p ∧ ¬ Separator p) ∧
  ∃ bs r u, t = bs ++ r :: u ∧ (∀ b ∈ bs, Blank b) ∧ ¬ Blank r ∧ TableRow r

/-- The row of empty cells that fits a separator. -/
def Header (l h : Bytes) : Prop :=
  ∃ n, Columns l n ∧
    (Leading l ∧ h = b!"|" ++ (List.replicate n b!"  |").flatten ∨
     ¬ Leading l ∧ h = (List.replicate n b!" | ").flatten)

/-- Every separator that begins a table gets an empty header; everything else stays. `k` counts the headers. -/
inductive Heads : Nat → Option Bytes → List Bytes → List Bytes → Prop
  | nil {p} : Heads 0 p [] []
  | put {k p l h t t'} : Headless p l t → Header l h → Heads k (some l) t t' → Heads (k + 1) p (l :: t) (h :: l :: t')
  | skip {k p l t t'} : ¬ Headless p l t → Heads k (some l) t t' → Heads k p (l :: t) (l :: t')

end Verif.RelaxedTables.Spec
