/-
C46: CSV files as tables.
-/
import Verif.Proof.Csv

namespace Verif.Csv

open Spec Text.Spec

/-- A file has exactly one reading as rows and cells, and every reading exactly one table. -/
theorem C46_read (delim : Byte) (text : Bytes) (hne : text ≠ []) : ∃ rows out, Rows delim text rows ∧ Table rows out ∧
    ∀ rows' out', Rows delim text rows' → Table rows' out' → rows' = rows ∧ out' = out := by
  have hr := rows_exists delim text
  cases hrows : (Text.splitLines text).map (Text.split delim) with
  | nil =>
    rw [hrows] at hr
    obtain ⟨ls, h1, h2, _⟩ := hr
    obtain rfl : ls = [] := List.length_eq_zero_iff.1 (by simpa using h2)
    rcases h1.2 with rfl | ⟨front, last, h, _⟩
    · exact absurd rfl hne
    · simp at h
  | cons h rest =>
    rw [hrows] at hr
    obtain ⟨out, ho⟩ := table_exists h rest
    refine ⟨_, out, hr, ho, ?_⟩
    intro rows' out' hr' ho'
    obtain rfl : rows' = h :: rest := by rw [← rows_unique hr', hrows]
    exact ⟨rfl, table_unique ho' ho⟩

/-- **C46**: the result is the table of the file when it is shorter than four times the file plus 64 bytes;
otherwise the buffer overflows. -/
theorem C46_exact {text : Bytes} {isTsv : Bool} {rows : List (List Bytes)} {out : Bytes} (hne : text ≠ [])
    (hr : Rows (if isTsv then c!"\t" else c!",") text rows) (ht : Table rows out) :
    toTable text isTsv = if out.length < text.length * 4 + 64 then .val (some out) else .ub := toTable_eq hne hr ht

/-- **C46**, partial: a file of at least two rows, in which all rows have the same number of cells and no cell is
empty, becomes its table.  What is missing: see `C46_overflow` and `C46_blank_lines`. -/
theorem C46_rectangular_partial {text : Bytes} {isTsv : Bool} {h r : List Bytes} {rest : List (List Bytes)} {out : Bytes}
    (hr : Rows (if isTsv then c!"\t" else c!",") text (h :: r :: rest)) (ht : Table (h :: r :: rest) out)
    (hrect : ∀ x ∈ h :: r :: rest, x.length = h.length ∧ ∀ c ∈ x, c ≠ []) : toTable text isTsv = .val (some out) := by
  have hne : text ≠ [] := by
    rintro rfl
    have := rows_unique hr
    simp [Text.splitLines, Text.linesFrom] at this
  rw [toTable_eq hne hr ht, if_pos (table_fits hr ht hrect)]

example : Rows c!"," b!"a,b\n1,2" [[b!"a", b!"b"], [b!"1", b!"2"]] :=
  ⟨[b!"a,b", b!"1,2"], ⟨by decide, .inr ⟨[b!"a,b"], b!"1,2", rfl, by decide, rfl⟩⟩, rfl, by
    intro p hp
    simp at hp
    rcases hp with rfl | rfl <;> exact ⟨by decide, by decide, rfl⟩⟩

example : toTable b!"a,b\n1,2\n" false = .val (some b!"| a | b |\n| --- | --- |\n| 1 | 2 |\n") := by decide +kernel
example : toTable b!"a,b\nLEFT, right \n1" false = .val (some b!"| a | b |\n| :--- | ---: |\n| 1 |  |\n") := by decide +kernel

/-- The claim of C46 is false: a heading of twelve empty cells overflows the buffer. -/
theorem C46_overflow : toTable (List.replicate 11 c!",") false = .ub := by decide +kernel

/-- So do sixty blank lines under a single column. -/
theorem C46_blank_lines : toTable (c!"a" :: List.replicate 60 c!"\n") false = .ub := by decide +kernel

/-- A `|` in a cell is not escaped: the row has more cells than the table has columns. -/
theorem C46_pipe : toTable b!"a|b,c\n" false = .val (some b!"| a|b | c |\n| --- | --- |\n") := by decide +kernel

/-- Quotes do not protect commas. -/
theorem C46_quotes : toTable b!"\"a,b\",c\n" false = .val (some b!"| \"a | b\" | c |\n| --- | --- | --- |\n") := by
  decide +kernel

end Verif.Csv
