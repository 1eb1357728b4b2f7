/-
C149 and C150: tables without a separator row, and tables without a header.
-/
import Verif.Proof.RelaxedTables

namespace Verif.RelaxedTables
open Spec

/-- C149: no text makes the pass for tables without a separator write outside its block. -/
theorem C149_safe (text : Bytes) : ∃ out, relaxedStage text = .val out := by
  unfold relaxedStage stage
  have := relaxed_safe (normalized text)
  cases h : relaxed (normalized text) with
  | ub => exact absurd h this
  | val o => exact ⟨_, rfl⟩

/-- C149, what the pass does to any document, except that no blank line may come to stand at the one place where the
block is full: rows with the same number of columns get a separator after the first, a single row in front of a blank
line is moved behind it, and a document without such a table is left alone. -/
theorem C149_page_partial {ls : List Bytes} {text : Bytes} (h : Lines ls) (hs : Source ls text) :
    ∃ k out, Page k ls out ∧ (Room (2 * (page ls).length) out →
      relaxedStage text = .val (if k = 0 then text else page out)) := by
  obtain ⟨k, out, h1, h2⟩ := relaxed_page h
  refine ⟨k, out, h1, fun hr => ?_⟩
  rw [relaxedStage, stage_source hs (h2 hr)]
  by_cases hk : k = 0 <;> simp [hk]

/-- C149 in tidy documents, where every row in front of a blank line has a row with as many columns before it: the
separators are put in and nothing else changes. -/
theorem C149_tables_partial {ls : List Bytes} {text : Bytes} (h : Lines ls) (hs : Source ls text) (ht : Tidy ls) :
    ∃ k out, Tables k ls out ∧ (Room (2 * (page ls).length) out →
      relaxedStage text = .val (if k = 0 then text else page out)) := by
  obtain ⟨k, out, h1, h2⟩ := C149_page_partial h hs
  exact ⟨k, out, tables_of_page h1 ht, h2⟩

/-- The lines before a change are kept in their order when nothing is moved: leaving out the separators of `Tables`
gives the document. -/
theorem tables_sublist {k : Nat} {ls out : List Bytes} (h : Tables k ls out) : ls.Sublist out ∧ out.length = ls.length + k := by
  induction h with
  | nil => exact ⟨.slnil, rfl⟩
  | line _ _ ih => exact ⟨ih.1.cons_cons _, by simp [ih.2]; omega⟩
  | single _ _ _ ih => exact ⟨ih.1.cons_cons _, by simp [ih.2]; omega⟩
  | closed _ _ _ ih => exact ⟨(List.Sublist.refl _).append ih.1, by simp [ih.2]; omega⟩
  | @table k n r run sep t t' _ _ _ _ _ ih =>
    refine ⟨?_, by simp [ih.2]; omega⟩
    exact ((List.Sublist.refl run).append ih.1 |>.cons sep).cons_cons r

/-- C149: in a tidy document all lines are kept in their order, `k` lines come in, and without a table nothing
happens. -/
theorem C149_kept_partial {ls : List Bytes} {text : Bytes} (h : Lines ls) (hs : Source ls text) (ht : Tidy ls) :
    ∃ k out, Tables k ls out ∧ ls.Sublist out ∧ out.length = ls.length + k ∧ (Room (2 * (page ls).length) out →
      relaxedStage text = .val (if k = 0 then text else page out)) := by
  obtain ⟨k, out, h1, h2⟩ := C149_tables_partial h hs ht
  exact ⟨k, out, h1, (tables_sublist h1).1, (tables_sublist h1).2, h2⟩

/-- Every text that does not end with a carriage return is one to which the theorems apply. -/
theorem C149_every (text : Bytes) (h : text.getLast? ≠ some 13) : ∃ ls, Lines ls ∧ Source ls text :=
  source_exists text h

/-- The order of the lines is not kept: a single row goes behind the blank line that follows it, so that it becomes
part of the next paragraph. -/
theorem C149_order_refuted :
    relaxedStage b!"a | b\n\ntext\n\nx|y\nz|w\n" = .val b!"\na | b\ntext\n\nx|y\n---|---|\nz|w\n" := by
  decide +kernel

/-- The blank line behind a table can get lost, and the paragraph behind it becomes a row of the table. -/
theorem C149_blank_line_refuted :
    relaxedStage b!"|a|b|c|d|\n|e|f|g|h|\n\nx\n" = .val b!"|a|b|c|d|\n| --- | --- | --- | --- |\n|e|f|g|h|\nx\n" := by
  decide +kernel

/-- Code is not left alone: a separator is put between the lines of a fenced code block. -/
theorem C149_code_refuted :
    relaxedStage b!"```\nls | wc\nps | wc\n```\n" = .val b!"```\nls | wc\n---|---|\nps | wc\n```\n" := by
  decide +kernel

/-- A table with its separator is not left alone: its body gets another one, after its first row. -/
theorem C149_regular_refuted :
    relaxedStage b!"|a|b|\n|---|---|\n|c|d|\n|e|f|\n" = .val b!"|a|b|\n|---|---|\n|c|d|\n| --- | --- |\n|e|f|\n" := by
  decide +kernel

/-- With carriage returns the separator of a table is taken for a row. -/
theorem C149_crlf_refuted :
    relaxedStage b!"|a|b|\r\n|---|---|\r\n|c|d|\r\n" = .val b!"|a|b|\r\n| --- | --- |\n|---|---|\r\n|c|d|\r\n" := by
  decide +kernel

/-- In a text that ends with a carriage return the rows in front of the last line run together. -/
theorem C149_glued_refuted : relaxedStage b!"a|b\nc|d\nend\r" = .val b!"a|b---|---|\nc|dend\r" := by
  decide +kernel

/-- The example of the theorems: a tidy document with a table that needs a separator. -/
theorem C149_example :
    Source [b!"a|b", b!"c|d", b!"", b!"end"] b!"a|b\nc|d\n\nend" ∧
    relaxedStage b!"a|b\nc|d\n\nend" = .val b!"a|b\n---|---|\nc|d\n\nend\n" := by
  refine ⟨.inr ⟨by decide +kernel, c!"d", by decide +kernel, by decide, by decide⟩, by decide +kernel⟩

/-- That document is tidy and has room. -/
theorem C149_example_tidy :
    Tidy [b!"a|b", b!"c|d", b!"", b!"end"] ∧
    Room (2 * (page [b!"a|b", b!"c|d", b!"", b!"end"]).length) [b!"a|b", b!"---|---|", b!"c|d", b!"", b!"end"] := by
  have hrow : ∀ l : Bytes, countColumns l = 0 → ∀ n, ¬ Row l n := fun l h n hr => by
    have := run_count hr; omega
  have hab : Row b!"a|b" 2 := (row_iff _ _).2 (by decide +kernel)
  constructor
  · intro a r b t n h hr hb
    match a, h with
    | [], h =>
      simp only [List.nil_append, List.cons.injEq] at h
      obtain ⟨rfl, rfl, _⟩ := h
      exact absurd hb (not_blank_of_bar (by decide))
    | [x], h =>
      simp only [List.cons_append, List.nil_append, List.cons.injEq] at h
      obtain ⟨rfl, rfl, rfl, _⟩ := h
      have hcd : Row b!"c|d" 2 := (row_iff _ _).2 (by decide +kernel)
      exact ⟨rfl, [], _, rfl, row_unique hcd hr ▸ hab⟩
    | [x, y], h =>
      simp only [List.cons_append, List.nil_append, List.cons.injEq] at h
      obtain ⟨rfl, rfl, rfl, _⟩ := h
      exact absurd hr (hrow _ (by decide) n)
    | x :: y :: z :: a, h =>
      have := congrArg List.length h
      simp at this
      omega
  · intro a b h
    match a, h with
    | [], h => simp at h
    | [x], h => simp at h
    | [x, y], h => simp at h
    | [x, y, z], h =>
      simp only [List.cons_append, List.nil_append, List.cons.injEq] at h
      obtain ⟨rfl, rfl, rfl, _⟩ := h
      decide +kernel
    | x :: y :: z :: w :: a, h =>
      have h2 := congrArg List.length h
      simp at h2
      simp only [List.cons_append, List.cons.injEq] at h
      obtain ⟨rfl, rfl, rfl, rfl, h⟩ := h
      cases a with
      | nil => simp at h
      | cons a t => simp only [List.length_cons] at h2; omega

/-! ### Headers -/

/-- C150: no text makes the pass for tables without a header write outside its block. -/
theorem C150_safe (text : Bytes) : ∃ out, headerlessStage text = .val out := by
  unfold headerlessStage stage
  have := headerless_safe (normalized text)
  cases h : headerless (normalized text) with
  | ub => exact absurd h this
  | val o => exact ⟨_, rfl⟩

/-- C150: every separator row with which a table begins gets an empty header and nothing else changes, unless the new
text fills the block to the last byte. -/
theorem C150_heads_partial {ls : List Bytes} {text : Bytes} (h : Lines ls) (hs : Source ls text) :
    ∃ k out, Heads k none ls out ∧ ((∀ j, (page out).length ≠ (page ls).length * 2 ^ (j + 1)) →
      headerlessStage text = .val (if k = 0 then text else page out)) := by
  obtain ⟨k, out, h1, h2⟩ := headerless_page h
  refine ⟨k, out, h1, fun hr => ?_⟩
  rw [headerlessStage, stage_source hs (h2 hr)]
  by_cases hk : k = 0 <;> simp [hk]

/-- If the new text is less than twice as long there is room. -/
theorem C150_short_partial {ls : List Bytes} {text : Bytes} (h : Lines ls) (hs : Source ls text) :
    ∃ k out, Heads k none ls out ∧ ((page out).length < 2 * (page ls).length →
      headerlessStage text = .val (if k = 0 then text else page out)) := by
  obtain ⟨k, out, h1, h2⟩ := C150_heads_partial h hs
  refine ⟨k, out, h1, fun hr => h2 fun j he => ?_⟩
  rw [he, Nat.pow_succ', ← Nat.mul_assoc] at hr
  have : 1 ≤ 2 ^ j := Nat.one_le_two_pow
  have := Nat.mul_le_mul_left ((page ls).length * 2) this
  omega

/-- A table can stay without a header: this text would fill the block. -/
theorem C150_full_refuted :
    headerlessStage b!"-|-|-|-|-|-|-|-|-\n|a\n\nxxxxx\n" = .val b!"-|-|-|-|-|-|-|-|-\n|a\n\nxxxxx\n" ∧
    headerlessStage b!"-|-|-|-|-|-|-|-|-\n|a\n\nxxxxxx\n" =
      .val b!" |  |  |  |  |  |  |  |  | \n-|-|-|-|-|-|-|-|-\n|a\n\nxxxxxx\n" := by
  decide +kernel

/-- The example of the theorems. -/
theorem C150_example :
    Source [b!"|:--|--:|", b!"|a|b|"] b!"|:--|--:|\n|a|b|" ∧
    headerlessStage b!"|:--|--:|\n|a|b|" = .val b!"|  |  |\n|:--|--:|\n|a|b|\n" := by
  refine ⟨.inr ⟨by decide +kernel, c!"|", by decide +kernel, by decide, by decide⟩, by decide +kernel⟩

end Verif.RelaxedTables
