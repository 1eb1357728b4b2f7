/-
C141 (captions of tables: every line is accounted for), C142 (captions of tables: documents).
-/
import Verif.Proof.TableDocs

namespace Verif.TableCaptions

open Spec

/-- **C141**: for every text, `apex_preprocess_table_captions` stays inside its block and returns the text line by line: lines of
code are kept as they are, other lines are kept with at most one blank line before them, or are captions and put in brackets, or
are blank and dropped. -/
theorem C141_lines (text : Bytes) : ∃ out, Lines false text out ∧ captions text = .val out := by
  obtain ⟨o, h1, h2⟩ := loop_lines (text.length * 2 + 1) (text.length + 1) clean [] text (by omega) (by simp [clean]) (Or.inl rfl) (by simp [need, clean]; omega)
  exact ⟨o, h1, by simpa [captions, clean] using h2⟩

/-- … so nothing but white space changes in a text without the markers of captions. -/
theorem C141_visible (text : Bytes) (h1 : ¬ b!"Table:" <:+: text) (h2 : ¬ b!"table:" <:+: text) (h3 : ¬ b!": " <:+: text) (h4 : ¬ b!":\t" <:+: text) :
    ∃ out, captions text = .val out ∧ (out.filter fun c => !isSpace c) = text.filter fun c => !isSpace c := by
  obtain ⟨o, ho, h⟩ := C141_lines text
  exact ⟨o, h, lines_visible ho h1 h2 h3 h4⟩

example : captions b!"| a |\r\n|---|\r\n: My table {#t}\n```\nTable: x\n\n```" = .val b!"| a |\n|---|\n\n[My table] {#t}\n```\nTable: x\n\n```\n" := by decide +kernel

/-- **C142** (partial): a document of paragraphs, code and tables keeps its paragraphs and its code, and every caption, in
whichever form and however many blank lines below its table, is put in brackets one blank line below it. -/
theorem C142_documents_partial (d : List (Block × Nat)) (h : Ok d) : captions (source d) = .val (result d) := by
  obtain ⟨o, _, h2⟩ := C141_lines (source d)
  have he := emits_doc d h clean rfl
  unfold captions at h2 ⊢
  cases hl : loop ((source d).length * 2 + 1) ((source d).length + 1) clean [] (source d) with
  | ub => unfold clean at hl; rw [hl] at h2; cases h2
  | val r =>
    have hr := loop_emit hl
    rw [he _ (by omega)] at hr
    have hr' : r = result d := by
      rw [hr]
      split <;> simp [held, clean]
    unfold clean at hl
    rw [hl, C.val_bind] at h2 ⊢
    have hlast := result_last d
    unfold close at h2 ⊢
    rw [hr'] at h2 ⊢
    rcases hlast with hnil | hlast
    · rw [hnil] at h2 ⊢
      simp only [List.getLast?_nil] at h2 ⊢
      unfold finish at h2 ⊢
      split at h2
      · rename_i hf; rw [if_pos hf]
      · cases h2
    · rw [hlast] at h2 ⊢
      simp only [ne_eq, not_true, false_and, if_false] at h2 ⊢
      unfold finish at h2 ⊢
      split at h2
      · rename_i hf; rw [if_pos hf]
      · cases h2

/-- A document with a paragraph, code and captions of all kinds. -/
def sample : List (Block × Nat) :=
  [(.para b!"See below." [b!"[x] the table: here"], 1),
   (.table b!"| a | b |" [b!"|---|---|", b!"| 1 | 2 |"] (some (0, .marker b!"Table:" b!" " b!"Some numbers" b!" " b!"{#nums}")), 2),
   (.code b!"```" [b!"Table: x", [], [], b!"| y |"] b!"```", 3),
   (.table b!"a | b" [b!"--|--"] (some (2, .colon [] c!" " [] b!"More {of} them" b!" " [])), 1),
   (.table b!"a | b" [] (some (1, .bracket b!"[Caption]")), 1),
   (.para b!"Done." [], 2)]

theorem sample_ok : Ok sample := by
  refine ⟨⟨first_of (by decide +kernel), by decide +kernel, ?_⟩, Or.inr (by decide),
    ⟨?_, ?_⟩, Or.inr (by decide),
    ⟨line_of (by decide +kernel), (fence_iff _).1 (by decide +kernel), ?_, line_of (by decide +kernel), (fence_iff _).1 (by decide +kernel), by decide +kernel,
      unmarked_of (by decide +kernel)⟩, Or.inr (by decide),
    ⟨?_, ?_⟩, Or.inr (by decide), ⟨?_, ?_⟩, Or.inr (by decide),
    ⟨first_of (by decide +kernel), by decide +kernel, by simp⟩, Or.inl rfl, trivial⟩
  · intro l hl
    simp at hl
    subst hl
    exact more_of (by decide +kernel)
  · intro l hl
    simp at hl
    rcases hl with rfl | rfl | rfl <;> exact ⟨first_of (by decide +kernel), by decide +kernel⟩
  · intro g c h
    cases h
    refine ⟨line_of (by decide +kernel), Or.inl rfl, by simp [Blank], by simp [Blank], by decide, ⟨by decide, by decide⟩, split_of (by simp) (by decide +kernel)⟩
  · intro l hl
    simp at hl
    rcases hl with rfl | rfl | rfl <;> exact ⟨line_of (by decide +kernel), fun h => absurd ((fence_iff _).2 h) (by decide +kernel)⟩
  · intro l hl
    simp at hl
    rcases hl with rfl | rfl <;> exact ⟨first_of (by decide +kernel), by decide +kernel⟩
  · intro g c h
    cases h
    refine ⟨line_of (by decide +kernel), by simp [Blank], Or.inl rfl, by simp, by simp; decide, ⟨by decide, by decide⟩, split_of (by simp) (by decide +kernel), unmarked_of (by decide +kernel)⟩
  · intro l hl
    simp at hl
    subst hl
    exact ⟨first_of (by decide +kernel), by decide +kernel⟩
  · intro g c h
    cases h
    exact ⟨line_of (by decide +kernel), (head_iff _).1 (by decide +kernel)⟩

example : captions (source sample) = .val (result sample) := C142_documents_partial _ sample_ok

/-- A word of a paragraph is taken for a marker: the sentence is torn apart. -/
theorem C142_sentence_refuted : captions b!"Text.\n\nSee the table: it is good.\n" = .val b!"Text.\n\nSee the \n\n[it is good.]\n" := by decide +kernel

/-- So is a row of a table. -/
theorem C142_cell_refuted : captions b!"| a | b |\n|---|---|\n| 1 | table: oak |\n" = .val b!"| a | b |\n|---|---|\n| 1 | \n\n[oak |]\n" := by decide +kernel

/-- Code is changed when it contains a fence of the other kind. -/
theorem C142_code_refuted : captions b!"~~~\n```\nTable: x\n~~~\n" = .val b!"~~~\n```\n\n[x]\n~~~\n" := by decide +kernel

/-- Two paragraphs that start with a link become one. -/
theorem C142_merge_refuted : captions b!"Text.\n\n\n[a](b) one.\n\n[c](d) two.\n" = .val b!"Text.\n\n[a](b) one.\n[c](d) two.\n" := by decide +kernel

/-- A paragraph that starts with a link behind a table becomes two. -/
theorem C142_link_refuted : captions b!"| a |\n|---|\n\n[a](b) one\nand more.\n" = .val b!"| a |\n|---|\n\n[a](b) one\n\nand more.\n" := by decide +kernel

end Verif.TableCaptions
