/-
C165: attribute lists on lines of their own.
-/
import Verif.Proof.IalLines

namespace Verif.IalLines
open Spec (List' Toc Line Read IsLine)
open Bibliography.Spec (Blank)

/-- C165, for every text: its lines have one reading - attribute lists directly behind text get an empty line before them, `{:toc}`
becomes the marker of a table of contents, all other lines stay - and this is the result, which fits into the block.
Missing: code should stay as well. -/
theorem C165_lines_partial (text : Bytes) : ∃ out, Read False text out ∧ (∀ out', Read False text out' → out' = out) ∧ process text = .val out := by
  have hr := loop_read (text.length + 1) text false False (by omega) (by simp)
  refine ⟨_, hr, ?_, ?_⟩
  · intro out' h
    exact (read_loop h (text.length + 1) false (by omega) (by simp)).symm
  · unfold process
    have := read_len hr
    exact finish_val (by omega)

/-- Without lines that are attribute lists nothing is changed. -/
theorem C165_other {text : Bytes} (h : ∀ l a, IsLine text l → ¬ List' l a) : process text = .val text := by
  have key : ∀ n (x s : Bytes), s.length < n → text = x ++ s → (x = [] ∨ ∃ x', x = x' ++ b!"\n") → ∀ b : Prop, Read b s s := by
    intro n
    induction n with
    | zero => intro x s hs; omega
    | succ n ih =>
      intro x s hs ht hx b
      obtain ⟨l, r, e, hl, hr, _, _⟩ := Index.span_split (· != c!"\n") s
      have hn : c!"\n" ∉ l := fun h => by simpa using hl _ h
      have hll : Line b l l := .text fun a => h l a ⟨hn, x, r, by rw [ht, e]; simp, hx, by
        rcases hr with rfl | ⟨y, r, rfl, hy⟩
        · exact Or.inl rfl
        · have hy : y = c!"\n" := by simpa using hy
          exact Or.inr ⟨r, by rw [hy]; rfl⟩⟩
      rcases hr with rfl | ⟨y, r, rfl, hy⟩
      · rw [List.append_nil] at e
        subst e
        cases s with
        | nil => exact .nil
        | cons c l => exact .last (by simp) hn hll
      · have hy : y = c!"\n" := by simpa using hy
        subst hy
        have := Read.cons hn hll (ih (x ++ l ++ b!"\n") r (by
          rw [e] at hs
          simp only [List.length_append, List.length_cons] at hs
          omega) (by rw [ht, e]; simp) (Or.inr ⟨x ++ l, rfl⟩) _)
        rw [e]
        simpa using this
  obtain ⟨out, _, h2, h3⟩ := C165_lines_partial text
  rw [h3, h2 text (key (text.length + 1) [] text (by omega) rfl (Or.inl rfl) False)]

/-- A paragraph with an attribute list, a list with nothing before it, and a table of contents. -/
theorem C165_example : process b!"Text\n{: .a #b}\n\n  {.c}\n{:TOC max=3 min=2 }\nEnd {.d}\n{:tocs}" =
    .val b!"Text\n\n{: .a #b}\n\n  {.c}\n<!--TOC max=3 min=2-->\nEnd {.d}\n\n{:tocs}" := by decide +kernel

/-- Code is changed: an empty line is added, and a marker replaced. -/
theorem C165_code_refuted : process b!"```\na {\n{: .b}\n{:toc}\n```\n" = .val b!"```\na {\n\n{: .b}\n<!--TOC-->\n```\n" := by decide +kernel

/-- A list with `}` in a value is not one. -/
theorem C165_brace_refuted : process b!"Text\n{: title=\"a}b\"}\n" = .val b!"Text\n{: title=\"a}b\"}\n" := by decide +kernel

end Verif.IalLines
