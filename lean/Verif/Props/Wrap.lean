/-
C169 and C170: wrapping for a terminal, reading of the standard input.
-/
import Verif.Proof.Wrap

namespace Verif.Wrap
open Spec (Tok flat Tokens Added shown Narrow Fill)

/-- C169: for every text and every width, the block is large enough, and the result has the tokens of the text with newlines added: no line shows more
bytes than the width, no sequence is cut, and a newline is added only before a byte that would be behind the last column.  The full claim is about characters and
words; missing are characters of more than one byte. -/
theorem C169_wrap_partial (text : Bytes) (width : Nat) (hw : 0 < width) : ∃ ts us, Tokens text ts ∧ wrap text width = .val (flat us) ∧ Tokens (flat us) us ∧
    Fill width 0 ts us ∧ Added ts us ∧ Narrow width us := by
  obtain ⟨ts, ht⟩ := tokens_total _ text (Nat.le_refl _)
  obtain ⟨us, hf⟩ := fill_total width ts 0
  refine ⟨ts, us, ht, ?_, fill_tokens ht hf, hf, fill_added hf, fill_narrow hw hf⟩
  obtain ⟨b, h1, h2, h3⟩ := wrapGo_fill width ht (b := ⟨text.length + (text.length / width + 2) * 2 + 1, []⟩) (Nat.le_refl _) hf (by simp)
  unfold wrap
  rw [h1]
  simp only [C.bind]
  rw [if_pos h3, h2]
  rfl

/-- C169: the tokens of a text are its bytes, in order. -/
theorem C169_tokens (text : Bytes) (ts : List Tok) (h : Tokens text ts) : flat ts = text := tokens_flat h

/-- C169: an example with a sequence and lines. -/
theorem C169_example : wrap (b!"ab\x1b[1mcde\nf") 3 = .val b!"ab\x1b[1mc\nde\nf" := by decide +kernel

/-- C169, refuted: characters stay.  A character of two bytes is cut into two lines. -/
theorem C169_utf8_refuted : wrap [c!"a", 0xC3, 0xA9] 2 = .val [c!"a", 0xC3, c!"\n", 0xA9] := by decide +kernel

/-- C169, refuted: lines are as wide as they can be.  Characters of two bytes take two columns. -/
theorem C169_columns_refuted : wrap [0xC3, 0xA9, 0xC3, 0xA9] 2 = .val [0xC3, 0xA9, c!"\n", 0xC3, 0xA9] := by decide +kernel

/-- C169, refuted: text breaks between words. -/
theorem C169_words_refuted : wrap b!"one two" 5 = .val b!"one t\nwo" := by decide +kernel

/-- C170: all of the standard input is read, in whatever pieces it comes, and nothing is written outside of the block. -/
theorem C170_stdin (pieces : List Bytes) (h : ∀ p ∈ pieces, p ≠ []) : readStdin pieces = .val pieces.flatten := by
  obtain ⟨cap, h1, h2⟩ := readGo_all (pieces.flatten.length + 1) pieces 4096 [] h (by omega) (by decide) (by omega)
  unfold readStdin
  rw [h1]
  simp only [C.bind, List.nil_append] at h2 ⊢
  rw [if_pos h2]

/-- C170: the hypothesis is met, with pieces of all sizes. -/
theorem C170_example : readStdin [List.replicate 4096 c!"a", b!"b", List.replicate 9000 c!"c"] = .val (List.replicate 4096 c!"a" ++ b!"b" ++ List.replicate 9000 c!"c") := by
  rw [C170_stdin _ (by
    intro p hp
    simp only [List.mem_cons, List.not_mem_nil, or_false] at hp
    rcases hp with rfl | rfl | rfl
    · exact fun h => absurd (congrArg List.length h) (by rw [List.length_replicate, List.length_nil]; decide)
    · simp
    · exact fun h => absurd (congrArg List.length h) (by rw [List.length_replicate, List.length_nil]; decide))]
  rw [List.flatten_cons, List.flatten_cons, List.flatten_cons, List.flatten_nil, List.append_nil, List.append_assoc]

end Verif.Wrap
