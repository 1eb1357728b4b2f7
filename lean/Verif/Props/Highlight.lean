/-
C43 (highlight and insert markers).
-/
import Verif.Proof.Highlight

namespace Verif.Highlight

open Spec

/-- Every text is read in exactly one way, which leaves out nothing. -/
theorem C43_read (r : Rule) (hr : r = highlightRule ∨ ∃ a, r = insertRule a) (text : Bytes) :
    ∃ d, Read r text d ∧ d.flatMap (Seg.source r) = text ∧ ∀ d', Read r text d' → d' = d := by
  have hg : Good r := by
    rcases hr with rfl | ⟨a, rfl⟩
    · exact good_highlight
    · exact good_insert a
  obtain ⟨d, hd, _⟩ := tokens_spec hg (mem := [0]) (by simp) text.length ⟨false, false, false⟩ none text (Nat.le_refl _)
  exact ⟨d, hd, reads_source hd, fun d' h => reads_unique hg h hd⟩

/-- **C43**, highlights, partial: each highlight outside code becomes a `<mark>` element and the rest stays, when
the result is shorter than twice the text (and one byte behind the terminator of the text may be read).  What is
missing: see `C43_unbalanced`, `C43_overflow`, `C43_empty` and `C43_read_past_end`. -/
theorem C43_highlight_partial (mem text : Bytes) (d : List Seg) (hm : mem ≠ []) (hd : Read highlightRule text d)
    (hfit : (d.flatMap (Seg.html highlightRule)).length < text.length * 2) :
    process highlightRule mem text = .val (d.flatMap (Seg.html highlightRule)) :=
  process_fits good_highlight hm hd hfit

/-- **C43**, insertions, likewise; `attrs` turns an attribute list into HTML. -/
theorem C43_insert_partial (attrs : Bytes → Option Bytes) (mem text : Bytes) (d : List Seg) (hm : mem ≠ [])
    (hd : Read (insertRule attrs) text d)
    (hfit : (d.flatMap (Seg.html (insertRule attrs))).length < text.length * 2) :
    process (insertRule attrs) mem text = .val (d.flatMap (Seg.html (insertRule attrs))) :=
  process_fits (good_insert attrs) hm hd hfit

/-- **C43**: text without markers stays as it is. -/
theorem C43_unmarked_partial (attrs : Bytes → Option Bytes) (mem text : Bytes) (hm : mem ≠ []) (hne : text ≠ []) :
    (¬ b!"==" <:+: text → process highlightRule mem text = .val text) ∧
    (¬ b!"++" <:+: text → process (insertRule attrs) mem text = .val text) :=
  ⟨process_plain good_highlight hm hne, process_plain (good_insert attrs) hm hne⟩

/-- **C43 is false as stated**: in a short text the closing tag is lost. -/
theorem C43_unbalanced :
    process highlightRule [0] b!"==a==" = .val b!"<mark>a" ∧
    process (insertRule fun _ => none) [0] b!"++a++" = .val b!"<ins>a" := by decide +kernel

/-- **C43 is false as stated**: enough short highlights fill the buffer, and the terminator is written behind it. -/
theorem C43_overflow :
    process highlightRule [0] b!"==a== ==a== ==a== ==a== ==a== " = .ub := by decide +kernel

/-- **C43 is false as stated**: the empty text gets a buffer of no bytes. -/
theorem C43_empty (attrs : Bytes → Option Bytes) (mem : Bytes) :
    process highlightRule mem [] = .ub ∧ process (insertRule attrs) mem [] = .ub := ⟨rfl, rfl⟩

/-- **C43 is false as stated**: every text that ends in a newline is read past its terminator. -/
theorem C43_read_past_end (attrs : Bytes → Option Bytes) (text : Bytes) :
    process highlightRule [] (text ++ b!"\n") = .ub ∧ process (insertRule attrs) [] (text ++ b!"\n") = .ub := by
  have key : ∀ r, Good r → r.mark ≠ c!"\n" → process r [] (text ++ b!"\n") = .ub := by
    intro r hg hm
    obtain ⟨d, hd, _⟩ := tokens_spec hg (mem := [0]) (by simp) (text ++ b!"\n").length ⟨false, false, false⟩ none
      (text ++ b!"\n") (Nat.le_refl _)
    have := reads_last hd (b := c!"\n") (by simp) (Ne.symm hm) (by decide)
    unfold process
    rw [tokens_ub hg _ _ _ _ d (Nat.le_refl _) hd ⟨_, this⟩, C.ub_bind]
  exact ⟨key _ good_highlight (by decide), key _ (good_insert attrs) (by simp [insertRule])⟩

example : process highlightRule [0] b!"A long text with ==some== marked words, `==code==`.\n" =
    .val b!"A long text with <mark>some</mark> marked words, `==code==`.\n" := by decide +kernel
example : process highlightRule [0] b!"    ==code== in an indented block, a == b, not {==x==}\n" =
    .val b!"    ==code== in an indented block, a == b, not {==x==}\n" := by decide +kernel
example : process (insertRule fun _ => some b!" class=\"x\"") [0] b!"text ++new++ {.x} end" =
    .val b!"text <ins markdown=\"span\" class=\"x\">new</ins> end" := by decide +kernel

/-- A text that is read with a highlight, and whose result fits. -/
example : ∃ d, Read highlightRule b!"==some== text" d ∧ Seg.marked b!"some" ∈ d := by
  refine ⟨.marked b!"some" :: b!" text".map .plain, ?_, by simp⟩
  have hs : Span highlightRule none b!"some" b!" text" := by
    refine ⟨by simp, by simp, ⟨c!"s", b!"ome", rfl, by decide, by decide, by decide, by decide, by decide, by decide, by decide⟩,
      by decide, ⟨by decide, by decide, by decide, by decide⟩, ?_⟩
    intro y z h hl
    match y with
    | [] => simp [twice, highlightRule] at h
    | [_] => simp [twice, highlightRule] at h
    | [_, _] => simp [twice, highlightRule] at h
    | [_, _, _] => simp [twice, highlightRule] at h
    | _ :: _ :: _ :: _ :: _ => simp at hl; omega
  have hrest : ∀ (t : Bytes) before k, ¬ twice highlightRule <:+: t → Reads highlightRule k before t (t.map .plain) := by
    intro t before k hn
    obtain ⟨d, hd, _⟩ := tokens_spec good_highlight (mem := [0]) (by simp) t.length k before t (Nat.le_refl _)
    rw [reads_plain hd hn] at hd
    exact hd
  refine Reads.marked (k' := ⟨false, false, false⟩) (x := b!"some") (after := b!" text") ?_ ⟨rfl, rfl, rfl⟩ hs ?_ (hrest _ _ _ (by decide))
  · exact code_update highlightRule ⟨false, false, false⟩ none _
  · intro _ _ _ _; rfl

end Verif.Highlight
