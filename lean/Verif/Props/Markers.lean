/-
C44 (special markers) and C76 (the index marker).
-/
import Verif.Proof.Markers

namespace Verif.Markers

open Spec

/-- Every text can be read, and reading leaves nothing out. -/
theorem C44_read (text : Bytes) : ∃ d, Reads [] text d ∧ d.flatMap Seg.source = text := by
  obtain ⟨d, hd⟩ := reads_exists _ [] text (Nat.le_refl _)
  exact ⟨d, hd, reads_source hd⟩

/-- **C44**, partial: the markers are replaced and everything else stays, if the text does not end in `{index}`,
numbers of seconds are below 2³¹ and the result is shorter than four times the text. -/
theorem C44_exact_partial (text behind : Bytes) (d : List Seg) (hd : Reads [] text d) (h0 : 0 ∉ text)
    (hi : ¬ b!"{index}" <:+ text) (hs : ∀ ds, Seg.pause ds ∈ d → value ds < 2 ^ 31)
    (hfit : (d.flatMap Seg.html).length < text.length * 4) : process behind text = .val (d.flatMap Seg.html) := by
  refine process_fits hd h0 hi ?_ hfit
  intro e he
  cases e <;> simp only [Small]
  exact hs _ he

/-- **C44**, partial: without page breaks the result always fits, unless the text ends in `^`.  What is missing:
see `C44_page_break_overflow`, `C44_index_leak` and `C44_empty`. -/
theorem C44_no_page_break_partial (text behind : Bytes) (d : List Seg) (hd : Reads [] text d) (hne : text ≠ []) (h0 : 0 ∉ text)
    (hi : ¬ b!"{index}" <:+ text) (hl : text.getLast? ≠ some c!"^") (hs : ∀ ds, Seg.pause ds ∈ d → value ds < 2 ^ 31)
    (hb : Seg.break ∉ d ∧ Seg.leanpub ∉ d) : process behind text = .val (d.flatMap Seg.html) := by
  refine C44_exact_partial text behind d hd h0 hi hs ?_
  have h1 := reads_small_html hd hl fun e he => ⟨fun h => hb.1 (h ▸ he), fun h => hb.2 (h ▸ he)⟩
  have h2 : d ≠ [] := by
    rintro rfl
    exact hne (reads_source hd).symm
  have := List.length_pos_iff.2 h2
  omega

/-- **C44**: text without markers stays as it is. -/
theorem C44_unmarked_partial (text behind : Bytes) (hne : text ≠ []) (h0 : 0 ∉ text) (hi : ¬ b!"{index}" <:+ text)
    (h1 : c!"^" ∉ text) (h2 : ¬ b!"<!--" <:+: text) (h3 : ¬ b!"{::pagebreak /}" <:+: text) :
    process behind text = .val text := by
  have key : ∀ (s before : Bytes), c!"^" ∉ s → ¬ b!"<!--" <:+: s → ¬ b!"{::pagebreak /}" <:+: s →
      Reads before s (s.map .plain) := by
    intro s
    induction s with
    | nil => intros; exact .nil
    | cons c t ih =>
      intro before h1 h2 h3
      refine .plain ?_ (ih _ (by simp at h1; exact h1.2) (fun h => h2 (h.trans (List.suffix_cons _ _).isInfix))
        (fun h => h3 (h.trans (List.suffix_cons _ _).isInfix)))
      intro e after he hm
      cases e with
      | plain c => exact hm
      | block ws nl => rw [he] at h1; simp [Seg.source] at h1
      | «break» => exact h2 (by rw [he]; exact ⟨[], b!"BREAK-->" ++ after, rfl⟩)
      | leanpub => exact h3 (by rw [he]; exact ⟨[], after, rfl⟩)
      | pause ds => exact h2 (by rw [he]; exact ⟨[], b!"PAUSE:" ++ ds ++ b!"-->" ++ after, by simp [Seg.source]⟩)
  have hp := key text [] h1 h2 h3
  have hh : (text.map Seg.plain).flatMap Seg.html = text := by
    rw [List.flatMap_map]
    show text.flatMap (fun c => [c]) = text
    simp
  rw [C44_no_page_break_partial text behind _ hp hne h0 hi (fun h => h1 (List.mem_of_getLast? h)) (by simp) (by simp), hh]

/-- **C44 is false as stated**: in a short text the page break leaves too little room for the rest, and the
terminator is written behind the buffer. -/
theorem C44_page_break_overflow :
    process [] b!"Slide one\n\n<!--BREAK-->\n\nSlide two, with some text\n" = .ub := by decide +kernel

/-- … or text between page breaks is lost: only 2 of 59 bytes are left. -/
theorem C44_lost_text :
    process [] (b!"<!--BREAK--><!--BREAK-->" ++ List.replicate 59 c!"x" ++ b!"<!--BREAK-->") =
      .val (Spec.pageBreak ++ Spec.pageBreak ++ b!"xx" ++ Spec.pageBreak) := by decide +kernel

/-- **C44 is false as stated**: after `{index}` at the end of a text, the memory behind the text is read, and
what is found there becomes part of the document. -/
theorem C44_index_leak :
    process [] b!"a {index}" = .ub ∧
    process (b!"secret" ++ [0]) b!"a {index}" = .val b!"a <!--INDEX-->secret" := by
  constructor <;> decide +kernel

/-- **C44 is false as stated**: the empty text gets a buffer of no bytes. -/
theorem C44_empty (behind : Bytes) : process behind [] = .ub := by
  unfold process
  have : ([] : Bytes).length + 1 + behind.length = behind.length + 1 := by simp; omega
  rw [this, List.nil_append, tokens]
  rfl

example : process [] b!"a\n^  \nb <!--PAUSE:05--> {::pagebreak}" =
    .val (b!"a\n\n\n" ++ [0xE2, 0x80, 0x8B] ++ b!"\n\nb <div class=\"autoscroll-pause\" data-pause=\"5\"></div> {::pagebreak}") := by
  rw [C44_exact_partial (d := [.plain c!"a", .plain c!"\n", .block b!"  " true] ++ b!"b ".map .plain ++ [.pause b!"05"] ++ b!" {::pagebreak}".map .plain)]
  · decide +kernel
  · have hp : ∀ (s before : Bytes) c t, s = c :: t → c ≠ c!"^" → ¬ b!"<!--" <+: s → ¬ b!"{::pagebreak /}" <+: s →
        ∀ e after, c :: t = e.source ++ after → ¬ Marks before e after := by
      rintro s before c t rfl h1 h2 h3 e after he hm
      cases e with
      | plain c => exact hm
      | block ws nl => simp [Seg.source] at he; exact h1 he.1
      | «break» => exact h2 (by rw [he]; exact ⟨b!"BREAK-->" ++ after, rfl⟩)
      | leanpub => exact h3 (by rw [he]; exact ⟨after, rfl⟩)
      | pause ds => exact h2 (by rw [he]; exact ⟨b!"PAUSE:" ++ ds ++ b!"-->" ++ after, by simp [Seg.source]⟩)
    have hw : ∀ (s t before : Bytes) d, c!"^" ∉ s → c!"<" ∉ s → ¬ b!"{::pagebreak /}" <:+: s ++ t →
        Reads (before ++ s) t d → Reads before (s ++ t) (s.map .plain ++ d) := by
      intro s t
      induction s with
      | nil => intro before d _ _ _ h; simpa using h
      | cons c s ih =>
        intro before d h1 h2 h3 h
        simp at h1 h2
        refine .plain (hp _ _ c (s ++ t) rfl (fun h => h1.1 h.symm) ?_ (fun h => h3 h.isInfix)) ?_
        · intro h; simp at h; exact h2.1 h.1
        · exact ih _ _ h1.2 h2.2 (fun h => h3 (h.trans (List.suffix_cons _ _).isInfix)) (by simpa using h)
    refine hw b!"a\n" (b!"^  \n" ++ (b!"b " ++ (b!"<!--PAUSE:05-->" ++ (b!" {::pagebreak}" ++ [])))) [] _ (by decide) (by decide) (by decide) ?_
    refine Reads.marker (e := .block b!"  " true) ⟨.inr ⟨b!"a", [], rfl, by simp [Blanks]⟩, ?_, by simp⟩ ?_
    · simp [Blanks]
    refine hw b!"b " _ _ _ (by decide) (by decide) (by decide) ?_
    refine Reads.marker (e := .pause b!"05") (by simp only [Marks]; decide) ?_
    exact hw b!" {::pagebreak}" [] _ _ (by decide) (by decide) (by decide) .nil
  · decide
  · decide
  · intro ds h; simp at h; subst h; decide
  · decide +kernel

/-! ### C76 -/

/-- **C76 is false as stated**: `{index}` is left alone wherever text follows (other markers aside). -/
theorem C76_index_kept (a b behind : Bytes) (hb : ¬ b!"{index}" <:+ a ++ b!"{index}" ++ b)
    (h0 : 0 ∉ a ++ b!"{index}" ++ b) (h1 : c!"^" ∉ a ++ b!"{index}" ++ b) (h2 : ¬ b!"<!--" <:+: a ++ b!"{index}" ++ b)
    (h3 : ¬ b!"{::pagebreak /}" <:+: a ++ b!"{index}" ++ b) :
    process behind (a ++ b!"{index}" ++ b) = .val (a ++ b!"{index}" ++ b) :=
  C44_unmarked_partial _ behind (by simp) h0 hb h1 h2 h3

example : ¬ b!"{index}" <:+ b!"Index:\n\n" ++ b!"{index}" ++ b!"\n" := by decide

/-- **C76**, partial: at the very end it is replaced, if the memory behind the text happens to hold a NUL. -/
theorem C76_index_end_partial (rest : Bytes) : process (0 :: rest) b!"the index: {index}" = .val b!"the index: <!--INDEX-->" := by
  unfold process
  have : b!"the index: {index}".length + 1 + (0 :: rest).length = rest.length + 20 := by simp; omega
  rw [this]
  simp [tokens, lineStart, lineEnd]
  rfl

end Verif.Markers
