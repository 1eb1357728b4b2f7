/-
C166: bracketed spans.
-/
import Verif.Proof.Spans

namespace Verif.Spans
open Spec (Brackets Gap Def words Tidy Ref Means Spans)

/-- C166: spans become elements with their attributes, references, code and all other text stay, for every text that has such a
reading - and this is then the only one - with white space only single between the words of references, whatever is in memory behind
the attribute lists.  The result is right whenever it is shorter than the block first taken; otherwise it is right or, if it fills the
block to the last byte, the terminator is written behind it.
Missing: this terminator, attribute lists of other or longer words, code between double backticks or runs of more than three. -/
theorem C166_spans_partial {text out : Bytes} (h : Spans (Ref text) text out)
    (ht : ∀ x i, (b!"[" ++ x ++ b!"]" <:+: text) → Def text i → words i = words x → Tidy i ∧ Tidy x) (after : Bytes → Bytes) :
    (out.length < 2 * text.length → process after text = .val (if out = text then none else some out)) ∧
    (process after text = .val (if out = text then none else some out) ∨ process after text = .ub) := by
  have h1 : ∀ x, (ids (text.length + 1) [] text).any (fun i => same i x) = true → Ref text x := by
    intro x hx
    obtain ⟨i, hi, hs⟩ := List.any_eq_true.1 hx
    exact ⟨i, ids_def.1 hi, same_sound hs⟩
  have h2 : ∀ x, (b!"[" ++ x ++ b!"]" <:+: text) → Ref text x → (ids (text.length + 1) [] text).any (fun i => same i x) = true := by
    rintro x hx ⟨i, hi, hw⟩
    have := ht x i hx hi hw
    exact List.any_eq_true.2 ⟨i, ids_def.2 hi, same_complete this.1 this.2 hw⟩
  obtain ⟨b, e1, e2, e3⟩ := loop_spans (after := after) h1 h h2 (text.length + 1) ⟨text.length * 2, []⟩ (by omega) (by simp)
  rw [List.nil_append] at e2
  obtain ⟨_, _, hc⟩ := e3 (by simp)
  unfold process
  rw [e1]
  simp only [C.bind]
  by_cases hf : b.out.length < b.cap
  · rw [finish_val hf, e2]
    exact ⟨fun _ => rfl, Or.inl rfl⟩
  · have hu : finish b.cap b.out = .ub := by
      unfold finish
      rw [if_neg hf]
    rw [hu]
    refine ⟨fun hl => ?_, Or.inr rfl⟩
    rw [e2] at hc hf
    have := hc (by simp only []; omega)
    rw [this] at hf
    simp only [] at hf
    omega

/-- The text of the example. -/
def sample : Bytes := b!"[a [b]]{.c}, `[a]{.b}` [R] {.x}\n[r]: /u"

/-- The hypotheses are met: a span with a bracket inside, code, a reference, a definition. -/
theorem C166_case : Spans (Ref sample) sample b!"<span markdown=\"span\"class=\"c\">a [b]</span>, `[a]{.b}` [R] {.x}\n[r]: /u" ∧
    ∀ x i, (b!"[" ++ x ++ b!"]" <:+: sample) → Def sample i → words i = words x → Tidy i ∧ Tidy x := by
  have ref : ∀ x, Ref sample x ↔ ∃ i ∈ ids (sample.length + 1) [] sample, words i = words x := fun x =>
    ⟨fun ⟨i, h, e⟩ => ⟨i, ids_def.2 h, e⟩, fun ⟨i, h, e⟩ => ⟨i, ids_def.1 h, e⟩⟩
  constructor
  · have h1 : Spans (Ref sample) b!": /u" b!": /u" :=
      .char (by decide) (by decide) (.char (by decide) (by decide) (.char (by decide) (by decide) (.char (by decide) (by decide) .nil)))
    have h2 : Spans (Ref sample) b!"[r]: /u" b!"[r]: /u" :=
      .other (other_ref (by
        intro x q h
        simp [close] at h
        obtain ⟨rfl, rfl⟩ := h
        intro _
        exact (ref _).2 (by decide +kernel))) (.char (c := c!"r") (by decide) (by decide) (.char (c := c!"]") (by decide) (by decide) h1))
    have h3 : Spans (Ref sample) b!"] {.x}\n[r]: /u" b!"] {.x}\n[r]: /u" :=
      .char (by decide) (by decide) (.char (by decide) (by decide) (.char (by decide) (by decide) (.char (by decide) (by decide)
        (.char (by decide) (by decide) (.char (by decide) (by decide) (.char (by decide) (by decide) h2))))))
    have h4 : Spans (Ref sample) b!"[R] {.x}\n[r]: /u" b!"[R] {.x}\n[r]: /u" :=
      .other (other_ref (by
        intro x q h
        simp [close] at h
        obtain ⟨rfl, rfl⟩ := h
        intro _
        exact (ref _).2 (by decide +kernel))) (.char (c := c!"R") (by decide) (by decide) h3)
    have h5 : Spans (Ref sample) b!", `[a]{.b}` [R] {.x}\n[r]: /u" b!", `[a]{.b}` [R] {.x}\n[r]: /u" :=
      .char (by decide) (by decide) (.char (by decide) (by decide) (.code (x := b!"[a]{.b}") (by simp) (by decide) (.char (by decide) (by decide) h4)))
    refine .span (x := b!"a [b]") (w := []) (a := b!".c") (h := b!"class=\"c\"") (s := b!", `[a]{.b}` [R] {.x}\n[r]: /u") ?_ ?_ (by decide) ?_ ?_ h5
    · exact .char (by decide) (by decide) (.char (by decide) (by decide) (.group (a := b!"b") (.char (by decide) (by decide) .nil) .nil))
    · intro c hc; simp at hc
    · rw [ref]
      decide +kernel
    · refine ⟨[.cls b!"c"], [], [], ?_, by decide, .nil, by decide, rfl, by decide⟩
      exact .one (sep := []) (i := .cls b!"c") (fin := []) (fun c h => by simp at h) ⟨by simp, by unfold Ial.Spec.Free; decide⟩ (fun c h => by simp at h) (by simp)
  · have tidy : Tidy sample := tidy_check (by decide +kernel)
    have inner : ∀ {a b c : Bytes}, Tidy (a ++ b ++ c) → Tidy b := by
      intro a b c h x y u v e
      exact h (a ++ x) (y ++ c) u v (by rw [e]; simp)
    intro x i hx hi hw
    constructor
    · obtain ⟨l, w, r, ⟨_, p, q, e, _⟩, e', _⟩ := hi
      rw [e, e', show p ++ (w ++ b!"[" ++ i ++ b!"]:" ++ r) ++ q = (p ++ w ++ b!"[") ++ i ++ (b!"]:" ++ r ++ q) by simp] at tidy
      exact inner tidy
    · obtain ⟨p, q, e⟩ := hx
      rw [← e, show p ++ (b!"[" ++ x ++ b!"]") ++ q = (p ++ b!"[") ++ x ++ (b!"]" ++ q) by simp] at tidy
      exact inner tidy

/-- What becomes of it. -/
theorem C166_example (after : Bytes → Bytes) : process after sample = .val (some b!"<span markdown=\"span\"class=\"c\">a [b]</span>, `[a]{.b}` [R] {.x}\n[r]: /u") :=
  (C166_spans_partial C166_case.1 C166_case.2 after).1 (by decide +kernel)

/-- The terminator is written behind the block: a span, and 25 bytes. -/
theorem C166_room_refuted : process (fun _ => []) b!"[a]{.b} is a span with more text" = .ub ∧ process (fun _ => []) [] = .ub := by decide +kernel

/-- Code is changed: between double backticks, and between tildes. -/
theorem C166_code_refuted : process (fun _ => []) b!"Write ``[a]{.b}`` for a span." = .val (some b!"Write ``<span markdown=\"span\"class=\"b\">a</span>`` for a span.") ∧
    process (fun _ => []) b!"~~~\n[a]{.b}\n~~~\n" = .val (some b!"~~~\n<span markdown=\"span\"class=\"b\">a</span>\n~~~\n") := by decide +kernel

/-- A single backtick makes all the rest code; so does the end of a block with four backticks. -/
theorem C166_tick_refuted : process (fun _ => []) b!"A ` and\n\n[a]{.b} is not changed." = .val none ∧
    process (fun _ => []) b!"````\nx\n````\n\n[a]{.b} is not changed." = .val none := by decide +kernel

/-- A formula loses its argument. -/
theorem C166_math_refuted : process (fun _ => [0]) b!"The root is $\\sqrt[3]{x}$ as we know." = .val (some b!"The root is $\\sqrt<span markdown=\"span\">3</span>$ as we know.") := by
  decide +kernel

/-- A reference with more white space than its definition is taken for a span. -/
theorem C166_words_refuted : process (fun _ => []) b!"[a  b]{.c} is a reference.\n\n[a b]: /url" =
    .val (some b!"<span markdown=\"span\"class=\"c\">a  b</span> is a reference.\n\n[a b]: /url") ∧ words b!"a  b" = words b!"a b" := by decide +kernel

end Verif.Spans
