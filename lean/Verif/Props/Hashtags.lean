/- C213 - C215: hashtags and proofreading (src/apex.c). -/
import Verif.Proof.Hashtags
import Verif.Proof.Proofread

namespace Verif.Hashtags
open Spec

theorem hashtags_parts (styled : Bool) (text : Bytes) :
    hashtags styled text = .val (shown (if styled then b!"mkstyledtag" else b!"mkhashtag") (parts text.length none ⟨true, 0, false⟩ text)) := by
  obtain ⟨k, h1, h2⟩ := tags_parts (if styled then b!"mkstyledtag" else b!"mkhashtag") text.length ⟨[], text.length * 3 + 1⟩ none ⟨true, 0, false⟩ text (by simp)
  unfold hashtags
  rw [h1]
  simp only [C.val_bind]
  unfold Buf.finish
  rw [if_pos h2]
  simp

/-! ### C213: hashtags -/

/-- The text is cut into tags and other bytes.  Each tag is put in a span, as it is and whole, and all other bytes are kept.  Tags are at the start or behind white space and not in
indented lines, and no tag is left out.  Missing: fenced code, code in the line, definitions of links and attributes of HTML are no place for a tag either (`C213_fence`, `C213_reference`, `C213_attribute`). -/
theorem C213_tags_partial (styled : Bool) (text : Bytes) :
    ∃ ps : List Part, text = Spec.source ps ∧ hashtags styled text = .val (shown (if styled then b!"mkstyledtag" else b!"mkhashtag") ps) ∧
      ∀ a p b, ps = a ++ p :: b →
        (p.tag = true → Place (Spec.source a) ∧ WholeTag p.text (Spec.source b)) ∧
        (p.tag = false → (∃ c, p.text = [c]) ∧ ¬(Place (Spec.source a) ∧ StartsTag (p.text ++ Spec.source b))) := by
  have h := parts_right text.length [] ⟨true, 0, false⟩ text (Nat.le_refl _) inv_start
  refine ⟨_, h.1.symm, hashtags_parts styled text, ?_⟩
  intro a p b hab
  have := h.2 a p b hab
  unfold Right at this
  rw [List.nil_append] at this
  constructor
  · intro ht
    rw [if_pos ht] at this; exact this
  · intro ht
    rw [if_neg (by simp [ht])] at this; exact this

example : hashtags false b!"see #a-b, #c#d x#e # f\n    #code\n" = .val b!"see <span class=\"mkhashtag\">#a-b</span>, <span class=\"mkhashtag\">#c#</span>d x#e # f\n    #code\n" := by decide +kernel
example : hashtags true b!"#1" = .val b!"<span class=\"mkstyledtag\">#1</span>" := by decide +kernel

/-- In fenced code a line of C is changed. -/
theorem C213_fence : hashtags false b!"```\n#include <a.h>\n```\n" = .val b!"```\n<span class=\"mkhashtag\">#include</span> <a.h>\n```\n" := by decide +kernel

/-- A link defined to lead to an anchor leads nowhere. -/
theorem C213_reference : hashtags false b!"[a]: #b\n" = .val b!"[a]: <span class=\"mkhashtag\">#b</span>\n" := by decide +kernel

/-- A colour in an attribute ends the attribute. -/
theorem C213_attribute : hashtags false b!"<p style=\"color: #fff\">\n" = .val b!"<p style=\"color: <span class=\"mkhashtag\">#fff\"></span>\n" := by decide +kernel

/-! ### C214: proofreading -/

/-- Text of bytes which are no marks, of passages and of code, as one writes it, becomes CriticMarkup, and code is kept. -/
theorem C214_tidy (ps : List Piece) (h : ∀ p ∈ ps, p.Tidy) (ha : Apart ps) : proofread (ps.flatMap Piece.source) = .val (ps.flatMap Piece.critic) := by
  rw [proofread_pieces]
  have := pieces_tidy ps (src ps).length (Nat.le_refl _) h ha
  exact congrArg C.val this

/-- Any text without backticks is cut into passages and other bytes.  A passage goes up to the next mark of its kind; all other bytes are kept, and no passage is left out.  Missing: backticks which
are not in pairs of one or three (`C214_four`); marks in code are ends of passages (`C214_across`), and lines of marks are passages (`C214_heading`, `C214_tildes`). -/
theorem C214_marks_partial (text : Bytes) (h : c!"`" ∉ text) :
    ∃ ps : List Piece, text = ps.flatMap Piece.source ∧ proofread text = .val (ps.flatMap Piece.critic) ∧
      ∀ a p b, ps = a ++ p :: b →
        (∃ c, p = .byte c ∧ ¬StartsMark (c :: b.flatMap Piece.source)) ∨ (∃ s, p = .high s ∧ ¬b!"==" <:+: s ++ b!"=") ∨ (∃ s, p = .gone s ∧ ¬b!"~~" <:+: s ++ b!"~") := by
  have hf := pieces_fit text.length text (Nat.le_refl _) h
  refine ⟨_, hf.1.symm, proofread_pieces text, ?_⟩
  intro a p b hab
  have := hf.2 a p b hab
  cases p with
  | byte c => exact .inl ⟨c, rfl, this⟩
  | high s => exact .inr (.inl ⟨s, rfl, this⟩)
  | gone s => exact .inr (.inr ⟨s, rfl, this⟩)
  | code s => exact this.elim
  | fence s => exact this.elim

/-- A text with all kinds of pieces. -/
def sample : List Piece := [.high b!"a b", .byte c!" ", .gone b!"c", .byte c!" ", .code b!"x == y", .byte c!"\n", .fence b!"\n~~~\n", .byte c!"\n"]

example : (∀ p ∈ sample, p.Tidy) ∧ Apart sample := by
  refine ⟨?_, by simp [sample, Apart, Piece.ticks]⟩
  intro p hp
  simp only [sample, List.mem_cons, List.not_mem_nil, or_false] at hp
  rcases hp with rfl | rfl | rfl | rfl | rfl | rfl | rfl | rfl <;> simp only [Piece.Tidy] <;> decide
example : proofread b!"==a b== ~~c~~ `x == y`\n```\n~~~\n```\n" = .val b!"{==a b==} {--c--} `x == y`\n```\n~~~\n```\n" := by decide +kernel

/-- The line below a heading is taken for marks. -/
theorem C214_heading : proofread b!"Title\n=====\n" = .val b!"Title\n{====}=\n" := by decide +kernel

/-- Code between tildes is taken for a passage to delete. -/
theorem C214_tildes : proofread b!"~~~\ncode\n~~~\n" = .val b!"{--~\ncode\n--}~\n" := by decide +kernel

/-- A passage ends in code. -/
theorem C214_across : proofread b!"a == b, `c == d`\n" = .val b!"a {== b, `c ==} d`\n" := by decide +kernel

/-- Behind code between four backticks no passage is found. -/
theorem C214_four : proofread b!"````\na\n````\n==b==\n" = .val b!"````\na\n````\n==b==\n" := by decide +kernel

/-! ### C215: both stay in their buffers -/

/-- Hashtags: the buffer is made larger in time. -/
theorem C215_tags (styled : Bool) (text : Bytes) : hashtags styled text ≠ .ub := by
  rw [hashtags_parts]
  intro h; cases h

/-- Proofreading: though two bytes too few are asked for, the buffer holds all, as a text grows by half at most. -/
theorem C215_proofread (text : Bytes) : proofread text ≠ .ub ∧ ∀ out, proofread text = .val out → 2 * out.length ≤ 3 * text.length := by
  rw [proofread_pieces]
  refine ⟨fun h => (by cases h), ?_⟩
  intro out h
  simp only [C.val.injEq] at h
  rw [← h]
  exact crit_length text.length _ text

/-- With a buffer just as large as asked for, a passage is written behind its end. -/
theorem C215_short : pair b!"{==" b!"==}" ⟨[], 10⟩ b!"abcde" = .ub := by decide +kernel

end Verif.Hashtags
