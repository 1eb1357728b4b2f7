import Verif.Proof.InlineNotes
import Verif.Proof.Plugins

namespace Verif.InlineNotes

/-! ### C121: inline footnotes -/

/-- C121: in a document of texts, references, footnotes and code, every inline footnote becomes a reference to a definition of its text,
the definitions stand at the end, and nothing else changes, as long as the result is less than three times as long as the document. -/
theorem C121_partial (ps : List Piece) (h : ∀ p ∈ ps, p.Ok) (ha : Apart ps)
    (hr : (expected ps).length < 3 * (ps.flatMap Piece.source).length) :
    process (ps.flatMap Piece.source) = .val (expected ps) := process_page ps h ha hr

/-- C121, with a condition on the footnotes themselves: none is shorter than the number of the last one by digits and two, and there are
two bytes of other text. -/
theorem C121_long_partial (ps : List Piece) (h : ∀ p ∈ ps, p.Ok) (ha : Apart ps)
    (hn : ∀ t ∈ notes ps, 2 + (number (notes ps).length).length ≤ t.length) (ho : 2 ≤ outside ps) :
    process (ps.flatMap Piece.source) = .val (expected ps) := process_page ps h ha (room ps hn ho)

/-- Different footnotes get different labels. -/
theorem C121_labels (i j : Nat) (h : number i = number j) : i = j := by
  rw [← decimal_number, ← decimal_number] at h
  have := congrArg Plugins.atoi h
  rw [Plugins.atoi_decimal, Plugins.atoi_decimal] at this
  exact Int.ofNat_inj.1 this

/-- A document with every kind of piece. -/
def sample : List Piece := [.text b!"See [it](u)", .caret b!"a [b](c) d", .text b!" and ", .ref b!"x", .spaced b!"more text", .text b!" ",
  .span b!"x^[1]", .text b!"\n\n", .fence c!"`" b!"c\n^[2]\n", .fence c!"~" b!"\n[^a b]\n", .ref b!"x", .text b!": y\n"]

theorem sample_ok : (∀ p ∈ sample, p.Ok) ∧ Apart sample := by
  refine ⟨?_, by simp [sample, Apart]⟩
  intro p hp
  simp only [sample, List.mem_cons, List.not_mem_nil, or_false] at hp
  rcases hp with rfl | rfl | rfl | rfl | rfl | rfl | rfl | rfl | rfl | rfl | rfl | rfl
  all_goals simp only [Piece.Ok, Plain]
  · decide
  · exact .other (by decide) (by decide) <| .other (by decide) (by decide) <| .group (a := b!"b") (t := b!"(c) d")
      (.other (by decide) (by decide) .nil) <| .other (by decide) (by decide) <| .other (by decide) (by decide) <|
      .other (by decide) (by decide) <| .other (by decide) (by decide) <| .other (by decide) (by decide) .nil
  all_goals decide

example : process (sample.flatMap Piece.source) = .val (expected sample) :=
  C121_partial _ sample_ok.1 sample_ok.2 (by decide +kernel)

example : expected sample = b!"See [it](u)[^fn1] and [^x][^fn2] `x^[1]`\n\n```c\n^[2]\n```\n~~~\n[^a b]\n~~~\n[^x]: y\n\n\n[^fn1]: a [b](c) d\n[^fn2]: more text\n" := by
  decide +kernel

/-- C121 does not hold: the text of a footnote is lost in a short document. -/
theorem C121_lost_fails : process b!"^[abc]" = .val b!"[^fn1]\n\n[^fn1]: \n" := by decide +kernel

/-- C121 does not hold: an empty footnote writes behind the end of the buffer. -/
theorem C121_overflow : process b!"^[]" = .ub := by decide +kernel

/-- C121 does not hold: so does an empty document. -/
theorem C121_empty : process [] = .ub := by decide +kernel

/-- C121 does not hold: a label of the document is defined again. -/
theorem C121_clash_fails : process b!"One[^fn1] and ^[the second].\n\n[^fn1]: The first.\n" =
    .val b!"One[^fn1] and [^fn1].\n\n[^fn1]: The first.\n\n\n[^fn1]: the second\n" := by decide +kernel

/-! ### C122: footnotes in code -/

/-- C122 (partial): code between single backticks and blocks fenced with three backticks or tildes stay as they are, wherever they stand
and whatever footnotes are around them. -/
theorem C122_partial (p : Piece) (hp : (∃ t, p = .span t) ∨ ∃ f t, p = .fence f t) (before behind : List Piece)
    (h : ∀ q ∈ before ++ p :: behind, q.Ok) (ha : Apart (before ++ p :: behind))
    (hr : (expected (before ++ p :: behind)).length < 3 * ((before ++ p :: behind).flatMap Piece.source).length) :
    ∃ u v, process ((before ++ p :: behind).flatMap Piece.source) = .val (u ++ p.source ++ v) ∧ u = body 0 before := by
  rw [process_page _ h ha hr, expected]
  have hb : ∀ k (a b : List Piece), body k (a ++ b) = body k a ++ body (k + (notes a).length) b := by
    intro k a b
    induction a generalizing k with
    | nil => simp [body, notes]
    | cons q a ih => cases q <;> simp [body, notes, ih, Nat.add_assoc, Nat.add_comm 1]
  have hq : ∀ k, body k (p :: behind) = p.source ++ body k behind := by
    intro k; rcases hp with ⟨t, rfl⟩ | ⟨f, t, rfl⟩ <;> simp [body]
  rw [hb, hq]
  exact ⟨_, body (0 + (notes before).length) behind ++ _, by rw [List.append_assoc, List.append_assoc, List.append_assoc], rfl⟩

/-- C122 does not hold: code between two backticks is changed. -/
theorem C122_double_fails : process b!"Write ``^[a note]`` for a note.\n" = .val b!"Write ``[^fn1]`` for a note.\n\n\n[^fn1]: a note\n" := by
  decide +kernel

/-- C122 does not hold: a code block fenced with four tildes is changed. -/
theorem C122_tildes_fails : process b!"~~~~\n^[a note]\n~~~~\n" = .val b!"~~~~\n[^fn1]\n~~~~\n\n\n[^fn1]: a note\n" := by decide +kernel

/-- C122 does not hold: an indented code block is changed. -/
theorem C122_indented_fails : process b!"text\n\n    ^[a note]\n" = .val b!"text\n\n    [^fn1]\n\n\n[^fn1]: a note\n" := by decide +kernel

/-- C122 does not hold the other way round: behind a single backtick nothing is a footnote any more. -/
theorem C122_tick_fails : process b!"The ` key.\n\nText^[a note].\n" = .val b!"The ` key.\n\nText^[a note].\n" := by decide +kernel

end Verif.InlineNotes
