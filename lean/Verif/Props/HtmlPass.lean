/-
C36 (base header level), C37 (shifting the headers of merged documents), C38 (newlines between tags),
C39 (white space in tags), C40 (blank lines in tables), C41 (empty paragraphs).
-/
import Verif.Proof.HtmlPass

namespace Verif.HtmlPass

open Spec

/-! ### C36 -/

theorem leveled_one {s o : Bytes} (h : Leveled 1 s o) : o = s := by
  induction h with
  | nil => rfl
  | @openTag l a t o hl _ _ ih => rw [ih, show min 6 (l + 1 - 1) = l by have := hl.2; omega]
  | @closeTag l t o hl _ ih => rw [ih, show min 6 (l + 1 - 1) = l by have := hl.2; omega]
  | other _ _ ih => rw [ih]

/-- For base levels 1 to 6 there is exactly one text in which every heading tag has been given its new level
and all else is kept; it is the result, and as long as the input. Missing: closing tags written with white
space before the `>`, and base levels above 6 (`C36_closing`, `C36_above`). -/
theorem C36_levels_partial (b : Nat) (h1 : 1 ≤ b) (h6 : b ≤ 6) (html : Bytes) :
    ∃ out, adjust b html = .val out ∧ Leveled b html out ∧ (∀ o, Leveled b html o → o = out) ∧
      out.length = html.length := by
  obtain ⟨o, e, h⟩ := adjustLoop_spec b h1 html.length html (Nat.le_refl _) (html.length + 1024) [] (by simp)
  refine ⟨o, ?_, h, fun o' h' => h.unique h', h.length⟩
  unfold adjust
  rw [if_neg (by omega)]
  by_cases hb : b = 1
  · subst hb
    rw [if_pos (by rfl), leveled_one h]
  · rw [if_neg (by omega), Int.toNat_natCast, e]
    rfl

/-- Outside 1 to 6 nothing is touched. -/
theorem C36_other_levels (b : Int) (h : b < 1 ∨ 6 < b) (html : Bytes) : adjust b html = .val html := by
  unfold adjust
  rw [if_pos (by omega)]

/-- A closing tag may have white space before its `>`; such a tag keeps its level while its opening tag is
shifted, so the heading no longer matches. -/
theorem C36_closing : adjust 2 b!"<h1>a</h1 >" = .val b!"<h2>a</h1 >" := by decide +kernel

/-- A base level of 7 would make every heading a sixth-level one. -/
theorem C36_above : adjust 7 b!"<h1>a</h1>" = .val b!"<h1>a</h1>" := by decide +kernel

-- a heading with attributes, one that is clamped, and something that only looks like a heading
example : adjust 3 b!"<h1 id=\"x\">a</h1><h5>b</h5><hr><h7>" =
    .val b!"<h3 id=\"x\">a</h3><h6>b</h6><hr><h7>" := by decide +kernel

/-! ### C37 -/

theorem hdr_header (s : Bytes) : hdr true s = true ↔ HasHeader s := by
  rw [hdr_iff]; simp [HasHeader]

/-- Indenting by one level adds one `#` to every line that starts with one, whatever the document; no
level leaves it alone; and a document without such lines never changes. Missing: further levels. -/
theorem C37_shift_partial (content : Bytes) (h0 : (0 : Byte) ∉ content) :
    shift content 0 = .val (shifted 0 true content) ∧ shift content 1 = .val (shifted 1 true content) ∧
      ∀ n, ¬ HasHeader content → shift content n = .val (shifted n true content) := by
  have hz : shifted 0 true content = content := by
    have : ∀ (s : Bytes) st, shifted 0 st s = s := by
      intro s
      induction s with
      | nil => intro st; rfl
      | cons c t ih => intro st; rw [shifted, ih]; simp
    exact this _ _
  refine ⟨by rw [hz, shift_zero], by rw [shift_succ _ _ h0, if_neg (by simp)], ?_⟩
  intro n hn
  have hh : hdr true content = false := by
    rw [← Bool.not_eq_true]; exact fun h => hn ((hdr_header _).1 h)
  rw [shifted_same n _ _ hh]
  cases n with
  | zero => rw [shift_zero]
  | succ n => rw [shift_succ _ _ h0, if_neg (by simp [hh]), shifted_same 1 _ _ hh]

/-- Every document with a header overruns the buffer when indented by two levels or more: the second level
is done in place and reads the `#` it has just written. -/
theorem C37_two_levels (content : Bytes) (h0 : (0 : Byte) ∉ content) (hh : HasHeader content) (n : Nat)
    (hn : 2 ≤ n) : shift content n = .ub := by
  obtain ⟨m, rfl⟩ : ∃ m, n = m + 1 := ⟨n - 1, by omega⟩
  rw [shift_succ _ _ h0, if_pos ⟨(hdr_header _).2 hh, by omega⟩]

example : shift b!"# a\nb # c\n## d" 1 = .val b!"## a\nb # c\n### d" := by decide +kernel
example : HasHeader b!"text\n# a" := .inr ⟨b!"text", b!" a", rfl⟩
example : shifted 2 true b!"# a\nb # c\n## d" = b!"### a\nb # c\n#### d" := by decide +kernel

/-! ### C38 -/

/-- Unless the text ends in an odd number of `>`, there is exactly one text with the gaps between tags
collapsed; it is the result. It differs from the input only in white space between `>` and `<`, and is not
longer. Missing: the other texts (`C38_reads_past`). -/
theorem C38_gaps_partial (html : Bytes) (h : trailing html % 2 = 0) :
    ∃ out, collapse html = .val out ∧ Collapsed html out ∧ (∀ o, Collapsed html o → o = out) ∧
      OnlyGaps html out ∧ out.length ≤ html.length := by
  obtain ⟨o, e, hc⟩ :=
    (collapseLoop_spec (html.length + 1) html.length html (Nat.le_refl _) [] (by simp)).2 h
  exact ⟨o, e, hc, fun o' h' => hc.unique h', hc.onlyGaps, hc.onlyGaps.length⟩

/-- A text that ends in an odd number of `>`, as most HTML without a final newline does, is read and
written beyond its end. -/
theorem C38_reads_past (html : Bytes) (h : trailing html % 2 = 1) : collapse html = .ub :=
  (collapseLoop_spec (html.length + 1) html.length html (Nat.le_refl _) [] (by simp)).1 h

example : trailing b!"<p>a</p>" % 2 = 1 := by decide +kernel
example : trailing b!"<p>a</p>\n" % 2 = 0 := by decide +kernel
example : collapse b!"<p>a</p>\n\n \n<p> b</p> <i>c</i>\n" = .val b!"<p>a</p>\n\n<p> b</p> <i>c</i>\n" := by
  decide +kernel

/-! ### C39 -/

/-- There is exactly one text with the white space in tags cleaned and all else kept; it is the result.
A second pass changes nothing, no byte other than white space is touched, and the text does not grow. -/
theorem C39_clean (html : Bytes) :
    ∃ out, clean html = .val out ∧ Outside html out ∧ (∀ o, Outside html o → o = out) ∧
      clean out = .val out ∧
      out.filter (fun c => !isSpace c) = html.filter (fun c => !isSpace c) ∧ out.length ≤ html.length := by
  obtain ⟨o, e, h⟩ := clean_spec html
  obtain ⟨o', e', h'⟩ := clean_spec o
  refine ⟨o, e, h, fun o' h' => h.unique h', ?_, h.solid.1, h.solid.2⟩
  rw [e', h.again.unique h']

example : clean b!"a  b <p  class=\"x\"\n id=y >c  d</p >" = .val b!"a  b <p class=\"x\" id=y>c  d</p >" := by
  decide +kernel

/-! ### C40 -/

/-- There is exactly one text without the blank lines that lie inside tables and with every other line kept
in place; it is the result. -/
theorem C40_blank_lines (html : Bytes) :
    ∃ out, removeBlank html = .val out ∧ Deleted [] html out ∧ ∀ o, Deleted [] html o → o = out := by
  obtain ⟨o, e, h⟩ := blankLoop_spec (html.length + 1) html [] [] [] true false (by simp) (.inl rfl) (by simp)
    (by
      constructor
      · intro h; cases h
      · rintro ⟨a, b, h1, h2, _⟩
        simp at h1
        exact absurd h1.2 h2)
    (by simp)
  exact ⟨o, e, h, fun o' h' => h.unique h'⟩

example : removeBlank b!"a\n\n<table>\n \t\n<tr>\n\n</table>\n\nb" = .val b!"a\n\n<table>\n<tr>\n</table>\n\nb" := by
  decide +kernel

/-! ### C41 -/

/-- There is exactly one text without the paragraphs of white space and zero-width spaces and with all else
kept in order; it is the result. -/
theorem C41_paragraphs (html : Bytes) :
    ∃ out, removeEmpty html = .val out ∧ Stripped html out ∧ ∀ o, Stripped html o → o = out := by
  obtain ⟨o, e, h⟩ := paraLoop_spec (html.length + 1) html.length html [] (Nat.le_refl _) (by simp)
  exact ⟨o, e, h, fun o' h' => h.unique h'⟩

/-- A paragraph with nothing at all between its tags stays: the code asks for some content. -/
theorem C41_nothing : removeEmpty b!"<p></p>" = .val b!"<p></p>" := by decide +kernel

example : removeEmpty b!"<p>a</p><p>&#8203; \n</p><p> b</p>" = .val b!"<p>a</p><p> b</p>" := by decide +kernel

end Verif.HtmlPass
