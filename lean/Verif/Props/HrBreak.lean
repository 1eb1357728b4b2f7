/-
Horizontal rules as page breaks: C113.
-/
import Verif.Proof.HrBreak

namespace Verif.HrBreak
open Spec

/-- C113: whatever the page, it can be cut at its rules in one way, so the next theorem says what happens to it. -/
theorem C113_cut (html : Bytes) : ∃ l tail, html = page l tail ∧ Cut l tail := cut_exists html

/-- C113: every rule becomes a page break and everything between the rules stays. No store is out of bounds. -/
theorem C113_rules (l : List (Bytes × Bytes)) (tail : Bytes) (h : Cut l tail) : replace (page l tail) = .val (broken l tail) :=
  replace_page l tail h

example : Cut [(b!"<p>a</p>\n", b!" /"), (b!"\n<p>b</p>\n", b!" class=\"x\"")] b!"\n<p>c <hr" := by
  refine ⟨by decide +kernel, ?_⟩
  intro a b h hg
  have h1 := congrArg List.length h
  simp at h1
  match a, h with
  | [_, _, _, _, _, _], h => simp at h; rw [h.2.2.2.2.2.2] at hg; simp at hg
  | [], h => simp at h
  | [_], h => simp at h
  | [_, _], h => simp at h
  | [_, _, _], h => simp at h
  | [_, _, _, _], h => simp at h
  | [_, _, _, _, _], h => simp at h
  | _ :: _ :: _ :: _ :: _ :: _ :: _ :: a, _ => simp at h1; omega

/-- C113: a complete rule is never left in the page. -/
theorem C113_gone {html out : Bytes} (h : replace html = .val out) : ∀ a b, out = a ++ b!"<hr" ++ b → c!">" ∉ b := by
  obtain ⟨l, tail, rfl, hc⟩ := cut_exists html
  rw [replace_page l tail hc] at h
  injection h with h
  subst h
  exact broken_gone hc

/-- C113: a second run changes nothing. -/
theorem C113_twice {html out : Bytes} (h : replace html = .val out) : replace out = .val out :=
  replace_page [] out ⟨by simp, C113_gone h⟩

/-- C113 is false for what only looks like a rule: elements whose name begins with `hr`, and rules in comments, are
replaced too; the end of a rule is taken to be a `>` in an attribute. -/
theorem C113_lookalike : replace (b!"<hr-line>") = .val pageBreak ∧
    replace b!"<!-- <hr> -->" = .val (b!"<!-- " ++ pageBreak ++ b!" -->") ∧
    replace b!"<hr title=\"a > b\">" = .val (pageBreak ++ b!" b\">") ∧ replace b!"<HR>" = .val b!"<HR>" := by decide +kernel

end Verif.HrBreak
