/-
Removing separator rows from tables: C114.
-/
import Verif.Proof.SepRows

namespace Verif.SepRows
open Spec

/-- C114: whatever the page, no access is out of bounds and only whole rows are removed. -/
theorem C114_rows (html : Bytes) : ∃ out, removeRows html = .val out ∧ Less html out :=
  ⟨_, removeRows_eq html, go_less _ _ _ (Nat.le_refl _)⟩

/-- C114: a page without tables stays as it is. -/
theorem C114_outside {html : Bytes} (h : plainOut html) : removeRows html = .val html := by
  rw [removeRows_eq]
  have h1 := run_page [] html (by simp) h
  have h2 : page [] html = html := rfl
  rw [h2] at h1
  have h3 : go html.length false html = run false html := rfl
  rw [h3]
  generalize run false html = o at h1
  cases h1
  rfl

example : plainOut b!"<p>a</p><tr><td>-</td></tr>" := by unfold plainOut; decide +kernel

/-- C114 for pages of any number of well-formed tables: exactly the rows all of whose cells are separators are removed;
a row with a cell that is not stays, and so does everything else. -/
theorem C114_partial (l : List (Bytes × Table)) (tail : Bytes) (h : ∀ x ∈ l, plainOut x.1 ∧ x.2.Ok) (ht : plainOut tail) :
    ∃ out, removeRows (page l tail) = .val out ∧ Clean l tail out :=
  ⟨_, removeRows_eq _, run_page l tail h ht⟩

def sample : Table := ⟨true, [(b!"class=\"x\">\n<thead>\n", ⟨[(b!"\n", ⟨true, b!" align=\"left\"", b!"A &amp; <em>B</em>"⟩)], b!"\n"⟩),
  (b!"\n</thead>\n<tbody>\n", ⟨[(b!"\n", ⟨false, b!"", [0xE2, 0x80, 0x94]⟩)], b!"\n"⟩)], b!"\n</tbody>\n"⟩

example : plainOut b!"<p>a</p>\n" ∧ sample.Ok := by
  unfold plainOut Table.Ok Row.Ok Cell.Ok plainIn
  decide +kernel

example : removeRows (page [(b!"<p>a</p>\n", sample)] b!"\n") = .val (b!"<p>a</p>\n<table class=\"x\">\n<thead>\n<tr>\n" ++
    b!"<th align=\"left\">A &amp; <em>B</em></th>\n</tr>\n</thead>\n<tbody>\n\n</tbody>\n</table>\n") := by decide +kernel

/-- C114: what a separator is. -/
theorem C114_dashy {s : Bytes} (z : Bytes) (h : ∀ x ∈ [b!"<td", b!"<th", b!"</td>", b!"</th>"], ¬ x <:+: s) :
    onlyDashes s (c!"<" :: z) = true ↔ Dashy s := onlyDashes_iff z h

example : onlyDashes b!" :--: " b!"</td>" = true ∧ onlyDashes b!" " b!"</td>" = false ∧ onlyDashes b!"-1" b!"</td>" = false := by
  decide +kernel

/-- C114 is false for cells without a closing tag, which HTML allows: the row is removed with what it holds. -/
theorem C114_unclosed : removeRows b!"<table><tr><td>data</tr></table>" = .val b!"<table></table>" := by decide +kernel

/-- C114 is false for data made of dashes and colons: a row of the reader is removed. -/
theorem C114_data : removeRows b!"<table><tr><td>a</td></tr><tr><td>-</td></tr></table>" =
    .val b!"<table><tr><td>a</td></tr></table>" := by decide +kernel

end Verif.SepRows
