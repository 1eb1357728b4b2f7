/-
C151: the headers of tables.
-/
import Verif.Proof.RelaxedHeads
import Verif.Model.RelaxedTables

namespace Verif.RelaxedHeads
open Spec
open SepRows.Spec (Cell Row)

/-- C151: on every page but the empty one no access is out of bounds, and all that happens is that tags of headers become
those of bodies, that an end of a header goes, with the beginning of the body behind it, and that whole headers go. -/
theorem C151_edited {html : Bytes} (h : html ≠ []) : ∃ out, convert html = .val out ∧ Edited html out ∧ out.length ≤ html.length :=
  ⟨_, convert_eq h, go_edited _ _ (Nat.le_refl _),
    (loop_eq (List.length_pos_iff.2 h) html.length (html.length * 2) [] html (Nat.le_refl _) (by simp)
      (by have := List.length_pos_iff.2 h; omega) (by omega)).2⟩

/-- C151: a page without a header stays as it is. -/
theorem C151_plain {html : Bytes} (h : html ≠ []) (hp : plain html) : convert html = .val html := by
  rw [convert_eq h]
  have h1 := run_page html hp [] (by simp)
  have e : page [] html = html := rfl
  rw [e] at h1
  show C.val (run html) = _
  generalize run html = o at h1
  cases h1
  rfl

example : plain b!"<p>a</p><th>b</th></thead>" := by unfold plain; decide +kernel

/-- C151 for pages of any number of tables as the renderer writes them: a header without text goes; the header of a table
with a separator among the rows of its body stays; any other header, with its attributes and its text, becomes the first
row of the body; everything else stays. -/
theorem C151_partial (l : List (Bytes × Part)) (tail : Bytes) (hn : page l tail ≠ []) (h : ∀ x ∈ l, plain x.1 ∧ x.2.Ok) (ht : plain tail) :
    ∃ out, convert (page l tail) = .val out ∧ Done l tail out :=
  ⟨_, convert_eq hn, run_page tail ht l h⟩

/-- A table with a header, `a` and `b`, and the given rows. -/
def sample (a b : Bytes) (rows : List (Bytes × Row)) : Part :=
  ⟨b!"\n", ⟨[(b!"\n", ⟨true, b!"", a⟩), (b!"\n", ⟨true, b!" align=\"right\"", b⟩)], b!"\n"⟩, b!"\n", b!"\n", rows, b!"\n"⟩

def dataRow (a b : Bytes) : Bytes × Row := (b!"\n", ⟨[(b!"\n", ⟨false, b!"", a⟩), (b!"\n", ⟨false, b!" align=\"right\"", b⟩)], b!"\n"⟩)

/-- The three kinds of headers meet the conditions. -/
theorem C151_sample_ok : (sample b!"" b!" " [dataRow b!"1" b!"2"]).Ok ∧ (sample b!"A" b!"B" [dataRow b!"1" b!"2", dataRow b!"---" b!"---"]).Ok ∧
    (sample b!"A &amp; <em>x</em>" b!"" [dataRow b!"1" b!"2"]).Ok := by
  refine ⟨⟨?_, ?_, ?_, ?_, ?_, ?_, ?_, ?_⟩, ⟨?_, ?_, ?_, ?_, ?_, ?_, ?_, ?_⟩, ⟨?_, ?_, ?_, ?_, ?_, ?_, ?_, ?_⟩⟩ <;>
    first
    | decide +kernel
    | (unfold Row.Ok Cell.Ok; decide +kernel)
    | (intro x hx
       simp only [sample, List.mem_cons, List.not_mem_nil, or_false] at hx
       rcases hx with rfl | rfl <;> simp)

/-- What becomes of them, on one page. -/
theorem C151_sample : convert (page [(b!"<table>\n", sample b!"" b!" " [dataRow b!"1" b!"2"]),
      (b!"</table>\n<table>", sample b!"A" b!"B" [dataRow b!"1" b!"2", dataRow b!"---" b!"---"]),
      (b!"</table>\n<table>", sample b!"A &amp; <em>x</em>" b!"" [dataRow b!"1" b!"2"])] b!"</table>\n") =
    .val (b!"<table>\n\n<tbody>\n<tr>\n<td>1</td>\n<td align=\"right\">2</td>\n</tr>\n</tbody></table>\n" ++
      b!"<table><thead>\n<tr>\n<th>A</th>\n<th align=\"right\">B</th>\n</tr>\n</thead>\n<tbody>\n<tr>\n<td>1</td>\n<td align=\"right\">2</td>\n</tr>" ++
      b!"\n<tr>\n<td>---</td>\n<td align=\"right\">---</td>\n</tr>\n</tbody></table>\n" ++
      b!"<table><tbody>\n<tr>\n<td>A &amp; <em>x</em></td>\n<td align=\"right\"></td>\n</tr>\n\n<tr>\n<td>1</td>\n<td align=\"right\">2</td>\n</tr>" ++
      b!"\n</tbody></table>\n") := by decide +kernel

/-- C151 is false for a table with a separator in the source and one row in its body: the pass for tables without a
separator leaves the source alone, and the header is lost nevertheless. -/
theorem C151_regular_refuted :
    RelaxedTables.relaxedStage b!"|a|b|\n|---|---|\n|c|d|\n" = .val b!"|a|b|\n|---|---|\n|c|d|\n" ∧
    convert (b!"<table>\n<thead>\n<tr>\n<th>a</th>\n<th>b</th>\n</tr>\n</thead>\n<tbody>\n<tr>\n<td>c</td>\n<td>d</td>\n</tr>\n</tbody>\n</table>\n") =
      .val (b!"<table>\n<tbody>\n<tr>\n<td>a</td>\n<td>b</td>\n</tr>\n\n<tr>\n<td>c</td>\n<td>d</td>\n</tr>\n</tbody>\n</table>\n") := by
  decide +kernel

/-- A table that is only a header, with another table behind it: its body is not closed. -/
theorem C151_unclosed_refuted :
    convert (b!"<table><thead><tr><th>a</th></tr></thead></table>" ++ b!"<table><thead><tr><th>b</th></tr></thead><tbody><tr><td>c</td></tr></tbody></table>") =
      .val (b!"<table><tbody><tr><td>a</td></tr></table>" ++ b!"<table><tbody><tr><td>b</td></tr><tr><td>c</td></tr></tbody></table>") := by
  decide +kernel

/-- The empty page: the block has no room for the terminator. -/
theorem C151_empty_page_refuted : convert [] = .ub := rfl

end Verif.RelaxedHeads
