/-
The layout of pretty-printed pages: C117.
-/
import Verif.Proof.PrettyTree

namespace Verif.Pretty
open Spec

/-- C117, as long as no turn of the loop writes a hundred bytes: every tag of a block element and every text stands on a line of
its own, indented by two blanks for every element around it; line ends behind tags leave an empty line, except between the
rows of a table. -/
theorem C117_partial {f : Forest} (hf : f.Ok b!"body") (hc : f.Closed) (hne : f.html ≠ [])
    (h : ∀ g ∈ groups f.html.length start f.html, size g < 100) : pretty f.html = .val (unlines (f.lines b!"body" 0)) := by
  rw [pretty_fits hne h]
  obtain ⟨o, a', e1, e2, e3⟩ := T_forest f b!"body" 0 true [] hf ⟨by simp, by simp, by simp⟩ (by simp)
  have ha := e3 hc rfl
  subst ha
  simp only [nl, List.append_nil, if_true, List.nil_append] at e1 e2
  have e4 : (groups f.html.length start f.html).flatten.flatMap DropBuf.Tok.out = unlines (f.lines b!"body" 0) := by
    have : T start f.html = o ++ T start [] := e1
    have h0 : T start [] = [] := rfl
    rw [h0, List.append_nil] at this
    rw [e2]
    exact this
  rw [e4]
  congr 1
  have := lines_few (L := 0) hf (s := []) (by intro k; simp [Few]) 2
  rw [List.append_nil] at this
  exact collapse_id this

/-- C117, in terms of the page: at most twenty tags, each shorter than 57 bytes. The texts may be of any length. -/
theorem C117_small_partial {f : Forest} (hf : f.Ok b!"body") (hc : f.Closed) (hne : f.html ≠ [])
    (ht : TagsBelow 57 f.html) (hn : f.html.count c!"<" ≤ 20) : pretty f.html = .val (unlines (f.lines b!"body" 0)) := by
  refine C117_partial hf hc hne fun g hg => ?_
  have := groups_small _ start f.html (tagsBelow_text ht) g hg
  have h0 : start.level = 0 := rfl
  omega

/-- A page with nested elements, attributes, text with an element in it and a table of two rows. -/
def samplePage : Forest :=
  .elem b!"div" b!" class=\"x\"" true (.elem b!"p" [] false (.text b!"a <em>b</em>" true (.text b!"c" false .nil)) true (.elem b!"table" [] false
    (.elem b!"tr" [] false (.elem b!"td" [] false (.text b!"1" false .nil) false .nil) true (.elem b!"tr" [] false .nil false .nil)) true .nil)) true .nil

theorem samplePage_ok : samplePage.Ok b!"body" ∧ samplePage.Closed ∧ samplePage.html ≠ [] := by
  have h1 : Text b!"a <em>b</em>" := by
    refine ⟨?_, _, _, rfl, by decide, by decide⟩
    exact Inline.elem (x := b!"a ") (y := b!"b") (n := b!"em") (w := []) (.byte (x := b!"a") (.byte .nil (by decide) (by decide)) (by decide) (by decide))
      (by decide) (.inl rfl) (.byte .nil (by decide) (by decide))
  have h2 : Text b!"1" := ⟨.byte (x := []) .nil (by decide) (by decide), _, _, rfl, by decide, by decide⟩
  have h3 : Text b!"c" := ⟨.byte (x := []) .nil (by decide) (by decide), _, _, rfl, by decide, by decide⟩
  have hw : Attrs b!" class=\"x\"" := .inr ⟨_, _, rfl, by decide, by decide, by decide, by decide⟩
  refine ⟨⟨by decide, hw, by decide, ⟨by decide, .inl rfl, by decide, ⟨by decide, h1, by simp, ⟨by decide, h3, by simp, trivial⟩⟩, ⟨by decide, .inl rfl,
    by decide, ⟨by decide, .inl rfl, by decide, ⟨by decide, .inl rfl, by decide, ⟨by decide, h2, by simp, trivial⟩, trivial⟩, ⟨by decide, .inl rfl,
    by decide, trivial, trivial⟩⟩, trivial⟩⟩, trivial⟩, trivial, by decide⟩

example : samplePage.html = b!"<div class=\"x\">\n<p>a <em>b</em>\nc</p>\n<table><tr><td>1</td></tr>\n<tr></tr></table>\n</div>\n" := by decide +kernel

example : pretty samplePage.html = .val (b!"<div class=\"x\">\n\n  <p>\n    a <em>b</em>\n    c\n  </p>\n\n  <table>\n    <tr>\n      <td>\n        1\n" ++
    b!"      </td>\n    </tr>\n    <tr>\n    </tr>\n  </table>\n\n</div>\n\n") := by decide +kernel

example : unlines (samplePage.lines b!"body" 0) =
    b!"<div class=\"x\">\n\n  <p>\n    a <em>b</em>\n    c\n  </p>\n\n  <table>\n    <tr>\n      <td>\n        1\n" ++
    b!"      </td>\n    </tr>\n    <tr>\n    </tr>\n  </table>\n\n</div>\n\n" := by decide +kernel

/-- C117 is false for elements that are not known as blocks: a paragraph in a form is neither indented nor on a line of its own. -/
theorem C117_form : pretty b!"<form><p>a</p></form>" = .val b!"<form><p>\n  a\n</p>\n</form>" := by decide +kernel

/-- C117 is false for a text that begins with an element: the text is indented within the element. -/
theorem C117_element : pretty b!"<div><p><em>a</em></p></div>" = .val b!"<div>\n  <p>\n<em>    a</em>\n  </p>\n</div>\n" := by decide +kernel

end Verif.Pretty
