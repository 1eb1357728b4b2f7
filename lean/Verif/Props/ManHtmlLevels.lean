/- C285: levels of headings and numbers of lists in man pages as HTML. -/
import Verif.Proof.ManHtml

namespace Verif.ManHtml
open Man (Node Kind)
open ManHtml.Spec

/-- C285 (part that holds): a heading of the first three levels is one element `h2`, `h3` or `h4`, one below
its level, that reads as its text. -/
theorem C285_heading_partial (inItem : Bool) (level : Nat) (t : Bytes) (h1 : 1 ≤ level) (h3 : level ≤ 3) :
    ∃ tag id e, (level, tag) ∈ [(1, b!"h2"), (2, b!"h3"), (3, b!"h4")] ∧ c!"\"" ∉ id ∧ Html e t [] ∧
      block inItem (.mk (.heading level) [.mk (.text t) []]) =
        b!"\n<div class=\"man-section\"><" ++ tag ++ b!" id=\"" ++ id ++ b!"\">" ++ e ++
          b!"</" ++ tag ++ b!"></div>\n" := by
  have hs : c!"\"" ∉ slug t := by
    unfold slug
    rw [List.mem_flatMap]
    rintro ⟨c, _, h⟩
    by_cases h1 : (c = c!" " || c = c!"\t") = true
    · rw [if_pos h1] at h; simp at h
    · rw [if_neg h1] at h
      by_cases h2 : (isAlnum c || c = c!"-") = true
      · rw [if_pos h2, List.mem_singleton] at h
        subst h
        exact absurd h2 (by decide)
      · rw [if_neg h2] at h; simp at h
  have hd : Man.decimal 2 = b!"2" ∧ Man.decimal 3 = b!"3" ∧ Man.decimal 4 = b!"4" := by
    decide +kernel
  have : level = 1 ∨ level = 2 ∨ level = 3 := by omega
  rcases this with rfl | rfl | rfl
  · exact ⟨b!"h2", slug t, esc t, by decide, hs, html_esc t, by simp [block, hd.1, sectionIds, literal, inlines, inline]⟩
  · exact ⟨b!"h3", slug t, esc t, by decide, hs, html_esc t, by simp [block, hd.2.1, sectionIds, literal, inlines, inline]⟩
  · exact ⟨b!"h4", slug t, esc t, by decide, hs, html_esc t, by simp [block, hd.2.2, sectionIds, literal, inlines, inline]⟩

/-- C285 (refutation): from the third level on all headings are the same. -/
theorem C285_level_fails (inItem : Bool) (l m : Nat) (kids : List Node) (hl : 3 ≤ l) (hm : 3 ≤ m) :
    block inItem (.mk (.heading l) kids) = block inItem (.mk (.heading m) kids) := by
  rw [block, block, show min (l + 1) 4 = 4 by omega, show min (m + 1) 4 = 4 by omega]

/-- Items with these numbers and contents. -/
def items (l : List (Nat × List Node)) : List Node := l.map fun p => .mk (.item p.1) p.2

theorem blocks_items (inItem : Bool) (l : List (Nat × List Node)) :
    blocks inItem (items l) = (l.map (·.2)).flatMap fun kids => b!"<li>" ++ blocks true kids ++ b!"</li>\n" := by
  induction l generalizing inItem with
  | nil => simp [items, blocks]
  | cons p l ih =>
    rw [items, List.map_cons, blocks, block]
    rw [show l.map (fun p : Nat × List Node => Node.mk (.item p.1) p.2) = items l from rfl, ih]
    rfl

theorem list_items (inItem bullet : Bool) (l : List (Nat × List Node)) :
    block inItem (.mk (.list bullet) (items l)) =
      (if bullet then b!"\n<ul>\n" else b!"\n<ol>\n") ++
        ((l.map (·.2)).flatMap fun kids => b!"<li>" ++ blocks true kids ++ b!"</li>\n") ++
      (if bullet then b!"</ul>\n" else b!"</ol>\n") := by
  rw [block, blocks_items]

/-- Elements `li`, one for each text, each of which reads as its text. -/
inductive Entries : List Bytes → Bytes → Prop
  | nil : Entries [] []
  | cons {t e s : Bytes} {l : List Bytes} (he : Html e t []) (h : Entries l s) :
    Entries (t :: l) (b!"<li>" ++ e ++ b!"\n</li>\n" ++ s)

/-- C285 (part that holds): a list of texts is one element, `ul` or `ol`, with an `li` for each item in their
order, so that an ordered list that begins with 1 has its numbers. -/
theorem C285_list_partial (inItem bullet : Bool) (l : List (Nat × Bytes)) :
    ∃ x, Entries (l.map (·.2)) x ∧
      block inItem (.mk (.list bullet) (items (l.map fun p => (p.1, [.mk .paragraph [.mk (.text p.2) []]])))) =
        (if bullet then b!"\n<ul>\n" else b!"\n<ol>\n") ++ x ++ (if bullet then b!"</ul>\n" else b!"</ol>\n") := by
  refine ⟨_, ?_, list_items _ _ _⟩
  induction l with
  | nil => exact .nil
  | cons p l ih =>
    have := Entries.cons (html_esc p.2) ih
    simpa [blocks, block, inlines, inline] using this

/-- C285 (refutation): the numbers of a list are not written: lists with the same items and other numbers are
the same, so that all are shown from 1 on. -/
theorem C285_number_fails (inItem bullet : Bool) (l m : List (Nat × List Node)) (h : l.map (·.2) = m.map (·.2)) :
    block inItem (.mk (.list bullet) (items l)) = block inItem (.mk (.list bullet) (items m)) := by
  rw [list_items, list_items, h]

/-- C285: a heading of the fifth level, and a list that begins with 7. -/
theorem C285_case :
    block false (.mk (.heading 5) [.mk (.text b!"a") []]) = b!"\n<div class=\"man-section\"><h4 id=\"a\">a</h4></div>\n" ∧
    block false (.mk (.list false) (items [(7, [.mk .paragraph [.mk (.text b!"x") []]]), (8, [])])) =
      b!"\n<ol>\n<li>x\n</li>\n<li></li>\n</ol>\n" := by
  decide +kernel

end Verif.ManHtml
