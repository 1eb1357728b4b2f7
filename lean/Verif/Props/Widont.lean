/-
C128: the last words of headings.
-/
import Verif.Proof.Widont

namespace Verif.Widont
open Text.Spec (joined)

/-- What the pass may do with the content of a heading: only blanks outside of tags become `&nbsp;`, and of a heading of words without markup exactly
the last words are kept together. -/
def Done (content out : Bytes) : Prop :=
  Joins content out ∧ ∀ ws, Words ws → ws ≠ [] → content = joined c!" " ws → ∃ front back, ws = front ++ back ∧ back ≠ [] ∧ Together front back ∧ out = kept front back

/-- Every page has the form the theorems speak about. -/
theorem C128_pages (html : Bytes) : ∃ p : Page, p.Ok ∧ p.html = html := page_exists html

/-- C128. Full statement: in every heading the last words are kept together by non-breaking blanks, as many as it takes to get more than ten characters;
nothing else in the page changes.  This part: for headings of words without markup, and nothing else changes in any page; the result is there if it takes at most twice the page, or if the page ends in
a heading.  Missing: headings with markup (`C128_markup_fails`) and line ends (`C128_line_fails`); in other pages one byte may be written
behind the buffer (`C128_overflow`). -/
theorem C128_partial (p : Page) (hp : p.Ok) :
    ∃ contents : List Bytes, contents.length = p.headings.length ∧ (∀ i ∈ p.headings.zip contents, Done i.1.content i.2) ∧
      (apply p.html = .ub ∨ apply p.html = .val (p.with contents)) ∧
      ((p.with contents).length ≤ 2 * p.html.length ∨ p.tail ≠ [] ∨ (∃ h ∈ p.headings.getLast?, h.behind = []) → apply p.html = .val (p.with contents)) := by
  refine ⟨p.headings.map result, by simp, ?_, ?_⟩
  · intro i hi
    obtain ⟨h, o⟩ := i
    have : o = result h := by
      revert hi
      generalize p.headings = hs
      induction hs with
      | nil => intro hi; simp at hi
      | cons x hs ih =>
        intro hi
        simp only [List.map_cons, List.zip_cons_cons, List.mem_cons, Prod.mk.injEq] at hi
        rcases hi with ⟨rfl, rfl⟩ | hi
        · rfl
        · exact ih hi
    subst this
    refine ⟨heading_joins _, fun ws h1 h2 h3 => ?_⟩
    obtain ⟨f, b, a1, a2, a3, a4⟩ := heading_words ws h1 h2
    exact ⟨f, b, a1, a2, a3, by dsimp only at h3; simp only [result]; rw [h3, a4]⟩
  · obtain ⟨cap, h1, h2, h3, h4⟩ := apply_page p hp
    rw [h3]
    constructor
    · unfold finish
      split
      · exact .inr rfl
      · exact .inl rfl
    · rintro (h | h | h)
      · exact finish_val (by omega)
      · exact finish_val (h4 (.inl h))
      · exact finish_val (h4 (.inr h))

/-- Text without headings is not changed. -/
theorem C128_none (html : Bytes) (h : Free html) : apply html = .val html := by
  obtain ⟨cs, h1, -, -, h4⟩ := C128_partial ⟨html, [], []⟩ ⟨h, by simp, .nil⟩
  have : cs = [] := by simpa using h1
  subst this
  have e : (Page.mk html [] []).html = html := by simp [Page.html]
  have e' : (Page.mk html [] []).with [] = html := by simp [Page.with]
  rw [e, e'] at h4
  exact h4 (.inl (by omega))

/-- Kept together, the words are the same words. -/
theorem C128_shown (front back : List Bytes) (hb : back ≠ []) : Joins (joined c!" " (front ++ back)) (kept front back) := by
  have pre : ∀ (s : Bytes) {a b : Bytes}, Joins a b → Joins (s ++ a) (s ++ b) := by
    intro s a b h
    induction s with
    | nil => exact h
    | cons c s ih => exact .same c ih
  have key : ∀ ws : List Bytes, Joins (joined c!" " ws) (glued ws) := by
    intro ws
    induction ws with
    | nil => exact .nil
    | cons x ws ih =>
      cases ws with
      | nil => exact joins_refl x
      | cons y ws =>
        rw [joined, glued, List.append_assoc]
        exact pre x (.nbsp (.inl rfl) ih)
  rw [joined_append _ _ hb]
  unfold kept
  split
  · exact key back
  · exact pre _ (key back)

/-- A tag in front of the last words moves the place where blanks are replaced. -/
theorem C128_markup_fails : apply b!"<h1><em>Introduction</em> to the big day</h1>" = .val b!"<h1><em>Introduction</em> to the big day</h1>" := by decide +kernel

/-- A line end between the last words stays. -/
theorem C128_line_fails : apply b!"<h1>woe is\nme</h1>" = .val b!"<h1>woe&nbsp;is\nme</h1>" := by decide +kernel

/-- A heading with many short words, and a little text behind it: one byte is written behind the buffer. -/
theorem C128_overflow : apply b!"<h1>a b c d e f</h1>\n<i>" = .ub := by decide +kernel

example : apply b!"<h1 id=\"x\">Introduction to the topic</h1>\n" = .val b!"<h1 id=\"x\">Introduction to&nbsp;the&nbsp;topic</h1>\n" := by decide +kernel
example : Words [b!"Introduction", b!"to", b!"the", b!"topic"] ∧ Together [b!"Introduction"] [b!"to", b!"the", b!"topic"] := by
  unfold Words Together; decide
example : (Page.mk b!"<p>x</p>" [⟨c!"1", b!" id=\"x\"", b!"woe is me", b!"\n"⟩] []).Ok := by
  have free : ∀ s : Bytes, (∀ i ∈ List.range (s.length + 1), opens (s.drop i) = false) → Free s := by
    intro s hs u hu hB
    have := hs (s.length - u.length) (List.mem_range.2 (by omega))
    rw [← List.suffix_iff_eq_drop.1 hu] at this
    rw [(opens_iff u).2 hB] at this
    cases this
  refine ⟨free _ (by decide +kernel), ?_, .nil⟩
  intro h hh
  simp at hh
  subst hh
  exact ⟨by decide, by decide, by decide, free _ (by decide +kernel)⟩

end Verif.Widont
