/- C134: lists with letters become numbered lists.  C135: their marks become styles of the lists in the page. -/
import Verif.Proof.AlphaLists

namespace Verif.AlphaLists

open Spec
open Text.Spec (joined)

/-- C134: every text is a row of lists, each as long as it can be, and of other lines. -/
theorem C134_text (text : Bytes) : ∃ gs, Ok gs ∧ text = joined 10 (lines gs) := exists_text text

/-- C134: a mark is put in front of every list, its items are numbered from one, and everything else stays, except that a
list with numbers behind a list with letters is set apart.  Proved for texts whose result is shorter than three times the
text, and without a number of 2^31 or more directly behind a list. -/
theorem C134_partial (gs : List Group) (h : Ok gs) (hs : Small gs) (h0 : 0 ∉ joined 10 (outLines false gs))
    (hl : (joined 10 (outLines false gs)).length < 3 * (joined 10 (lines gs)).length) (hi : 3 * (joined 10 (lines gs)).length < 2 ^ 31) :
    pre (joined 10 (lines gs)) = .val (joined 10 (outLines false gs)) := pre_groups gs h hs h0 hl hi

/-- Text, a list with a blank line in it, a list with capitals, a blank line, and a list with numbers. -/
def sample : List Group :=
  [.line b!"Some text in front of the list.", .line [], .list false 0 [⟨[], b!" one", none⟩, ⟨b!"  ", b!" two", some b!" "⟩, ⟨[], b!"", none⟩],
    .list true 25 [⟨[], b!" last", none⟩, ⟨[], b!" first", some []⟩], .line b!"1. number"]

/-- `sample` is such a text. -/
theorem sample_ok : Ok sample ∧ Small sample := by
  have hni : ∀ s : Bytes, item s = none → ¬ IsItem s := fun s => item_none.1
  have hb : ∀ s : Bytes, s.all blank = true → Blank s := fun s h c hc => (blank_iff c).1 (List.all_eq_true.1 h c hc)
  have ht : ∀ s : Bytes, tail s = true → Tail s := fun s => tail_match.1
  refine ⟨⟨by decide, hni _ (by decide +kernel), by decide, hni _ (by decide), by decide, ?_, Or.inl (by decide), by decide, ?_, Or.inl (by decide),
    by decide, hni _ (by decide), trivial⟩, by simp [sample, Small]; decide⟩
  · intro e he
    simp only [List.mem_cons, List.not_mem_nil, or_false] at he
    rcases he with rfl | rfl | rfl
    · exact ⟨hb _ (by decide), ht _ (by decide), by decide, by simp⟩
    · exact ⟨hb _ (by decide), ht _ (by decide), by decide, by intro g hg; cases hg; exact hb _ (by decide)⟩
    · exact ⟨hb _ (by decide), ht _ (by decide), by decide, by simp⟩
  · intro e he
    simp only [List.mem_cons, List.not_mem_nil, or_false] at he
    rcases he with rfl | rfl
    · exact ⟨hb _ (by decide), ht _ (by decide), by decide, by simp⟩
    · exact ⟨hb _ (by decide), ht _ (by decide), by decide, by intro g hg; cases hg; exact hb _ (by decide)⟩

example : joined 10 (lines sample) = b!"Some text in front of the list.\n\na. one\n  b. two\n \nc.\nZ. last\nA. first\n\n1. number" ∧
    joined 10 (outLines false sample) = b!"Some text in front of the list.\n\n[apex-alpha-list:lower]\n\n1.  one\n  2.  two\n \n3. \n[apex-alpha-list:upper]\n\n1.  last\n2.  first\n\n\n\n \n\n1. number" ∧
    (joined 10 (outLines false sample)).length < 3 * (joined 10 (lines sample)).length := by decide +kernel

/-- C134: a text without an item of such a list is left alone. -/
theorem C134_plain (text : Bytes) (h0 : 0 ∉ text) (hne : text ≠ []) (hi : 3 * text.length < 2 ^ 31) (ls : List Bytes)
    (hls : text = joined 10 ls) (h : ∀ l ∈ ls, 10 ∉ l ∧ ¬ IsItem l) : pre text = .val text := by
  have e1 : lines (ls.map Group.line) = ls := by
    clear hls h
    induction ls with
    | nil => rfl
    | cons l ls ih => simp [lines, ih]
  have e2 : outLines false (ls.map Group.line) = ls := by
    clear hls h e1
    induction ls with
    | nil => rfl
    | cons l ls ih => simp [outLines, ih]
  have hok : Ok (ls.map Group.line) := by
    clear hls e1 e2
    induction ls with
    | nil => trivial
    | cons l ls ih => exact ⟨(h l (by simp)).1, (h l (by simp)).2, ih fun x hx => h x (by simp [hx])⟩
  have hsm : Small (ls.map Group.line) := by
    clear hls e1 e2 hok h
    induction ls with
    | nil => trivial
    | cons l ls ih => simpa [Small] using ih
  have hp := List.length_pos_iff.2 hne
  have := pre_groups _ hok hsm (by rw [e2, ← hls]; exact h0) (by rw [e1, e2, ← hls]; omega) (by rw [e1, ← hls]; exact hi)
  rw [e1, e2, ← hls] at this
  exact this

example : item b!"1. a. number" = none ∧ item b!"A.b" = none ∧ pre b!"A.b\n1. a. number\n" = .val b!"A.b\n1. a. number\n" := by decide +kernel

/-- C134 does not hold without the condition on the length: with a short list the last byte is written behind the block. -/
theorem C134_full_fails : pre b!"a. one\nb. two" = .ub := by decide +kernel

/-- C134: for an empty text the block has no byte at all. -/
theorem C134_empty_fails : pre [] = .ub := by decide +kernel

/-- C134: the mark of a very short list does not fit and is left out: the list has numbers in the page. -/
theorem C134_mark_fails : pre b!"a. x" = .val b!"1.  x" := by decide +kernel

/-- C134: bytes of the text are lost when they do not fit. -/
theorem C134_cut_fails : (match preLoop 100 ⟨false, c!"a", c!"A", false, 1, 0⟩ ⟨[], 39⟩ b!"a. one\nb. two" with | .ub => [] | .val b => b.out) =
    b!"[apex-alpha-list:lower]\n\n1.  one\n2.  tw" := by decide +kernel

/-- C134: a long number directly behind a list is read into an `int` that it does not fit into. -/
theorem C134_number_fails : pre b!"a. one\n99999999999" = .ub := by decide +kernel

/-- C134: a list directly behind a paragraph has its mark in that paragraph, where it stays in the page. -/
theorem C134_paragraph_fails : pre b!"Some text here:\na. one\nb. two\n" = .val b!"Some text here:\n[apex-alpha-list:lower]\n\n1.  one\n2.  two\n" ∧
    post b!"<p>Some text here:\n[apex-alpha-list:lower]</p>\n<ol>\n" = .val (some b!"<p>Some text here:\n[apex-alpha-list:lower]</p>\n<ol>\n") := by
  decide +kernel

/-- C134: lines of code are changed. -/
theorem C134_code_fails : pre b!"Code:\n\n    a. one\n    b. two\n" = .val b!"Code:\n\n[apex-alpha-list:lower]\n\n    1.  one\n    2.  two\n" := by
  decide +kernel

/-- C134: with carriage returns a blank line ends the list: the next item is number one again. -/
theorem C134_return_fails : pre b!"a. one item\r\n\r\nb. another item\r\n" =
    .val b!"[apex-alpha-list:lower]\n\n1.  one item\r\n\r\n[apex-alpha-list:lower]\n\n1.  another item\r\n" := by decide +kernel

/-! ### The page -/

/-- C135: every page is a row of marks and of the text between them, and either ends with text or breaks off at a mark. -/
theorem C135_pages (html : Bytes) :
    ∃ items rest, ItemsOk rest items ∧ html = pageHtml items rest ∧ (NoMark rest ∨ Broken rest) := exists_page html

/-- C135: in a page that does not end with a mark every mark is dropped, every list behind a mark has its style, and the
rest of the page stays — unless the marks make the page longer by exactly 1024 bytes. -/
theorem C135_partial (items : List Item) (rest : Bytes) (h : ItemsOk rest items) (hr : NoMark rest) (h0 : 0 ∉ pageOut items rest)
    (hc : 7 * listCount items ≠ 1024 + 30 * loneCount items) :
    post (pageHtml items rest) =
      .val (if b!"[apex-alpha-list:" <:+: pageHtml items rest then some (pageOut items rest) else none) := by
  by_cases hm : b!"[apex-alpha-list:" <:+: pageHtml items rest
  · rw [if_pos hm, post_page items rest h hr h0 hm hc]
  · rw [if_neg hm, post_none _ hm]

/-- Two lists, a mark without a list, and a list with a style of its own. -/
def page : List Item :=
  [.list b!"<p>a</p>\n" false c!">" b!"\n" [], .list b!"\n" true c!">" b!"" b!" start=\"3\"", .lone b!"x" false c!">" b!" " c!"y", .lone [] true c!">" b!"\n" c!"<"]

example : pageHtml page b!"ol style=\"x\"></ol>" =
      b!"<p>a</p>\n<p>[apex-alpha-list:lower]</p>\n<ol>\n<p>[apex-alpha-list:upper]</p><ol start=\"3\">x<p>[apex-alpha-list:lower]</p> y<p>[apex-alpha-list:upper]</p>\n<ol style=\"x\"></ol>" ∧
    pageOut page b!"ol style=\"x\"></ol>" =
      b!"<p>a</p>\n\n<ol style=\"list-style-type: lower-alpha\">\n<ol start=\"3\" style=\"list-style-type: upper-alpha\">x y\n<ol style=\"x\"></ol>" := by
  decide +kernel

example : ItemsOk b!"ol style=\"x\"></ol>" page := by
  have hw : ∀ s : Bytes, s.all white = true → White s := fun s h c hc => (white_iff c).1 (List.all_eq_true.1 h c hc)
  have hc : ∀ c : Byte, white c = false → ¬ White [c] := fun c h hw => by
    have := (white_iff c).2 (hw c (by simp)); rw [h] at this; exact absurd this (by decide)
  refine ⟨by unfold NoMark; decide, hw _ (by decide), ⟨by decide, by simp, by decide⟩, by unfold NoMark; decide, hw _ (by decide), ⟨by decide, ?_, by decide⟩,
    by unfold NoMark; decide, hw _ (by decide), hc _ (by decide), list_none.1 (by decide +kernel),
    by unfold NoMark; decide, hw _ (by decide), hc _ (by decide), list_none.1 (by decide +kernel), trivial⟩
  intro c hc
  simp at hc
  exact Or.inl hc.symm

/-- C135: a page with lists only — every mark is that of a list — is never too long for the block. -/
theorem C135_lists (items : List Item) (rest : Bytes) (h : ItemsOk rest items) (hr : NoMark rest) (h0 : 0 ∉ pageOut items rest)
    (hm : b!"[apex-alpha-list:" <:+: pageHtml items rest) (hl : loneCount items = 0) :
    post (pageHtml items rest) = .val (some (pageOut items rest)) :=
  post_page items rest h hr h0 hm (by omega)

/-- C135 fails for every page that ends with a mark, whatever white space is behind it: the code reads behind the page. -/
theorem C135_end_fails (items : List Item) (rest : Bytes) (h : ItemsOk rest items) (hr : Broken rest) :
    post (pageHtml items rest) = .ub := post_broken items rest h hr

example : post b!"<p>[apex-alpha-list:lower]</p>\n" = .ub ∧ post b!"x<p>[apex-alpha-list:lower]</p" = .ub := by decide +kernel

/-- C135 fails for every page that becomes longer by exactly 1024 bytes: the terminator is written behind the block. -/
theorem C135_full_fails (items : List Item) (rest : Bytes) (h : ItemsOk rest items) (hr : NoMark rest)
    (hm : b!"[apex-alpha-list:" <:+: pageHtml items rest) (hc : 7 * listCount items = 1024 + 30 * loneCount items) (hl : 12 ≤ rest.length) :
    post (pageHtml items rest) = .ub := post_full items rest h hr hm hc hl

/-- A page of 172 lists and six marks without a list. -/
def long : List Item := List.replicate 172 (.list [] false c!">" [] []) ++ List.replicate 6 (.lone [] false c!">" [] c!"x")

/-- That page is written behind its block. -/
theorem C135_long_fails : post (pageHtml long b!"<p>The end.</p>") = .ub := by
  have h1 : ∀ n, ItemsOk b!"<p>The end.</p>" (List.replicate n (.lone [] false c!">" [] c!"x")) := by
    intro n
    induction n with
    | zero => trivial
    | succ n ih =>
      refine ⟨by unfold NoMark; decide, by simp [White], by simp [White], ?_, ih⟩
      rintro ⟨attrs, r, -, he⟩
      simp at he
  have h2 : ∀ n is, ItemsOk b!"<p>The end.</p>" is → ItemsOk b!"<p>The end.</p>" (List.replicate n (.list [] false c!">" [] []) ++ is) := by
    intro n is his
    induction n with
    | zero => simpa using his
    | succ n ih => exact ⟨by unfold NoMark; decide, by simp [White], ⟨by decide, by simp, by decide⟩, ih⟩
  refine C135_full_fails long _ (h2 172 _ (h1 6)) (by unfold NoMark; decide) ?_ ?_ (by decide)
  · have e : long = .list [] false c!">" [] [] :: long.tail := rfl
    rw [e]
    generalize long.tail = is
    exact (bracket false).trans ⟨[], b!"><ol>" ++ pageHtml is b!"<p>The end.</p>", by simp [pageHtml, Item.html]⟩
  · decide +kernel

/-- C135: the byte behind a mark is not looked at: the second of two marks stays in the page, and its list has no style. -/
theorem C135_second_fails : post b!"<p>[apex-alpha-list:lower]</p><p>[apex-alpha-list:upper]</p><ol>" =
    .val (some b!"<p>[apex-alpha-list:upper]</p><ol>") := by decide +kernel

/-- C135: the `>` of a mark is not compared; another byte there is lost. -/
theorem C135_close_fails : post b!"<p>[apex-alpha-list:lower]</pre>x" = .val (some b!"e>x") := by decide +kernel

end Verif.AlphaLists
