/-
C167 and C168: definition lists.
-/
import Verif.Proof.DefLists

namespace Verif.DefLists
open Spec (Gap Lead Marked Refs Defines Needed Inner Content Quotes Definition Fence Closes Item Whole Plain Term signs Defs Close Doc)
open Text.Spec (ended)

/-! ### Lists and the text around them -/

/-- C167: for every text and every parser of Markdown, the block is never written past its end. -/
theorem C167_safe (md : Bytes → Bytes) (text : Bytes) : ∃ r, process md text = .val r := ⟨_, process_run md text⟩

/-- C167: a document of text, headings, tables, lists, code and terms with their definitions: every term and its definitions become one list, in
order, all other lines stay; without a list nothing is returned, and the text stays.  The full claim is for every document: missing are
lines of blanks, definitions without a term, captions of tables, text right before code, and documents with attributes. -/
theorem C167_lists_partial (md html : Bytes → Bytes) (b : Bool) (ls : List Bytes) (o : Bytes) (hn : ∀ l ∈ ls, c!"\n" ∉ l) (hi : ¬ b!"{:" <:+: ended ls)
    (hl : ls.length ≤ 1000000) (hh : ∀ t, Content md ls t (html t)) (h : Doc html b ls o) : process md (ended ls) = .val (if b then some o else none) :=
  process_doc hn hi hl (funext fun t => (content_iff hn _ (Nat.lt_succ_self _)).1 (hh t)) h

/-- C167: a document without definitions stays. -/
theorem C167_none (md : Bytes → Bytes) (ls : List Bytes) (hn : ∀ l ∈ ls, c!"\n" ∉ l) (h : ∀ l ∈ ls, ∀ d t, ¬ Definition l d t) :
    process md (ended ls) = .val none := by
  rw [process_run, if_neg]
  intro hp
  obtain ⟨l, h1, d, t, h2⟩ := (pattern_mem ls _ hn (by omega)).1 hp
  exact h l h1 d t h2

/-- A parser for the examples: all is one paragraph. -/
def para (t : Bytes) : Bytes := b!"<p>" ++ t ++ b!"</p>\n"

/-- The lines of the example. -/
def sample : List Bytes := [b!"Intro", [], b!"Apple", b!": A fruit", [], b!":  Red", b!"End"]

/-- C167: the hypotheses are met: a document with text, a term and two definitions. -/
theorem C167_case (html : Bytes → Bytes) : Doc html true sample
    (b!"Intro" ++ b!"\n" ++ b!"\n" ++
      (signs 0 ++ b!"<dl>\n" ++ signs 0 ++ b!"<dt>" ++ html b!"Apple" ++ b!"</dt>\n" ++
        (signs 0 ++ b!"<dd>" ++ html b!"A fruit" ++ b!"</dd>\n" ++ (signs 0 ++ b!"<dd>" ++ html b!"Red" ++ b!"</dd>\n" ++ [])) ++ (signs 0 ++ b!"</dl>\n\n") ++
        (b!"End" ++ b!"\n" ++ []))) := by
  have plain : ∀ (c : Byte) (r : Bytes), c ≠ c!"\r" → c ≠ c!" " → c ≠ c!"\t" → fence (c :: r) = none → definition (c :: r) = none →
      (row (c :: r) || ((c :: r).dropWhile blank).head? == some c!"#" || item (c :: r)) = false → Plain (c :: r) := by
    intro c r h1 h2 h3 h4 h5 h6
    refine ⟨⟨c, ⟨[], r, rfl, by intro x hx; simp at hx, h2, h3⟩, h1⟩, ?_, ?_, ?_⟩
    · intro h
      have := fence_iff.2 h
      rw [h4] at this
      simp at this
    · intro h
      have := whole_iff.2 h
      rw [h6] at this
      simp at this
    · intro d t h
      have := definition_iff.2 h
      rw [h5] at this
      simp at this
  have p1 : Plain b!"Intro" := plain _ _ (by decide) (by decide) (by decide) rfl rfl rfl
  have p2 : Plain b!"Apple" := plain _ _ (by decide) (by decide) (by decide) rfl rfl rfl
  have p3 : Plain b!"End" := plain _ _ (by decide) (by decide) (by decide) rfl rfl rfl
  have d1 : Definition b!": A fruit" 0 b!"A fruit" := definition_iff.1 rfl
  have d2 : Definition b!":  Red" 0 b!"Red" := definition_iff.1 rfl
  have last : Doc html false [b!"End"] (b!"End" ++ b!"\n" ++ (if ([] : List Bytes) = [] then [] else b!"\n") ++ []) :=
    Doc.text (e := []) p3 (by decide) (by simp) (by simp) .nil
  have list := Doc.list (html := html) (e := []) (d := 0) (c := b!"Apple") p2 (by decide) (Or.inl ⟨rfl, rfl, by
      intro h
      have := lead_unique h (c := c!">") (d := c!"A") ⟨[], b!"pple", rfl, by intro x hx; simp at hx, by decide⟩
      exact absurd this (by decide)⟩) (by simp) d1 (.cons d1 (.empty (.cons d2 .nil)))
      (.text (c := c!"E") ⟨[], b!"nd", rfl, by intro x hx; simp at hx, by decide⟩ (by decide) (by decide) p3.2.1 p3.2.2.2) last
  exact Doc.text (e := [[]]) p1 (by decide) (by simp) (by
    intro x hx
    simp at hx
    subst hx
    exact ⟨p2.1, p2.2.1, p2.2.2.2⟩) list

/-- C167: the code on the sample. -/
theorem C167_example : process para (ended sample) = .val (some
    b!"Intro\n\n<dl>\n<dt>Apple</dt>\n<dd>A fruit</dd>\n<dd>Red</dd>\n</dl>\n\nEnd\n") := by decide +kernel

/-- C167, refuted: lines stay.  A line of text before code is lost when the document has a list. -/
theorem C167_before_code_refuted : process para (ended [b!"Apple", b!": A fruit", [], b!"Run this:", [], b!"```", b!"make", b!"```"]) = .val (some
    b!"<dl>\n<dt>Apple</dt>\n<dd>A fruit</dd>\n</dl>\n\n```\nmake\n```\n") := by decide +kernel

/-- C167, refuted: a term and its definition become a list.  With attributes anywhere behind it, the term is no part of the list. -/
theorem C167_attributes_refuted : process para (ended [b!"Apple", b!": A fruit", [], b!"# Title", b!"{: #t}"]) = .val (some
    b!"Apple\n<dl>\n<dd>A fruit</dd>\n</dl>\n\n# Title\n{: #t}\n") := by decide +kernel

/-- C167, refuted: other lines stay in order.  The caption of a table changes places with the text before it, and becomes code. -/
theorem C167_caption_refuted : process para (ended [b!"Apple", b!": A fruit", b!"Text", b!": Caption", b!"| a |", b!"|---|"]) = .val (some
    b!"<dl>\n<dt>Apple</dt>\n<dd>A fruit</dd>\n</dl>\n\n    : Caption\nText\n| a |\n|---|\n") := by decide +kernel

/-- C167, refuted: code stays code.  Between `~~~` a definition becomes HTML. -/
theorem C167_tilde_refuted : process para (ended [b!"~~~", b!"case", b!": 1", b!"~~~"]) = .val (some
    b!"~~~\n<dl>\n<dt>case</dt>\n<dd>1</dd>\n</dl>\n\n~~~\n") := by decide +kernel

/-- C167, refuted: a list is found.  Code between lines of four backquotes never ends, and what is behind it stays text. -/
theorem C167_fence_refuted : process para (ended [b!"````", b!"code", b!"````", b!"Apple", b!": A fruit"]) = .val none := by decide +kernel

/-- C167, refuted: a definition of more than one line.  The second one ends the list and becomes text. -/
theorem C167_continued_refuted : process para (ended [b!"Apple", b!": A fruit", b!"  of a tree"]) = .val (some
    b!"<dl>\n<dt>Apple</dt>\n<dd>A fruit</dd>\n</dl>\n\n  of a tree\n") := by decide +kernel

/-- C167, refuted: a term has text.  A line of blanks between the term and the definition becomes the term. -/
theorem C167_blank_refuted : process para (ended [b!"Apple", b!"  ", b!": A fruit"]) = .val (some
    b!"Apple\n<dl>\n<dt>  </dt>\n<dd>A fruit</dd>\n</dl>\n") := by decide +kernel

/-! ### Content -/

/-- C168: what a term or definition has in it: text without Markdown decodes to itself; else it is what the parser makes of the text with
exactly the definitions of the references it has, in order, without the paragraph around it.  For every text and document. -/
theorem C168_content (md : Bytes → Bytes) (ls : List Bytes) (t h : Bytes) (hn : ∀ l ∈ ls, c!"\n" ∉ l) :
    Content md ls t h ↔ h = content md (pick (fun _ => true) ((ended ls).length + 1) (ended ls)) t := content_iff hn _ (Nat.lt_succ_self _)

/-- C168: every text has exactly one content. -/
theorem C168_unique (md : Bytes → Bytes) (ls : List Bytes) (t : Bytes) (hn : ∀ l ∈ ls, c!"\n" ∉ l) : ∃ h, Content md ls t h ∧ ∀ h', Content md ls t h' → h' = h :=
  ⟨_, (C168_content md ls t _ hn).2 rfl, fun _ h' => (C168_content md ls t _ hn).1 h'⟩

/-- C168: text without Markdown is shown as it is, and is no markup. -/
theorem C168_plain (md : Bytes → Bytes) (ls : List Bytes) (t h : Bytes) (hm : ¬ Marked t) (hc : Content md ls t h) :
    Html.decode h = t ∧ c!"<" ∉ h ∧ c!">" ∉ h ∧ c!"\"" ∉ h := by
  rcases hc with ⟨_, rfl⟩ | ⟨h', _⟩
  · refine ⟨Escape.decode_flatMap _ _ fun c _ s => ?_, ?_, ?_, ?_⟩
    · unfold Spec.escaped
      split
      · subst_vars; exact Escape.decode_ref _ s 0x26 rfl
      split
      · subst_vars; exact Escape.decode_ref _ s 0x3C rfl
      split
      · subst_vars; exact Escape.decode_ref _ s 0x3E rfl
      split
      · subst_vars; exact Escape.decode_ref _ s 0x22 rfl
      · exact Escape.decode_plain c s (by assumption)
    all_goals
      intro hx
      obtain ⟨c, _, hc⟩ := List.mem_flatMap.1 hx
      revert hc
      exact forall_byte (p := fun c => _ ∉ Spec.escaped c) (by decide +kernel) c
  · exact absurd h' hm

/-- C168: the hypotheses are met: a text with a reference, and one without Markdown. -/
theorem C168_case (md : Bytes → Bytes) : Content md [b!"[a]: /a", b!"[b]: /b"] b!"see [it][b]" (strip (md (b!"[b]: /b\n" ++ b!"see [it][b]"))) ∧
    Content md [] b!"a & b" b!"a &amp; b" ∧ ¬ Marked b!"a & b" := by
  refine ⟨(C168_content _ _ _ _ (by decide)).2 ?_, (C168_content _ _ _ _ (by decide)).2 ?_, fun h => ?_⟩
  · have h1 : pick (fun _ => true) ((ended [b!"[a]: /a", b!"[b]: /b"]).length + 1) (ended [b!"[a]: /a", b!"[b]: /b"]) = b!"[a]: /a\n[b]: /b\n" := by decide +kernel
    have h2 : source b!"[a]: /a\n[b]: /b\n" b!"see [it][b]" = b!"[b]: /b\n" ++ b!"see [it][b]" := by decide +kernel
    rw [h1, content, if_pos (by decide +kernel), h2]
  · rw [content, if_neg (by decide +kernel)]
    decide +kernel
  · have := marked_iff.2 h
    revert this
    decide +kernel

/-- C168, refuted: references are found.  Their definitions are compared byte by byte, and `[text]` alone is none. -/
theorem C168_refs_refuted : content id b!"[Site]: /s\n" b!"[the site][site]" = b!"[the site][site]" ∧ content id b!"[site]: /s\n" b!"[site]" = b!"[site]" := by
  decide +kernel

end Verif.DefLists
