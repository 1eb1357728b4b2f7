/- C283 and C284: lists and headings in man pages. -/
import Verif.Proof.Man
import Verif.Proof.TermBlocks
import Verif.Spec.ManLists

namespace Verif.Man
open Spec

theorem atLineStart_snoc (out x : Bytes) : atLineStart (out ++ (x ++ [10])) = true := by
  rw [← List.append_assoc]; simp [atLineStart]

theorem item_text (b first : Bool) (out : Bytes) (p : Nat × Bytes) :
    renderBlock (some (.list b)) first ⟨out, false⟩ (textItem p) =
      some ⟨out ++ (itemRequest (some (.list b)) p.1 ++ roffLoop 0 true p.2 ++ b!"\n"), false⟩ := by
  have hl : atLineStart (out ++ itemRequest (some (.list b)) p.1) = true := by
    cases b with
    | true => exact atLineStart_snoc out b!"\n.IP \\(bu 2"
    | false =>
      have := atLineStart_snoc out (b!"\n.IP \"" ++ decimal p.1 ++ b!".\" 4")
      simpa [itemRequest] using this
  simp [textItem, renderBlock, renderBlocks, renderInlines, renderInline, St.add, roffSafe, hl]

theorem listed_items (b : Bool) (l : List (Nat × Bytes)) : ∀ (first : Bool) (out : Bytes),
    ∃ x, renderBlocks (.list b) first ⟨out, false⟩ (l.map textItem) = some ⟨out ++ x, false⟩ ∧
      Listed b l x := by
  induction l with
  | nil => exact fun first out => ⟨[], by simp [renderBlocks], .nil b⟩
  | cons p l ih =>
    intro first out
    obtain ⟨x, hx, hl⟩ := ih false (out ++ (itemRequest (some (.list b)) p.1 ++ roffLoop 0 true p.2 ++ b!"\n"))
    refine ⟨itemRequest (some (.list b)) p.1 ++ roffLoop 0 true p.2 ++ b!"\n" ++ x, ?_, ?_⟩
    · rw [List.map_cons, renderBlocks, item_text]
      simp only [hx]
      simp
    · cases b with
      | true => exact .bullet (printed_roffLoop true p.2) hl
      | false => exact .number (Term.Blocks.decimal_digits p.1) (printed_roffLoop true p.2) hl

/-- C283 (part that holds): of a list of items with a paragraph of text each, in whatever it is, each item is
written below a request with its bullet or its number, in their order, and roff prints the text of each.
Missing: the levels of lists within lists. -/
theorem C283_partial (parent : Option Kind) (first dd b : Bool) (out : Bytes) (l : List (Nat × Bytes)) :
    ∃ x, renderBlock parent first ⟨out, dd⟩ (.mk (.list b) (l.map textItem)) = some ⟨out ++ x, false⟩ ∧
      Listed b l x := by
  obtain ⟨x, hx, hl⟩ := listed_items b l true out
  exact ⟨x, by rw [renderBlock]; exact hx, hl⟩

theorem first_item (b : Bool) (s : St) (us : List Node) (h : ∀ u ∈ us, IsItem u) (f g : Bool) :
    renderBlocks (.list b) f s us = renderBlocks (.list b) g s us := by
  cases us with
  | nil => simp [renderBlocks]
  | cons u us =>
    have hu := h u (List.mem_cons_self ..)
    obtain ⟨k, kids⟩ := u
    cases k <;> simp [IsItem] at hu
    simp only [renderBlocks, renderBlock]

/-- C283 (refutation): a list within an item is written as if its items were further items of the list
around it, whatever they hold: there is no sign of its level. -/
theorem C283_nested_fails (parent : Option Kind) (first b : Bool) (s : St) (p : Nat × Bytes) (us : List Node)
    (h : ∀ u ∈ us, IsItem u) :
    renderBlock parent first s
        (.mk (.list b) [.mk (.item p.1) [.mk .paragraph [.mk (.text p.2) []], .mk (.list b) us]]) =
      renderBlock parent first s (.mk (.list b) (textItem p :: us)) := by
  obtain ⟨out, dd⟩ := s
  simp only [renderBlock, renderBlocks, textItem, renderInlines, renderInline, St.add, roffSafe]
  simp only [List.isEmpty_cons, Bool.not_false, Bool.false_and, Bool.false_eq_true, if_false,
    Bool.not_true, Bool.and_true, if_true]
  rw [first_item b _ us h true false]
  cases renderBlocks (.list b) false _ us <;> rfl

/-- C283: a list with two numbers, one of which has two digits; a list within a list, which is written as a
list of three items. -/
theorem C283_case :
    (renderBlock (some .document) true ⟨[], true⟩ (.mk (.list false) ([(9, b!".a"), (10, b!"b")].map textItem))).map
      (·.out) = some b!"\n.IP \"9.\" 4\n\\&.a\n\n.IP \"10.\" 4\nb\n" ∧
    (renderBlock (some .document) true ⟨[], false⟩ (.mk (.list true) [.mk (.item 1)
      [.mk .paragraph [.mk (.text b!"a") []], .mk (.list true) ([(1, b!"b"), (2, b!"c")].map textItem)]])).map (·.out) =
      some b!"\n.IP \\(bu 2\na\n\n.IP \\(bu 2\nb\n\n.IP \\(bu 2\nc\n" ∧
    ∀ u ∈ [(1, b!"b"), (2, b!"c")].map textItem, IsItem u := by
  refine ⟨by decide +kernel, by decide +kernel, ?_⟩
  simp [textItem, IsItem]

/-! ### C284: headings -/

/-- C284 (part that holds): a heading of text without quotation marks is one line that begins with the
request for its level, `.SH` for the first and `.SS` for the second, and roff prints its text.  Missing: further
levels, quotation marks and line breaks. -/
theorem C284_partial (parent : Option Kind) (first : Bool) (s : St) (level : Nat) (t : Bytes)
    (hn : (10 : Byte) ∉ t) (hq : c!"\"" ∉ t) (h2 : level = 1 ∨ level = 2) :
    ∃ e, renderBlock parent first s (.mk (.heading level) [.mk (.text t) []]) =
        some ⟨s.out ++ b!"\n" ++ (if level = 1 then b!".SH" else b!".SS") ++ b!" " ++ e ++ b!"\n", false⟩ ∧
      (10 : Byte) ∉ e ∧ c!"\"" ∉ e ∧ printed e = enDash t := by
  have hm : ∀ c, c ∉ b!"\\e&-[em]" → c ∉ t → c ∉ roffLoop 0 false t :=
    fun c h1 h2 h3 => h2 (roffLoop_mem _ _ _ _ h1 h3)
  refine ⟨roffLoop 0 false t, ?_, hm 10 (by decide) hn, hm _ (by decide) hq, printed_roffLoop _ _⟩
  have ha : ∀ x : Bytes, atLineStart (x ++ b!"\n.SH ") = false ∧ atLineStart (x ++ b!"\n.SS ") = false := by
    intro x; simp [atLineStart]
  rcases h2 with rfl | rfl <;>
    simp [renderBlock, renderInlines, renderInline, St.add, roffSafe, (ha _).1, (ha _).2]

/-- C284 (refutation): all levels but the first are written in the same way. -/
theorem C284_level_fails (parent : Option Kind) (first : Bool) (s : St) (l m : Nat) (kids : List Node)
    (hl : l ≠ 1) (hm : m ≠ 1) :
    renderBlock parent first s (.mk (.heading l) kids) = renderBlock parent first s (.mk (.heading m) kids) := by
  simp only [renderBlock, if_neg hl, if_neg hm]

/-- C284 (refutation): roff takes quotation marks in a heading for those around an argument, and does not show
them; a line break ends the heading. -/
theorem C284_quote_fails :
    (renderBlock (some .document) true ⟨[], false⟩ (.mk (.heading 1) [.mk (.text b!"\"a\" b") []])).map (·.out) =
      some b!"\n.SH \"a\" b\n" ∧ args 10 b!"\"a\" b" = [b!"a", b!"b"] ∧
    (renderBlock (some .document) true ⟨[], false⟩
      (.mk (.heading 1) [.mk (.text b!"a") [], .mk .lineBreak [], .mk (.text b!"b") []])).map (fun s => lines s.out) =
      some [[], b!".SH a", b!".br", b!"b", []] := by
  decide +kernel

/-- C284: a case. -/
theorem C284_case :
    (renderBlock (some .document) true ⟨[], false⟩ (.mk (.heading 2) [.mk (.text b!"a-b \\c") []])).map (·.out) =
      some b!"\n.SS a\\-b \\ec\n" ∧ (10 : Byte) ∉ b!"a-b \\c" ∧ c!"\"" ∉ b!"a-b \\c" := by
  decide +kernel

end Verif.Man
