/-
C106 (headings get their ids), C107 (anchors).
-/
import Verif.Proof.InjectIds

namespace Verif.InjectIds

open Spec
open HeaderIds (Format headingId)

/-! ### C106 -/

/-- **C106**, partial: on a page whose headings have no ids yet, and with ids of up to 94 bytes, each heading gets the id of the
heading of the document with the same number, and nothing else changes. What is missing: headings with ids, see `C106_double`,
headings in raw HTML, see `C106_raw`, and long ids, see `C106_long`. -/
theorem C106_named_partial (ids : List Bytes) (html : Bytes) (hl : ∀ id ∈ ids, id.length ≤ 94) (hn : NoIds html) :
    ∃ out, inject false ids html = .val out ∧ Named ids html out := by
  unfold inject
  by_cases h : ids = []
  · rw [if_pos h, h]; exact ⟨_, rfl, .rest⟩
  · rw [if_neg h]
    obtain ⟨g1, g2⟩ := pieces_named ids hl _ html (Nat.le_refl _) hn 0
    simp only []
    rw [fold_fits _ _ (by simp at g2 ⊢; omega), finish_val (by simp at g2 ⊢; omega)]
    exact ⟨_, rfl, by simpa using g1⟩

/-- **C106**: ids, and with them the page, are always written within the buffer. -/
theorem C106_safe (anchors : Bool) (ids : List Bytes) (html : Bytes) : ∃ out, inject anchors ids html = .val out := by
  unfold inject
  split
  · exact ⟨_, rfl⟩
  · have := fold_len (cap := html.length + ids.length * 100) (pieces anchors ids 0 html) [] (by simp)
    simp only []
    rw [finish_val (by omega)]
    exact ⟨_, rfl⟩

/-- The result is the only one there can be. -/
theorem C106_unique {ids : List Bytes} {html out out' : Bytes} (h : Named ids html out) (h' : Named ids html out') : out = out' := by
  have rest : ∀ {i s o}, Named i s o → i = [] → o = s := by
    intro i s o h
    induction h with
    | nil => intro _; rfl
    | char _ _ ih => intro e; rw [ih e]
    | heading => intro e; cases e
    | rest => intro _; rfl
  induction h generalizing out' with
  | nil =>
    cases h' with
    | nil => rfl
    | heading hT _ => cases hT.1
    | rest => rfl
  | char hn h1 ih =>
    cases h' with
    | char _ h2 => rw [ih h2]
    | heading hT _ => exact absurd hT (hn _ _ _)
    | rest => rw [rest h1 rfl]
  | heading hT h1 ih =>
    cases h' with
    | nil => cases hT.1
    | char hn _ => exact absurd hT (hn _ _ _)
    | heading hT' h2 =>
      obtain ⟨rfl, rfl, rfl⟩ := tag_unique hT hT'
      rw [ih h2]
  | rest => exact (rest h' rfl).symm

/-- **C106 is false as stated**: a heading that already has an id, as it has when the document gives it one, counts twice: the
heading behind it gets the id of the next one, or none. -/
theorem C106_double :
    inject false [b!"x", b!"b"] b!"<h1 id=\"x\">A</h1><h2>B</h2>" = .val b!"<h1 id=\"x\">A</h1><h2>B</h2>" ∧
    inject false [b!"x", b!"b", b!"c"] b!"<h1 id=\"x\">A</h1><h2>B</h2><h2>C</h2>" =
      .val b!"<h1 id=\"x\">A</h1><h2 id=\"c\">B</h2><h2>C</h2>" := by
  refine ⟨?_, ?_⟩ <;> decide +kernel

/-- **C106 is false as stated**: headings in raw HTML, which are not headings of the document, take the ids of those that are. -/
theorem C106_raw :
    inject false [b!"a"] b!"<h2>raw</h2><h1>A</h1>" = .val b!"<h2 id=\"a\">raw</h2><h1>A</h1>" ∧
    inject false [b!"a"] b!"<!-- <h2> --><h1>A</h1>" = .val b!"<!-- <h2 id=\"a\"> --><h1>A</h1>" := by
  refine ⟨?_, ?_⟩ <;> decide +kernel

/-- **C106 is false as stated**: other attributes whose names end in `id` are overwritten. -/
theorem C106_other_attribute :
    inject false [b!"a"] b!"<h1 data-id=\"7\">A</h1>" = .val b!"<h1 data-id=\"a\">A</h1>" := by decide +kernel

/-- **C106 is false as stated**: a long id is cut, together with the quote behind it. -/
theorem C106_long (id : Bytes) (h : 507 ≤ id.length) : attr id = b!"id=\"" ++ id.take 507 := by
  unfold attr
  rw [List.append_assoc, List.take_append, List.take_append]
  simp
  omega

example : NoIds b!"<h1>A</h1>" := by
  intro a s d attrs r e hT hi
  obtain ⟨p, q, h⟩ := hi
  have : b!"id=" <:+: b!"<h1>A</h1>" := by
    refine ⟨a ++ b!"<h" ++ [d] ++ p, q ++ b!">" ++ r, ?_⟩
    rw [e, hT.1, ← h]
    simp
  revert this
  decide
example : inject false [b!"a", b!"b"] b!"<h1 class=\"x\">A</h1><p>t</p><h2>B</h2>" =
    .val b!"<h1 class=\"x\" id=\"a\">A</h1><p>t</p><h2 id=\"b\">B</h2>" := by decide +kernel

/-! ### C107 -/

/-- **C107**, partial: with ids of up to 22 bytes an anchor is written behind each tag, and nothing else changes. What is missing:
longer ids, see `C107_lost`. -/
theorem C107_anchors_partial (ids : List Bytes) (html : Bytes) (hl : ∀ id ∈ ids, id.length ≤ 22) :
    ∃ out, inject true ids html = .val out ∧ Anchored ids html out := by
  unfold inject
  by_cases h : ids = []
  · rw [if_pos h, h]; exact ⟨_, rfl, .rest⟩
  · rw [if_neg h]
    obtain ⟨g1, g2⟩ := pieces_anchored ids hl _ html (Nat.le_refl _) 0
    simp only []
    rw [fold_fits _ _ (by simp at g2 ⊢; omega), finish_val (by simp at g2 ⊢; omega)]
    exact ⟨_, rfl, by simpa using g1⟩

/-- **C107 is false as stated**: anchors with longer ids take the room of the text, and the end of the page is lost. -/
theorem C107_lost :
    inject true [b!"how-to-install-the-program-on-linux"] b!"<h1>How</h1>\n<p>First, do this.</p>\n<p>Then do all of it.</p>\n" =
      .val b!"<h1><a href=\"#how-to-install-the-program-on-linux\" aria-hidden=\"true\" class=\"anchor\" id=\"how-to-install-the-program-on-linux\"></a>How</h1>\n<p>First, do this.</p>\n" := by
  decide +kernel

example : inject true [b!"a"] b!"<h1>A</h1>" =
    .val b!"<h1><a href=\"#a\" aria-hidden=\"true\" class=\"anchor\" id=\"a\"></a>A</h1>" := by decide +kernel

end Verif.InjectIds
