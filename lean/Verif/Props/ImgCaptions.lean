/-
Figures with captions (C186, C187).
-/
import Verif.Proof.ImgCaptions

namespace Verif.ImgCaptions
open Spec

/-! ### C186: images with a caption become figures -/

/-- C186 for pages of tags with quoted attributes without `<`, and pictures with one image: an image with a caption outside of figures is in a figure without the attribute for the caption; with `on`
so is one with a title or, unless only titles count, a text, and a picture with a title or a text.  Missing: attributes without a value or without quotes, images in comments. -/
theorem C186_page_partial (on titles : Bool) {t0 : Bytes} {ps : List Piece} (h0 : c!"<" ∉ t0) (h : ∀ p ∈ ps, p.Ok on titles) :
    convert on titles (t0 ++ plain ps) = .val (t0 ++ page on 0 ps) := convert_pieces on titles h0 h

/-- A page with text, a figure with an image, an image with a caption and a picture. -/
def sample : List Piece := [
  .other b!"p>Text ",
  .image [⟨b!" ", b!"src", c!"\"", b!"a.png"⟩, ⟨b!" ", b!"caption", c!"'", b!" A \"cat\" "⟩, ⟨b!" ", b!"alt", c!"\"", b!"x>y"⟩] b!" " b!"/" b!" more" b!"A \"cat\"",
  .other b!"/p>\n", .opens b!">", .image [⟨b!" ", b!"alt", c!"\"", b!"B"⟩] [] [] [] b!"B", .closes b!">\n",
  .picture b!"\n" [b!"source srcset=\"b.webp\">"] b!" src=\"b.png\" alt=\"C\"" [] b!"\n" [] b!"C"]

example : ∀ p ∈ sample, p.Ok true false := by
  intro p hp
  have hother : ∀ x : Bytes, c!"<" ∉ x → (∀ w ∈ words, AutoMedia.begins w x = false) → Other x := by
    intro x h1 h2
    refine ⟨h1, ?_⟩
    intro w hw a b e ha
    have := h2 w hw
    subst e
    have hl : w.length = a.length := by rw [← ha, List.length_map]
    unfold AutoMedia.begins at this
    rw [hl, List.take_left, ha, beq_self_eq_true] at this
    cases this
  simp only [sample, List.mem_cons, List.not_mem_nil, or_false] at hp
  rcases hp with rfl | rfl | rfl | rfl | rfl | rfl | rfl
  · exact hother _ (by decide) (by decide)
  · refine ⟨?_, ?_, by decide, Or.inr rfl, by decide, ⟨b!" ", b!" ", rfl, by decide, by decide, by decide⟩⟩
    · intro a ha
      simp only [List.mem_cons, List.not_mem_nil, or_false] at ha
      rcases ha with rfl | rfl | rfl <;> exact ⟨by decide, by decide, by decide, by decide, by decide, by decide, by decide⟩
    · intro a ha
      cases ha
      decide
  · exact hother _ (by decide) (by decide)
  · exact ⟨by decide, _, rfl, Or.inl rfl⟩
  · refine ⟨?_, ?_, by decide, Or.inl rfl, by decide, ⟨[], [], rfl, by decide, by decide, by decide⟩⟩
    · intro a ha
      simp only [List.mem_cons, List.not_mem_nil, or_false] at ha
      rcases ha with rfl
      exact ⟨by decide, by decide, by decide, by decide, by decide, by decide, by decide⟩
    · intro a ha
      cases ha
      decide
  · exact ⟨by decide, _, rfl, Or.inl rfl⟩
  · refine ⟨by decide, ?_, by decide, by decide, by decide, Or.inr ⟨rfl, ?_⟩, Or.inl (AutoMedia.attr_iff.1 (by decide +kernel))⟩
    · intro x hx
      simp only [List.append_nil, List.mem_cons, List.not_mem_nil, or_false] at hx
      subst hx
      exact hother _ (by decide) (by decide)
    · intro w hw
      have := AutoMedia.attr_iff.2 hw
      rw [show AutoMedia.attr b!"title" true (b!"<img" ++ b!" src=\"b.png\" alt=\"C\"" ++ b!">") = none by decide +kernel] at this
      cases this

example : convert true false (plain sample) = .val
    (b!"<p>Text <figure><img src=\"a.png\" alt=\"x>y\" /><figcaption>A \"cat\"</figcaption></figure> more</p>\n<figure><img alt=\"B\"></figure>\n" ++
     b!"<figure><picture>\n<source srcset=\"b.webp\"><img src=\"b.png\" alt=\"C\"></picture><figcaption>C</figcaption></figure>\n") := by decide +kernel

/-- C186 fails: when only titles count, a picture still shows its text. -/
theorem C186_titles : convert true true b!"<picture><img src=\"a\" alt=\"A\"></picture>" =
      .val b!"<figure><picture><img src=\"a\" alt=\"A\"></picture><figcaption>A</figcaption></figure>" ∧
    convert true true b!"<img src=\"a\" alt=\"A\">" = .val b!"<img src=\"a\" alt=\"A\">" := by decide +kernel

/-- C186 fails: an attribute behind one without a value is not seen. -/
theorem C186_hidden : convert true false b!"<img hidden alt=\"A\">" = .val b!"<img hidden alt=\"A\">" ∧
    convert true false b!"<img alt=\"A\" hidden>" = .val b!"<figure><img alt=\"A\" hidden><figcaption>A</figcaption></figure>" := by decide +kernel

/-- C186 fails: the caption of an image in a picture is not used. -/
theorem C186_ignored : convert true false b!"<picture><img src=\"a\" caption=\"A\"></picture>" = .val b!"<picture><img src=\"a\" caption=\"A\"></picture>" := by decide +kernel

/-- C186 fails: a caption of blanks hides the title. -/
theorem C186_blank : convert true false b!"<img caption=\" \" title=\"T\">" = .val b!"<img caption=\" \" title=\"T\">" := by decide +kernel

/-- C186 fails: a picture in a figure is in two figures, an image is not. -/
theorem C186_twice : convert true false b!"<figure><picture><img alt=\"A\"></picture></figure>" =
      .val b!"<figure><figure><picture><img alt=\"A\"></picture><figcaption>A</figcaption></figure></figure>" ∧
    convert true false b!"<figure><img alt=\"A\"></figure>" = .val b!"<figure><img alt=\"A\"></figure>" := by decide +kernel

/-- C186 fails: the title of a picture is looked for in other values. -/
theorem C186_inside : convert true false b!"<picture><img alt=\"the title='x'\"></picture>" =
    .val b!"<figure><picture><img alt=\"the title='x'\"></picture><figcaption>x</figcaption></figure>" := by decide +kernel

/-- C186 fails: comments are not skipped, neither for images nor for figures. -/
theorem C186_comment : convert true false b!"<!-- <img alt=\"A\"> -->" = .val b!"<!-- <figure><img alt=\"A\"><figcaption>A</figcaption></figure> -->" ∧
    convert true false b!"<!-- <figure> --><img alt=\"A\">" = .val b!"<!-- <figure> --><img alt=\"A\">" := by decide +kernel

/-! ### C187: nothing else changes -/

/-- C187, for every page: nothing is written outside of the block, and the page is cut into parts that stay or are an image or a picture put in a figure, where at most the attribute for the caption is left
out and the caption is a part of it. -/
theorem C187_turned (on titles : Bool) (html : Bytes) :
    ∃ l : List (Bytes × Bytes), html = l.flatMap (·.1) ∧ convert on titles html = .val (l.flatMap (·.2)) ∧ ∀ p ∈ l, Turned p.1 p.2 := by
  obtain ⟨l, h1, h2, h3⟩ := pass_turned on titles html.length [] html (Nat.le_refl _)
  exact ⟨l, h1, by rw [convert_pass, h2], h3⟩

/-- C187: with captions off, a page without the word `caption` stays as it is. -/
theorem C187_off (titles : Bool) {html : Bytes} (h : ¬ b!"caption" <:+: html.map toLower) : convert false titles html = .val html := by
  rw [convert_pass, pass_off titles _ _ _ (Nat.le_refl _) h]

/-- C187: a page without `<` stays as it is. -/
theorem C187_text (on titles : Bool) {html : Bytes} (h : c!"<" ∉ html) : convert on titles html = .val html := by
  have := convert_pieces on titles (ps := []) h (by simp)
  simpa [plain, page] using this

example : ¬ b!"caption" <:+: (b!"<p><img src=\"a\" alt=\"A\" title=\"T\"></p>").map toLower ∧
    convert false false b!"<p><img src=\"a\" alt=\"A\" title=\"T\"></p>" = .val b!"<p><img src=\"a\" alt=\"A\" title=\"T\"></p>" ∧
    convert false false b!"<p><img src=\"a\" Caption=\"A\" title=\"T\"></p>" = .val b!"<p><figure><img src=\"a\" title=\"T\"><figcaption>A</figcaption></figure></p>" := by decide +kernel

end Verif.ImgCaptions
