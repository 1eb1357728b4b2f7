/-
Styles of terminal output (C200).
-/
import Verif.Proof.TermStyle

namespace Verif.TermStyle
open Spec

/-! ### C200: the words of a style do what they say -/

/-- C200, for styles of flags, of names of colours and of numbers of the palette, with any white space: the terminal shows nothing, and has the style the words say, one after the other.
Missing: colours in hexadecimal, for which see below. -/
theorem C200_style_partial (wide : Bool) {s : Bytes} {ps : List (Bytes × (Style → Style))} (hs : Spaced (ps.map Prod.fst) s) (hm : ∀ p ∈ ps, Means p.1 p.2) :
    Effect (style wide s) fun t => ps.foldl (fun t p => p.2 t) t := by
  unfold style
  rw [words_spaced hs]
  refine effect_flatMap wide ps fun p hp => ?_
  have := effect_means wide (hm p hp)
  rw [List.take_of_length_le (by have := this.2; omega)]
  exact this.1

/-- The style of code, `b white on_intense_black`. -/
example (wide : Bool) : Effect (style wide b!"b white on_intense_black") fun t => { t with bold := true, fg := some 7, bg := some 8 } :=
  C200_style_partial wide (s := b!"b white on_intense_black")
    (ps := [(b!"b", fun s => { s with bold := true }), (b!"white", fun s => { s with fg := some 7 }), (b!"on_intense_black", fun s => { s with bg := some (8 + 0) })])
    (.cons (g := []) (w := b!"b") (r := b!" white on_intense_black") (by simp) (by simp) (by decide)
      (.cons (g := b!" ") (w := b!"white") (r := b!" on_intense_black") (by decide) (by simp) (by decide)
        (.cons (g := b!" ") (w := b!"on_intense_black") (r := []) (by decide) (by simp) (by decide) (.nil (by simp)) (.inl rfl))
        (.inr ⟨c!" ", b!"on_intense_black", rfl, by decide⟩))
      (.inr ⟨c!" ", b!"white on_intense_black", rfl, by decide⟩))
    (by
      intro p hp
      simp only [List.mem_cons, List.not_mem_nil, or_false] at hp
      rcases hp with rfl | rfl | rfl
      · exact .flag (.bold (by decide))
      · exact .named (.fg (n := 7) (by decide))
      · exact .named (.bgBright (p := b!"intense_") (w := b!"black") (n := 0) (by decide) (by decide)))

/-- C200: with 256 colours, a colour in hexadecimal sets the text (with `#`) or the background (with `bg` or `on_`) to one of the palette from 16 on, each of whose channels is at most 69 steps off;
a grey to a grey at most 11 steps off. -/
theorem C200_hex {h : Bytes} {r g b : Nat} (hh : Hex h r g b) : ∃ n, 16 ≤ n ∧ n ≤ 255 ∧
    Effect (token true (c!"#" :: h)) (fun s => { s with fg := some n }) ∧ Effect (token true (b!"bg" ++ h)) (fun s => { s with bg := some n }) ∧ Effect (token true (b!"on_" ++ h)) (fun s => { s with bg := some n }) ∧
    Near 69 (palette n).1 r ∧ Near 69 (palette n).2.1 g ∧ Near 69 (palette n).2.2 b ∧
    (r = g → g = b → (palette n).1 = (palette n).2.1 ∧ (palette n).2.1 = (palette n).2.2 ∧ Near 11 (palette n).1 r) := by
  obtain ⟨_, _, hr, hg, hb⟩ := hexRgb_hex hh
  refine ⟨to256 r g b, (to256_le r g b).1, (to256_le r g b).2, ?_, ?_, ?_, to256_near hr hg hb⟩
  · rw [token_hash true hh]; exact effect_rgb false r g b
  · rw [token_bgHex true hh]; exact effect_rgb true r g b
  · rw [token_on true hh]; exact effect_rgb true r g b

example : Hex b!"FF8000" 255 128 0 := .six (x := 15) (x' := 15) (y := 8) (y' := 0) (z := 0) (z' := 0) (by decide) (by decide) (by decide) (by decide) (by decide) (by decide)

/-- C200 fails: the colour taken is not the nearest: one that is in the palette (52) is shown as another (88). -/
theorem C200_nearest : palette 52 = (95, 0, 0) ∧ Effect (token true b!"#5f0000") (fun s => { s with fg := some 88 }) ∧ palette 88 = (135, 0, 0) := by
  have h : Hex b!"5f0000" 95 0 0 := .six (x := 5) (x' := 15) (y := 0) (y' := 0) (z := 0) (z' := 0) (by decide) (by decide) (by decide) (by decide) (by decide) (by decide)
  refine ⟨rfl, ?_, rfl⟩
  have := effect_rgb false 95 0 0
  rw [← token_hash true h] at this
  exact this

/-- C200 fails: without 256 colours, every background in hexadecimal sets the text instead. -/
theorem C200_background {h : Bytes} {r g b : Nat} (hh : Hex h r g b) : ∃ n, n ≠ 0 ∧ Effect (token false (b!"on_" ++ h)) (fun s => { s with fg := some n }) := by
  rw [token_on false hh]
  unfold rgb nearest
  rw [if_neg (by decide)]
  split
  · exact ⟨1, by decide, effect_name (wide := false) (w := b!"red") (n := 31) (by decide +kernel) (by decide) rfl⟩
  split
  · exact ⟨2, by decide, effect_name (wide := false) (w := b!"green") (n := 32) (by decide +kernel) (by decide) rfl⟩
  split
  · exact ⟨4, by decide, effect_name (wide := false) (w := b!"blue") (n := 34) (by decide +kernel) (by decide) rfl⟩
  · exact ⟨7, by decide, effect_name (wide := false) (w := b!"white") (n := 37) (by decide +kernel) (by decide) rfl⟩

/-- C200 fails: `bg` before a name, as the code has it, needs a capital letter, and no name has one: no word of this form does anything. -/
theorem C200_bgName (wide : Bool) : ∀ x ∈ colours, token wide (b!"bg" ++ x.1) = [] ∧ token wide (b!"bg" ++ ((x.1.take 1).map fun c => c - 32) ++ x.1.drop 1) = [] := by
  cases wide <;> decide +kernel

/-- C200: whatever is written in a style, nothing of it is shown, unless a word begins like a number of the palette. -/
theorem C200_silent_partial (wide : Bool) {s : Bytes} (h : ¬ b!"38;5;" <:+: s ∧ ¬ b!"48;5;" <:+: s) : ∃ f, Effect (style wide s) f := by
  refine effect_style wide s fun w hw => effect_token wide _ ?_ ?_
  · rw [Bool.eq_false_iff]
    intro hp
    exact h.1 ((List.isPrefixOf_iff_prefix.1 hp).isInfix.trans ((List.take_prefix ..).isInfix.trans (words_infix hw)))
  · rw [Bool.eq_false_iff]
    intro hp
    exact h.2 ((List.isPrefixOf_iff_prefix.1 hp).isInfix.trans ((List.take_prefix ..).isInfix.trans (words_infix hw)))

example : ¬ b!"38;5;" <:+: b!"no such style \x1b[2J" ∧ ¬ b!"48;5;" <:+: b!"no such style \x1b[2J" := by decide +kernel

/-- C200 fails: a style can show text, or give the terminal a command. -/
theorem C200_shows : screen (style true b!"38;5;1mtext") = [.shown c!"t" { fg := some 1 }, .shown c!"e" { fg := some 1 }, .shown c!"x" { fg := some 1 }, .shown c!"t" { fg := some 1 }, .shown c!"m" { fg := some 1 }] ∧
    screen (style true b!"38;5;2J") = [.command, .shown c!"m" {}] := by decide +kernel

end Verif.TermStyle
