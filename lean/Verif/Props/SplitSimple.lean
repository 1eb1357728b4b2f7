import Verif.Proof.SplitSimple

namespace Verif.SplitSimple
open Spec Transforms

/-! C262: the transform `split` with a text that is no regular expression separates the value where this text is written. -/

/-- Missing: values with some bytes of the text alone, where it fails. -/
theorem C262_partial {regcomp : Bytes → Option Matcher} {d : Bytes} (hd : d ≠ []) (hr : regcomp d = none) {l : List Bytes} (h : ∀ x ∈ l, Piece d x) :
    split regcomp d (between d l) = some l := by
  unfold split splitSimple
  rw [if_neg hd, hr]
  simp only
  rw [if_neg hd, if_neg hd, tokens_between hd (fun x hx => ⟨(h x hx).1, (h x hx).2.1⟩)]
  have : l.map trimTok = l.map id := List.map_congr_left (fun x hx => trimTok_piece (h x hx))
  rw [this, List.map_id]

theorem C262_case : (∀ x ∈ [b!"a b", b!"c"], Piece b!"((" x) ∧ between b!"((" [b!"a b", b!"c"] = b!"a b((c" ∧
    split (fun _ => none) b!"((" b!"a b((c" = some [b!"a b", b!"c"] := by
  have h : ∀ x ∈ [b!"a b", b!"c"], Piece b!"((" x := by
    intro x hx
    simp only [List.mem_cons, List.not_mem_nil, or_false] at hx
    rcases hx with rfl | rfl
    · exact ⟨by decide, by decide, by decide +kernel, by decide +kernel⟩
    · exact ⟨by decide, by decide, by decide +kernel, by decide +kernel⟩
  exact ⟨h, by decide, C262_partial (by decide) rfl h⟩

/-- Each byte of the text separates, even where the text is not written. -/
theorem C262_fails {regcomp : Bytes → Option Matcher} {d x y : Bytes} {c : Byte} (hr : regcomp d = none) (hc : c ∈ d) (hx : Piece d x) (hy : Piece d y) :
    split regcomp d (x ++ c :: y) = some [x, y] := by
  have hd : d ≠ [] := List.ne_nil_of_mem hc
  unfold split splitSimple
  rw [if_neg hd, hr]
  simp only
  have e := tokens_one hx.1 hx.2.1 (t := [c]) (by simp) (by simpa using hc) y
  rw [if_neg hd, if_neg hd]
  simp only [List.singleton_append] at e
  rw [e, tokens_last hy.1 hy.2.1]
  simp [trimTok_piece hx, trimTok_piece hy]

/-- The text `(and` does not occur in `salt`, and the value is separated at its `a`. -/
theorem C262_fails_case : ¬ b!"(and" <:+: b!"salt" ∧ split (fun _ => none) b!"(and" b!"salt" = some [b!"s", b!"lt"] :=
  ⟨by decide, C262_fails (d := b!"(and") (x := b!"s") (y := b!"lt") (c := c!"a") rfl (by decide) ⟨by decide, by decide, by decide +kernel, by decide +kernel⟩ ⟨by decide, by decide, by decide +kernel, by decide +kernel⟩⟩

/-- A value of nothing but bytes of the text has no parts. -/
theorem C262_none_fails {regcomp : Bytes → Option Matcher} {d v : Bytes} (hd : d ≠ []) (hr : regcomp d = none) (h : ∀ c ∈ v, c ∈ d) :
    split regcomp d v = some [] := by
  unfold split splitSimple
  rw [if_neg hd, hr]
  simp only
  have := tokens_skip h []
  rw [List.append_nil] at this
  rw [if_neg hd, if_neg hd, this]
  rfl

/-- White space between two of them is an empty part, although nothing between them is none. -/
theorem C262_blank_fails : split (fun _ => none) b!"(" b!"a( (b" = some [b!"a", [], b!"b"] := by decide +kernel

end Verif.SplitSimple
