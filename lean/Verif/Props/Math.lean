/-
C125: what is read as math between dollar signs.
-/
import Verif.Proof.Math

namespace Verif.Math

/-- C125. Full statement: where a text has a dollar sign, math begins if and only if the text begins with `$$body$$` or `$body$` as described; then the
page shows the body unchanged, marked as math; amounts of money are left alone.  This part: exactly the texts described are read as math, the HTML has
the body between the marks, and the text behind is what is left.  Missing: the body is put into the page without being escaped
(`C125_markup_fails`), and two amounts can be read as math (`C125_money_fails`). -/
theorem C125_partial (input out rest : Bytes) :
    match' input = some (out, rest) ↔ ∃ display body, Begins input display body rest ∧ out = html display body := match_iff input out rest

/-- The reading is unique: the same text cannot be read as math in two ways. -/
theorem C125_unique {input body body' rest rest' : Bytes} {d d' : Bool} (h : Begins input d body rest) (h' : Begins input d' body' rest') :
    d = d' ∧ body = body' ∧ rest = rest' := by
  have e := (match_iff input _ _).2 ⟨d, body, h, rfl⟩
  have e' := (match_iff input _ _).2 ⟨d', body', h', rfl⟩
  rw [e] at e'
  simp at e'
  obtain ⟨e1, e2⟩ := e'
  cases d <;> cases d' <;> simp [html] at e1 <;> exact ⟨rfl, e1, e2⟩

/-- Amounts of money with a blank in front of each dollar sign are left alone. -/
theorem C125_money (s : Bytes) (h : ∀ u v, s = u ++ c!"$" :: v → ∃ c, u.getLast? = some c ∧ Blank c) : match' (c!"$" :: s) = none := by
  cases hm : match' (c!"$" :: s) with
  | none => rfl
  | some r =>
    exfalso
    obtain ⟨out, rest⟩ := r
    obtain ⟨d, body, hB, -⟩ := (match_iff _ _ _).1 hm
    generalize hi : c!"$" :: s = input at hB
    cases hB with
    | display h1 h2 h3 =>
      simp at hi
      obtain ⟨c, e, -⟩ := h [] _ (by rw [List.nil_append]; exact hi)
      simp at e
    | inline h1 h2 h3 h4 =>
      simp at hi
      obtain ⟨c, e, hb⟩ := h body rest (by simpa using hi)
      exact (h2 c e).1 hb

/-- A text without a second dollar sign is left alone. -/
theorem C125_alone (s : Bytes) (h : c!"$" ∉ s) : match' (c!"$" :: s) = none :=
  C125_money s fun u v e => absurd (by rw [e]; simp) h

/-- Two amounts with no blank in front of the second dollar sign are read as math. -/
theorem C125_money_fails : match' b!"$5-$10 a day" = some (b!"<span class=\"math inline\">\\(5-\\)</span>", b!"10 a day") := by decide +kernel

/-- Markup in the body becomes markup of the page, and a comparison becomes a tag. -/
theorem C125_markup_fails : match' b!"$a<b>c$." = some (b!"<span class=\"math inline\">\\(a<b>c\\)</span>", b!".") := by decide +kernel

/-- A backslash in front of the dollar sign continues the math even if that backslash is itself escaped: `\\` is a line end in math. -/
theorem C125_backslash_fails : match' b!"$a\\\\$ b" = none ∧ ∃ out, match' b!"$a\\\\$ b$" = some (out, []) := by
  refine ⟨by decide +kernel, b!"<span class=\"math inline\">\\(a\\\\$ b\\)</span>", by decide +kernel⟩

example : match' b!"$x^2$ is" = some (b!"<span class=\"math inline\">\\(x^2\\)</span>", b!" is") := by decide +kernel
example : match' b!"$$x$y$$ is" = some (b!"<span class=\"math display\">\\[x$y\\]</span>", b!" is") := by decide +kernel
example : Begins b!"$x \\$ y$ is" false b!"x \\$ y" b!" is" := by
  obtain ⟨d, body, h, e⟩ := (match_iff b!"$x \\$ y$ is" b!"<span class=\"math inline\">\\(x \\$ y\\)</span>" b!" is").1 (by decide +kernel)
  cases d
  · have : body = b!"x \\$ y" := List.append_cancel_right (bs := b!"\\)</span>") (by simpa [html] using e.symm)
    rwa [← this]
  · simp [html] at e
example : match' b!"$5 and $10" = none := by decide +kernel

end Verif.Math
