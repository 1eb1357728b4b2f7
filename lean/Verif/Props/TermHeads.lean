/- C288 and a part of C277: headings on a terminal. -/
import Verif.Props.Term

namespace Verif.Term
open Term.Spec TermStyle.Spec
open TermStyle (style reset)

theorem exec_heading {o : Opt} (ho : Quiet o) (ind : Nat) (w : Bytes) {t : Style} (ht : exec (ready {}) (style o.wide w) = (ready t, []))
    {ns : List Node} (h : ∀ n ∈ ns, Words n) (hp : Alls (Plain o.emoji) ns) :
    exec (ready {}) (spaces ind ++ style o.wide w ++ inlines o ns ++ reset ++ b!"\n\n") =
      (ready {}, (List.replicate (2 * ind) c!" ").map (Event.shown · {}) ++ (readAll o.emoji ns).map (Event.shown · t) ++
        [.shown c!"\n" {}, .shown c!"\n" {}]) := by
  rw [List.append_assoc, List.append_assoc, List.append_assoc, TermStyle.exec_append, exec_calm {} (calm_spaces ind)]
  simp only
  rw [TermStyle.exec_append, ht]
  simp only
  rw [TermStyle.exec_append, exec_words ho _ h, seens_reads ns hp]
  simp only
  rw [TermStyle.exec_append, TermStyle.effect_reset t]
  simp only
  rw [exec_calm {} (s := b!"\n\n") (by decide)]
  simp [spaces]

/-- C288 (part that holds): a heading of words, of one of the six levels, is on a line of its own with an empty
line below, and all of its text, and nothing else, has the style that the theme gives to its level. -/
theorem C288_partial {o : Opt} (ho : Quiet o) (ind : Nat) (inList : Bool) (out : Bytes) (a : Option Bytes) {level : Nat}
    (h1 : 1 ≤ level) (h6 : level ≤ 6) {w : Bytes} (hw : o.theme.head level = some w) {ns : List Node} (h : ∀ n ∈ ns, Words n)
    (hp : Alls (Plain o.emoji) ns) :
    ∃ x f, Effect (style o.wide w) f ∧ block o ind inList out (.mk (.heading level) a ns) = .val (out ++ x) ∧
      screen x = (List.replicate (2 * ind) c!" ").map (Event.shown · {}) ++ (readAll o.emoji ns).map (Event.shown · (f {})) ++
        [.shown c!"\n" {}, .shown c!"\n" {}] := by
  obtain ⟨f, hf⟩ := ho.head level w hw
  refine ⟨_, f, hf, ?_, by rw [screen, exec_heading ho ind w (hf {}) h hp]⟩
  rw [block]
  have : headStyle o.theme level = w := by simp [headStyle, h1, h6, hw]
  rw [this]
  simp

/-- C288 (part that holds): without a style of the theme, the first three levels have a style of their own each:
they are told apart by how their text looks. -/
theorem C288_default_partial {o : Opt} (ho : Quiet o) (ind : Nat) (inList : Bool) (out : Bytes) (a : Option Bytes) {level : Nat}
    (h1 : 1 ≤ level) (h3 : level ≤ 3) (hw : o.theme.head level = none) {ns : List Node} (h : ∀ n ∈ ns, Words n)
    (hp : Alls (Plain o.emoji) ns) :
    ∃ x t, (level, t) ∈ [(1, ({ bold := true, fg := some 8, bg := some 7 } : Style)), (2, { bold := true, fg := some 7, bg := some 8 }),
        (3, { under := true, bold := true, fg := some 3 })] ∧
      block o ind inList out (.mk (.heading level) a ns) = .val (out ++ x) ∧
      screen x = (List.replicate (2 * ind) c!" ").map (Event.shown · {}) ++ (readAll o.emoji ns).map (Event.shown · t) ++
        [.shown c!"\n" {}, .shown c!"\n" {}] := by
  have e1 : exec (ready {}) (style o.wide b!"b intense_black on_white") = (ready { bold := true, fg := some 8, bg := some 7 }, []) := by
    cases o.wide <;> decide +kernel
  have e2 : exec (ready {}) (style o.wide b!"b white on_intense_black") = (ready { bold := true, fg := some 7, bg := some 8 }, []) := by
    cases o.wide <;> decide +kernel
  have e3 : exec (ready {}) (style o.wide b!"u b yellow") = (ready { under := true, bold := true, fg := some 3 }, []) := by
    cases o.wide <;> decide +kernel
  have hl : level = 1 ∨ level = 2 ∨ level = 3 := by omega
  rcases hl with rfl | rfl | rfl
  · exact ⟨spaces ind ++ style o.wide b!"b intense_black on_white" ++ inlines o ns ++ reset ++ b!"\n\n", { bold := true, fg := some 8, bg := some 7 }, by decide,
      by rw [block]; simp [headStyle, hw], by rw [screen, exec_heading ho ind _ e1 h hp]⟩
  · exact ⟨spaces ind ++ style o.wide b!"b white on_intense_black" ++ inlines o ns ++ reset ++ b!"\n\n", { bold := true, fg := some 7, bg := some 8 }, by decide,
      by rw [block]; simp [headStyle, hw], by rw [screen, exec_heading ho ind _ e2 h hp]⟩
  · exact ⟨spaces ind ++ style o.wide b!"u b yellow" ++ inlines o ns ++ reset ++ b!"\n\n", { under := true, bold := true, fg := some 3 }, by decide,
      by rw [block]; simp [headStyle, hw], by rw [screen, exec_heading ho ind _ e3 h hp]⟩

/-- C288 (refutation): without styles of the theme, headings of the further levels are shown in the same way. -/
theorem C288_level_fails (o : Opt) (ind : Nat) (inList : Bool) (out : Bytes) (a : Option Bytes) {l m : Nat} (hl : 4 ≤ l) (hm : 4 ≤ m)
    (h1 : o.theme.head l = none) (h2 : o.theme.head m = none) (ns : List Node) :
    block o ind inList out (.mk (.heading l) a ns) = block o ind inList out (.mk (.heading m) a ns) := by
  have : ∀ k, 4 ≤ k → o.theme.head k = none → headStyle o.theme k = b!"b white" := by
    intro k hk hn
    simp [headStyle, hn, show k ≠ 1 by omega, show k ≠ 2 by omega, show k ≠ 3 by omega]
  rw [block, block, this l hl h1, this m hm h2]

/-- C277 (refutation): the classes of a heading do not matter, and so neither does their style in the theme. -/
theorem C277_heading_fails (o : Opt) (ind : Nat) (inList : Bool) (out : Bytes) (a b : Option Bytes) (l : Nat) (ns : List Node) :
    block o ind inList out (.mk (.heading l) a ns) = block o ind inList out (.mk (.heading l) b ns) := by
  rw [block, block]

/-- C288: a theme with a style for the second level, and a heading. -/
theorem C288_case : let o : Opt := { theme := { head := fun l => if l = 2 then some b!"red" else none } }
    Words (.mk (.text b!"a") none []) ∧
    ∃ x, block o 1 false [] (.mk (.heading 2) none [.mk (.text b!"a") none []]) = .val x ∧
      screen x = [.shown c!" " {}, .shown c!" " {}, .shown c!"a" { fg := some 1 }, .shown c!"\n" {}, .shown c!"\n" {}] :=
  ⟨⟨_, _, rfl, by decide⟩, _, rfl, by decide +kernel⟩

end Verif.Term
