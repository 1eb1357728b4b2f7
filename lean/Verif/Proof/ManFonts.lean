/- Lemmas on fonts in man pages. -/
import Verif.Proof.Man
import Verif.Spec.ManFonts

namespace Verif.Man
open Spec

theorem styled_plain (cur prev : Font) (c : Byte) (t : Bytes) (h : c ≠ 92) :
    styled cur prev (c :: t) = (c, cur) :: styled cur prev t := by
  conv => lhs; unfold styled
  split <;> simp_all

theorem styled_bytes (cur prev : Font) (s r : Bytes) (h : (92 : Byte) ∉ s) :
    styled cur prev (s ++ r) = inFont cur s ++ styled cur prev r := by
  induction s with
  | nil => rfl
  | cons c t ih =>
    simp only [List.mem_cons, not_or] at h
    rw [List.cons_append, styled_plain _ _ _ _ (fun e => h.1 e.symm), ih h.2]
    rfl

theorem inFont_append (f : Font) (a b : Bytes) : inFont f (a ++ b) = inFont f a ++ inFont f b := by
  simp [inFont]

theorem inFont_cons (f : Font) (c : Byte) (t : Bytes) : inFont f (c :: t) = (c, f) :: inFont f t := rfl

theorem dash_iff {after d : Byte} (hd : after ≠ d) (t : Bytes) :
    dash after d t = true ↔ ∃ r, t = 0x80 :: d :: r := by
  match t with
  | [] => simp [dash]
  | [a] => simp [dash]; exact fun _ => hd
  | a :: b :: r => simp [dash]

theorem styled_roffLoop {after : Byte} (h3 : after ≠ 0x93) (h4 : after ≠ 0x94) (cur prev : Font) (r : Bytes)
    (st : Bool) (s : Bytes) :
    styled cur prev (roffLoop after st s ++ r) = inFont cur (enDash s) ++ styled cur prev r := by
  fun_induction roffLoop after st s with
  | case1 => rfl
  | case2 st t ih =>
    rw [enDash_plain _ _ (by simp)]
    simp only [inFont_cons, List.cons_append, List.nil_append, ← ih, styled]
  | case3 st t _ ih =>
    rw [enDash_plain _ _ (by simp)]
    simp only [inFont_cons, List.cons_append, ← ih]
    exact styled_plain _ _ _ _ (by simp)
  | case4 st c t hc1 hc2 hc ih =>
    simp at hc
    rw [enDash_plain _ _ (by rintro ⟨rfl, _⟩; simp at hc)]
    simp only [inFont_cons, List.cons_append, List.nil_append, ← ih, styled]
    exact styled_plain _ _ _ _ hc1
  | case5 st t _ _ _ ih =>
    rw [enDash_plain _ _ (by simp)]
    simp only [inFont_cons, List.cons_append, List.nil_append, ← ih, styled]
  | case6 st c t _ _ _ _ hc ih =>
    simp at hc
    obtain ⟨u, rfl⟩ := (dash_iff h3 t).1 hc.2
    simp at ih
    rw [hc.1, enDash]
    simp only [inFont_cons, List.cons_append, List.nil_append, ← ih, styled, List.drop_succ_cons, List.drop_zero]
  | case7 st c t _ _ _ _ hc hc' ih =>
    simp at hc'
    obtain ⟨u, rfl⟩ := (dash_iff h4 t).1 hc'.2
    simp at ih
    rw [hc'.1, enDash_plain _ _ (by simp), enDash_plain _ _ (by simp), enDash_plain _ _ (by simp)]
    simp only [inFont_cons, List.cons_append, List.nil_append, ← ih, styled, List.drop_succ_cons, List.drop_zero]
  | case8 st c t hc1 hc2 hc3' hc4' hc5 hc6 ih =>
    rw [enDash_plain _ _ ?_]
    · simp only [inFont_cons, List.cons_append, ← ih]
      exact styled_plain _ _ _ _ hc1
    · rintro ⟨rfl, h⟩
      exact hc5 (by simpa using (dash_iff h3 t).2 h)

theorem styled_bold (cur prev : Font) (r : Bytes) : styled cur prev (b!"\\f[B]" ++ r) = styled .bold cur r := by
  simp [styled]
theorem styled_italic (cur prev : Font) (r : Bytes) : styled cur prev (b!"\\f[I]" ++ r) = styled .italic cur r := by
  simp [styled]
theorem styled_back (cur prev : Font) (r : Bytes) : styled cur prev (b!"\\f[]" ++ r) = styled prev cur r := by
  simp [styled]
theorem styled_roman (cur prev : Font) (r : Bytes) : styled cur prev (b!"\\fR" ++ r) = styled .roman cur r := by
  simp [styled]

/-! ### Inline nodes -/

mutual
/-- Inside emphasis the fonts are restored exactly. -/
theorem inside_styled (f : Font) (n : Node) (h : flat true n = true) (out : Bytes) :
    ∃ e, renderInline out n = out ++ e ∧
      ∀ r, styled f .roman (e ++ r) = inlineStyled f n ++ styled f .roman r := by
  match n with
  | .mk k kids =>
    cases k with
    | text lit =>
      exact ⟨_, by rw [renderInline, roffSafe], fun r => by
        rw [styled_roffLoop (by decide) (by decide), inlineStyled]⟩
    | code lit =>
      refine ⟨b!"\\fR" ++ (roffLoop 0 (atLineStart (out ++ b!"\\fR")) lit ++ b!"\\f[]"),
        by simp [renderInline, roffSafe], fun r => ?_⟩
      rw [List.append_assoc, styled_roman, List.append_assoc, styled_roffLoop (by decide) (by decide),
        styled_back, inlineStyled]
    | lineBreak =>
      exact ⟨b!"\n.br\n", by rw [renderInline], fun r => by rw [styled_bytes _ _ _ _ (by decide), inlineStyled]⟩
    | softBreak =>
      exact ⟨b!" ", by rw [renderInline], fun r => by rw [styled_bytes _ _ _ _ (by decide), inlineStyled]⟩
    | strong => simp [flat] at h
    | emph => simp [flat] at h
    | link url =>
      obtain ⟨e, h1, h2⟩ := insides_styled f kids (by simpa [flat] using h) out
      by_cases hu : url = []
      · exact ⟨e, by simp [renderInline, hu, h1], fun r => by rw [h2, inlineStyled]; simp [hu]⟩
      · refine ⟨e ++ (b!" (" ++ (roffLoop 0 (atLineStart (out ++ e ++ b!" (")) url ++ b!")")), ?_, fun r => ?_⟩
        · simp [renderInline, hu, h1, roffSafe]
        · rw [List.append_assoc, h2, List.append_assoc, styled_bytes _ _ _ _ (by decide), List.append_assoc,
            styled_roffLoop (by decide) (by decide), styled_bytes _ _ _ _ (by decide), inlineStyled,
            if_pos hu, inFont_append, inFont_append]
          simp only [List.append_assoc]
    | htmlInline => exact ⟨[], by simp [renderInline], fun r => by simp [inlineStyled]⟩
    | _ =>
      obtain ⟨e, h1, h2⟩ := insides_styled f kids (by simpa [flat] using h) out
      exact ⟨e, by simp only [renderInline]; exact h1, fun r => by simp only [inlineStyled]; exact h2 r⟩
theorem insides_styled (f : Font) (ns : List Node) (h : flats true ns = true) (out : Bytes) :
    ∃ e, renderInlines out ns = out ++ e ∧
      ∀ r, styled f .roman (e ++ r) = inlinesStyled f ns ++ styled f .roman r := by
  match ns with
  | [] => exact ⟨[], by simp [renderInlines], fun r => by simp [inlinesStyled]⟩
  | n :: ns =>
    simp only [flats, Bool.and_eq_true] at h
    obtain ⟨e1, h1, h2⟩ := inside_styled f n h.1 out
    obtain ⟨e2, h3, h4⟩ := insides_styled f ns h.2 (out ++ e1)
    refine ⟨e1 ++ e2, by rw [renderInlines, h1, h3, List.append_assoc], fun r => ?_⟩
    rw [List.append_assoc, h2, h4, inlinesStyled, List.append_assoc]
end

mutual
/-- Outside emphasis the current font stays roman. -/
theorem outside_styled (n : Node) (h : flat false n = true) (out : Bytes) :
    ∃ e, renderInline out n = out ++ e ∧
      ∀ p, ∃ p', ∀ r, styled .roman p (e ++ r) = inlineStyled .roman n ++ styled .roman p' r := by
  match n with
  | .mk k kids =>
    cases k with
    | text lit =>
      exact ⟨_, by rw [renderInline, roffSafe], fun p => ⟨p, fun r => by
        rw [styled_roffLoop (by decide) (by decide), inlineStyled]⟩⟩
    | code lit =>
      refine ⟨b!"\\fR" ++ (roffLoop 0 (atLineStart (out ++ b!"\\fR")) lit ++ b!"\\f[]"),
        by simp [renderInline, roffSafe], fun p => ⟨.roman, fun r => ?_⟩⟩
      rw [List.append_assoc, styled_roman, List.append_assoc, styled_roffLoop (by decide) (by decide),
        styled_back, inlineStyled]
    | lineBreak =>
      exact ⟨b!"\n.br\n", by rw [renderInline], fun p => ⟨p, fun r => by
        rw [styled_bytes _ _ _ _ (by decide), inlineStyled]⟩⟩
    | softBreak =>
      exact ⟨b!" ", by rw [renderInline], fun p => ⟨p, fun r => by
        rw [styled_bytes _ _ _ _ (by decide), inlineStyled]⟩⟩
    | strong =>
      obtain ⟨e, h1, h2⟩ := insides_styled .bold kids (by simpa [flat] using h) (out ++ b!"\\f[B]")
      refine ⟨b!"\\f[B]" ++ (e ++ b!"\\f[]"), by rw [renderInline, h1]; simp, fun p => ⟨.bold, fun r => ?_⟩⟩
      rw [List.append_assoc, styled_bold, List.append_assoc, h2, styled_back, inlineStyled]
    | emph =>
      obtain ⟨e, h1, h2⟩ := insides_styled .italic kids (by simpa [flat] using h) (out ++ b!"\\f[I]")
      refine ⟨b!"\\f[I]" ++ (e ++ b!"\\f[]"), by rw [renderInline, h1]; simp, fun p => ⟨.italic, fun r => ?_⟩⟩
      rw [List.append_assoc, styled_italic, List.append_assoc, h2, styled_back, inlineStyled]
    | link url =>
      obtain ⟨e, h1, h2⟩ := outsides_styled kids (by simpa [flat] using h) out
      by_cases hu : url = []
      · refine ⟨e, by simp [renderInline, hu, h1], fun p => (h2 p).imp fun p' hp r => ?_⟩
        rw [hp, inlineStyled]; simp [hu]
      · refine ⟨e ++ (b!" (" ++ (roffLoop 0 (atLineStart (out ++ e ++ b!" (")) url ++ b!")")), ?_,
          fun p => (h2 p).imp fun p' hp r => ?_⟩
        · simp [renderInline, hu, h1, roffSafe]
        · rw [List.append_assoc, hp, List.append_assoc, styled_bytes _ _ _ _ (by decide), List.append_assoc,
            styled_roffLoop (by decide) (by decide), styled_bytes _ _ _ _ (by decide), inlineStyled,
            if_pos hu, inFont_append, inFont_append]
          simp only [List.append_assoc]
    | htmlInline => exact ⟨[], by simp [renderInline], fun p => ⟨p, fun r => by simp [inlineStyled]⟩⟩
    | _ =>
      obtain ⟨e, h1, h2⟩ := outsides_styled kids (by simpa [flat] using h) out
      exact ⟨e, by simp only [renderInline]; exact h1, fun p => (h2 p).imp fun p' hp r => by
        simp only [inlineStyled]; exact hp r⟩
theorem outsides_styled (ns : List Node) (h : flats false ns = true) (out : Bytes) :
    ∃ e, renderInlines out ns = out ++ e ∧
      ∀ p, ∃ p', ∀ r, styled .roman p (e ++ r) = inlinesStyled .roman ns ++ styled .roman p' r := by
  match ns with
  | [] => exact ⟨[], by simp [renderInlines], fun p => ⟨p, fun r => by simp [inlinesStyled]⟩⟩
  | n :: ns =>
    simp only [flats, Bool.and_eq_true] at h
    obtain ⟨e1, h1, h2⟩ := outside_styled n h.1 out
    obtain ⟨e2, h3, h4⟩ := outsides_styled ns h.2 (out ++ e1)
    refine ⟨e1 ++ e2, by rw [renderInlines, h1, h3, List.append_assoc], fun p => ?_⟩
    obtain ⟨p1, hp1⟩ := h2 p
    obtain ⟨p2, hp2⟩ := h4 p1
    exact ⟨p2, fun r => by rw [List.append_assoc, hp1, hp2, inlinesStyled, List.append_assoc]⟩
end

/-! ### Fragments -/

theorem not_plain_head {c : Byte} (h : isPlain c = false) : c = c!"<" ∨ c = c!"&" := by
  simp only [isPlain, Bool.and_eq_false_iff, bne_eq_false_iff_eq] at h
  exact h

/-- The plain run at the start of a piece. -/
theorem Spec.Piece.run {f : Font} {s : Bytes} {o : List (Byte × Font)} (h : Piece f s o) :
    ∃ o', o = inFont f (enDash (s.takeWhile isPlain)) ++ o' ∧ Piece f (s.dropWhile isPlain) o' := by
  induction h with
  | nil => exact ⟨[], rfl, .nil⟩
  | @plain c t o h1 h2 h3 _ ih =>
    obtain ⟨o', rfl, h4⟩ := ih
    have hp : isPlain c = true := by simp [isPlain, h1, h2]
    refine ⟨o', ?_, by rw [List.dropWhile_cons_of_pos hp]; exact h4⟩
    rw [List.takeWhile_cons_of_pos hp, enDash_plain, inFont_cons, List.cons_append]
    rintro ⟨rfl, r, hr⟩
    refine h3 ⟨rfl, r ++ t.dropWhile isPlain, ?_⟩
    conv => lhs; rw [← List.takeWhile_append_dropWhile (p := isPlain) (l := t), hr]
    rfl
  | @dash t o _ ih =>
    obtain ⟨o', rfl, h4⟩ := ih
    exact ⟨o', rfl, h4⟩
  | @entity e c t o he hp ih =>
    have : (e ++ t).takeWhile isPlain = [] ∧ (e ++ t).dropWhile isPlain = e ++ t := by
      simp only [List.mem_cons, Prod.mk.injEq, List.not_mem_nil, or_false] at he
      rcases he with ⟨rfl, rfl⟩ | ⟨rfl, rfl⟩ | ⟨rfl, rfl⟩ | ⟨rfl, rfl⟩ | ⟨rfl, rfl⟩ <;> exact ⟨rfl, rfl⟩
    rw [this.1, this.2]
    exact ⟨_, rfl, .entity he hp⟩
  | @tag w t o h1 h2 hp ih => exact ⟨_, rfl, .tag h1 h2 hp⟩

theorem takeWhile_boundary (s t : Bytes) (ht : t = [] ∨ ∃ u, t = c!"<" :: u) :
    (s ++ t).takeWhile isPlain = s.takeWhile isPlain ∧
      (s ++ t).dropWhile isPlain = s.dropWhile isPlain ++ t := by
  induction s with
  | nil => rcases ht with rfl | ⟨u, rfl⟩ <;> exact ⟨rfl, rfl⟩
  | cons c s ih =>
    rw [List.cons_append, List.takeWhile_cons, List.takeWhile_cons, List.dropWhile_cons, List.dropWhile_cons,
      ih.1, ih.2]
    split <;> exact ⟨rfl, rfl⟩

theorem fragLoop_step {out rest out' rest' : Bytes} (h : fragStep ⟨out, rest⟩ = ⟨out', rest'⟩) (hne : rest ≠ [])
    (hlt : rest' ≠ rest) : fragLoop ⟨out, rest⟩ = fragLoop ⟨out', rest'⟩ := by
  conv => lhs; unfold fragLoop
  rw [if_neg hne, dif_neg, h]
  rw [h]
  intro h'
  exact hlt (Frag.mk.inj h').2

theorem fragLoop_run (out s : Bytes) (hs : s.takeWhile isPlain ≠ []) :
    ∃ a, a ≠ 0x93 ∧ a ≠ 0x94 ∧ fragLoop ⟨out, s⟩ =
      fragLoop ⟨out ++ roffLoop a (atLineStart out) (s.takeWhile isPlain), s.dropWhile isPlain⟩ := by
  cases s with
  | nil => simp at hs
  | cons c t =>
    have hp : isPlain c = true := by
      cases h : isPlain c with
      | true => rfl
      | false => rw [List.takeWhile_cons_of_neg (by simp [h])] at hs; exact absurd rfl hs
    have hc : c ≠ c!"<" ∧ c ≠ c!"&" := by simpa [isPlain] using hp
    have hent : decodeEntity (c :: t) = none := by
      unfold decodeEntity
      split <;> first | rfl | (rename_i h; exact absurd (List.cons.inj h).1 hc.2)
    refine ⟨((c :: t).dropWhile isPlain).headD c!"<", ?_, ?_, ?_⟩
    · intro h
      cases hd : (c :: t).dropWhile isPlain with
      | nil => rw [hd] at h; exact absurd h (by decide)
      | cons d u =>
        rw [hd] at h
        have hnp := List.head_dropWhile_not isPlain (l := c :: t) (by rw [hd]; simp)
        simp only [hd, List.head_cons] at hnp
        have h : d = 0x93 := h
        subst h
        revert hnp
        decide
    · intro h
      cases hd : (c :: t).dropWhile isPlain with
      | nil => rw [hd] at h; exact absurd h (by decide)
      | cons d u =>
        rw [hd] at h
        have hnp := List.head_dropWhile_not isPlain (l := c :: t) (by rw [hd]; simp)
        simp only [hd, List.head_cons] at hnp
        have h : d = 0x94 := h
        subst h
        revert hnp
        decide
    · refine fragLoop_step ?_ (by simp) ?_
      · simp only [fragStep]
        rw [if_neg (by intro h; exact hc.1 h.1), hent]
        simp only []
        rw [if_neg hs]
        rfl
      · intro h
        have := congrArg List.length h
        rw [List.dropWhile_cons_of_pos hp] at this
        have h2 := dropWhile_length isPlain t
        simp only [List.length_cons] at this
        omega

theorem fragLoop_tag (out w t : Bytes) (h : c!">" ∉ w) :
    fragLoop ⟨out, c!"<" :: w ++ c!">" :: t⟩ = fragLoop ⟨out ++ tagRoff (c!"<" :: w ++ [c!">"]), t⟩ := by
  refine fragLoop_step ?_ (by simp) ?_
  · have h1 : (w ++ c!">" :: t).takeWhile (· != c!">") = w := by
      rw [List.takeWhile_append_of_pos (by intro c hc; simp only [bne_iff_ne]; exact fun e => h (e ▸ hc))]
      simp
    have h2 : (w ++ c!">" :: t).dropWhile (· != c!">") = c!">" :: t := by
      rw [List.dropWhile_append_of_pos (by intro c hc; simp only [bne_iff_ne]; exact fun e => h (e ▸ hc))]
      simp
    simp only [fragStep, List.cons_append]
    rw [if_pos ⟨trivial, by simp⟩, h1, h2]
    rfl
  · intro h'
    have := congrArg List.length h'
    simp at this
    omega

theorem fragLoop_entity (out t : Bytes) {e : Bytes} {c : Byte}
    (he : (e, c) ∈ [(b!"&lt;", c!"<"), (b!"&gt;", c!">"), (b!"&amp;", c!"&"), (b!"&quot;", c!"\""), (b!"&#39;", c!"'")]) :
    fragLoop ⟨out, e ++ t⟩ = fragLoop ⟨out ++ [c], t⟩ := by
  simp only [List.mem_cons, Prod.mk.injEq, List.not_mem_nil, or_false] at he
  refine fragLoop_step ?_ ?_ ?_
  · rcases he with ⟨rfl, rfl⟩ | ⟨rfl, rfl⟩ | ⟨rfl, rfl⟩ | ⟨rfl, rfl⟩ | ⟨rfl, rfl⟩ <;> simp [fragStep, decodeEntity]
  · rcases he with ⟨rfl, rfl⟩ | ⟨rfl, rfl⟩ | ⟨rfl, rfl⟩ | ⟨rfl, rfl⟩ | ⟨rfl, rfl⟩ <;> simp
  · intro h
    have := congrArg List.length h
    rcases he with ⟨rfl, rfl⟩ | ⟨rfl, rfl⟩ | ⟨rfl, rfl⟩ | ⟨rfl, rfl⟩ | ⟨rfl, rfl⟩ <;> simp at this <;> omega

/-- A piece is read completely and printed in its font. -/
theorem piece_loop (f : Font) (t : Bytes) (ht : t = [] ∨ ∃ u, t = c!"<" :: u) : ∀ (n : Nat) (s : Bytes)
    (o : List (Byte × Font)), s.length ≤ n → Piece f s o → ∀ out, ∃ e,
      fragLoop ⟨out, s ++ t⟩ = fragLoop ⟨out ++ e, t⟩ ∧
      ∀ p r, styled f p (e ++ r) = o ++ styled f p r := by
  intro n
  induction n with
  | zero =>
    intro s o hs hp out
    obtain rfl : s = [] := by cases s <;> simp_all
    generalize hs' : ([] : Bytes) = s' at hp
    cases hp with
    | nil => exact ⟨[], by simp, by simp⟩
    | plain => cases hs'
    | dash => cases hs'
    | entity he =>
      simp only [List.mem_cons, Prod.mk.injEq, List.not_mem_nil, or_false] at he
      rcases he with ⟨rfl, rfl⟩ | ⟨rfl, rfl⟩ | ⟨rfl, rfl⟩ | ⟨rfl, rfl⟩ | ⟨rfl, rfl⟩ <;> cases hs'
    | tag => cases hs'
  | succ n ih =>
    intro s o hs hp out
    by_cases hrun : s.takeWhile isPlain = []
    · cases hp with
      | nil => exact ⟨[], by simp, by simp⟩
      | @plain c u o h1 h2 _ _ =>
        rw [List.takeWhile_cons_of_pos (by simp [isPlain, h1, h2])] at hrun
        cases hrun
      | dash => exact absurd hrun (by simp [List.takeWhile_cons, isPlain])
      | @entity e c u o he hp =>
        have hlen : u.length ≤ n := by
          simp only [List.length_append] at hs
          simp only [List.mem_cons, Prod.mk.injEq, List.not_mem_nil, or_false] at he
          rcases he with ⟨rfl, rfl⟩ | ⟨rfl, rfl⟩ | ⟨rfl, rfl⟩ | ⟨rfl, rfl⟩ | ⟨rfl, rfl⟩ <;> simp at hs <;> omega
        obtain ⟨e', h1, h2⟩ := ih u o hlen hp (out ++ [c])
        refine ⟨[c] ++ e', ?_, fun p r => ?_⟩
        · rw [List.append_assoc, fragLoop_entity _ _ he, h1, List.append_assoc]
        · have hc : c ≠ 92 := by
            simp only [List.mem_cons, Prod.mk.injEq, List.not_mem_nil, or_false] at he
            rcases he with ⟨rfl, rfl⟩ | ⟨rfl, rfl⟩ | ⟨rfl, rfl⟩ | ⟨rfl, rfl⟩ | ⟨rfl, rfl⟩ <;> decide
          rw [List.append_assoc, List.singleton_append, styled_plain _ _ _ _ hc, h2]
          rfl
      | @tag w u o h1 h2 hp =>
        obtain ⟨e', h3, h4⟩ := ih u o (by simp at hs; omega) hp out
        have htag : tagRoff (c!"<" :: w ++ [c!">"]) = [] := by
          simp only [List.mem_cons, List.not_mem_nil, or_false, not_or] at h2
          have key : ∀ x : Bytes, w ≠ x → (c!"<" :: w ++ [c!">"]) ≠ (c!"<" :: (x ++ [c!">"])) := by
            intro x hx h'
            exact hx (by simpa using h')
          unfold tagRoff
          have k1 := key b!"strong" h2.1
          have k2 := key b!"/strong" h2.2.1
          have k3 := key b!"code" h2.2.2.1
          have k4 := key b!"/code" h2.2.2.2
          simp only [List.cons_append, List.nil_append] at k1 k2 k3 k4 ⊢
          rw [if_neg k1, if_neg k2, if_neg k3, if_neg k4]
        refine ⟨e', ?_, h4⟩
        have : (c!"<" :: w ++ c!">" :: u) ++ t = c!"<" :: w ++ c!">" :: (u ++ t) := by simp
        rw [this, fragLoop_tag _ _ _ h1, htag, List.append_nil, h3]
    · obtain ⟨o', rfl, h1⟩ := hp.run
      obtain ⟨hb1, hb2⟩ := takeWhile_boundary s t ht
      obtain ⟨a, ha1, ha2, h2⟩ := fragLoop_run out (s ++ t) (by rw [hb1]; exact hrun)
      have hlen : (s.dropWhile isPlain).length ≤ n := by
        have h3 := congrArg List.length (List.takeWhile_append_dropWhile (p := isPlain) (l := s))
        have h4 := List.length_pos_iff.2 hrun
        rw [List.length_append] at h3
        omega
      obtain ⟨e', h3, h4⟩ := ih _ o' hlen h1 (out ++ roffLoop a (atLineStart out) (s.takeWhile isPlain))
      refine ⟨roffLoop a (atLineStart out) (s.takeWhile isPlain) ++ e', ?_, fun p r => ?_⟩
      · rw [h2, hb1, hb2, h3, List.append_assoc]
      · rw [List.append_assoc, styled_roffLoop ha1 ha2, h4, List.append_assoc]

theorem piece_read {f : Font} {s : Bytes} {o : List (Byte × Font)} (h : Piece f s o) (t : Bytes)
    (ht : t = [] ∨ ∃ u, t = c!"<" :: u) (out : Bytes) : ∃ e,
      fragLoop ⟨out, s ++ t⟩ = fragLoop ⟨out ++ e, t⟩ ∧ ∀ p r, styled f p (e ++ r) = o ++ styled f p r :=
  piece_loop f t ht s.length s o (Nat.le_refl _) h out

theorem fragLoop_codeTag (out t : Bytes) : fragLoop ⟨out, b!"<code>" ++ t⟩ = fragLoop ⟨out ++ b!"\\fR", t⟩ :=
  fragLoop_tag out b!"code" t (by decide)
theorem fragLoop_codeEnd (out t : Bytes) : fragLoop ⟨out, b!"</code>" ++ t⟩ = fragLoop ⟨out ++ b!"\\f[]", t⟩ :=
  fragLoop_tag out b!"/code" t (by decide)
theorem fragLoop_strongTag (out t : Bytes) : fragLoop ⟨out, b!"<strong>" ++ t⟩ = fragLoop ⟨out ++ b!"\\f[B]", t⟩ :=
  fragLoop_tag out b!"strong" t (by decide)
theorem fragLoop_strongEnd (out t : Bytes) : fragLoop ⟨out, b!"</strong>" ++ t⟩ = fragLoop ⟨out ++ b!"\\f[]", t⟩ :=
  fragLoop_tag out b!"/strong" t (by decide)

theorem bold_read {s : Bytes} {o : List (Byte × Font)} (h : Bold s o) (t : Bytes)
    (ht : ∃ u, t = c!"<" :: u) (out : Bytes) : ∃ e,
      fragLoop ⟨out, s ++ t⟩ = fragLoop ⟨out ++ e, t⟩ ∧
      ∀ r, styled .bold .roman (e ++ r) = o ++ styled .bold .roman r := by
  induction h generalizing out with
  | piece hp =>
    obtain ⟨e, h1, h2⟩ := piece_read hp t (.inr ht) out
    exact ⟨e, h1, h2 .roman⟩
  | @code a b u o₁ o₂ o₃ ha hb _ ih =>
    obtain ⟨e1, h1, h2⟩ := piece_read ha (b!"<code>" ++ (b ++ (b!"</code>" ++ (u ++ t)))) (.inr ⟨_, rfl⟩) out
    obtain ⟨e2, h3, h4⟩ := piece_read hb (b!"</code>" ++ (u ++ t)) (.inr ⟨_, rfl⟩) (out ++ e1 ++ b!"\\fR")
    obtain ⟨e3, h5, h6⟩ := ih (out ++ e1 ++ b!"\\fR" ++ e2 ++ b!"\\f[]")
    refine ⟨e1 ++ (b!"\\fR" ++ (e2 ++ (b!"\\f[]" ++ e3))), ?_, fun r => ?_⟩
    · simp only [List.append_assoc] at h1 h3 h5 ⊢
      rw [h1, fragLoop_codeTag]
      simp only [List.append_assoc]
      rw [h3, fragLoop_codeEnd]
      simp only [List.append_assoc]
      rw [h5]
    · simp only [List.append_assoc]
      rw [h2, styled_roman, h4, styled_back, h6]

theorem fragment_read {s : Bytes} {o : List (Byte × Font)} (h : Fragment s o) (out : Bytes) : ∃ e,
      fragLoop ⟨out, s⟩ = some (out ++ e) ∧ ∀ p, styled .roman p e = o := by
  have hend : ∀ x : Bytes, fragLoop ⟨x, []⟩ = some x := fun x => by unfold fragLoop; simp
  induction h generalizing out with
  | piece hp =>
    obtain ⟨e, h1, h2⟩ := piece_read hp [] (.inl rfl) out
    rw [List.append_nil] at h1
    refine ⟨e, by rw [h1, hend], fun p => ?_⟩
    have := h2 p []
    simpa [styled] using this
  | @code a b u o₁ o₂ o₃ ha hb _ ih =>
    obtain ⟨e1, h1, h2⟩ := piece_read ha (b!"<code>" ++ (b ++ (b!"</code>" ++ u))) (.inr ⟨_, rfl⟩) out
    obtain ⟨e2, h3, h4⟩ := piece_read hb (b!"</code>" ++ u) (.inr ⟨_, rfl⟩) (out ++ e1 ++ b!"\\fR")
    obtain ⟨e3, h5, h6⟩ := ih (out ++ e1 ++ b!"\\fR" ++ e2 ++ b!"\\f[]")
    refine ⟨e1 ++ (b!"\\fR" ++ (e2 ++ (b!"\\f[]" ++ e3))), ?_, fun p => ?_⟩
    · simp only [List.append_assoc] at h1 h3 h5 ⊢
      rw [h1, fragLoop_codeTag]
      simp only [List.append_assoc]
      rw [h3, fragLoop_codeEnd]
      simp only [List.append_assoc]
      rw [h5]
    · rw [h2, styled_roman, h4, styled_back, h6]
  | @strong a b u o₁ o₂ o₃ ha hb _ ih =>
    obtain ⟨e1, h1, h2⟩ := piece_read ha (b!"<strong>" ++ (b ++ (b!"</strong>" ++ u))) (.inr ⟨_, rfl⟩) out
    obtain ⟨e2, h3, h4⟩ := bold_read hb (b!"</strong>" ++ u) ⟨_, rfl⟩ (out ++ e1 ++ b!"\\f[B]")
    obtain ⟨e3, h5, h6⟩ := ih (out ++ e1 ++ b!"\\f[B]" ++ e2 ++ b!"\\f[]")
    refine ⟨e1 ++ (b!"\\f[B]" ++ (e2 ++ (b!"\\f[]" ++ e3))), ?_, fun p => ?_⟩
    · simp only [List.append_assoc] at h1 h3 h5 ⊢
      rw [h1, fragLoop_strongTag]
      simp only [List.append_assoc]
      rw [h3, fragLoop_strongEnd]
      simp only [List.append_assoc]
      rw [h5]
    · rw [h2, styled_bold, h4, styled_back, h6]

/-! ### The title -/

mutual
theorem plainText_eq (n : Node) : plainText n = (pieces n).flatten := by
  match n with
  | .mk k kids =>
    cases k <;> simp only [plainText, pieces] <;> first | exact plainTexts_eq kids | simp
theorem plainTexts_eq (ns : List Node) : plainTexts ns = (piecesAll ns).flatten := by
  match ns with
  | [] => rfl
  | n :: ns => rw [plainTexts, piecesAll, List.flatten_append, plainText_eq n, plainTexts_eq ns]
end

theorem firstH1_of {pre post : List Node} {n : Node} {kids : List Node} (hn : IsH1 n kids)
    (hpre : ∀ m ∈ pre, ∀ ks, ¬ IsH1 m ks) : firstH1 (pre ++ n :: post) = (piecesAll kids).flatten := by
  induction pre with
  | nil => rw [hn, List.nil_append, firstH1, plainTexts_eq]
  | cons m pre ih =>
    obtain ⟨k, ks⟩ := m
    have h1 := hpre _ (List.mem_cons_self ..) ks
    rw [List.cons_append, firstH1]
    · exact ih fun m hm => hpre m (List.mem_cons_of_mem _ hm)
    · exact fun h' => h1 (congrArg (Node.mk · ks) h')

theorem firstH1_none {ns : List Node} (h : ∀ m ∈ ns, ∀ ks, ¬ IsH1 m ks) : firstH1 ns = [] := by
  induction ns with
  | nil => rfl
  | cons m pre ih =>
    obtain ⟨k, ks⟩ := m
    have h1 := h _ (List.mem_cons_self ..) ks
    rw [firstH1]
    · exact ih fun m hm => h m (List.mem_cons_of_mem _ hm)
    · exact fun h' => h1 (congrArg (Node.mk · ks) h')

/-! ### Only appending -/

theorem roffSafe_prefix (a : Byte) (out s : Bytes) : out <+: roffSafe a out s := List.prefix_append _ _

mutual
theorem renderInline_prefix (out : Bytes) (n : Node) : out <+: renderInline out n := by
  match n with
  | .mk k kids =>
    cases k with
    | text lit => exact roffSafe_prefix _ _ _
    | code lit =>
      simp only [renderInline]
      exact ((List.prefix_append _ _).trans (roffSafe_prefix 0 _ lit)).trans (List.prefix_append _ _)
    | lineBreak => exact List.prefix_append _ _
    | softBreak => exact List.prefix_append _ _
    | strong =>
      simp only [renderInline]
      exact ((List.prefix_append _ _).trans (renderInlines_prefix _ kids)).trans (List.prefix_append _ _)
    | emph =>
      simp only [renderInline]
      exact ((List.prefix_append _ _).trans (renderInlines_prefix _ kids)).trans (List.prefix_append _ _)
    | link url =>
      simp only [renderInline]
      split
      · exact (((renderInlines_prefix _ kids).trans (List.prefix_append _ _)).trans
          (roffSafe_prefix 0 _ url)).trans (List.prefix_append _ _)
      · exact renderInlines_prefix _ kids
    | htmlInline => simp only [renderInline]; exact List.prefix_refl _
    | _ => simp only [renderInline]; exact renderInlines_prefix _ kids
theorem renderInlines_prefix (out : Bytes) (ns : List Node) : out <+: renderInlines out ns := by
  match ns with
  | [] => exact List.prefix_refl _
  | n :: ns => exact (renderInline_prefix out n).trans (renderInlines_prefix _ ns)
end

theorem codeLoop_prefix (out lit : Bytes) : out <+: codeLoop out lit := by
  fun_induction codeLoop out lit with
  | case1 => exact List.prefix_refl _
  | case2 _ _ ih => exact (List.prefix_append _ _).trans ih
  | case3 _ _ _ _ _ _ ih => exact (roffSafe_prefix _ _ _).trans ih

theorem fragStep_prefix (s : Frag) : s.out <+: (fragStep s).out := by
  simp only [fragStep]
  repeat' split
  all_goals first | exact List.prefix_refl _ | exact List.prefix_append _ _ | exact roffSafe_prefix _ _ _

theorem fragLoop_prefix (s : Frag) (o : Bytes) (h : fragLoop s = some o) : s.out <+: o := by
  fun_induction fragLoop s with
  | case1 => cases h; exact List.prefix_refl _
  | case2 => cases h
  | case3 s _ _ ih => exact (fragStep_prefix s).trans (ih h)

theorem renderDl_prefix (out lit o : Bytes) (h : renderDl out lit = .done o) : out <+: o := by
  unfold renderDl at h
  repeat' split at h
  all_goals first | (cases h; done) | skip
  rename_i _ _ _ _ _ o1 h1 _ o2 h2
  cases h
  exact ((((List.prefix_append _ _).trans (fragLoop_prefix _ _ h1)).trans (List.prefix_append _ _)).trans
    (fragLoop_prefix _ _ h2)).trans (List.prefix_append _ _)

theorem addIf_prefix (b : Bool) (s : St) (x : Bytes) : s.out <+: (if b then s.add x else s).out := by
  split
  · exact List.prefix_append _ _
  · exact List.prefix_refl _

mutual
theorem renderBlock_prefix (parent : Option Kind) (first : Bool) (s s' : St) (n : Node)
    (h : renderBlock parent first s n = some s') : s.out <+: s'.out := by
  match n with
  | .mk k kids =>
    cases k with
    | heading l =>
      simp only [renderBlock, Option.some.injEq] at h
      subst h
      exact ((List.prefix_append _ _).trans (renderInlines_prefix _ kids)).trans (List.prefix_append _ _)
    | paragraph =>
      simp only [renderBlock, Option.some.injEq] at h
      subst h
      refine List.IsPrefix.trans ?_ (addIf_prefix _ _ _)
      refine List.IsPrefix.trans ?_ (renderInlines_prefix _ kids)
      refine List.IsPrefix.trans ?_ (addIf_prefix _ _ _)
      refine List.IsPrefix.trans ?_ (addIf_prefix _ _ _)
      split <;> exact List.prefix_refl _
    | list b => exact renderBlocks_prefix _ true { s with dd := false } s' kids (by simpa only [renderBlock] using h)
    | item i =>
      exact (List.prefix_append _ _).trans (renderBlocks_prefix _ true _ s' kids (by simpa only [renderBlock] using h))
    | codeBlock lit =>
      have hin : some s' = some ({ (if s.out.length > 0 && !atLineStart s.out then
            { s with dd := false }.add b!" " else { s with dd := false }) with
          out := roffSafe 0 (if s.out.length > 0 && !atLineStart s.out then
            { s with dd := false }.add b!" " else { s with dd := false }).out lit }.add b!"\n") →
          s.out <+: s'.out := by
        intro h
        cases h
        refine List.IsPrefix.trans ?_ (List.prefix_append _ _)
        refine List.IsPrefix.trans ?_ (roffSafe_prefix _ _ _)
        exact addIf_prefix _ { s with dd := false } _
      have hout : some s' = some ({ s.add b!"\n.PP\n.nf\n\\fR\n" with
          out := codeLoop (s.add b!"\n.PP\n.nf\n\\fR\n").out lit }.add b!"\n\\f[]\n.fi\n") →
          s.out <+: s'.out := by
        intro h
        cases h
        refine List.IsPrefix.trans ?_ (List.prefix_append _ _)
        exact (List.prefix_append _ _).trans (codeLoop_prefix _ _)
      simp only [renderBlock] at h
      split at h
      · rw [if_pos (by simp)] at h
        exact hin h.symm
      · by_cases hd : s.dd = true
        · rw [if_pos (by simp [hd])] at h
          exact hin h.symm
        · rw [if_neg (by simp [hd])] at h
          exact hout h.symm
    | blockQuote =>
      simp only [renderBlock] at h
      split at h
      · cases h
      · rename_i s1 h1
        cases h
        exact ((List.prefix_append _ _).trans (renderBlocks_prefix _ true _ s1 kids h1)).trans (List.prefix_append _ _)
    | thematicBreak =>
      simp only [renderBlock, Option.some.injEq] at h
      subst h
      exact List.prefix_append _ _
    | htmlBlock lit =>
      simp only [renderBlock] at h
      split at h
      · cases h; exact List.prefix_refl _
      · split at h
        · cases h; exact List.prefix_refl _
        · rename_i o h1
          cases h
          exact renderDl_prefix _ _ _ h1
        · cases h
    | defTerm =>
      exact (List.prefix_append _ _).trans (renderBlocks_prefix _ true _ s' kids (by simpa only [renderBlock] using h))
    | document => exact renderBlocks_prefix _ true s s' kids (by simpa only [renderBlock] using h)
    | _ => exact renderBlocks_prefix _ true { s with dd := false } s' kids (by simpa only [renderBlock] using h)
theorem renderBlocks_prefix (parent : Kind) (first : Bool) (s s' : St) (ns : List Node)
    (h : renderBlocks parent first s ns = some s') : s.out <+: s'.out := by
  match ns with
  | [] => cases h; exact List.prefix_refl _
  | n :: ns =>
    simp only [renderBlocks] at h
    split at h
    · cases h
    · rename_i s1 h1
      exact (renderBlock_prefix _ _ _ _ n h1).trans (renderBlocks_prefix _ _ _ _ ns h)
end

end Verif.Man
