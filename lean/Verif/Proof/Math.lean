import Verif.Model.Math
import Verif.Spec.Math
import Verif.Proof.InlineNotes

namespace Verif.Math
open InlineNotes (pre_last infix_of suffix_last)

theorem double_iff (s body rest : Bytes) : double s = some (body, rest) ↔ s = body ++ b!"$$" ++ rest ∧ ¬ b!"$$" <:+: body ∧ body.getLast? ≠ some c!"$" := by
  constructor
  · intro h
    induction s generalizing body rest with
    | nil => simp [double] at h
    | cons c s ih =>
      cases s with
      | nil => simp [double] at h
      | cons d t =>
        rw [double] at h
        split at h
        · rename_i hc
          simp at h
          obtain ⟨rfl, rfl⟩ := h
          simp [hc]
        · rename_i hc
          obtain ⟨⟨b, r⟩, h1, h2⟩ := Option.map_eq_some_iff.1 h
          simp at h2
          obtain ⟨rfl, rfl⟩ := h2
          obtain ⟨e1, e2, e3⟩ := ih b r h1
          refine ⟨by rw [e1]; simp, ?_, ?_⟩
          · intro hi
            obtain ⟨p, q, e⟩ := hi
            cases p with
            | nil =>
              simp at e
              cases b with
              | nil => simp at e
              | cons x b =>
                simp at e e1
                exact hc ⟨by simp [e.1], by simp [e1.1, e.2.1]⟩
            | cons y p =>
              simp at e
              exact e2 ⟨p, q, by simp [e.2]⟩
          · cases b with
            | nil =>
              simp at e1 ⊢
              intro hcd
              exact hc ⟨by simp [hcd], by simp [e1.1]⟩
            | cons x b => rw [List.getLast?_cons_cons]; exact e3
  · rintro ⟨rfl, h1, h2⟩
    have key : ∀ s, s <:+ body → double (s ++ b!"$$" ++ rest) = some (s, rest) := by
      intro s
      induction s with
      | nil => intro _; simp [double]
      | cons c s ih =>
        intro hs
        have hn : c :: s ≠ [] := by simp
        have hl := suffix_last hs hn
        have ih := ih ((List.suffix_cons _ _).trans hs)
        obtain ⟨d, t, hd⟩ : ∃ d t, s ++ b!"$$" ++ rest = d :: t := by cases s <;> simp
        have : (c :: s) ++ b!"$$" ++ rest = c :: d :: t := by simp [← hd]
        rw [this, double, if_neg, ← hd, ih]
        · rfl
        · rintro ⟨rfl, rfl⟩
          exact h1 (infix_of (pre_last (w := b!"$$") (s := c!"$" :: s) (r := b!"$$" ++ rest) (by rw [← List.append_assoc, this]; simp) hn (by decide) (hl ▸ h2)) hs)
    exact key body (List.suffix_refl _)

/-- Every dollar sign comes behind a backslash; `prev` is in front of the text. -/
def Escaped (prev : Byte) (s : Bytes) : Prop := ∀ u v, s = u ++ c!"$" :: v → (prev :: u).getLast? = some c!"\\"

theorem escaped_cons {prev c : Byte} {s : Bytes} : Escaped prev (c :: s) ↔ (c = c!"$" → prev = c!"\\") ∧ Escaped c s := by
  constructor
  · intro h
    refine ⟨fun e => ?_, fun u v e => ?_⟩
    · have := h [] s (by simp [e]); simpa using this
    · have := h (c :: u) v (by simp [e])
      rwa [List.getLast?_cons_cons] at this
  · rintro ⟨h1, h2⟩ u v e
    cases u with
    | nil => simp at e; simp [h1 e.1]
    | cons x u =>
      simp at e
      obtain ⟨rfl, e⟩ := e
      rw [List.getLast?_cons_cons]
      exact h2 u v e

theorem single_iff (prev : Byte) (s body rest : Bytes) : single prev s = some (body, rest) ↔
    s = body ++ c!"$" :: rest ∧ Escaped prev body ∧ ∀ c ∈ (prev :: body).getLast?, ¬ Blank c ∧ c ≠ c!"\\" := by
  constructor
  · intro h
    induction s generalizing prev body rest with
    | nil => simp [single] at h
    | cons c s ih =>
      rw [single] at h
      split at h
      · rename_i hc
        split at h
        · rename_i hp
          obtain ⟨⟨b, r⟩, h1, h2⟩ := Option.map_eq_some_iff.1 h
          simp at h2
          obtain ⟨rfl, rfl⟩ := h2
          obtain ⟨e1, e2, e3⟩ := ih _ _ _ h1
          exact ⟨by simp [e1], escaped_cons.2 ⟨fun _ => hp, e2⟩, by rw [List.getLast?_cons_cons]; exact e3⟩
        · rename_i hp
          split at h
          · cases h
          · rename_i hb
            simp at h
            obtain ⟨rfl, rfl⟩ := h
            refine ⟨by simp [hc], ?_, ?_⟩
            · intro u v e; simp at e
            · intro x hx
              simp at hx
              subst hx
              exact ⟨hb, hp⟩
      · rename_i hc
        obtain ⟨⟨b, r⟩, h1, h2⟩ := Option.map_eq_some_iff.1 h
        simp at h2
        obtain ⟨rfl, rfl⟩ := h2
        obtain ⟨e1, e2, e3⟩ := ih _ _ _ h1
        exact ⟨by simp [e1], escaped_cons.2 ⟨fun e => absurd e hc, e2⟩, by rw [List.getLast?_cons_cons]; exact e3⟩
  · rintro ⟨rfl, h1, h2⟩
    induction body generalizing prev with
    | nil =>
      obtain ⟨b1, b2⟩ := h2 prev (by simp)
      unfold Blank at b1
      rw [List.nil_append, single, if_pos rfl, if_neg b2, if_neg b1]
    | cons c body ih =>
      obtain ⟨a1, a2⟩ := escaped_cons.1 h1
      have := ih c a2 (by rw [← List.getLast?_cons_cons]; exact h2)
      rw [List.cons_append, single]
      split
      · rename_i hc
        rw [if_pos (a1 hc), this]; rfl
      · rw [this]; rfl

theorem match_iff (input out rest : Bytes) : match' input = some (out, rest) ↔ ∃ d body, Begins input d body rest ∧ out = html d body := by
  constructor
  · intro h
    unfold match' at h
    split at h
    · cases h
    · rename_i display body rest' hs
      split at h
      · cases h
      · rename_i hb
        have hr : rest' = rest ∧ out = html display body := by
          cases display <;> simp at h <;> exact ⟨h.2, by simp [html, ← h.1]⟩
        obtain ⟨rfl, rfl⟩ := hr
        refine ⟨display, body, ?_, rfl⟩
        unfold scan at hs
        split at hs
        · cases hs
        · split at hs
          · rename_i c d t hl
            split at hs
            · rename_i hc
              obtain ⟨⟨b, r⟩, h1, h2⟩ := Option.map_eq_some_iff.1 hs
              simp at h2
              obtain ⟨rfl, rfl, rfl⟩ := h2
              obtain ⟨e1, e2, e3⟩ := (double_iff _ _ _).1 h1
              have := Begins.display (rest := r) hb e2 e3
              rwa [show b!"$$" ++ b ++ b!"$$" ++ r = c :: d :: t by rw [e1, hc.1, hc.2]; simp] at this
            · rename_i hc
              split at hs
              · rename_i hc2
                split at hs
                · cases hs
                · rename_i hd
                  obtain ⟨⟨b, r⟩, h1, h2⟩ := Option.map_eq_some_iff.1 hs
                  simp at h2
                  obtain ⟨rfl, rfl, rfl⟩ := h2
                  obtain ⟨e1, e2, e3⟩ := (single_iff _ _ _ _).1 h1
                  have hd' : ¬ Blank d ∧ d ≠ c!"$" := by
                    simp only [not_or] at hd
                    exact ⟨by unfold Blank; simp only [not_or]; exact ⟨hd.1, hd.2.1, hd.2.2.1⟩, hd.2.2.2⟩
                  cases b with
                  | nil => exact absurd rfl hb
                  | cons x b =>
                    have hx : x = d := by simp at e1; exact e1.1.symm
                    have := Begins.inline (body := x :: b) (rest := r) (by intro y hy; simp at hy; rw [← hy, hx]; exact hd')
                      (by rw [List.getLast?_cons_cons] at e3; exact e3) (by simp) (by
                        intro u v e
                        have := e2 u v e
                        cases u with
                        | nil =>
                          simp at e
                          exact absurd (hx ▸ e.1) hd'.2
                        | cons y u => rwa [List.getLast?_cons_cons] at this)
                    rwa [show b!"$" ++ (x :: b) ++ b!"$" ++ r = c :: d :: t by rw [e1, hc2]; simp] at this
              · cases hs
          · cases hs
  · rintro ⟨d, body, hB, rfl⟩
    cases hB with
    | display h1 h2 h3 =>
      have hs : scan (b!"$$" ++ body ++ b!"$$" ++ rest) = some (true, body, rest) := by
        unfold scan
        rw [if_neg (by simp; omega)]
        simp only [List.append_assoc, List.cons_append, List.nil_append]
        rw [if_pos (by simp), show body ++ c!"$" :: c!"$" :: rest = body ++ b!"$$" ++ rest by simp, (double_iff _ _ _).2 ⟨rfl, h2, h3⟩]
        rfl
      unfold match'
      rw [hs]
      simp [h1, html]
    | inline h1 h2 h3 h4 =>
      cases body with
      | nil => exact absurd rfl h3
      | cons x b =>
        obtain ⟨b1, b2⟩ := h1 x (by simp)
        have hs : scan (b!"$" ++ (x :: b) ++ b!"$" ++ rest) = some (false, x :: b, rest) := by
          unfold scan
          rw [if_neg (by simp; omega)]
          simp only [List.append_assoc, List.cons_append, List.nil_append]
          rw [if_neg (by simp; exact b2), if_pos trivial, if_neg, show x :: (b ++ c!"$" :: rest) = (x :: b) ++ c!"$" :: rest by simp,
            (single_iff c!"$" _ (x :: b) rest).2 ⟨rfl, ?_, ?_⟩]
          · rfl
          · intro u v e
            have := h4 u v e
            cases u with
            | nil => simp at e; exact absurd e.1 b2
            | cons y u => rw [List.getLast?_cons_cons]; exact this
          · rw [List.getLast?_cons_cons]; exact h2
          · rintro (e | e | e | e)
            · exact b1 (.inl e)
            · exact b1 (.inr (.inl e))
            · exact b1 (.inr (.inr e))
            · exact b2 e
        unfold match'
        rw [hs]
        simp [html]

end Verif.Math
