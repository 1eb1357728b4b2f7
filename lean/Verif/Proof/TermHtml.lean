/- Lemmas about blocks of HTML on a terminal. -/
import Verif.Model.Term
import Verif.Spec.TermHtml

namespace Verif.Term.Html

theorem find_absent {w s : Bytes} (h : ¬ w <:+: s) : Embed.find w s = none := by
  induction s with
  | nil => rfl
  | cons c s ih =>
    rw [Embed.find, if_neg (fun hp => h hp.isInfix), ih (fun hi => h (hi.trans (List.suffix_cons c s).isInfix))]
    rfl

/-- A block that is none of the special ones. -/
def Other (s : Bytes) : Prop := ¬ b!"<dl>" <:+: s ∧ ¬ b!"<dt>" <:+: s ∧ ¬ b!"<dd>" <:+: s ∧ ¬ b!"callout" <:+: s

theorem block_other (o : Opt) (ind : Nat) (out : Bytes) {s : Bytes} (h : Other s) : htmlBlock o ind out s = .val (padded (out ++ plainHtml false true s)) := by
  unfold htmlBlock
  rw [find_absent h.1, find_absent h.2.1, find_absent h.2.2.1, find_absent h.2.2.2]
  rfl

theorem plain_tag (skip : Bool) (t s : Bytes) (ht : c!">" ∉ t) : plainHtml true skip (t ++ c!">" :: s) = plainHtml false true s := by
  induction t with
  | nil =>
    rw [List.nil_append, plainHtml, if_neg (by decide), if_pos rfl, if_pos rfl]
  | cons c t ih =>
    rw [List.mem_cons, not_or] at ht
    rw [List.cons_append, plainHtml]
    split
    · exact ih ht.2
    · rw [if_pos rfl, if_neg (fun h => ht.1 h.symm)]
      exact ih ht.2

theorem ink_append (a b : Bytes) : ink (a ++ b) = ink a ++ ink b := List.filter_append ..

theorem ink_blank {c : Byte} (h : c = c!" " ∨ c = c!"\t" ∨ c = c!"\n") (s : Bytes) : ink (c :: s) = ink s := by
  unfold ink
  rw [List.filter_cons_of_neg]
  rcases h with rfl | rfl | rfl <;> decide

theorem ink_keep {c : Byte} (h : ¬ (c = c!" " ∨ c = c!"\t" ∨ c = c!"\n")) (s : Bytes) : ink (c :: s) = c :: ink s := by
  unfold ink
  rw [List.filter_cons_of_pos]
  simpa [not_or] using h

/-- Text: what is ink stays; whether white space is skipped behind it is of no concern. -/
theorem plain_text (t s r : Bytes) (ht : c!"<" ∉ t) (hs : ∀ k, ink (plainHtml false k s) = r) (skip : Bool) : ink (plainHtml false skip (t ++ s)) = ink t ++ r := by
  induction t generalizing skip with
  | nil => exact hs skip
  | cons c t ih =>
    rw [List.mem_cons, not_or] at ht
    have ih' := fun k => ih ht.2 k
    rw [List.cons_append, plainHtml, if_neg (fun h => ht.1 h.symm), if_neg (by decide)]
    by_cases hk : (skip && (c = c!" " || c = c!"\t" || c = c!"\n")) = true
    · rw [if_pos hk, ih']
      have : c = c!" " ∨ c = c!"\t" ∨ c = c!"\n" := by
        rw [Bool.and_eq_true] at hk
        simpa [or_assoc] using hk.2
      rw [ink_blank this]
    · rw [if_neg hk]
      by_cases hn : c = c!"\n"
      · rw [if_pos hn, ink_blank (.inr (.inr hn))]
        split
        · rw [ink_append, ih']; rfl
        · rw [ink_append, ih']; rfl
      · rw [if_neg hn]
        by_cases hb : c = c!" " ∨ c = c!"\t" ∨ c = c!"\n"
        · rw [ink_blank hb, ink_blank hb, ih']
        · rw [ink_keep hb, ink_keep hb, ih']; rfl

theorem plain_pieces (ps : List Piece) (h : ∀ p ∈ ps, p.Ok) (skip : Bool) : ink (plainHtml false skip (ps.flatMap Piece.src)) = ink (ps.flatMap Piece.seen) := by
  induction ps generalizing skip with
  | nil => rfl
  | cons p ps ih =>
    have ih' := fun k => ih (fun x hx => h x (List.mem_cons_of_mem _ hx)) k
    rw [List.flatMap_cons, List.flatMap_cons]
    cases p with
    | text t =>
      rw [Piece.src, Piece.seen, plain_text t _ _ (h (.text t) List.mem_cons_self) ih' skip, ink_append]
    | tag t =>
      rw [Piece.src, Piece.seen, List.nil_append, show b!"<" ++ t ++ b!">" ++ ps.flatMap Piece.src = c!"<" :: (t ++ c!">" :: ps.flatMap Piece.src) by simp]
      rw [plainHtml, if_pos rfl, plain_tag _ t _ (h (.tag t) List.mem_cons_self)]
      exact ih' true

theorem padded_ends (out : Bytes) : ∃ e, padded out = out ++ e ∧ ink e = [] := by
  unfold padded
  split
  · exact ⟨[], by simp, rfl⟩
  · split
    · exact ⟨_, rfl, rfl⟩
    · split
      · exact ⟨[], by simp, rfl⟩
      · split
        · exact ⟨_, rfl, rfl⟩
        · exact ⟨[], by simp, rfl⟩

/-- A word is shown as it is. -/
theorem plain_word (a s : Bytes) (skip : Bool) (h0 : a ≠ []) (hb : ink a = a) (ha : c!"<" ∉ a) : plainHtml false skip (a ++ s) = a ++ plainHtml false false s := by
  induction a generalizing skip with
  | nil => exact absurd rfl h0
  | cons c a ih =>
    rw [List.mem_cons, not_or] at ha
    have hc : ¬ (c = c!" " ∨ c = c!"\t" ∨ c = c!"\n") := by
      intro h
      rw [ink_blank h] at hb
      have := congrArg List.length hb
      have hl : (ink a).length ≤ a.length := List.length_filter_le ..
      rw [List.length_cons] at this
      omega
    rw [ink_keep hc] at hb
    have hb' : ink a = a := (List.cons.inj hb).2
    rw [List.cons_append, plainHtml, if_neg (fun h => ha.1 h.symm), if_neg (by decide), if_neg (by simp only [not_or] at hc; simp [hc]), if_neg (fun h => hc (.inr (.inr h)))]
    by_cases hn : a = []
    · rw [hn]; rfl
    · rw [ih false hn hb' ha.2]; rfl

end Verif.Term.Html
