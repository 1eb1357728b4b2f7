import Verif.Spec.SplitSimple
import Verif.Proof.Transforms

namespace Verif.SplitSimple
open Spec Transforms

theorem tokens_piece {d x : Bytes} (h : ∀ c ∈ x, c ∉ d) : ∀ (acc s : Bytes), tokens d acc (x ++ s) = tokens d (x.reverse ++ acc) s := by
  induction x with
  | nil => intro acc s; rfl
  | cons c x ih =>
    intro acc s
    rw [List.cons_append, tokens, if_neg (h c (by simp)), ih (fun a ha => h a (by simp [ha]))]
    simp

theorem tokens_sep {d : Bytes} {acc s : Bytes} {c : Byte} (hc : c ∈ d) (ha : acc ≠ []) : tokens d acc (c :: s) = acc.reverse :: tokens d [] s := by
  rw [tokens, if_pos hc, if_neg ha]

theorem tokens_skip {d t : Bytes} (h : ∀ c ∈ t, c ∈ d) (s : Bytes) : tokens d [] (t ++ s) = tokens d [] s := by
  induction t with
  | nil => rfl
  | cons c t ih => rw [List.cons_append, tokens, if_pos (h c (by simp)), if_pos rfl, ih (fun a ha => h a (by simp [ha]))]

/-- A piece and bytes of `d` behind it. -/
theorem tokens_one {d x t : Bytes} (hx : x ≠ []) (h : ∀ c ∈ x, c ∉ d) (ht : t ≠ []) (htd : ∀ c ∈ t, c ∈ d) (s : Bytes) :
    tokens d [] (x ++ (t ++ s)) = x :: tokens d [] s := by
  obtain ⟨c, t', rfl⟩ : ∃ c t', t = c :: t' := by
    cases t with
    | nil => exact absurd rfl ht
    | cons c t' => exact ⟨c, t', rfl⟩
  rw [tokens_piece h, List.append_nil, List.cons_append, tokens_sep (htd c (by simp)) (by simpa using hx), List.reverse_reverse,
    tokens_skip (fun a ha => htd a (by simp [ha]))]

theorem tokens_last {d x : Bytes} (hx : x ≠ []) (h : ∀ c ∈ x, c ∉ d) : tokens d [] x = [x] := by
  have := tokens_piece h [] []
  rw [List.append_nil, List.append_nil] at this
  rw [this, tokens, if_neg (by simpa using hx), List.reverse_reverse]

theorem tokens_between {d : Bytes} (hd : d ≠ []) : ∀ {l : List Bytes}, (∀ x ∈ l, x ≠ [] ∧ ∀ c ∈ x, c ∉ d) → tokens d [] (between d l) = l
  | [], _ => rfl
  | [x], h => tokens_last (h x (by simp)).1 (h x (by simp)).2
  | x :: y :: l, h => by
    have hx := h x (by simp)
    rw [between, List.append_assoc, tokens_one hx.1 hx.2 hd (fun _ hc => hc), tokens_between hd (fun z hz => h z (by simp [hz]))]
    simp

theorem trimTok_piece {d x : Bytes} (h : Piece d x) : trimTok x = x := by
  refine trimmed_unique (trimTok_spec x) ⟨[], [], by simp, by simp, by simp, ?_, ?_⟩
  · intro c hc hw
    have := h.2.2.1 c hc
    exact absurd ((isSpace_iff c).mpr hw) (by rw [this]; decide)
  · intro c hc hw
    have := h.2.2.2 c hc
    exact absurd ((isSpace_iff c).mpr hw) (by rw [this]; decide)

end Verif.SplitSimple
