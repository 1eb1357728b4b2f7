/- Lemmas for `Verif.Props.Hashtags`: proofreading. -/
import Verif.Proof.Hashtags

namespace Verif.Hashtags
open Spec

/-- The text of the pieces. -/
def src (ps : List Piece) : Bytes := ps.flatMap Piece.source

/-- The pieces in CriticMarkup. -/
def crit (ps : List Piece) : Bytes := ps.flatMap Piece.critic

/-- The pieces of a text. -/
def pieces : Nat → Ticks → Bytes → List Piece
  | 0, _, _ => []
  | _, _, [] => []
  | n + 1, t, c :: s =>
    if (t.step c s.head?).block || (t.step c s.head?).span then .byte c :: pieces n (t.step c s.head?) s
    else if c = c!"=" && s.head? = some c!"=" then
      match Embed.find b!"==" s.tail with
      | some (x, r) => .high x :: pieces n (t.step c s.head?) r
      | none => .byte c!"=" :: .byte c!"=" :: pieces n (t.step c s.head?) s.tail
    else if c = c!"~" && s.head? = some c!"~" then
      match Embed.find b!"~~" s.tail with
      | some (x, r) => .gone x :: pieces n (t.step c s.head?) r
      | none => .byte c!"~" :: .byte c!"~" :: pieces n (t.step c s.head?) s.tail
    else .byte c :: pieces n (t.step c s.head?) s

/-- There is room enough: the text grows by half at most. -/
structure Room (L : Nat) (b : Buf) (rest : Nat) : Prop where
  lt : b.out.length < b.cap
  cap : 2 * L + 1 ≤ b.cap
  half : 2 * b.out.length + 3 * rest ≤ 3 * L

theorem pair_ok {L : Nat} {b : Buf} {o c x : Bytes} {rest : Nat} (ho : o.length = 3) (hc : c.length = 3) (h : Room L b (x.length + 4 + rest)) :
    ∃ k, pair o c b x = .val ⟨b.out ++ o ++ x ++ c, k⟩ ∧ Room L ⟨b.out ++ o ++ x ++ c, k⟩ rest := by
  have hb : ∃ k, b.need (2 + x.length + 2) = ⟨b.out, k⟩ ∧ b.cap ≤ k := by
    unfold Buf.need
    split
    · exact ⟨_, rfl, by omega⟩
    · exact ⟨b.cap, rfl, by omega⟩
  obtain ⟨k, hk, hk2⟩ := hb
  have h1 := h.lt; have h2 := h.cap; have h3 := h.half
  have hfit : b.out.length + x.length + 6 < k := by omega
  refine ⟨k, ?_, ⟨by simp only [List.length_append]; omega, by simp only; omega, by simp only [List.length_append]; omega⟩⟩
  unfold pair
  simp only [hk]
  rw [add_ok _ _ _ (by omega)]
  simp only [C.val_bind]
  rw [add_ok _ _ _ (by simp only [List.length_append]; omega)]
  simp only [C.val_bind]
  rw [add_ok _ _ _ (by simp only [List.length_append]; omega)]

theorem byte_ok {L : Nat} {b : Buf} {s : Bytes} {rest : Nat} (hs : s.length < 10) (h : Room L b (s.length + rest)) :
    ∃ k, b.grow.add s = .val ⟨b.out ++ s, k⟩ ∧ Room L ⟨b.out ++ s, k⟩ rest := by
  obtain ⟨k, hk, hk1, hk2⟩ := add_grow b s hs h.lt
  have h2 := h.cap; have h3 := h.half
  exact ⟨k, hk, ⟨by simpa using hk2, by simp only; omega, by simp only [List.length_append]; omega⟩⟩

theorem find_length {w s a r : Bytes} (h : Embed.find w s = some (a, r)) : s.length = a.length + w.length + r.length := by
  have := congrArg List.length (Embed.find_some h)
  simpa [Nat.add_assoc] using this

theorem head_tail {s : Bytes} {d : Byte} (h : s.head? = some d) : s = d :: s.tail := by
  cases s with
  | nil => simp at h
  | cons e s => simp at h; simp [h]

theorem proofs_ok {L : Nat} : ∀ n (b : Buf) t s, Room L b s.length → ∃ k, proofs n b t s = .val ⟨b.out ++ crit (pieces n t s), k⟩ ∧ (b.out ++ crit (pieces n t s)).length < k
  | 0, b, t, s, h => ⟨b.cap, by simp [proofs, pieces, crit], by simpa [pieces, crit] using h.lt⟩
  | n + 1, b, t, [], h => ⟨b.cap, by simp [proofs, pieces, crit], by simpa [pieces, crit] using h.lt⟩
  | n + 1, b, t, c :: s, h => by
    have fin : ∀ (m : C Buf) (o : Bytes) (k : Nat) (t' : Ticks) (r : Bytes) (ps : List Piece), m = .val ⟨b.out ++ o, k⟩ → Room L ⟨b.out ++ o, k⟩ r.length → crit ps = o →
        ∃ k, (do let b ← m; proofs n b t' r) = C.val ⟨b.out ++ crit (ps ++ pieces n t' r), k⟩ ∧ (b.out ++ crit (ps ++ pieces n t' r)).length < k := by
      intro m o k t' r ps hm hr hps
      obtain ⟨k', h1, h2⟩ := proofs_ok n ⟨b.out ++ o, k⟩ t' r hr
      have e : b.out ++ crit (ps ++ pieces n t' r) = b.out ++ o ++ crit (pieces n t' r) := by
        rw [← hps]; simp [crit]
      refine ⟨k', ?_, by rw [e]; exact h2⟩
      rw [hm, e]
      simp only [C.val_bind]
      exact h1
    have plain : ∀ t', ∃ k, (do let b ← b.grow.add [c]; proofs n b t' s) = C.val ⟨b.out ++ crit (.byte c :: pieces n t' s), k⟩ ∧ (b.out ++ crit (.byte c :: pieces n t' s)).length < k := by
      intro t'
      obtain ⟨k, hk, hr⟩ := byte_ok (rest := s.length) (s := [c]) (by simp) (by simpa [Nat.add_comm] using h)
      exact fin _ _ k t' s [.byte c] hk hr rfl
    rw [proofs.eq_def, pieces.eq_def]
    simp only
    split
    · exact plain _
    · split
      · rename_i hq
        simp only [Bool.and_eq_true, decide_eq_true_eq] at hq
        have hs := head_tail hq.2
        have hlen : s.length = s.tail.length + 1 := by rw [hs]; simp
        cases hf : Embed.find b!"==" s.tail with
        | some xr =>
          obtain ⟨x, r⟩ := xr
          have hl := find_length hf
          obtain ⟨k, hk, hr⟩ := pair_ok (o := b!"{==") (c := b!"==}") (x := x) (rest := r.length) rfl rfl (by
            have : (c :: s).length = x.length + 4 + r.length := by
              simp only [List.length_cons, List.length_nil] at hl ⊢; omega
            rw [← this]; exact h)
          exact fin _ (b!"{==" ++ x ++ b!"==}") k _ r [.high x] (by simpa using hk) (by simpa using hr) (by simp [crit, Piece.critic])
        | none =>
          obtain ⟨k, hk, hr⟩ := byte_ok (rest := s.tail.length) (s := b!"==") (by simp) (by
            have : (c :: s).length = (b!"==").length + s.tail.length := by
              simp only [List.length_cons, List.length_nil]; omega
            rw [← this]; exact h)
          exact fin _ b!"==" k _ s.tail [.byte c!"=", .byte c!"="] hk hr rfl
      · split
        · rename_i hq
          simp only [Bool.and_eq_true, decide_eq_true_eq] at hq
          have hs := head_tail hq.2
          have hlen : s.length = s.tail.length + 1 := by rw [hs]; simp
          cases hf : Embed.find b!"~~" s.tail with
          | some xr =>
            obtain ⟨x, r⟩ := xr
            have hl := find_length hf
            obtain ⟨k, hk, hr⟩ := pair_ok (o := b!"{--") (c := b!"--}") (x := x) (rest := r.length) rfl rfl (by
              have : (c :: s).length = x.length + 4 + r.length := by
                simp only [List.length_cons, List.length_nil] at hl ⊢; omega
              rw [← this]; exact h)
            exact fin _ (b!"{--" ++ x ++ b!"--}") k _ r [.gone x] (by simpa using hk) (by simpa using hr) (by simp [crit, Piece.critic])
          | none =>
            obtain ⟨k, hk, hr⟩ := byte_ok (rest := s.tail.length) (s := b!"~~") (by simp) (by
              have : (c :: s).length = (b!"~~").length + s.tail.length := by
                simp only [List.length_cons, List.length_nil]; omega
              rw [← this]; exact h)
            exact fin _ b!"~~" k _ s.tail [.byte c!"~", .byte c!"~"] hk hr rfl
        · exact plain _

theorem proofread_pieces (text : Bytes) : proofread text = .val (crit (pieces text.length ⟨0, false, false⟩ text)) := by
  obtain ⟨k, h1, h2⟩ := proofs_ok (L := text.length) text.length ⟨[], text.length * 2 + 1⟩ ⟨0, false, false⟩ text ⟨by simp, by simp only; omega, by simp⟩
  unfold proofread
  rw [h1]
  simp only [C.val_bind]
  unfold Buf.finish
  rw [if_pos h2]
  simp

theorem crit_cons (p : Piece) (ps : List Piece) : crit (p :: ps) = p.critic ++ crit ps := by simp [crit]

/-- A text grows by half at most. -/
theorem crit_length : ∀ n t s, 2 * (crit (pieces n t s)).length ≤ 3 * s.length
  | 0, t, s => by simp [pieces, crit]
  | n + 1, t, [] => by simp [pieces, crit]
  | n + 1, t, c :: s => by
    have plain : ∀ t', 2 * (crit (.byte c :: pieces n t' s)).length ≤ 3 * (c :: s).length := by
      intro t'
      have := crit_length n t' s
      rw [crit_cons]
      simp only [Piece.critic, List.length_append, List.length_cons, List.length_nil]
      omega
    rw [pieces.eq_def]
    simp only
    split
    · exact plain _
    · split
      · rename_i hq
        simp only [Bool.and_eq_true, decide_eq_true_eq] at hq
        have hlen := congrArg List.length (head_tail hq.2)
        simp only [List.length_cons] at hlen ⊢
        cases hf : Embed.find b!"==" s.tail with
        | some xr =>
          have hl := find_length hf
          have := crit_length n (t.step c s.head?) xr.2
          simp only [crit_cons, Piece.critic, List.length_append, List.length_cons, List.length_nil] at hl ⊢
          omega
        | none =>
          have := crit_length n (t.step c s.head?) s.tail
          simp only [crit_cons, Piece.critic, List.length_append, List.length_cons, List.length_nil]
          omega
      · split
        · rename_i hq
          simp only [Bool.and_eq_true, decide_eq_true_eq] at hq
          have hlen := congrArg List.length (head_tail hq.2)
          simp only [List.length_cons] at hlen ⊢
          cases hf : Embed.find b!"~~" s.tail with
          | some xr =>
            have hl := find_length hf
            have := crit_length n (t.step c s.head?) xr.2
            simp only [crit_cons, Piece.critic, List.length_append, List.length_cons, List.length_nil] at hl ⊢
            omega
          | none =>
            have := crit_length n (t.step c s.head?) s.tail
            simp only [crit_cons, Piece.critic, List.length_append, List.length_cons, List.length_nil]
            omega
        · exact plain _

/-! Marks in texts without code. -/

/-- No occurrence in front of the one found. -/
theorem find_min {w : Bytes} (hw : w ≠ []) : ∀ {s a r : Bytes}, Embed.find w s = some (a, r) → ¬w <:+: a ++ w.dropLast
  | [], a, r, h => by simp [Embed.find] at h
  | c :: s, a, r, h => by
    have hs := Embed.find_some h
    rw [Embed.find] at h
    split at h
    · simp only [Option.some.injEq, Prod.mk.injEq] at h
      rw [← h.1]
      intro hi
      have := hi.length_le
      simp only [List.nil_append, List.length_dropLast] at this
      have := List.length_pos_iff.mpr hw
      omega
    · rename_i hp
      cases hf : Embed.find w s with
      | none => rw [hf] at h; simp at h
      | some x =>
        obtain ⟨a', r'⟩ := x
        rw [hf] at h
        simp only [Option.map_some, Option.some.injEq, Prod.mk.injEq] at h
        have ih := find_min hw hf
        rw [← h.1, List.cons_append, List.infix_cons_iff]
        rintro (hpre | hinf)
        · apply hp
          refine hpre.trans ⟨[w.getLast hw] ++ r, ?_⟩
          rw [hs, ← h.1]
          have e : c :: (a' ++ w.dropLast) ++ ([w.getLast hw] ++ r) = c :: (a' ++ (w.dropLast ++ [w.getLast hw]) ++ r) := by simp
          rw [e, List.dropLast_concat_getLast]; simp
        · exact ih hinf

/-- What is to be shown of each piece. -/
def Fits (p : Piece) (after : Bytes) : Prop :=
  match p with
  | .byte c => ¬StartsMark (c :: after)
  | .high x => ¬b!"==" <:+: x ++ b!"="
  | .gone x => ¬b!"~~" <:+: x ++ b!"~"
  | .code _ => False
  | .fence _ => False

theorem src_cons (p : Piece) (ps : List Piece) : src (p :: ps) = p.source ++ src ps := by simp [src]

theorem fits_cons {p : Piece} {ps : List Piece} (h : Fits p (src ps)) (ih : ∀ a q b, ps = a ++ q :: b → Fits q (src b)) : ∀ a q b, p :: ps = a ++ q :: b → Fits q (src b) := by
  intro a q b hab
  cases a with
  | nil =>
    simp only [List.nil_append, List.cons.injEq] at hab
    rw [← hab.1, ← hab.2]; exact h
  | cons x a =>
    simp only [List.cons_append, List.cons.injEq] at hab
    exact ih a q b hab.2

theorem step_plain {c : Byte} {nx : Option Byte} (h : c ≠ c!"`") : Ticks.step ⟨0, false, false⟩ c nx = ⟨0, false, false⟩ := by
  unfold Ticks.step
  rw [if_neg h]

theorem pieces_fit : ∀ n s, s.length ≤ n → c!"`" ∉ s → src (pieces n ⟨0, false, false⟩ s) = s ∧ ∀ a p b, pieces n ⟨0, false, false⟩ s = a ++ p :: b → Fits p (src b)
  | n, [], _, _ => by
    have e : pieces n ⟨0, false, false⟩ [] = [] := by cases n <;> rfl
    rw [e]; exact ⟨rfl, fun a p b h => by simp at h⟩
  | 0, c :: s, h, _ => by simp at h
  | n + 1, c :: s, h, hb => by
    have hlen : s.length ≤ n := by simpa using h
    have hst := step_plain (nx := s.head?) (fun hc => hb (by simp [hc]) : c ≠ c!"`")
    have plain : ¬StartsMark (c :: s) → src (.byte c :: pieces n ⟨0, false, false⟩ s) = c :: s ∧ ∀ a p b, .byte c :: pieces n ⟨0, false, false⟩ s = a ++ p :: b → Fits p (src b) := by
      intro hn
      have ih := pieces_fit n s hlen (fun hc => hb (by simp [hc]))
      refine ⟨by rw [src_cons, ih.1]; rfl, fits_cons ?_ ih.2⟩
      rw [ih.1]; exact hn
    -- both marks alike
    have both : ∀ m : Byte, m ≠ c!"`" → (m = c!"=" ∨ m = c!"~") → ∀ mk : Bytes → Piece, (∀ x, (mk x).source = [m, m] ++ x ++ [m, m]) → (∀ x y, ¬[m, m] <:+: x ++ [m] → Fits (mk x) y) →
        c = m → s.head? = some m → ∀ ps, ps = (match Embed.find [m, m] s.tail with
          | some (x, r) => mk x :: pieces n ⟨0, false, false⟩ r
          | none => .byte m :: .byte m :: pieces n ⟨0, false, false⟩ s.tail) → src ps = c :: s ∧ ∀ a p b, ps = a ++ p :: b → Fits p (src b) := by
      intro m hm hm2 mk hmk hfit hc hh ps hps
      have hs := head_tail hh
      have hlt : s.tail.length ≤ n := by
        have := congrArg List.length hs
        simp only [List.length_cons] at this; omega
      cases hf : Embed.find [m, m] s.tail with
      | some xr =>
        obtain ⟨x, r⟩ := xr
        rw [hf] at hps
        simp only at hps
        have hfs := Embed.find_some hf
        have hlr := find_length hf
        have ih := pieces_fit n r (by omega) (fun hc => hb (by rw [hs, hfs]; simp [hc]))
        rw [hps]
        refine ⟨?_, fits_cons (hfit x _ ?_) ih.2⟩
        · rw [src_cons, ih.1, hmk, hc, hs, hfs]; simp
        · have := find_min (by simp) hf
          simpa using this
      | none =>
        rw [hf] at hps
        simp only at hps
        have ih := pieces_fit n s.tail hlt (fun hc => hb (by rw [hs]; simp [hc]))
        have hno := (Embed.find_none (by simp)).mp hf
        have e2 : src (.byte m :: pieces n ⟨0, false, false⟩ s.tail) = m :: s.tail := by rw [src_cons, ih.1]; rfl
        rw [hps]
        refine ⟨?_, fits_cons ?_ (fits_cons ?_ ih.2)⟩
        · rw [src_cons, e2, hc]
          conv => rhs; rw [hs]
          rfl
        · rw [e2]
          rintro ⟨k, x, r, hk, hkr⟩
          have hkm : k = [m, m] := by
            rcases hk with rfl | rfl <;> simp at hkr <;> rw [hkr.1]
          subst hkm
          simp only [List.cons_append, List.nil_append, List.cons.injEq, true_and] at hkr
          exact hno ⟨x, r, by rw [hkr]⟩
        · rw [ih.1]
          rintro ⟨k, x, r, hk, hkr⟩
          have hkm : k = [m, m] := by
            rcases hk with rfl | rfl <;> simp at hkr <;> rw [hkr.1]
          subst hkm
          simp only [List.cons_append, List.nil_append, List.cons.injEq, true_and] at hkr
          exact hno ⟨m :: x, r, by rw [hkr]; simp⟩
    rw [pieces.eq_def]
    simp only [hst, Bool.or_self, Bool.false_eq_true, if_false]
    split
    · rename_i hq
      simp only [Bool.and_eq_true, decide_eq_true_eq] at hq
      exact both c!"=" (by decide) (.inl rfl) .high (fun _ => rfl) (fun x y h => h) hq.1 hq.2 _ rfl
    · rename_i hq1
      split
      · rename_i hq
        simp only [Bool.and_eq_true, decide_eq_true_eq] at hq
        exact both c!"~" (by decide) (.inr rfl) .gone (fun _ => rfl) (fun x y h => h) hq.1 hq.2 _ rfl
      · rename_i hq2
        apply plain
        rintro ⟨k, x, r, hk, hkr⟩
        rcases hk with rfl | rfl
        · simp at hkr
          apply hq1; simp [hkr]
        · simp at hkr
          apply hq2; simp [hkr]

/-! Texts with code. -/

/-- In code all is copied. -/
theorem pieces_code {t t' : Ticks} {c : Byte} {s : Bytes} {n : Nat} (h : t.step c s.head? = t') (ht : t'.block = true ∨ t'.span = true) : pieces (n + 1) t (c :: s) = .byte c :: pieces n t' s := by
  rw [pieces.eq_def]
  simp only [h]
  rw [if_pos (by simpa using ht)]

theorem pieces_run {bl sp : Bool} (hc : bl = true ∨ sp = true) : ∀ {s : Bytes} (n k : Nat) (r : Bytes), s ≠ [] → c!"`" ∉ s →
    crit (pieces (n + s.length) ⟨k, bl, sp⟩ (s ++ r)) = s ++ crit (pieces n ⟨0, bl, sp⟩ r)
  | [], _, _, _, h, _ => by simp at h
  | c :: s, n, k, r, _, h => by
    have hstep : Ticks.step ⟨k, bl, sp⟩ c (s ++ r).head? = ⟨0, bl, sp⟩ := by
      unfold Ticks.step
      rw [if_neg fun hx => h (by simp [hx])]
    have e : n + (c :: s).length = (n + s.length) + 1 := by simp [Nat.add_assoc]
    rw [e, List.cons_append, pieces_code hstep hc, crit_cons]
    cases s with
    | nil => rfl
    | cons d s => rw [pieces_run hc n 0 r (by simp) fun hx => h (by simp [hx])]; rfl

theorem pieces_plain {t t' : Ticks} {c : Byte} {s : Bytes} {n : Nat} (h : t.step c s.head? = t') (hb : t'.block = false) (hs : t'.span = false) (h1 : c ≠ c!"=") (h2 : c ≠ c!"~") :
    pieces (n + 1) t (c :: s) = .byte c :: pieces n t' s := by
  rw [pieces.eq_def]
  simp only [h, hb, hs, h1, h2, decide_false, Bool.false_and, Bool.or_self, Bool.false_eq_true, if_false]

/-- The first occurrence. -/
theorem find_first' {w r : Bytes} (hw : w ≠ []) : ∀ {l : Bytes}, ¬ w <:+: l ++ w.dropLast → Embed.find w (l ++ w ++ r) = some (l, r)
  | [], _ => by
    cases w with
    | nil => exact absurd rfl hw
    | cons d w =>
      rw [List.nil_append, List.cons_append, Embed.find, if_pos ⟨r, by simp⟩]
      simp
  | c :: l, h => by
    rw [List.cons_append, List.cons_append, Embed.find, if_neg, find_first' hw]
    · rfl
    · intro ⟨x, y, hi⟩
      exact h ⟨c :: x, y, by simp only [List.cons_append, hi]⟩
    · rintro ⟨y, hy⟩
      apply h
      have hlen : w.length ≤ (c :: l ++ w.dropLast).length := by
        simp [List.length_dropLast]; omega
      have hpre : c :: l ++ w.dropLast <+: c :: (l ++ w ++ r) := by
        refine ⟨[w.getLast hw] ++ r, ?_⟩
        have := List.dropLast_concat_getLast hw
        have e : c :: l ++ w.dropLast ++ ([w.getLast hw] ++ r) = c :: l ++ (w.dropLast ++ [w.getLast hw]) ++ r := by simp
        rw [e, this]; simp
      exact (List.prefix_of_prefix_length_le ⟨y, hy⟩ hpre hlen).isInfix

/-- Two equal bytes are not in a text without them and one more. -/
theorem infix_no {m : Byte} : ∀ {x : Bytes}, [m, m] <:+: x ++ [m, m].dropLast → (∀ c ∈ x, c ≠ m) → False
  | [], h, _ => by
    have := h.length_le
    simp at this
  | c :: x, h, hx => by
    rw [List.cons_append, List.infix_cons_iff] at h
    rcases h with ⟨r, hr⟩ | h
    · simp at hr
      exact hx c (by simp) hr.1.symm
    · exact infix_no h fun d hd => hx d (by simp [hd])

/-- Tidy pieces are found again. -/
theorem pieces_tidy : ∀ (ps : List Piece) (n : Nat), (src ps).length ≤ n → (∀ p ∈ ps, p.Tidy) → Apart ps → crit (pieces n ⟨0, false, false⟩ (src ps)) = crit ps
  | [], n, _, _, _ => by
    have e : pieces n ⟨0, false, false⟩ (src []) = [] := by cases n <;> rfl
    rw [e]
  | p :: ps, n, hn, ht, ha => by
    have hap : Apart ps := by
      cases ps with
      | nil => trivial
      | cons q ps => exact ha.2
    have ih : ∀ m, (src ps).length ≤ m → crit (pieces m ⟨0, false, false⟩ (src ps)) = crit ps := fun m hm => pieces_tidy ps m hm (fun q hq => ht q (by simp [hq])) hap
    have hp := ht p (by simp)
    rw [src_cons] at hn ⊢
    rw [crit_cons, List.length_append] at *
    cases p with
    | byte c =>
      have hc : c ≠ c!"=" ∧ c ≠ c!"~" ∧ c ≠ c!"`" := by
        simp only [Piece.Tidy, List.mem_cons, List.not_mem_nil, or_false, not_or] at hp
        exact hp
      obtain ⟨m, rfl⟩ : ∃ m, n = m + 1 := ⟨n - 1, by simp only [Piece.source, List.length_cons, List.length_nil] at hn; omega⟩
      show crit (pieces (m + 1) _ (c :: src ps)) = _
      rw [pieces_plain (step_plain hc.2.2) rfl rfl hc.1 hc.2.1, crit_cons, ih m (by simp only [Piece.source, List.length_cons, List.length_nil] at hn; omega)]
    | high x =>
      obtain ⟨m, rfl⟩ : ∃ m, n = m + 1 := ⟨n - 1, by simp only [Piece.source, List.length_append, List.length_cons, List.length_nil] at hn; omega⟩
      have hf : Embed.find b!"==" (x ++ b!"==" ++ src ps) = some (x, src ps) := by
        refine find_first' (by simp) ?_
        intro hi
        exact infix_no hi (fun c hc => by have := hp c hc; simp at this; exact this.1)
      have e : (Piece.high x).source ++ src ps = c!"=" :: c!"=" :: (x ++ b!"==" ++ src ps) := by simp [Piece.source]
      rw [e, pieces.eq_def]
      simp only [step_plain (by decide : c!"=" ≠ c!"`"), List.head?_cons, List.tail_cons, hf, Bool.or_self, Bool.false_eq_true, if_false, decide_true, Bool.and_self, if_true]
      rw [crit_cons, ih m (by simp only [Piece.source, List.length_append, List.length_cons, List.length_nil] at hn; omega)]
    | gone x =>
      obtain ⟨m, rfl⟩ : ∃ m, n = m + 1 := ⟨n - 1, by simp only [Piece.source, List.length_append, List.length_cons, List.length_nil] at hn; omega⟩
      have hf : Embed.find b!"~~" (x ++ b!"~~" ++ src ps) = some (x, src ps) := by
        refine find_first' (by simp) ?_
        intro hi
        exact infix_no hi (fun c hc => by have := hp c hc; simp at this; exact this.1)
      have e : (Piece.gone x).source ++ src ps = c!"~" :: c!"~" :: (x ++ b!"~~" ++ src ps) := by simp [Piece.source]
      have hne : decide (c!"~" = c!"=") = false := by decide
      rw [e, pieces.eq_def]
      simp only [step_plain (by decide : c!"~" ≠ c!"`"), List.head?_cons, List.tail_cons, hf, hne, Bool.false_and, Bool.or_self, Bool.false_eq_true, if_false, decide_true, Bool.and_self, if_true]
      rw [crit_cons, ih m (by simp only [Piece.source, List.length_append, List.length_cons, List.length_nil] at hn; omega)]
    | code x =>
      have hl : (Piece.code x).source.length = x.length + 2 := by simp [Piece.source]
      obtain ⟨m, rfl⟩ : ∃ m, n = (m + 1) + x.length + 1 := ⟨n - x.length - 2, by omega⟩
      have e : (Piece.code x).source ++ src ps = c!"`" :: (x ++ c!"`" :: src ps) := by simp [Piece.source]
      have h1 : Ticks.step ⟨0, false, false⟩ c!"`" (x ++ c!"`" :: src ps).head? = ⟨0, false, true⟩ := by
        cases x with
        | nil => exact absurd rfl hp.1
        | cons d x =>
          have : d ≠ c!"`" := fun hd => hp.2 (by simp [hd])
          simp [Ticks.step, this]
      have hnext : (src ps).head? ≠ some c!"`" := by
        cases ps with
        | nil => simp [src]
        | cons q ps =>
          have hq := ht q (by simp)
          rw [src_cons]
          cases q with
          | byte c =>
            simp only [Piece.Tidy, List.mem_cons, List.not_mem_nil, or_false, not_or] at hq
            simp [Piece.source, hq]
          | high s => simp [Piece.source]
          | gone s => simp [Piece.source]
          | code s => exact absurd ⟨rfl, rfl⟩ ha.1
          | fence s => exact absurd ⟨rfl, rfl⟩ ha.1
      have h2 : Ticks.step ⟨0, false, true⟩ c!"`" (src ps).head? = ⟨0, false, false⟩ := by
        simp [Ticks.step, hnext]
      rw [e, pieces_code h1 (.inr rfl), crit_cons, pieces_run (.inr rfl) _ _ _ hp.1 hp.2, pieces_plain h2 rfl rfl (by decide) (by decide), crit_cons, ih m (by omega)]
      simp [Piece.critic]
    | fence x =>
      have hl : (Piece.fence x).source.length = x.length + 6 := by simp [Piece.source]
      obtain ⟨m, rfl⟩ : ∃ m, n = (m + 1 + 1 + 1) + x.length + 1 + 1 + 1 := ⟨n - x.length - 6, by omega⟩
      have e : (Piece.fence x).source ++ src ps = c!"`" :: c!"`" :: c!"`" :: (x ++ c!"`" :: c!"`" :: c!"`" :: src ps) := by simp [Piece.source]
      have t1 : ∀ r : Bytes, Ticks.step ⟨0, false, false⟩ c!"`" (c!"`" :: r).head? = ⟨1, false, false⟩ := fun r => by simp [Ticks.step]
      have t2 : ∀ r : Bytes, Ticks.step ⟨1, false, false⟩ c!"`" (c!"`" :: r).head? = ⟨2, false, false⟩ := fun r => by simp [Ticks.step]
      have t3 : ∀ o, Ticks.step ⟨2, false, false⟩ c!"`" o = ⟨0, true, false⟩ := fun o => by simp [Ticks.step]
      have u1 : ∀ o, Ticks.step ⟨0, true, false⟩ c!"`" o = ⟨1, true, false⟩ := fun o => by simp [Ticks.step]
      have u2 : ∀ o, Ticks.step ⟨1, true, false⟩ c!"`" o = ⟨2, true, false⟩ := fun o => by simp [Ticks.step]
      have u3 : ∀ o, Ticks.step ⟨2, true, false⟩ c!"`" o = ⟨0, false, false⟩ := fun o => by simp [Ticks.step]
      rw [e, pieces_plain (t1 _) rfl rfl (by decide) (by decide), pieces_plain (t2 _) rfl rfl (by decide) (by decide), pieces_code (t3 _) (.inl rfl), crit_cons, crit_cons, crit_cons,
        pieces_run (.inl rfl) _ _ _ hp.1 hp.2, pieces_code (u1 _) (.inl rfl), pieces_code (u2 _) (.inl rfl), pieces_plain (u3 _) rfl rfl (by decide) (by decide), crit_cons, crit_cons, crit_cons, ih m (by omega)]
      simp [Piece.critic]

end Verif.Hashtags
