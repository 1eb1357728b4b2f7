import Verif.Model.Utf8
import Verif.Spec.Utf8

namespace Verif.Utf8
open Spec

theorem cont_iff (c : Byte) : (c &&& 0xC0 != 0x80) = false ↔ Cont c := by
  revert c; unfold Cont; exact forall_byte (by decide +kernel)

theorem charLength_one (c : Byte) : charLength c = 1 ↔ c ≤ 0x7F := by
  revert c; exact forall_byte (by decide +kernel)
theorem charLength_two (c : Byte) : charLength c = 2 ↔ 0xC0 ≤ c ∧ c ≤ 0xDF := by
  revert c; exact forall_byte (by decide +kernel)
theorem charLength_three (c : Byte) : charLength c = 3 ↔ 0xE0 ≤ c ∧ c ≤ 0xEF := by
  revert c; exact forall_byte (by decide +kernel)
theorem charLength_four (c : Byte) : charLength c = 4 ↔ 0xF0 ≤ c ∧ c ≤ 0xF7 := by
  revert c; exact forall_byte (by decide +kernel)
theorem charLength_le (c : Byte) : charLength c ≤ 4 := by
  revert c; exact forall_byte (by decide +kernel)

theorem isValidStart_iff (c : Byte) : isValidStart c = true ↔ charLength c ≠ 0 := by
  revert c; exact forall_byte (by decide +kernel)

/-- A sequence is a lead byte followed by exactly `charLength - 1` continuation bytes. -/
theorem seq_iff (a : Byte) (t : Bytes) :
    Seq (a :: t) ↔ charLength a ≠ 0 ∧ t.length + 1 = charLength a ∧ ∀ c ∈ t, Cont c := by
  constructor
  · intro h
    cases h with
    | one _ h => have := (charLength_one a).2 h; simp [this]
    | two _ b h1 h2 h3 => have := (charLength_two a).2 ⟨h1, h2⟩; simp [this, h3]
    | three _ b c h1 h2 h3 h4 => have := (charLength_three a).2 ⟨h1, h2⟩; simp [this, h3, h4]
    | four _ b c d h1 h2 h3 h4 h5 => have := (charLength_four a).2 ⟨h1, h2⟩; simp [this, h3, h4, h5]
  · rintro ⟨h0, h1, h2⟩
    have h4 := charLength_le a
    match t, h1, h2 with
    | [], h1, _ => exact .one a ((charLength_one a).1 (by simpa using h1.symm))
    | [b], h1, h2 =>
      have := (charLength_two a).1 (by simpa using h1.symm)
      exact .two a b this.1 this.2 (h2 b (by simp))
    | [b, c], h1, h2 =>
      have := (charLength_three a).1 (by simpa using h1.symm)
      exact .three a b c this.1 this.2 (h2 b (by simp)) (h2 c (by simp))
    | [b, c, d], h1, h2 =>
      have := (charLength_four a).1 (by simpa using h1.symm)
      exact .four a b c d this.1 this.2 (h2 b (by simp)) (h2 c (by simp)) (h2 d (by simp))
    | _ :: _ :: _ :: _ :: _, h1, _ => simp at h1; omega

theorem contLoop_spec (s : Bytes) (i j n : Nat) (h : i + n ≤ s.length) :
    ∃ b, contLoop s i j n = .val b ∧
      (b = true ↔ ∀ k, j ≤ k → k < n → ∀ c, s[i + k]? = some c → Cont c) := by
  fun_induction contLoop s i j n with
  | case1 j hj hr =>
    exfalso
    have : s[i + j]? = some s[i + j] := List.getElem?_eq_getElem (by omega)
    simp [rd, this] at hr
  | case2 j hj c hr hc =>
    refine ⟨false, rfl, ?_⟩
    have hs : s[i + j]? = some c := by
      unfold rd at hr; split at hr <;> simp_all
    constructor
    · simp
    · intro hall
      have := (cont_iff c).2 (hall j (by omega) hj c hs)
      simp_all
  | case3 j hj c hr hc ih =>
    obtain ⟨b, hb, hiff⟩ := ih
    have hs : s[i + j]? = some c := by
      unfold rd at hr; split at hr <;> simp_all
    refine ⟨b, hb, hiff.trans ⟨fun hall k h1 h2 d hd => ?_, fun hall k h1 h2 => hall k (by omega) h2⟩⟩
    by_cases hk : k = j
    · subst hk
      rw [hs] at hd; cases hd
      exact (cont_iff _).1 (by simpa using hc)
    · exact hall k (by omega) h2 d hd
  | case4 j hj =>
    exact ⟨true, rfl, by simp; intro k h1 h2; omega⟩

theorem Spec.Structured.nil : Structured [] := ⟨[], by simp, rfl⟩

theorem Spec.Structured.append {a b : Bytes} (ha : Structured a) (hb : Structured b) :
    Structured (a ++ b) := by
  obtain ⟨qa, h1, rfl⟩ := ha
  obtain ⟨qb, h2, rfl⟩ := hb
  refine ⟨qa ++ qb, ?_, by simp⟩
  intro q hq
  rcases List.mem_append.1 hq with h | h
  · exact h1 q h
  · exact h2 q h

theorem not_seq_nil : ¬ Seq [] := by intro h; cases h

/-- Structured text starts with exactly the sequence its first byte announces. -/
theorem structured_cons (a : Byte) (t : Bytes) :
    Structured (a :: t) ↔ charLength a ≠ 0 ∧ charLength a ≤ t.length + 1 ∧
      (∀ c ∈ t.take (charLength a - 1), Cont c) ∧ Structured (t.drop (charLength a - 1)) := by
  constructor
  · rintro ⟨qs, hq, he⟩
    match qs, hq, he with
    | [], _, he => simp at he
    | [] :: qs, hq, _ => exact absurd (hq [] (by simp)) not_seq_nil
    | (b :: u) :: qs, hq, he =>
      simp at he
      obtain ⟨rfl, rfl⟩ := he
      obtain ⟨h0, h1, h2⟩ := (seq_iff a u).1 (hq _ (by simp))
      have hl : charLength a - 1 = u.length := by omega
      refine ⟨h0, by simp; omega, by simpa [hl] using h2, ?_⟩
      rw [hl, List.drop_left]
      exact ⟨qs, fun q h => hq q (by simp [h]), rfl⟩
  · rintro ⟨h0, h1, h2, qs, hq, he⟩
    refine ⟨(a :: t.take (charLength a - 1)) :: qs, ?_, ?_⟩
    · intro q hmem
      rcases List.mem_cons.1 hmem with rfl | h
      · refine (seq_iff _ _).2 ⟨h0, ?_, h2⟩
        rw [List.length_take]; omega
      · exact hq q h
    · simp [← he]

theorem validateFrom_spec (s : Bytes) (i : Nat) (hi : i ≤ s.length) :
    ∃ b, validateFrom s i = .val b ∧ (b = true ↔ Structured (s.drop i)) := by
  fun_induction validateFrom s i with
  | case1 i h h2 =>
    refine ⟨false, rfl, ?_⟩
    rw [List.drop_eq_getElem_cons h, structured_cons]
    constructor
    · simp
    · rintro ⟨h3, h4, _⟩
      simp [List.length_drop] at h4
      omega
  | case2 i h h2 hc =>
    obtain ⟨b, hb, _⟩ := contLoop_spec s i 1 (charLength s[i]) (by omega)
    simp [hb] at hc
  | case3 i h h2 hc =>
    obtain ⟨b, hb, hiff⟩ := contLoop_spec s i 1 (charLength s[i]) (by omega)
    rw [hc] at hb; cases hb
    refine ⟨false, rfl, ?_⟩
    rw [List.drop_eq_getElem_cons h, structured_cons]
    constructor
    · simp
    · rintro ⟨_, _, h5, _⟩
      refine absurd (hiff.2 ?_) (by simp)
      intro k hk1 hk2 c hck
      apply h5
      rw [List.mem_iff_getElem?]
      refine ⟨k - 1, ?_⟩
      rw [List.getElem?_take]
      simp [show k - 1 < charLength s[i] - 1 by omega]
      rw [← hck]; congr 1; omega
  | case4 i h h2 hc ih =>
    obtain ⟨b', hb', hiff'⟩ := contLoop_spec s i 1 (charLength s[i]) (by omega)
    rw [hc] at hb'; cases hb'
    obtain ⟨b, hb, hiff⟩ := ih (by omega)
    refine ⟨b, hb, hiff.trans ?_⟩
    rw [List.drop_eq_getElem_cons h, structured_cons]
    have e : (s.drop (i + 1)).drop (charLength s[i] - 1) = s.drop (i + charLength s[i]) := by
      rw [List.drop_drop]; congr 1; omega
    rw [e]
    constructor
    · intro hst
      refine ⟨by omega, by simp [List.length_drop]; omega, ?_, hst⟩
      intro c hcm
      rw [List.mem_iff_getElem?] at hcm
      obtain ⟨k, hk⟩ := hcm
      rw [List.getElem?_take] at hk
      split at hk
      · rw [List.getElem?_drop] at hk
        exact hiff'.1 rfl (k + 1) (by omega) (by omega) c (by rw [← hk]; congr 1; omega)
      · cases hk
    · exact fun h => h.2.2.2
  | case5 i h =>
    refine ⟨true, rfl, ?_⟩
    rw [List.drop_eq_nil_of_le (by omega)]
    simp [Structured.nil]

theorem Spec.Structured.cancel {a b : Bytes} (ha : Structured a) (hab : Structured (a ++ b)) :
    Structured b := by
  obtain ⟨qs, hq, rfl⟩ := ha
  induction qs with
  | nil => simpa using hab
  | cons q qs ih =>
    match q, hq q (by simp) with
    | [], h => exact absurd h not_seq_nil
    | c :: u, h =>
      obtain ⟨h0, h1, _⟩ := (seq_iff c u).1 h
      apply ih (fun q h => hq q (by simp [h]))
      have hab' : Structured (c :: (u ++ (qs.flatten ++ b))) := by simpa using hab
      have := ((structured_cons _ _).1 hab').2.2.2
      rwa [show charLength c - 1 = u.length by omega, List.drop_left] at this

theorem u8_le_iff (n : Nat) (c : UInt8) (h : n < 256) : UInt8.ofNat n ≤ c ↔ n ≤ c.toNat := by
  rw [UInt8.le_iff_toNat_le, UInt8.toNat_ofNat']; simp; omega

theorem seq_encode (n : Nat) (h : Scalar n) : Seq (encode n) := by
  obtain ⟨h1, _⟩ := h
  have ht : ∀ m, m < 256 → (UInt8.ofNat m).toNat = m := by intro m hm; simp; omega
  have hc : ∀ m, m < 64 → Cont (UInt8.ofNat (0x80 + m)) := by
    intro m hm
    constructor <;> rw [UInt8.le_iff_toNat_le, ht _ (by omega)] <;> simp <;> omega
  unfold encode
  split
  · apply Seq.one; rw [UInt8.le_iff_toNat_le, ht _ (by omega)]; simp; omega
  split
  · apply Seq.two
    · rw [UInt8.le_iff_toNat_le, ht _ (by omega)]; simp
    · rw [UInt8.le_iff_toNat_le, ht _ (by omega)]; simp; omega
    · exact hc _ (by omega)
  split
  · apply Seq.three
    · rw [UInt8.le_iff_toNat_le, ht _ (by omega)]; simp
    · rw [UInt8.le_iff_toNat_le, ht _ (by omega)]; simp; omega
    · exact hc _ (by omega)
    · exact hc _ (by omega)
  · apply Seq.four
    · rw [UInt8.le_iff_toNat_le, ht _ (by omega)]; simp
    · rw [UInt8.le_iff_toNat_le, ht _ (by omega)]; simp; omega
    · exact hc _ (by omega)
    · exact hc _ (by omega)
    · exact hc _ (by omega)

theorem encode_head_ne (n : Nat) (t : Bytes) (h : Scalar n) : encode n ≠ 0xC0 :: t := by
  have ht : ∀ m, m < 256 → (UInt8.ofNat m).toNat = m := by intro m hm; simp; omega
  obtain ⟨h1, _⟩ := h
  unfold encode
  intro he
  split at he
  · injection he with h2 _
    have := congrArg UInt8.toNat h2; rw [ht _ (by omega)] at this; simp at this; omega
  split at he
  · injection he with h2 _
    have := congrArg UInt8.toNat h2; rw [ht _ (by omega)] at this; simp at this; omega
  split at he
  · injection he with h2 _
    have := congrArg UInt8.toNat h2; rw [ht _ (by omega)] at this; simp at this; omega
  · injection he with h2 _
    have := congrArg UInt8.toNat h2; rw [ht _ (by omega)] at this; simp at this; omega

theorem encode_ne_nil (n : Nat) : encode n ≠ [] := by
  unfold encode; repeat' split
  all_goals simp

end Verif.Utf8
