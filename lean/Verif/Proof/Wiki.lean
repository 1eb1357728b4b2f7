import Verif.Spec.Wiki
import Verif.Proof.Slug
import Verif.Proof.Transforms

namespace Verif.Wiki

open Spec Slug Utf8.Spec Transforms Transforms.Spec

/-! ### Page names -/

/-- The bytes of a removed character. -/
def goneShape : Bytes → Bool
  | [c] => c == 39 || c == 34 || c == 96
  | [a, b] => (a == 0xC2 && b == 0xB4) || (a == 0xCC && 0x80 ≤ b && b ≤ 0xBF) || (a == 0xCD && 0x80 ≤ b && b ≤ 0xAF)
  | [a, b, c] => a == 0xE2 && b == 0x80 && (c == 0x98 || c == 0x99 || c == 0x9C || c == 0x9D)
  | _ => false

theorem removed_shape {n : Nat} (h : Removed n) : goneShape (encode n) = true := by
  rcases h with h | ⟨h1, h2⟩
  · revert n; decide +kernel
  · have : ∀ k : Fin 0x70, goneShape (encode (0x300 + k.1)) = true := by decide +kernel
    have := this ⟨n - 0x300, by omega⟩
    simpa [show 0x300 + (n - 0x300) = n by omega] using this

theorem shape_removed {u : Bytes} (h : goneShape u = true) : ∃ n, Removed n ∧ encode n = u := by
  match u, h with
  | [c], h =>
    simp only [goneShape, Bool.or_eq_true, beq_iff_eq] at h
    rcases h with (rfl | rfl) | rfl
    · exact ⟨0x27, .inl (by decide), by decide +kernel⟩
    · exact ⟨0x22, .inl (by decide), by decide +kernel⟩
    · exact ⟨0x60, .inl (by decide), by decide +kernel⟩
  | [a, b], h =>
    simp only [goneShape, Bool.or_eq_true, Bool.and_eq_true, beq_iff_eq, decide_eq_true_eq] at h
    rcases h with (⟨rfl, rfl⟩ | ⟨⟨rfl, h1⟩, h2⟩) | ⟨⟨rfl, h1⟩, h2⟩
    · exact ⟨0xB4, .inl (by decide), by decide +kernel⟩
    · have : ∀ b : Byte, 0x80 ≤ b → b ≤ 0xBF →
          0x300 ≤ 0x300 + (b.toNat - 0x80) ∧ 0x300 + (b.toNat - 0x80) ≤ 0x36F ∧
            encode (0x300 + (b.toNat - 0x80)) = [0xCC, b] := forall_byte (by decide +kernel)
      obtain ⟨h3, h4, h5⟩ := this b h1 h2
      exact ⟨_, .inr ⟨h3, h4⟩, h5⟩
    · have : ∀ b : Byte, 0x80 ≤ b → b ≤ 0xAF →
          0x300 ≤ 0x340 + (b.toNat - 0x80) ∧ 0x340 + (b.toNat - 0x80) ≤ 0x36F ∧
            encode (0x340 + (b.toNat - 0x80)) = [0xCD, b] := forall_byte (by decide +kernel)
      obtain ⟨h3, h4, h5⟩ := this b h1 h2
      exact ⟨_, .inr ⟨h3, h4⟩, h5⟩
  | [a, b, c], h =>
    simp only [goneShape, Bool.or_eq_true, Bool.and_eq_true, beq_iff_eq] at h
    obtain ⟨⟨rfl, rfl⟩, ((rfl | rfl) | rfl) | rfl⟩ := h
    · exact ⟨0x2018, .inl (by decide), by decide +kernel⟩
    · exact ⟨0x2019, .inl (by decide), by decide +kernel⟩
    · exact ⟨0x201C, .inl (by decide), by decide +kernel⟩
    · exact ⟨0x201D, .inl (by decide), by decide +kernel⟩

theorem goneLen_of_shape {u : Bytes} (h : goneShape u = true) (t : Bytes) : goneLen (u ++ t) = some u.length := by
  match u, h with
  | [c], h =>
    simp only [goneShape, Bool.or_eq_true, beq_iff_eq] at h
    rw [List.singleton_append, goneLen, if_pos (by rcases h with (h | h) | h <;> simp [h])]
    simp
  | [a, b], h =>
    simp only [goneShape, Bool.or_eq_true, Bool.and_eq_true, beq_iff_eq, decide_eq_true_eq] at h
    rcases h with (⟨rfl, rfl⟩ | ⟨⟨rfl, h1⟩, h2⟩) | ⟨⟨rfl, h1⟩, h2⟩
    · simp [goneLen]
    · simp [goneLen, h1, h2]
    · simp [goneLen, h1, h2]
  | [a, b, c], h =>
    simp only [goneShape, Bool.or_eq_true, Bool.and_eq_true, beq_iff_eq] at h
    obtain ⟨⟨rfl, rfl⟩, ((rfl | rfl) | rfl) | rfl⟩ := h <;> simp [goneLen]

theorem shape_of_goneLen {c : Byte} {t : Bytes} {k : Nat} (h : goneLen (c :: t) = some k) :
    ∃ u, goneShape u = true ∧ c :: t = u ++ t.drop (k - 1) ∧ k = u.length := by
  rw [goneLen] at h
  split at h
  · rename_i hc
    cases h
    exact ⟨[c], by rcases hc with hc | hc | hc <;> simp [goneShape, hc], by simp, rfl⟩
  · split at h
    · rename_i hc
      cases h
      obtain ⟨rfl, hc⟩ := hc
      cases t with
      | nil => simp at hc
      | cons d t => simp at hc; subst hc; exact ⟨[0xC2, 0xB4], by decide, by simp, rfl⟩
    · split at h
      · rename_i hc
        cases h
        obtain ⟨rfl, h1, h2⟩ := hc
        match t, h1, h2 with
        | [d], h1, h2 => simp at h2
        | d :: e :: t, h1, h2 =>
          simp at h1 h2
          subst h1
          exact ⟨[0xE2, 0x80, e], by rcases h2 with h2 | h2 | h2 | h2 <;> simp [goneShape, h2], by simp, rfl⟩
      · split at h
        · rename_i hc
          cases h
          obtain ⟨rfl, h1, h2⟩ := hc
          cases t with
          | nil => exact absurd h1 (by decide)
          | cons d t => exact ⟨[0xCC, d], by simpa [goneShape] using ⟨h1, h2⟩, by simp, rfl⟩
        · split at h
          · rename_i hc
            cases h
            obtain ⟨rfl, h1, h2⟩ := hc
            cases t with
            | nil => exact absurd h1 (by decide)
            | cons d t => exact ⟨[0xCD, d], by simpa [goneShape] using ⟨h1, h2⟩, by simp, rfl⟩
          · cases h

/-- The letters for an accented one, by its second byte. -/
def letters (d : Byte) : Option Bytes :=
  if d = 0x86 ∨ d = 0xA6 then some b!"ae"
  else if d = 0x9F then some b!"ss"
  else if latin1 d ≠ 0 then some [latin1 d] else none

theorem accent_letters {n : Nat} {w : Bytes} (h : Accent n w) : ∃ d, encode n = [0xC3, d] ∧ letters d = some w := by
  obtain ⟨l, h1, h2⟩ := h
  have : ∀ p ∈ accents, ∀ n ∈ p.2, (encode n).length = 2 ∧ (encode n).headD 0 = 0xC3 ∧
      letters ((encode n).getD 1 0) = some p.1 := by decide +kernel
  obtain ⟨h3, h4, h5⟩ := this (w, l) h1 n h2
  match he : encode n, h3, h4, h5 with
  | [a, b], _, h4, h5 => simp at h4 h5; subst h4; exact ⟨b, rfl, h5⟩

theorem letters_accent {d : Byte} {w : Bytes} (h : letters d = some w) : ∃ n, Accent n w ∧ encode n = [0xC3, d] := by
  have : ∀ d : Byte, letters d ≠ none →
      encode (0xC0 + (d.toNat - 0x80)) = [0xC3, d] ∧
        accents.any (fun p => p.1 == (letters d).getD [] && p.2.contains (0xC0 + (d.toNat - 0x80))) = true :=
    forall_byte (by decide +kernel)
  obtain ⟨h1, h2⟩ := this d (by rw [h]; simp)
  rw [List.any_eq_true] at h2
  obtain ⟨p, hp, h2⟩ := h2
  simp only [h, Option.getD_some, Bool.and_eq_true, beq_iff_eq, List.contains_iff_mem] at h2
  exact ⟨_, ⟨p.2, by rw [← h2.1]; exact hp, h2.2⟩, h1⟩

theorem letters_plain : ∀ d : Byte, ∀ w, letters d = some w → w ≠ [] ∧ w.length ≤ 2 ∧ ∀ c ∈ w, isLower c = true := by
  have : ∀ d : Byte, letters d ≠ none → (letters d).getD [] ≠ [] ∧ ((letters d).getD []).length ≤ 2 ∧
      ∀ c ∈ (letters d).getD [], isLower c = true := forall_byte (by decide +kernel)
  intro d w h
  have := this d (by rw [h]; simp)
  rwa [h] at this

instance (c : Byte) : Decidable (Plain c) := by unfold Plain; infer_instance

/-- What is read at `c :: t`, and the rest. -/
def step (c : Byte) (t : Bytes) : Piece × Bytes :=
  match goneLen (c :: t) with
  | some k => (.gone, t.drop (k - 1))
  | none =>
    if c = 0xC3 then
      match t with
      | d :: t =>
        match letters d with
        | some w => (.keep w, t)
        | none => (.brk, t)
      | [] => (.brk, [])
    else if Plain c then (.keep [toLower c], t) else (.brk, t)

theorem step_short (c : Byte) (t : Bytes) : (step c t).2.length ≤ t.length := by
  unfold step
  split
  · simp
  · split
    · split
      · split <;> simp
      · simp
    · split <;> simp

/-- Everything that is read. -/
def pieces (s : Bytes) : List Piece :=
  match s with
  | [] => []
  | c :: t => (step c t).1 :: pieces (step c t).2
  termination_by s.length
  decreasing_by have := step_short c t; simp; omega

theorem step_removed {n : Nat} (h : Removed n) (t : Bytes) :
    ∃ c r, encode n ++ t = c :: r ∧ step c r = (.gone, t) := by
  have hs := removed_shape h
  have hg := goneLen_of_shape hs t
  match he : encode n, hs with
  | c :: u, hs =>
    refine ⟨c, u ++ t, rfl, ?_⟩
    rw [he, List.cons_append] at hg
    simp [step, hg]

theorem step_accent {n : Nat} {w : Bytes} (h : Accent n w) (t : Bytes) :
    ∃ d, encode n ++ t = 0xC3 :: d :: t ∧ step 0xC3 (d :: t) = (.keep w, t) := by
  obtain ⟨d, h1, h2⟩ := accent_letters h
  refine ⟨d, by rw [h1]; rfl, ?_⟩
  have hg : goneLen (0xC3 :: d :: t) = none := by simp [goneLen]
  simp [step, hg, h2]

theorem plain_not_C3 {c : Byte} (h : Plain c) : c ≠ 0xC3 := by rintro rfl; revert h; decide

theorem step_other {c : Byte} {t : Bytes} (h : goneLen (c :: t) = none) (hc : c = 0xC3 → t = []) :
    step c t = if Plain c then (.keep [toLower c], t) else (.brk, t) := by
  simp only [step, h]
  by_cases h3 : c = 0xC3
  · have := hc h3
    subst h3 this
    rfl
  · simp only [if_neg h3]

theorem goneLen_plain : ∀ {c : Byte}, Plain c → ∀ t, goneLen (c :: t) = none := by
  intro c hc t
  have : ∀ c : Byte, Plain c → c ≠ 39 ∧ c ≠ 34 ∧ c ≠ 96 ∧ c ≠ 0xC2 ∧ c ≠ 0xE2 ∧ c ≠ 0xCC ∧ c ≠ 0xCD :=
    forall_byte (by decide +kernel)
  obtain ⟨h1, h2, h3, h4, h5, h6, h7⟩ := this c hc
  simp [goneLen, h1, h2, h3, h4, h5, h6, h7]

theorem reads_pieces {s : Bytes} {ps : List Piece} (h : Reads s ps) : ps = pieces s := by
  induction h with
  | nil => simp [pieces]
  | @removed n t ps hn _ ih =>
    obtain ⟨c, r, h1, h2⟩ := step_removed hn t
    rw [h1, pieces, h2, ih]
  | @accent n w t ps ha _ ih =>
    obtain ⟨d, h1, h2⟩ := step_accent ha t
    rw [h1, pieces, h2, ih]
  | @plain c t ps hc _ ih =>
    rw [pieces, step_other (goneLen_plain hc t) fun h => absurd h (plain_not_C3 hc), if_pos hc, ih]
  | @latin d t ps hd _ ih =>
    have hg : goneLen (0xC3 :: d :: t) = none := by simp [goneLen]
    have hl : letters d = none := by
      cases hl : letters d with
      | none => rfl
      | some w =>
        obtain ⟨n, h1, h2⟩ := letters_accent hl
        exact absurd h2 (hd n w h1)
    have : step 0xC3 (d :: t) = (.brk, t) := by simp [step, hg, hl]
    rw [pieces, this, ih]
  | @other c t ps hp hr hc _ ih =>
    have hg : goneLen (c :: t) = none := by
      cases hg : goneLen (c :: t) with
      | none => rfl
      | some k =>
        obtain ⟨u, h1, h2, _⟩ := shape_of_goneLen hg
        obtain ⟨n, h3, h4⟩ := shape_removed h1
        exact absurd ⟨_, by rw [h4]; exact h2.symm⟩ (hr n h3)
    rw [pieces, step_other hg hc, if_neg hp, ih]

theorem pieces_reads : ∀ (n : Nat) (s : Bytes), s.length ≤ n → Reads s (pieces s) := by
  intro n
  induction n with
  | zero =>
    intro s hs
    obtain rfl : s = [] := by simpa using hs
    rw [pieces]; exact .nil
  | succ n ih =>
    intro s hs
    cases s with
    | nil => rw [pieces]; exact .nil
    | cons c t =>
      have hlen := step_short c t
      simp only [List.length_cons] at hs
      have ih := ih (step c t).2 (by omega)
      rw [pieces]
      cases hg : goneLen (c :: t) with
      | some k =>
        obtain ⟨u, h1, h2, h3⟩ := shape_of_goneLen hg
        obtain ⟨m, h4, h5⟩ := shape_removed h1
        have hst : step c t = (.gone, t.drop (k - 1)) := by simp only [step, hg]
        rw [hst] at ih ⊢
        have := Reads.removed h4 ih
        rwa [h5, ← h2] at this
      | none =>
        by_cases hc : c = 0xC3 → t = []
        · have hst := step_other hg hc
          by_cases hp : Plain c
          · rw [if_pos hp] at hst
            rw [hst] at ih ⊢
            exact .plain hp ih
          · rw [if_neg hp] at hst
            rw [hst] at ih ⊢
            refine .other hp ?_ hc ih
            rintro m hm ⟨r, hr⟩
            have := goneLen_of_shape (removed_shape hm) r
            rw [hr, hg] at this
            cases this
        · simp only [Classical.not_imp] at hc
          obtain ⟨rfl, ht⟩ := hc
          cases t with
          | nil => exact absurd rfl ht
          | cons d t =>
            cases hl : letters d with
            | some w =>
              have hst : step 0xC3 (d :: t) = (.keep w, t) := by simp [step, hg, hl]
              rw [hst] at ih ⊢
              obtain ⟨m, h1, h2⟩ := letters_accent hl
              have := Reads.accent h1 ih
              rwa [h2] at this
            | none =>
              have hst : step 0xC3 (d :: t) = (.brk, t) := by simp [step, hg, hl]
              rw [hst] at ih ⊢
              refine .latin ?_ ih
              intro m w hm he
              obtain ⟨e, h1, h2⟩ := accent_letters hm
              rw [he] at h1
              obtain rfl : d = e := by simpa using h1
              rw [hl] at h2; cases h2

theorem step_fine (c : Byte) (t w : Bytes) (h : (step c t).1 = .keep w) :
    w ≠ [] ∧ w.length + (step c t).2.length ≤ t.length + 1 ∧
      ∀ x ∈ w, isLower x = true ∨ isDigit x = true ∨ x = 47 ∨ x = 46 := by
  cases hg : goneLen (c :: t) with
  | some k => simp [step, hg] at h
  | none =>
    by_cases hc : c = 0xC3 → t = []
    · rw [step_other hg hc] at h ⊢
      split at h
      · rename_i hp
        simp only [Piece.keep.injEq] at h
        subst h
        rw [if_pos hp]
        refine ⟨by simp, by simp; omega, ?_⟩
        intro x hx
        have hx := List.mem_singleton.1 hx
        subst hx
        have : ∀ c : Byte, Plain c → isLower (toLower c) = true ∨ isDigit (toLower c) = true ∨ toLower c = 47 ∨ toLower c = 46 :=
          forall_byte (by decide +kernel)
        exact this c hp
      · simp at h
    · simp only [Classical.not_imp] at hc
      obtain ⟨rfl, ht⟩ := hc
      cases t with
      | nil => exact absurd rfl ht
      | cons d t =>
        cases hl : letters d with
        | none =>
          have hst : step 0xC3 (d :: t) = (.brk, t) := by simp [step, hg, hl]
          rw [hst] at h; simp at h
        | some v =>
          have hst : step 0xC3 (d :: t) = (.keep v, t) := by simp [step, hg, hl]
          rw [hst] at h ⊢
          simp only [Piece.keep.injEq] at h
          subst h
          obtain ⟨h1, h2, h3⟩ := letters_plain d v hl
          exact ⟨h1, by simp; omega, fun x hx => .inl (h3 x hx)⟩

/-- What is written for a piece fits in the place of what was read. -/
theorem emit_short (c : Byte) (t : Bytes) (sep : Option Byte) (last : Bool) :
    (emit sep last (step c t).1).length + (step c t).2.length ≤ t.length + 1 := by
  have hs := step_short c t
  cases h : (step c t).1 with
  | gone => simp [emit]; omega
  | keep w => simpa [emit] using (step_fine c t w h).2.1
  | brk =>
    have : (emit sep last .brk).length ≤ 1 := by
      unfold emit
      cases last <;> cases sep <;> simp
    omega

theorem sepOf_char (m : SpaceMode) : (spaceChar m = 0 ↔ sep m = none) ∧
    (spaceChar m ≠ 0 → sep m = some (spaceChar m)) ∧ ∀ c, Plain c → c ≠ spaceChar m := by
  cases m <;> refine ⟨by decide, by decide, ?_⟩ <;> rintro c hc rfl <;> revert hc <;> decide

theorem oneByte_spec (m : SpaceMode) {cap : Nat} {out : Bytes} (hc : out.length < cap) (last : Bool) (c : Byte) :
    let p := if Plain c then Piece.keep [toLower c] else .brk
    oneByte cap (spaceChar m) last out c = .val (out ++ emit (sep m) last p, next (sep m) last p) := by
  intro p
  obtain ⟨h0, h1, h2⟩ := sepOf_char m
  have hlow : (if 65 ≤ c ∧ c ≤ 90 then c + 32 else c) = toLower c := by
    unfold toLower isUpper
    by_cases h : 65 ≤ c ∧ c ≤ 90
    · rw [if_pos h, if_pos (by simpa using h)]
    · rw [if_neg h, if_neg (by simpa using h)]
  have hplain : (!isAlnum (toLower c) && toLower c != 47 && toLower c != 46) = decide (¬ Plain c) := by
    have : ∀ c : Byte, (!isAlnum (toLower c) && toLower c != 47 && toLower c != 46) = decide (¬ Plain c) :=
      forall_byte (by decide +kernel)
    exact this c
  have hlp : Plain c → Plain (toLower c) := by
    have : ∀ c : Byte, Plain c → Plain (toLower c) := forall_byte (by decide +kernel)
    exact this c
  unfold oneByte
  simp only [hlow, hplain]
  by_cases hp : Plain c
  · have hpe : p = .keep [toLower c] := if_pos hp
    rw [if_neg (by simpa using hp), if_neg (fun h => h2 _ (hlp hp) h.2), put_val hc, C.val_bind, hpe]
    rfl
  · have hpe : p = .brk := if_neg hp
    rw [if_pos (by simpa using hp), hpe]
    by_cases hz : spaceChar m = 0
    · rw [if_pos hz, h0.1 hz]
      cases last <;> simp [emit, next]
    · rw [if_neg hz, h1 hz]
      cases last with
      | true => simp [emit, next]
      | false =>
        rw [if_neg (by decide), put_val hc, C.val_bind]
        simp [emit, next]

theorem sepByte_spec (m : SpaceMode) {cap : Nat} {out : Bytes} (hc : out.length < cap) (last : Bool) :
    sepByte cap (spaceChar m) last out = .val (out ++ emit (sep m) last .brk, next (sep m) last .brk) := by
  obtain ⟨h0, h1, _⟩ := sepOf_char m
  unfold sepByte
  by_cases hz : spaceChar m = 0
  · rw [if_neg (by simp [hz]), h0.1 hz]
    cases last <;> simp [emit, next]
  · rw [h1 hz]
    cases last with
    | true => simp [emit, next]
    | false =>
      rw [if_pos ⟨hz, rfl⟩, put_val hc, C.val_bind]
      simp [emit, next]

theorem sanLoop_step (m : SpaceMode) (cap : Nat) (out t : Bytes) (c : Byte) (last : Bool)
    (hc : out.length + t.length < cap) :
    sanLoop cap (spaceChar m) last out (c :: t) =
      sanLoop cap (spaceChar m) (next (sep m) last (step c t).1) (out ++ emit (sep m) last (step c t).1) (step c t).2 := by
  conv => lhs; rw [sanLoop.eq_def]
  cases hg : goneLen (c :: t) with
  | some k =>
    have hst : step c t = (.gone, t.drop (k - 1)) := by simp only [step, hg]
    rw [hst]
    simp [emit, next, hg]
  | none =>
    simp only [hg]
    by_cases hC : c = 0xC3 → t = []
    · have hst := step_other hg hC
      have h1 := oneByte_spec m (out := out) (cap := cap) (by omega) last c
      simp only [] at h1 ⊢
      by_cases h3 : c = 0xC3
      · have := hC h3
        subst h3 this
        rw [hst]
        simp only [if_true]
        rw [h1, C.val_bind, if_neg (by decide), if_neg (by decide), sanLoop]
      · rw [if_neg h3, h1, C.val_bind, hst]
        by_cases hp : Plain c
        · simp only [if_pos hp]
        · simp only [if_neg hp]
    · simp only [Classical.not_imp] at hC
      obtain ⟨rfl, ht⟩ := hC
      cases t with
      | nil => exact absurd rfl ht
      | cons d t =>
        simp only [List.length_cons] at hc
        have hst : ∀ w, letters d = some w → step 0xC3 (d :: t) = (.keep w, t) := by
          intro w hl; simp [step, hg, hl]
        have hst' : letters d = none → step 0xC3 (d :: t) = (.brk, t) := by
          intro hl; simp [step, hg, hl]
        simp only [if_true]
        by_cases h1 : d = 0x86 ∨ d = 0xA6
        · rw [if_pos h1, puts_val (by simp; omega), C.val_bind, hst b!"ae" (by rw [letters, if_pos h1])]
          rfl
        · by_cases h2 : d = 0x9F
          · rw [if_neg h1, if_pos h2, puts_val (by simp; omega), C.val_bind,
              hst b!"ss" (by rw [letters, if_neg h1, if_pos h2])]
            rfl
          · by_cases h3 : latin1 d ≠ 0
            · have hl : letters d = some [latin1 d] := by rw [letters, if_neg h1, if_neg h2, if_pos h3]
              have h4 := (letters_plain d _ hl).2.2 (latin1 d) (by simp)
              have h5 := oneByte_spec m (out := out) (cap := cap) (by omega) last (latin1 d)
              have h6 : ∀ x : Byte, isLower x = true → Plain x ∧ toLower x = x := forall_byte (by decide +kernel)
              rw [if_neg h1, if_neg h2, if_pos h3]
              simp only [] at h5
              rw [if_pos (h6 _ h4).1, (h6 _ h4).2] at h5
              rw [h5, C.val_bind, hst _ hl]
            · rw [if_neg h1, if_neg h2, if_neg h3, sepByte_spec m (by omega), C.val_bind,
                hst' (by rw [letters, if_neg h1, if_neg h2, if_neg h3])]

theorem sanLoop_spec (m : SpaceMode) (cap : Nat) : ∀ (n : Nat) (s out : Bytes) (last : Bool), s.length ≤ n →
    out.length + s.length ≤ cap →
    sanLoop cap (spaceChar m) last out s = .val (out ++ run (sep m) last (pieces s)) ∧
      (run (sep m) last (pieces s)).length ≤ s.length := by
  intro n
  induction n with
  | zero =>
    intro s out last hs _
    obtain rfl : s = [] := by simpa using hs
    rw [sanLoop, pieces]; simp [run]
  | succ n ih =>
    intro s out last hs hc
    cases s with
    | nil => rw [sanLoop, pieces]; simp [run]
    | cons c t =>
      simp only [List.length_cons] at hs hc
      have h1 := step_short c t
      have h2 := emit_short c t (sep m) last
      obtain ⟨h3, h4⟩ := ih (step c t).2 (out ++ emit (sep m) last (step c t).1) (next (sep m) last (step c t).1)
        (by omega) (by simp; omega)
      rw [sanLoop_step m cap out t c last (by omega), h3, pieces, run]
      exact ⟨by simp, by simp; omega⟩

theorem pieces_fine (s : Bytes) : ∀ w, .keep w ∈ pieces s →
    w ≠ [] ∧ ∀ x ∈ w, isLower x = true ∨ isDigit x = true ∨ x = 47 ∨ x = 46 := by
  generalize hn : s.length = n
  induction n using Nat.strongRecOn generalizing s with
  | ind n ih =>
    intro w hw
    cases s with
    | nil => simp [pieces] at hw
    | cons c t =>
      rw [pieces] at hw
      have := step_short c t
      rcases List.mem_cons.1 hw with h | h
      · have := step_fine c t w h.symm
        exact ⟨this.1, this.2.2⟩
      · exact ih _ (by simp only [List.length_cons] at hn; omega) _ rfl w h

theorem sep_not_word (m : SpaceMode) {x : Byte} (h : isLower x = true ∨ isDigit x = true ∨ x = 47 ∨ x = 46) :
    sep m ≠ some x := by
  cases m <;> intro hs <;> simp only [sep, Option.some.injEq, reduceCtorEq] at hs <;> subst hs <;> revert h <;> decide

/-- The page name as it is written. -/
theorem san_spec (m : SpaceMode) (cap : Nat) (page out : Bytes) (hc : out.length + page.length ≤ cap) :
    (sanLoop cap (spaceChar m) true out page >>= fun o => C.val (trimSep (spaceChar m) out.length o)) =
      .val (out ++ joined (sep m) (pieces page)) ∧ (joined (sep m) (pieces page)).length ≤ page.length := by
  obtain ⟨h1, h2⟩ := sanLoop_spec m cap page.length page out true (Nat.le_refl _) hc
  obtain ⟨h3, h4, _⟩ := sepOf_char m
  rw [h1, C.val_bind]
  by_cases hz : spaceChar m = 0
  · rw [h3.1 hz, run_none] at h2 ⊢
    exact ⟨by rw [trimSep, if_neg (by simp [hz])], h2⟩
  · rw [h4 hz] at h2 ⊢
    have hf : Fine (spaceChar m) (pieces page) := by
      intro w hw
      obtain ⟨h5, h6⟩ := pieces_fine page w hw
      have hno : ∀ x ∈ w, x ≠ spaceChar m := fun x hx h => sep_not_word m (h6 x hx) (by rw [h4 hz, h])
      exact ⟨h5, fun h => hno _ (List.mem_of_head? h) rfl, fun h => hno _ (List.mem_of_getLast? h) rfl⟩
    rw [← run_join hf]
    generalize run (some (spaceChar m)) true (pieces page) = r at *
    constructor
    · by_cases hr : r = []
      · subst hr
        rw [List.append_nil, trimSep, if_neg (by simp)]
        simp [trimEnd]
      · congr 1
        rw [trimSep, trimEnd]
        have e : (out ++ r).getLast? = r.getLast? := by
          rw [List.getLast?_append, List.getLast?_eq_some_getLast hr]; rfl
        have hpos := List.length_pos_iff.2 hr
        by_cases hl : r.getLast? = some (spaceChar m)
        · rw [if_pos ⟨hz, by simp; omega, e.trans hl⟩, if_pos hl, List.dropLast_append_of_ne_nil hr]
        · rw [if_neg (fun h => hl (e.symm.trans h.2.2)), if_neg hl]
    · unfold trimEnd
      split
      · rw [List.length_dropLast]; omega
      · exact h2

theorem basicLoop_spec (m : SpaceMode) (cap : Nat) (s : Bytes) : ∀ out, out.length + s.length ≤ cap →
    basicLoop cap m out s = .val (out ++ spaced m s) ∧ (spaced m s).length ≤ s.length := by
  induction s with
  | nil => intro out _; simp [basicLoop, spaced]
  | cons c t ih =>
    intro out hc
    simp only [List.length_cons] at hc
    have e : spaced m (c :: t) = (if c = 32 then (sep m).toList else [c]) ++ spaced m t := by
      rw [spaced, List.flatMap_cons]; rfl
    rw [basicLoop, e]
    by_cases h : c = 32
    · rw [if_pos h, if_pos h]
      by_cases hm : m = .none
      · subst hm
        rw [if_pos rfl]
        have := ih out (by omega)
        exact ⟨by rw [this.1]; simp [sep], by simp [sep]; omega⟩
      · rw [if_neg hm, put_val (by omega), C.val_bind]
        have := ih (out ++ [spaceChar m]) (by simp; omega)
        rw [this.1]
        constructor
        · cases m <;> first | exact absurd rfl hm | simp [sep, spaceChar]
        · cases m <;> first | exact absurd rfl hm | (simp [sep]; omega)
    · rw [if_neg h, if_neg h, put_val (by omega), C.val_bind]
      have := ih (out ++ [c]) (by simp; omega)
      rw [this.1]
      exact ⟨by simp, by simp; omega⟩

theorem addExt_spec (cap : Nat) (ext out : Bytes) (hc : out.length + ext.length + 1 ≤ cap) :
    addExt cap ext out = .val (out ++ extension ext) ∧ (extension ext).length ≤ ext.length + 1 := by
  cases ext with
  | nil => simp [addExt, extension]
  | cons e t =>
    rw [addExt]
    by_cases h : e = 46
    · rw [if_pos h, puts_val (by omega)]
      simp [extension, h]
    · rw [if_neg h, puts_val (by simp at hc ⊢; omega)]
      simp [extension, h]

theorem addSection_spec (cap : Nat) (sec : Option Bytes) (out : Bytes) (hc : out.length + (marked 35 sec).length < cap) :
    addSection cap sec out = .val (out ++ marked 35 sec) := by
  cases sec with
  | none => simp only [marked, List.length_nil, Nat.add_zero] at hc; simp [addSection, marked, finish_val hc]
  | some s =>
    simp only [marked] at hc
    rw [addSection, puts_val (by omega), C.val_bind, finish_val (by simpa using hc)]
    rfl

theorem secLen_eq (sec : Option Bytes) : secLen sec = (marked 35 sec).length := by
  cases sec <;> simp [secLen, marked]

theorem pageToUrl_spec (cfg : Config) (page : Bytes) (sec : Option Bytes) :
    pageToUrl cfg page sec = .val (cfg.base ++
      (if cfg.sanitize then joined (Spec.sep cfg.mode) (pieces page) else spaced cfg.mode page) ++
      extension cfg.ext ++ marked 35 sec) := by
  unfold pageToUrl
  simp only [secLen_eq]
  generalize hcap : cfg.base.length + page.length + (marked 35 sec).length + cfg.ext.length + 10 = cap
  rw [puts_val (by simp; omega), C.val_bind, List.nil_append]
  have key : ∀ mid : Bytes, mid.length ≤ page.length →
      (addExt cap cfg.ext (cfg.base ++ mid) >>= fun out => addSection cap sec out) =
        .val (cfg.base ++ mid ++ extension cfg.ext ++ marked 35 sec) := by
    intro mid hm
    obtain ⟨h1, h2⟩ := addExt_spec cap cfg.ext (cfg.base ++ mid) (by simp; omega)
    rw [h1, C.val_bind, addSection_spec _ _ _ (by simp; omega)]
  cases cfg.sanitize with
  | true =>
    obtain ⟨h1, h2⟩ := san_spec cfg.mode cap page cfg.base (by omega)
    simp only [if_true]
    rw [h1, C.val_bind, key _ h2]
  | false =>
    obtain ⟨h1, h2⟩ := basicLoop_spec cfg.mode cap page cfg.base (by omega)
    simp only [Bool.false_eq_true, if_false]
    rw [h1, C.val_bind, key _ h2]

/-! ### The content of a link -/

theorem cut_spec (c : Byte) (s : Bytes) : c ∉ (cut c s).1 ∧
    s = (cut c s).1 ++ marked c (cut c s).2 := by
  induction s with
  | nil => simp [cut, marked]
  | cons d t ih =>
    by_cases h : d = c
    · subst h; simp [cut, marked]
    · have hd : (d != c) = true := by simpa using h
      have e : cut c (d :: t) = (d :: (cut c t).1, (cut c t).2) := by
        simp only [cut, List.takeWhile_cons, List.dropWhile_cons, hd, if_true]
      rw [e]
      refine ⟨?_, ?_⟩
      · simp only [List.mem_cons, not_or]; exact ⟨fun h' => h h'.symm, ih.1⟩
      · rw [List.cons_append, ← ih.2]

theorem parse_spec (c : Bytes) : Content c (parse c).1 (parse c).2.1 (parse c).2.2 := by
  obtain ⟨h1, h2⟩ := cut_spec 124 c
  obtain ⟨h3, h4⟩ := cut_spec 35 (cut 124 c).1
  unfold parse
  simp only []
  generalize cut 35 (cut 124 c).1 = q at *
  generalize hp : cut 124 c = p at *
  have h5 : p.1 = q.1 ++ marked 35 q.2 := h4
  rw [h5] at h1
  simp only [List.mem_append, not_or] at h1
  refine ⟨by rw [← h5]; exact h2, h1.1, h3, ?_⟩
  intro s hs
  have := h1.2
  rw [hs] at this
  simp only [marked, List.mem_cons, not_or] at this
  exact this.2

/-- The first `c` splits a text. -/
theorem cut_eq {c : Byte} {a : Bytes} (ha : c ∉ a) (r : Option Bytes) :
    cut c (a ++ marked c r) = (a, r) := by
  induction a with
  | nil => cases r <;> simp [cut, marked]
  | cons d a ih =>
    simp only [List.mem_cons, not_or] at ha
    have hd : (d != c) = true := by simpa using fun h => ha.1 h.symm
    have ih := ih ha.2
    simp only [cut, Prod.mk.injEq] at ih
    simp only [cut, List.cons_append, List.takeWhile_cons, List.dropWhile_cons, hd, if_true, Prod.mk.injEq]
    exact ⟨by rw [ih.1], ih.2⟩

theorem content_unique {c page : Bytes} {display sec : Option Bytes} (h : Content c page display sec) :
    parse c = (page, display, sec) := by
  obtain ⟨h1, h2, h3, h4⟩ := h
  have ha : (124 : Byte) ∉ page ++ marked 35 sec := by
    simp only [List.mem_append, not_or]
    refine ⟨h2, ?_⟩
    cases sec with
    | none => simp [marked]
    | some s => simp only [marked, List.mem_cons, not_or]; exact ⟨by decide, h4 s rfl⟩
  have e1 := cut_eq ha display
  have e2 := cut_eq h3 sec
  unfold parse
  simp only []
  rw [h1]
  rw [e1]
  simp only [e2]

/-! ### Splitting a text -/

theorem Spec.All.append {cfg : Config} {ps qs : List Part} {ns ms : List Node} (h : All cfg ps ns) (h' : All cfg qs ms) :
    All cfg (ps ++ qs) (ns ++ ms) := by
  induction h with
  | nil => exact h'
  | cons hb _ ih => exact .cons hb ih

theorem all_textIf (cfg : Config) (s : Bytes) : All cfg (some? s) (textIf s) := by
  unfold some? textIf
  by_cases h : s = []
  · subst h; exact .nil
  · rw [if_neg h, if_pos (List.length_pos_iff.2 h)]
    exact .cons rfl .nil

theorem linkNode_spec (cfg : Config) (c : Bytes) : ∃ n, linkNode cfg c = .val n ∧ Becomes cfg (.link c) n := by
  unfold linkNode
  simp only []
  have h := pageToUrl_spec cfg (parse c).1 (parse c).2.2
  exact ⟨_, by rw [h, C.val_bind], (parse c).1, (parse c).2.1, (parse c).2.2, _, parse_spec c, h, rfl⟩

theorem scan_spec (cfg : Config) : ∀ (n : Nat) (s : Bytes), s.length ≤ n →
    ∃ ps ns, scan cfg s = .val ns ∧ Splits s ps ∧ All cfg ps ns := by
  intro n
  induction n with
  | zero =>
    intro s hs
    obtain rfl : s = [] := by simpa using hs
    refine ⟨[], [], by rw [scan]; rfl, ?_, .nil⟩
    exact .none (s := []) (by intro h; have := h.length_le; simp at this)
  | succ n ih =>
    intro s hs
    rw [scan]
    split
    · rename_i h
      exact ⟨_, _, rfl, .none (strstr_none h), all_textIf cfg s⟩
    · rename_i i h
      have h1 := strstr_some h
      have hi := strstr_le h
      simp only [List.length_cons, List.length_nil, Nat.reduceAdd] at h1 hi
      have e1 : s.drop i = b!"[[" ++ s.drop (i + 2) := by
        have := h1.1
        have h2 : s.drop i = (s.take i ++ b!"[[" ++ s.drop (i + 2)).drop i := by rw [← this]
        rw [h2, List.append_assoc, List.drop_left' (by simp; omega)]
      cases h' : strstr (s.drop (i + 2)) b!"]]" with
      | none =>
        simp only []
        refine ⟨_, _, rfl, .unclosed h1 (strstr_none h'), ?_⟩
        refine (all_textIf cfg _).append (.cons ?_ .nil)
        rw [e1]; rfl
      | some j =>
        have h2 := strstr_some h'
        have hj := strstr_le h'
        simp only [List.length_cons, List.length_nil, Nat.reduceAdd] at h2 hj
        simp only []
        obtain ⟨ps, ns, h3, h4, h5⟩ := ih (s.drop (i + 2 + j + 2)) (by simp at hi ⊢; omega)
        have e2 : (s.drop (i + 2)).drop (j + 2) = s.drop (i + 2 + j + 2) := by rw [List.drop_drop]; congr 1
        rw [e2] at h2
        by_cases h0 : j = 0
        · subst h0
          rw [if_pos rfl, h3, C.val_bind]
          have e3 : s.drop (i + 2) = b!"]]" ++ s.drop (i + 2 + 0 + 2) := by
            have := h2.1
            simpa using this
          refine ⟨_, _, rfl, .empty (pre := s.take i) (r := s.drop (i + 2 + 0 + 2)) (by rw [← e3]; exact h1) h4, ?_⟩
          refine (all_textIf cfg _).append (.cons ?_ h5)
          rw [e1, e3]
          rfl
        · rw [if_neg h0]
          obtain ⟨l, h6, h7⟩ := linkNode_spec cfg ((s.drop (i + 2)).take j)
          rw [h6, C.val_bind, h3, C.val_bind]
          refine ⟨_, _, rfl, .link h1 h2 ?_ h4, (all_textIf cfg _).append (.cons h7 h5)⟩
          intro h8
          have := congrArg List.length h8
          simp only [List.length_take, List.length_nil] at this
          omega

theorem splits_source {s : Bytes} {ps : List Part} (h : Splits s ps) : ps.flatMap Part.source = s := by
  have hs : ∀ p : Bytes, (some? p).flatMap Part.source = p := by
    intro p
    unfold some?
    split
    · rename_i h; subst h; rfl
    · simp [Part.source]
  induction h with
  | none _ => exact hs _
  | unclosed h1 _ => rw [List.flatMap_append, hs, h1.1]; simp [Part.source]
  | empty h1 _ ih => rw [List.flatMap_append, List.flatMap_cons, hs, ih, h1.1]; simp [Part.source]
  | link h1 h2 _ _ ih =>
    rw [List.flatMap_append, List.flatMap_cons, hs, ih, h1.1, h2.1]; simp [Part.source]

theorem splits_link {s : Bytes} {ps : List Part} (h : Splits s ps) : ∀ c, .link c ∈ ps →
    c ≠ [] ∧ ¬ b!"]]" <:+: c := by
  have hs : ∀ p c, Part.link c ∉ some? p := by
    intro p c
    unfold some?
    split <;> simp
  induction h with
  | none _ => intro c hc; exact absurd hc (hs _ _)
  | unclosed h1 _ =>
    intro c hc
    rcases List.mem_append.1 hc with hc | hc
    · exact absurd hc (hs _ _)
    · simp at hc
  | empty h1 _ ih =>
    intro c hc
    rcases List.mem_append.1 hc with hc | hc
    · exact absurd hc (hs _ _)
    · exact ih c (by simpa using hc)
  | link h1 h2 h3 _ ih =>
    intro c hc
    rcases List.mem_append.1 hc with hc | hc
    · exact absurd hc (hs _ _)
    · rcases List.mem_cons.1 hc with hc | hc
      · cases hc
        refine ⟨h3, ?_⟩
        rintro ⟨a, b, hab⟩
        have h4 := h2.2 a (b ++ (b!"]]" ++ _)) (by rw [h2.1, ← hab]; simp; rfl)
        have := congrArg List.length hab
        simp at this
        omega
      · exact ih c hc

theorem splits_unique {s : Bytes} {ps : List Part} (h : Splits s ps) : ∀ {ps'}, Splits s ps' → ps' = ps := by
  have inf : ∀ {pat s pre t : Bytes}, FirstOcc pat s pre t → pat <:+: s := fun h => ⟨_, _, h.1.symm⟩
  induction h with
  | none h0 =>
    intro ps' h'
    cases h' with
    | none => rfl
    | unclosed h1 => exact absurd (inf h1) h0
    | empty h1 => exact absurd (inf h1) h0
    | link h1 => exact absurd (inf h1) h0
  | unclosed h1 h2 =>
    intro ps' h'
    cases h' with
    | none h0 => exact absurd (inf h1) h0
    | unclosed h1' => obtain ⟨rfl, rfl⟩ := firstOcc_unique h1 h1'; rfl
    | empty h1' =>
      obtain ⟨rfl, rfl⟩ := firstOcc_unique h1 h1'
      exact absurd ⟨[], _, rfl⟩ h2
    | link h1' h2' =>
      obtain ⟨rfl, rfl⟩ := firstOcc_unique h1 h1'
      exact absurd (inf h2') h2
  | @empty s pre r ps h1 _ ih =>
    intro ps' h'
    cases h' with
    | none h0 => exact absurd (inf h1) h0
    | unclosed h1' h2' =>
      obtain ⟨rfl, rfl⟩ := firstOcc_unique h1 h1'
      exact absurd ⟨[], _, rfl⟩ h2'
    | empty h1' h3' =>
      obtain ⟨rfl, e⟩ := firstOcc_unique h1 h1'
      have e := List.append_cancel_left e
      subst e
      rw [ih h3']
    | link h1' h2' h3' =>
      obtain ⟨rfl, e⟩ := firstOcc_unique h1 h1'
      subst e
      have h0 : FirstOcc b!"]]" (b!"]]" ++ r) [] r := ⟨rfl, fun p q _ => Nat.zero_le _⟩
      exact absurd (firstOcc_unique h0 h2').1.symm h3'
  | link h1 h2 h3 _ ih =>
    intro ps' h'
    cases h' with
    | none h0 => exact absurd (inf h1) h0
    | unclosed h1' h2' =>
      obtain ⟨rfl, rfl⟩ := firstOcc_unique h1 h1'
      exact absurd (inf h2) h2'
    | @empty _ _ r _ h1' =>
      obtain ⟨rfl, e⟩ := firstOcc_unique h1 h1'
      subst e
      have h0 : FirstOcc b!"]]" (b!"]]" ++ r) [] r := ⟨rfl, fun p q _ => Nat.zero_le _⟩
      exact absurd (firstOcc_unique h0 h2).1.symm h3
    | link h1' h2' _ h4' =>
      obtain ⟨rfl, rfl⟩ := firstOcc_unique h1 h1'
      obtain ⟨rfl, rfl⟩ := firstOcc_unique h2 h2'
      rw [ih h4']

mutual
theorem processTree_spec (cfg : Config) : ∀ t, ∃ ts, processTree cfg t = .val ts ∧ Linked cfg t ts
  | .text s => by
    rw [processTree]
    cases h : strstr s b!"[[" with
    | none => exact ⟨_, rfl, .plain (strstr_none h)⟩
    | some i =>
      obtain ⟨ps, ns, h1, h2, h3⟩ := scan_spec cfg s.length s (Nat.le_refl _)
      simp only []
      rw [h1, C.val_bind]
      exact ⟨_, rfl, .text ⟨_, _, (strstr_some h).1.symm⟩ h2 h3⟩
  | .node k kids => by
    obtain ⟨ts, h1, h2⟩ := processKids_spec cfg kids
    rw [processTree, h1, C.val_bind]
    exact ⟨_, rfl, .node h2⟩
theorem processKids_spec (cfg : Config) : ∀ ks, ∃ ts, processKids cfg ks = .val ts ∧ LinkedAll cfg ks ts
  | [] => ⟨[], by rw [processKids], .nil⟩
  | k :: ks => by
    obtain ⟨a, h1, h2⟩ := processTree_spec cfg k
    obtain ⟨b, h3, h4⟩ := processKids_spec cfg ks
    rw [processKids, h1, C.val_bind, h3, C.val_bind]
    exact ⟨_, rfl, .cons h2 h4⟩
end

end Verif.Wiki
