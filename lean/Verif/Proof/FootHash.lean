import Verif.Model.FootHash
import Verif.Spec.FootHash

namespace Verif.FootHash
open Spec

theorem digit_hex {n : Nat} (h : n < 16) : HexDigit (digit n) := by
  have : ∀ m : Fin 16, (48 ≤ digit m ∧ digit m ≤ 57) ∨ (97 ≤ digit m ∧ digit m ≤ 102) := by decide +kernel
  exact this ⟨n, h⟩

theorem hex_digits : ∀ k n, ∀ c ∈ hex k n, HexDigit c
  | 0, _, c, h => by simp [hex] at h
  | k + 1, n, c, h => by
    rw [hex] at h
    split at h
    · simp at h; subst h; exact digit_hex (by assumption)
    · simp at h
      rcases h with h | rfl
      · exact hex_digits k _ c h
      · exact digit_hex (Nat.mod_lt _ (by omega))

theorem mark_iff {m : Bytes} : Mark m ↔ m ∈ marks := by
  constructor
  · intro h; cases h <;> simp [marks]
  · intro h; simp [marks] at h; rcases h with rfl | rfl | rfl | rfl <;> constructor

theorem mark_ne {m : Bytes} (h : Mark m) : m ≠ [] := by cases h <;> simp

/-- No mark is the beginning of another. -/
theorem mark_unique {m m' t : Bytes} (h : Mark m) (h' : Mark m') (hp : m' <+: m ++ t) : m' = m := by
  cases h <;> cases h' <;> (obtain ⟨r, hr⟩ := hp; first | rfl | simp at hr)

theorem find_mark {m t : Bytes} (h : Mark m) : (marks.find? fun x => x.isPrefixOf (m ++ t)) = some m := by
  rw [List.find?_eq_some_iff_append]
  refine ⟨by simp, ?_⟩
  obtain ⟨u, v, e⟩ := List.append_of_mem (mark_iff.1 h)
  refine ⟨u, v, e, fun x hx => ?_⟩
  have hm : Mark x := mark_iff.2 (by rw [e]; simp [hx])
  cases hp : x.isPrefixOf (m ++ t) with
  | false => rfl
  | true =>
    exfalso
    have := mark_unique h hm (List.isPrefixOf_iff_prefix.1 hp)
    subst this
    have nd : marks.Nodup := by decide
    rw [e] at nd
    have := List.nodup_append.1 nd
    exact this.2.2 x hx x (by simp) rfl

theorem room_lt (cap : Nat) (out : Bytes) {n extra : Nat} (h : n < extra) : out.length + n < room cap out n extra := by
  unfold room; split <;> omega

/-- The capacity after a mark. -/
def markCap (hl ml : Nat) (s : Nat × Nat) : Nat × Nat :=
  let c1 := if s.1 - s.2 ≤ ml then (s.2 + (ml + hl + 100)) * 2 else s.1
  let l := s.2 + ml
  let c2 := if c1 - l ≤ hl then (l + (hl + 100)) * 2 else c1
  (c2, l + hl + 1)

theorem writeMark_val (h : Bytes) (cap : Nat) (out m : Bytes) :
    writeMark h cap out m = .val ((markCap h.length m.length (cap, out.length)).1, out ++ m ++ (h ++ b!"-")) ∧
    (out ++ m ++ (h ++ b!"-")).length ≤ (markCap h.length m.length (cap, out.length)).1 ∧
    (out ++ m ++ (h ++ b!"-")).length = (markCap h.length m.length (cap, out.length)).2 := by
  have h1 := room_lt cap out (n := m.length) (extra := m.length + h.length + 100) (by omega)
  have h2 := room_lt (room cap out m.length (m.length + h.length + 100)) (out ++ m) (n := h.length)
    (extra := h.length + 100) (by omega)
  have e : room (room cap out m.length (m.length + h.length + 100)) (out ++ m) h.length (h.length + 100) =
      (markCap h.length m.length (cap, out.length)).1 := by
    simp [room, markCap]
  unfold writeMark
  simp only []
  rw [puts_val (by omega)]
  simp only [C.val_bind]
  rw [puts_val (by simp at h2 ⊢; omega)]
  simp only [C.val_bind]
  rw [put_val (by simp at h2 ⊢; omega)]
  simp only [C.val_bind]
  rw [e] at h2 ⊢
  refine ⟨by simp, ?_, ?_⟩
  · simp at h2 ⊢; omega
  · simp [markCap]; omega

/-- The loop writes what should be written, and where the last thing read was a byte there is room for the terminator. -/
theorem loop_inserts {h s o : Bytes} (hi : Inserts (h ++ b!"-") s o) :
    ∀ n cap out, s.length ≤ n → out.length ≤ cap → (s = [] → out.length < cap) → (∀ m, Mark m → ¬ m <:+ s) →
    loop h n cap out s = .val (out ++ o) := by
  induction hi with
  | nil =>
    intro n cap out _ _ h3 _
    have := h3 rfl
    cases n <;> simp [loop, finish_val this]
  | @mark m t o hm _ ih =>
    intro n cap out hn _ _ hs
    have hne : t ≠ [] := by
      rintro rfl
      exact hs m hm ⟨[], by simp⟩
    obtain ⟨c, r, ec⟩ : ∃ c r, m ++ t = c :: r := by
      have := mark_ne hm
      cases m with
      | nil => exact absurd rfl this
      | cons c m => exact ⟨c, m ++ t, rfl⟩
    have hf := find_mark (t := t) hm
    have hp : 0 < m.length := List.length_pos_iff.2 (mark_ne hm)
    cases n with
    | zero => rw [ec] at hn; simp at hn
    | succ n =>
      obtain ⟨h1, h2, h3⟩ := writeMark_val h cap out m
      rw [ec] at hf ⊢
      rw [loop]
      simp only [hf]
      rw [h1]
      simp only [C.val_bind]
      rw [← ec]
      have ed : (m ++ t).drop m.length = t := by simp
      rw [ed, ih n _ _ (by simp at hn; omega) h2 (fun e => absurd e hne)
        (fun m' hm' hx => hs m' hm' (List.IsSuffix.trans hx ⟨m, rfl⟩))]
      simp
  | @byte c t o hc _ ih =>
    intro n cap out hn _ _ hs
    have hf : (marks.find? fun m => m.isPrefixOf (c :: t)) = none := by
      rw [List.find?_eq_none]
      intro m hm hx
      exact hc m (mark_iff.2 hm) (List.isPrefixOf_iff_prefix.1 hx)
    cases n with
    | zero => simp at hn
    | succ n =>
      have hr := room_lt cap out (n := 9) (extra := 100) (by omega)
      rw [loop]
      simp only [hf]
      rw [put_val (by omega)]
      simp only [C.val_bind]
      rw [ih n _ _ (by simp at hn; omega) (by simp; omega) (fun _ => by simp; omega)
        (fun m' hm' hx => hs m' hm' (List.IsSuffix.trans hx ⟨[c], rfl⟩))]
      simp

theorem inserts_exists (p s : Bytes) : ∃ o, Inserts p s o := by
  have : ∀ n (s : Bytes), s.length ≤ n → ∃ o, Inserts p s o := by
    intro n
    induction n with
    | zero => intro s h; have : s = [] := List.length_eq_zero_iff.1 (by omega); subst this; exact ⟨_, .nil⟩
    | succ n ih =>
      intro s h
      by_cases hx : ∃ m t, Mark m ∧ s = m ++ t
      · obtain ⟨m, t, hm, rfl⟩ := hx
        have : 0 < m.length := List.length_pos_iff.2 (mark_ne hm)
        obtain ⟨o, ho⟩ := ih t (by simp at h; omega)
        exact ⟨_, .mark hm ho⟩
      · cases s with
        | nil => exact ⟨_, .nil⟩
        | cons c t =>
          obtain ⟨o, ho⟩ := ih t (by simp at h; omega)
          exact ⟨_, .byte (fun m hm ⟨r, hr⟩ => hx ⟨m, r, hm, hr.symm⟩) ho⟩
  exact this _ _ (Nat.le_refl _)

/-- Bytes that begin no mark. -/
theorem loop_bytes {h : Bytes} (x : Bytes) : ∀ n cap out t, (∀ c ∈ x, c ≠ c!"i" ∧ c ≠ c!"h") →
    out.length + x.length + 10 ≤ cap →
    loop h (x.length + n) cap out (x ++ t) = loop h n cap (out ++ x) t := by
  induction x with
  | nil => intro n cap out t _ _; simp
  | cons c x ih =>
    intro n cap out t hx hc
    have hf : (marks.find? fun m => m.isPrefixOf (c :: (x ++ t))) = none := by
      rw [List.find?_eq_none]
      intro m hm hp
      have := hx c (by simp)
      simp [marks] at hm
      rcases hm with rfl | rfl | rfl | rfl <;> simp at hp <;> simp [hp.1] at this
    have e : (c :: x).length + n = (x.length + n) + 1 := by simp; omega
    have er : room cap out 9 100 = cap := by
      unfold room; rw [if_neg]; simp at hc; omega
    rw [e, List.cons_append, loop]
    simp only [hf, er]
    rw [put_val (by simp at hc; omega)]
    simp only [C.val_bind]
    rw [ih n cap _ t (fun c hc => hx c (by simp [hc])) (by simp at hc ⊢; omega)]
    simp

/-- A row of marks. -/
theorem loop_marks {h m : Bytes} (hm : Mark m) : ∀ (k : Nat) (n cap : Nat) (out : Bytes), k ≤ n → 
    ∃ out', out'.length = (iter (markCap h.length m.length) k (cap, out.length)).2 ∧
      loop h n cap out (List.replicate k m).flatten =
        finish (iter (markCap h.length m.length) k (cap, out.length)).1 out' := by
  intro k
  induction k with
  | zero => intro n cap out _; exact ⟨out, rfl, by cases n <;> rfl⟩
  | succ k ih =>
    intro n cap out hn
    cases n with
    | zero => omega
    | succ n =>
      obtain ⟨h1, h2, h3⟩ := writeMark_val h cap out m
      obtain ⟨out', e1, e2⟩ := ih n (markCap h.length m.length (cap, out.length)).1 (out ++ m ++ (h ++ b!"-")) (by omega)
      refine ⟨out', ?_, ?_⟩
      · rw [e1, h3]; rfl
      · have es : (List.replicate (k + 1) m).flatten = m ++ (List.replicate k m).flatten := by
          simp [List.replicate_succ]
        obtain ⟨c, r, ec⟩ : ∃ c r, m ++ (List.replicate k m).flatten = c :: r := by
          have := mark_ne hm
          cases m with
          | nil => exact absurd rfl this
          | cons c m => exact ⟨c, _, rfl⟩
        have hf := find_mark (t := (List.replicate k m).flatten) hm
        rw [es]
        rw [ec] at hf ⊢
        rw [loop]
        simp only [hf]
        rw [h1]
        simp only [C.val_bind]
        rw [← ec]
        have ed : (m ++ (List.replicate k m).flatten).drop m.length = (List.replicate k m).flatten := by simp
        rw [ed, e2, h3]
        rfl

/-! ### The number -/

theorem djb2_number (doc : Bytes) : (djb2 doc).toNat = number doc % 2 ^ 64 := by
  have : ∀ (doc : Bytes) (h : UInt64) (n : Nat), h.toNat = n % 2 ^ 64 →
      (doc.foldl (fun (h : UInt64) c => (h <<< 5) + h + c.toUInt64) h).toNat =
        (doc.foldl (fun n c => 33 * n + c.toNat) n) % 2 ^ 64 := by
    intro doc
    induction doc with
    | nil => intro h n e; simpa using e
    | cons c doc ih =>
      intro h n e
      simp only [List.foldl_cons]
      apply ih
      simp only [UInt64.toNat_add, UInt64.toNat_shiftLeft, UInt8.toNat_toUInt64, e]
      simp only [Nat.shiftLeft_eq, show ((5 : UInt64).toNat % 64) = 5 from rfl]
      omega
  exact this doc 5381 5381 rfl

theorem hex_length : ∀ k n d, n < 16 ^ (d + 1) → 16 ^ d ≤ n → d < k → (hex k n).length = d + 1
  | 0, _, _, _, _, h => by omega
  | k + 1, n, 0, h1, h2, _ => by
    rw [hex, if_pos (by simpa using h1)]; rfl
  | k + 1, n, d + 1, h1, h2, h3 => by
    have h4 : 16 ≤ n := by
      have : 16 ^ (d + 1) = 16 ^ d * 16 := Nat.pow_succ ..
      have : 0 < 16 ^ d := Nat.pow_pos (by omega)
      omega
    have h5 : n / 16 < 16 ^ (d + 1) := by
      rw [Nat.div_lt_iff_lt_mul (by omega)]; rw [Nat.pow_succ] at h1; exact h1
    have h6 : 16 ^ d ≤ n / 16 := by
      rw [Nat.le_div_iff_mul_le (by omega)]; rw [Nat.pow_succ] at h2; exact h2
    rw [hex, if_neg (by omega), List.length_append, hex_length k _ d h5 h6 (by omega)]
    rfl

/-- The digits before the last `j` are those of the quotient. -/
theorem hex_take : ∀ j k n, 16 ^ j ≤ n → hex (k + j) n = hex k (n / 16 ^ j) ++ (hex (k + j) n).drop (hex k (n / 16 ^ j)).length
  | 0, k, n, _ => by simp
  | j + 1, k, n, h => by
    have h4 : 16 ≤ n := by
      have : 16 ^ (j + 1) = 16 ^ j * 16 := Nat.pow_succ ..
      have : 0 < 16 ^ j := Nat.pow_pos (by omega)
      omega
    have h6 : 16 ^ j ≤ n / 16 := by
      rw [Nat.le_div_iff_mul_le (by omega)]; rw [Nat.pow_succ] at h; exact h
    have ih := hex_take j k (n / 16) h6
    have ed : n / 16 / 16 ^ j = n / 16 ^ (j + 1) := by
      rw [Nat.div_div_eq_div_mul, Nat.pow_succ, Nat.mul_comm]
    rw [ed] at ih
    have e : hex (k + (j + 1)) n = hex (k + j) (n / 16) ++ [digit (n % 16)] := by
      rw [show k + (j + 1) = (k + j) + 1 from rfl, hex, if_neg (by omega)]
    rw [e]
    conv => lhs; rw [ih]
    rw [List.drop_append_of_le_length]
    · simp
    · rw [ih]; simp

/-- The value of hexadecimal digits. -/
def value (l : Bytes) : Nat := l.foldl (fun n c => 16 * n + if c < 58 then c.toNat - 48 else c.toNat - 87) 0

theorem value_digit {n : Nat} (h : n < 16) :
    (if digit n < 58 then (digit n).toNat - 48 else (digit n).toNat - 87) = n := by
  have : ∀ m : Fin 16, (if digit m < 58 then (digit m).toNat - 48 else (digit m).toNat - 87) = m := by decide +kernel
  exact this ⟨n, h⟩

theorem value_hex : ∀ k n, n < 16 ^ k → value (hex k n) = n
  | 0, n, h => by
    have : n = 0 := by simpa using h
    subst this; rfl
  | k + 1, n, h => by
    rw [hex]
    split
    · rename_i hn
      simp [value, value_digit hn]
    · have ih := value_hex k (n / 16) (by rw [Nat.div_lt_iff_lt_mul (by omega)]; rw [Nat.pow_succ] at h; exact h)
      unfold value at ih ⊢
      rw [List.foldl_append, ih, List.foldl_cons, List.foldl_nil, value_digit (Nat.mod_lt _ (by omega))]
      omega

theorem value_zeros (l : Bytes) : ∀ k, value (List.replicate k c!"0" ++ l) = value l
  | 0 => rfl
  | k + 1 => by
    have := value_zeros l k
    unfold value at this ⊢
    rw [List.replicate_succ, List.cons_append, List.foldl_cons]
    exact this

theorem hex_short : ∀ k n d, n < 16 ^ (d + 1) → (hex k n).length ≤ d + 1
  | 0, _, _, _ => by simp [hex]
  | k + 1, n, 0, h => by rw [hex, if_pos (by simpa using h)]; simp
  | k + 1, n, d + 1, h => by
    rw [hex]
    split
    · simp
    · have := hex_short k (n / 16) d (by
        rw [Nat.div_lt_iff_lt_mul (by omega)]; rw [Nat.pow_succ] at h; exact h)
      simp; omega

end Verif.FootHash
