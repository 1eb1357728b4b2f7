import Verif.Model.Base64
import Verif.Spec.Base64

/-! Property C14: embedded images are base64 of the file. -/

namespace Verif.Base64
open Spec

theorem val_chr (n : Nat) : val (chr n) = some (n % 64) := by
  have : ∀ m : Fin 64, val (table.getD m.val 0) = some m.val := by decide +kernel
  exact this ⟨n % 64, Nat.mod_lt _ (by omega)⟩

theorem ofNat_toNat (a : Byte) (n : Nat) (h : n = a.toNat) : UInt8.ofNat n = a := by
  subst h; simp

/-- Number of zero bytes that follow the data when the encoding is decoded. -/
def extra (i n : Nat) : Nat := if i = 0 ∧ n < 3 ∨ n % 3 = 0 then 0 else 3 - n % 3

/-- The output of the loop, without the allocation. -/
def enc (i : Nat) : Bytes → Bytes
  | [] => []
  | [a] => group (i + 1) a.toNat 0 0
  | [a, b] => group (i + 2) a.toNat b.toNat 0
  | a :: b :: c :: t => group (i + 3) a.toNat b.toNat c.toNat ++ enc (i + 3) t

theorem group_length (i a b c : Nat) : (group i a b c).length = 4 := rfl

theorem loop_val (cap i : Nat) (s out : Bytes) (h : out.length + (s.length + 2) / 3 * 4 + 1 ≤ cap) :
    loop cap i s out = .val (out ++ enc i s) := by
  fun_induction enc i s generalizing out with
  | case1 => simp at h; simp [loop, finish]; omega
  | case2 =>
    simp at h
    rw [loop, puts_val (by rw [group_length]; omega)]
    simp only
    rw [finish_val (by simp [group_length]; omega)]
  | case3 =>
    simp at h
    rw [loop, puts_val (by rw [group_length]; omega)]
    simp only
    rw [finish_val (by simp [group_length]; omega)]
  | case4 i a b c t ih =>
    simp at h
    rw [loop, puts_val (by rw [group_length]; omega)]
    simp only
    rw [ih _ (by simp [group_length]; omega), List.append_assoc]

theorem decode_group (i a b c : Nat) (h : 3 ≤ i) (ha : a < 256) (hb : b < 256) (hc : c < 256) (t : Bytes) :
    decode (group i a b c ++ t) = (decode t).map fun r => .ofNat a :: .ofNat b :: .ofNat c :: r := by
  simp only [group]
  rw [if_pos (by omega), if_pos h]
  simp only [List.cons_append, List.nil_append, decode, val_chr]
  congr 1
  funext r
  congr 1
  · congr 1; omega
  · congr 1
    · congr 1; omega
    · congr 2; omega

theorem decode_enc (i : Nat) (s : Bytes) (hi : i = 0 ∨ 3 ≤ i) :
    decode (enc i s) = some (s ++ List.replicate (extra i s.length) 0) := by
  fun_induction enc i s with
  | case1 i => simp [decode, extra]
  | case2 i a =>
    have ha := a.toNat_lt
    rcases hi with rfl | hi
    · have hq : val c!"=" = none := by decide
      simp only [group, Nat.zero_add, decode, val_chr]
      rw [if_neg (by omega), if_neg (by omega)]
      simp only [hq, and_self, if_true]
      rw [show extra 0 [a].length = 0 from rfl]
      simp only [List.replicate, List.append_nil]
      congr 2
      exact ofNat_toNat _ _ (by omega)
    · have := decode_group (i + 1) a.toNat 0 0 (by omega) ha (by omega) (by omega) []
      rw [List.append_nil] at this
      rw [this]
      have h3 : extra i 1 = 2 := by simp [extra]; omega
      simp [decode, h3, List.replicate]
  | case3 i a b =>
    have ha := a.toNat_lt
    have hb := b.toNat_lt
    rcases hi with rfl | hi
    · have hq : val c!"=" = none := by decide
      simp only [group, Nat.zero_add, decode, val_chr]
      rw [if_pos (by omega), if_neg (by omega)]
      simp only [hq, val_chr, and_self, if_true]
      rw [show extra 0 [a, b].length = 0 from rfl]
      simp only [List.replicate, List.append_nil]
      congr 2
      · exact ofNat_toNat _ _ (by omega)
      · congr 1; exact ofNat_toNat _ _ (by omega)
    · have := decode_group (i + 2) a.toNat b.toNat 0 (by omega) ha hb (by omega) []
      rw [List.append_nil] at this
      rw [this]
      have h3 : extra i 2 = 1 := by simp [extra]; omega
      simp [decode, h3]
  | case4 i a b c t ih =>
    rw [decode_group (i + 3) _ _ _ (by omega) a.toNat_lt b.toNat_lt c.toNat_lt, ih (by omega)]
    have h4 : extra (i + 3) t.length = extra i (a :: b :: c :: t).length := by
      simp [extra]; grind
    simp [h4]

/-- C14 (general fact): encoding any non-empty data stays in its allocation and decodes, by RFC 4648, to
the data followed by one or two zero bytes when the length is above 3 and no multiple of 3. -/
theorem C14_decodes (data : Bytes) (h : data ≠ []) :
    ∃ e, encode data = .val (some e) ∧
      decode e = some (data ++ List.replicate
        (if data.length < 3 ∨ data.length % 3 = 0 then 0 else 3 - data.length % 3) 0) := by
  have h1 := loop_val ((data.length + 2) / 3 * 4 + 1) 0 data [] (by simp)
  have h2 := decode_enc 0 data (Or.inl rfl)
  refine ⟨enc 0 data, ?_, by simpa [extra] using h2⟩
  unfold encode
  rw [if_neg (by simpa using h), h1]
  simp

/-- C14 (part that holds): data of at most 3 bytes, or of a length divisible by 3, is embedded exactly.
Missing: all other lengths, for which `C14_fails` shows the opposite. -/
theorem C14_base64_partial (data : Bytes) (h : data ≠ [])
    (hl : data.length ≤ 3 ∨ data.length % 3 = 0) :
    ∃ e, encode data = .val (some e) ∧ decode e = some data := by
  obtain ⟨e, h1, h2⟩ := C14_decodes data h
  rw [if_pos (by omega)] at h2
  exact ⟨e, h1, by simpa using h2⟩

/-- C14 (refutation): every other file is embedded with bytes it does not have. -/
theorem C14_fails (data : Bytes) (h1 : 3 < data.length) (h2 : data.length % 3 ≠ 0) :
    ∃ e, encode data = .val (some e) ∧ decode e ≠ some data := by
  obtain ⟨e, h3, h4⟩ := C14_decodes data (by rintro rfl; simp at h1)
  refine ⟨e, h3, ?_⟩
  rw [h4, if_neg (by omega)]
  intro h5
  have := congrArg List.length (Option.some.inj h5)
  simp at this
  omega

example : encode b!"Man" = .val (some b!"TWFu") ∧ encode b!"M" = .val (some b!"TQ==") ∧
    encode b!"Many" = .val (some b!"TWFueQAA") := by decide +kernel

end Verif.Base64
