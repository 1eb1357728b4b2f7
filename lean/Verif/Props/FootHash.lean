/-
The prefix of footnote ids: C51, and how little it depends on the document, C93.
-/
import Verif.Proof.FootHash

namespace Verif.FootHash
open Spec

/-- C51, the prefix: for every document that is not empty it is eight lower-case hexadecimal digits. -/
theorem C51_hash {doc : Bytes} (h : doc ≠ []) : ∃ p, hash doc = some p ∧ p.length = 8 ∧ ∀ c ∈ p, HexDigit c := by
  unfold hash
  rw [if_neg h]
  refine ⟨_, rfl, ?_, ?_⟩
  · simp only [List.length_take, List.length_append, List.length_replicate]; omega
  · intro c hc
    have := List.mem_of_mem_take hc
    simp only [List.mem_append, List.mem_replicate] at this
    rcases this with ⟨_, rfl⟩ | h
    · exact .inl ⟨by decide, by decide⟩
    · exact hex_digits _ _ c h

/-- C51, the insertion, for HTML that does not end in the middle of a footnote attribute: however many footnotes there
are, the prefix and a hyphen are inserted behind every mark and nowhere else, and no store is out of bounds. -/
theorem C51_insert_partial {html h o : Bytes} (hi : Inserts (h ++ b!"-") html o) (hs : ∀ m, Mark m → ¬ m <:+ html) :
    addHash html h = .val o := by
  unfold addHash
  rw [loop_inserts hi _ _ _ (Nat.le_refl _) (by simp) (fun _ => by simp) hs]
  simp

/-- Every HTML text has such a result. -/
theorem C51_insert_exists (p html : Bytes) : ∃ o, Inserts p html o := inserts_exists p html

example : addHash b!"<a href=\"#fn-1\" id=\"fnref-1\">1</a>" b!"00c0ffee" =
    .val b!"<a href=\"#fn-00c0ffee-1\" id=\"fnref-00c0ffee-1\">1</a>" := by decide +kernel

/-- C51 is false without that hypothesis: 1007 ends of attributes behind ten blanks, and the terminator is written
behind the buffer, for every prefix of eight bytes. -/
theorem C51_overrun (h : Bytes) (hl : h.length = 8) :
    addHash (List.replicate 10 32 ++ (List.replicate 1007 b!"id=\"fn-").flatten) h = .ub := by
  have e : (List.replicate 10 (32 : Byte) ++ (List.replicate 1007 b!"id=\"fn-").flatten).length = 7059 := by
    rw [List.length_append, List.length_flatten, List.map_replicate, List.sum_replicate_nat]; rfl
  unfold addHash
  rw [e, hl]
  have h1 := loop_bytes (h := h) (List.replicate 10 32) 7049 (7059 + (8 + 1) * 100 + 1) []
    (List.replicate 1007 b!"id=\"fn-").flatten (by intro c hc; simp at hc; subst hc; decide) (by simp)
  rw [List.length_replicate] at h1
  obtain ⟨out', h2, h3⟩ := loop_marks (h := h) Mark.note 1007 7049 (7059 + (8 + 1) * 100 + 1) (List.replicate 10 32) (by omega)
  rw [show 7059 = 10 + 7049 from rfl, h1, List.nil_append]
  refine Eq.trans h3 ?_
  rw [hl, List.length_replicate] at h2 ⊢
  unfold finish
  rw [h2, if_neg]
  have st : ∀ k n s, iter (markCap 8 7) (k + n) s = iter (markCap 8 7) n (iter (markCap 8 7) k s) := by
    intro k n
    induction k with
    | zero => intro s; simp [iter]
    | succ k ih => intro s; rw [show k + 1 + n = (k + n) + 1 from by omega]; exact ih _
  show ¬ (iter (markCap 8 7) 1007 (7960, 10)).2 < (iter (markCap 8 7) 1007 (7960, 10)).1
  rw [show 1007 = 100 + 907 from rfl, st, show iter (markCap 8 7) 100 (7960, 10) = (7960, 1610) from by decide +kernel]
  rw [show 907 = 100 + 807 from rfl, st, show iter (markCap 8 7) 100 (7960, 1610) = (7960, 3210) from by decide +kernel]
  rw [show 807 = 100 + 707 from rfl, st, show iter (markCap 8 7) 100 (7960, 3210) = (7960, 4810) from by decide +kernel]
  rw [show 707 = 100 + 607 from rfl, st, show iter (markCap 8 7) 100 (7960, 4810) = (7960, 6410) from by decide +kernel]
  rw [show 607 = 100 + 507 from rfl, st, show iter (markCap 8 7) 100 (7960, 6410) = (16122, 8010) from by decide +kernel]
  rw [show 507 = 100 + 407 from rfl, st, show iter (markCap 8 7) 100 (16122, 8010) = (16122, 9610) from by decide +kernel]
  rw [show 407 = 100 + 307 from rfl, st, show iter (markCap 8 7) 100 (16122, 9610) = (16122, 11210) from by decide +kernel]
  rw [show 307 = 100 + 207 from rfl, st, show iter (markCap 8 7) 100 (16122, 11210) = (16122, 12810) from by decide +kernel]
  rw [show 207 = 100 + 107 from rfl, st, show iter (markCap 8 7) 100 (16122, 12810) = (16122, 14410) from by decide +kernel]
  rw [show 107 = 100 + 7 from rfl, st, show iter (markCap 8 7) 100 (16122, 14410) = (16122, 16010) from by decide +kernel]
  decide +kernel

/-- C93, for documents whose number has at most eight digits, that is for documents of up to three bytes: documents
that differ in the last byte have different prefixes. -/
theorem C93_short_partial {doc : Bytes} {a b : Byte} (h : number doc * 33 + 255 < 2 ^ 32) (hab : a ≠ b) :
    hash (doc ++ [a]) ≠ hash (doc ++ [b]) := by
  have key : ∀ c : Byte, ∃ p, hash (doc ++ [c]) = some p ∧ value p = number doc * 33 + c.toNat := by
    intro c
    have hc := c.toNat_lt
    have e : (djb2 (doc ++ [c])).toNat = number doc * 33 + c.toNat := by
      rw [djb2_number, number, List.foldl_append]
      show (33 * number doc + c.toNat) % 2 ^ 64 = _
      omega
    have hs : (hex 17 (number doc * 33 + c.toNat)).length ≤ 8 := hex_short _ _ 7 (by
      rw [show (16 : Nat) ^ (7 + 1) = 2 ^ 32 from rfl]; omega)
    refine ⟨_, by unfold hash; rw [if_neg (by simp)], ?_⟩
    rw [e, List.take_of_length_le (by simp; omega), value_zeros]
    exact value_hex 17 _ (by rw [show (16 : Nat) ^ 17 = 2 ^ 68 from rfl]; omega)
  obtain ⟨p, h1, h2⟩ := key a
  obtain ⟨q, h3, h4⟩ := key b
  rw [h1, h3]
  intro he
  cases he
  exact hab (UInt8.toNat_inj.1 (by omega))

/-- Two bytes before the last one are few enough. -/
example : number b!"ab" * 33 + 255 < 2 ^ 32 := by decide +kernel

/-- C93 is false: whenever the number of a document has sixteen digits, the prefix does not depend on the last byte
(unless there is a carry into the upper half). -/
theorem C93_collide {doc : Bytes} {a b : Byte} (h1 : 16 ^ 15 ≤ number doc * 33 % 2 ^ 64)
    (h2 : number doc * 33 % 2 ^ 64 % 2 ^ 32 + 255 < 2 ^ 32) : hash (doc ++ [a]) = hash (doc ++ [b]) := by
  have key : ∀ c : Byte, hash (doc ++ [c]) = some (hex 9 (number doc * 33 % 2 ^ 64 / 2 ^ 32)) := by
    intro c
    have hc := c.toNat_lt
    have e : (djb2 (doc ++ [c])).toNat = number doc * 33 % 2 ^ 64 + c.toNat := by
      rw [djb2_number, number, List.foldl_append]
      show (33 * number doc + c.toNat) % 2 ^ 64 = _
      have : number doc * 33 % 2 ^ 64 / 2 ^ 32 < 2 ^ 32 := Nat.div_lt_of_lt_mul (Nat.mod_lt _ (by decide))
      omega
    have hq : (number doc * 33 % 2 ^ 64 + c.toNat) / 16 ^ 8 = number doc * 33 % 2 ^ 64 / 2 ^ 32 := by
      rw [show (16 : Nat) ^ 8 = 2 ^ 32 from rfl]
      omega
    have hl : (hex 9 (number doc * 33 % 2 ^ 64 / 2 ^ 32)).length = 8 :=
      hex_length 9 _ 7 (by
        rw [show (16 : Nat) ^ (7 + 1) = 2 ^ 32 from rfl]; omega) (by
        rw [show (16 : Nat) ^ 7 = 2 ^ 28 from rfl]; rw [show (16 : Nat) ^ 15 = 2 ^ 60 from rfl] at h1; omega) (by omega)
    have ht := hex_take 8 9 (number doc * 33 % 2 ^ 64 + c.toNat) (by
      rw [show (16 : Nat) ^ 8 = 2 ^ 32 from rfl]; rw [show (16 : Nat) ^ 15 = 2 ^ 60 from rfl] at h1; omega)
    have hfull : (hex 17 (number doc * 33 % 2 ^ 64 + c.toNat)).length = 16 :=
      hex_length 17 _ 15 (by rw [show (16 : Nat) ^ (15 + 1) = 2 ^ 64 from rfl]; omega) (by omega) (by omega)
    unfold hash
    rw [if_neg (by simp), e]
    simp only []
    rw [hfull]
    rw [hq] at ht
    rw [show (17 : Nat) = 9 + 8 from rfl, ht]
    simp [hl]
  rw [key a, key b]

/-- Two such documents, which differ in the last word only. -/
theorem C93_case : hash b!"Text with a note.[^1]\n\n[^1]: See the book.\n" = hash b!"Text with a note.[^1]\n\n[^1]: See the bank.\n" := by
  decide +kernel

/-- The hypotheses hold for ordinary documents. -/
example : 16 ^ 15 ≤ number b!"Text with a note.[^1]" * 33 % 2 ^ 64 ∧
    number b!"Text with a note.[^1]" * 33 % 2 ^ 64 % 2 ^ 32 + 255 < 2 ^ 32 := by decide +kernel

end Verif.FootHash
