import Verif.Proof.Utf8

/-! Properties C01, C02, C03: UTF-8 validation (src/utf8.c). -/

namespace Verif.Utf8
open Spec

/-- C01: `apex_utf8_validate` never reads outside the array and answers `true` exactly for text that
can be cut into complete lead/continuation sequences. -/
theorem C01_validate_exact (s : Bytes) :
    ∃ b, validate s = .val b ∧ (b = true ↔ Structured s) := by
  simpa [validate] using validateFrom_spec s 0 (by omega)

/-- "é€" is accepted, a cut "€" is rejected. -/
example : validate b!"é€" = .val true := by decide +kernel
example : validate [0xE2, 0x82] = .val false := by decide +kernel
example : Structured [0xC3, 0xA9] := ⟨[[0xC3, 0xA9]], by
  intro q hq; simp at hq; subst hq; exact .two _ _ (by decide) (by decide) ⟨by decide, by decide⟩, rfl⟩

/-- C01, second half of the interface: `apex_utf8_is_valid_start` holds for exactly the bytes for
which `apex_utf8_char_length` reports a length. -/
theorem C01_valid_start (c : Byte) : isValidStart c = true ↔ charLength c ≠ 0 :=
  isValidStart_iff c

/-- C02: after an accepted fragment, the whole text is accepted exactly when the rest is. -/
theorem C02_validate_append (a b : Bytes) (ha : validate a = .val true) :
    validate (a ++ b) = .val true ↔ validate b = .val true := by
  have key : ∀ s, validate s = .val true ↔ Structured s := by
    intro s
    obtain ⟨v, hv, h⟩ := C01_validate_exact s
    rw [hv]; rw [← h]; simp
  rw [key] at ha
  rw [key, key]
  exact ⟨fun h => ha.cancel h, fun h => ha.append h⟩

example : validate b!"é" = .val true := by decide +kernel

/-- C03 (the half that holds): every RFC 3629 well-formed text is accepted. Missing: the converse,
which is refuted below. -/
theorem C03_wellformed_accepted_partial (s : Bytes) (h : WellFormed s) : validate s = .val true := by
  obtain ⟨ns, hn, rfl⟩ := h
  obtain ⟨v, hv, hiff⟩ := C01_validate_exact (ns.map encode).flatten
  rw [hv, hiff.2 ⟨ns.map encode, ?_, rfl⟩]
  intro q hq
  obtain ⟨n, hm, rfl⟩ := List.mem_map.1 hq
  exact seq_encode n (hn n hm)

example : WellFormed b!"é€😀" := ⟨[0xE9, 0x20AC, 0x1F600], by simp [Scalar], by decide +kernel⟩

/-- C03 (refutation of the converse): the overlong encoding C0 80 is accepted although it is not
well-formed UTF-8. -/
theorem C03_overlong_accepted : validate [0xC0, 0x80] = .val true ∧ ¬ WellFormed [0xC0, 0x80] := by
  refine ⟨by decide +kernel, ?_⟩
  rintro ⟨ns, hn, he⟩
  match ns, hn, he with
  | [], _, he => simp at he
  | n :: ns, hn, he =>
    simp at he
    match h : encode n, he with
    | [], _ => exact encode_ne_nil n h
    | c :: t, he =>
      simp at he
      rw [← he.1] at h
      exact encode_head_ne n t (hn n (by simp)) h

end Verif.Utf8
