import Verif.Proof.Buffer

/-! Properties C04, C05: the dynamic buffer (src/buffer.c). -/

namespace Verif.Buffer
open Spec

/-- C04: every history of calls on a freshly initialised buffer returns, touches no memory outside
its allocation, and leaves the buffer holding exactly the concatenation of what was appended since
the last clear, followed by a NUL. -/
theorem C04_history (cap : Nat) (ops : List Op) :
    ∃ b, session cap ops = some (.val b) ∧ Holds b (text [] ops) := by
  obtain ⟨b, h1, h2⟩ := init_holds cap
  obtain ⟨b', h3, h4⟩ := run_holds ops b [] h2
  exact ⟨b', by simp [session, h1, h3], h4⟩

/-- Growth happens in this history: 1 byte of capacity, then "ab", then "c". -/
example : text [] [.append b!"ab", .clear, .appendStr b!"ab", .appendChar c!"c"] = b!"abc" := by
  decide
example : (session 1 [.append b!"ab", .appendChar c!"c"]).map
    (fun r => match r with | .val b => b.capacity | .ub => 0) = some 4 := by decide +kernel

/-- C05 (part that holds): detaching hands over exactly the accumulated text, leaves an empty buffer,
and empty appends on it return. Missing: appending anything, see `C05_append_after_detach_hangs`. -/
theorem C05_detach_partial (cap : Nat) (ops : List Op) :
    ∃ b blk, session cap ops = some (.val b) ∧ (detach b).1 = some blk ∧
      blk.take ((text [] ops).length + 1) = (text [] ops).map some ++ [some 0] ∧
      (detach b).2 = { data := none, size := 0, capacity := 0 } ∧
      append (detach b).2 [] = some (.val (detach b).2) := by
  obtain ⟨b, h, blk, h1, _, _, h4, _⟩ := C04_history cap ops
  exact ⟨b, blk, h, h1, h4, rfl, rfl⟩

/-- C05 (refutation): appending anything to a detached buffer never returns, because the growth loop
doubles a capacity of zero for ever. -/
theorem C05_append_after_detach_hangs (b : Buf) (d : Bytes) (hd : d ≠ []) :
    append (detach b).2 d = none ∧
      ∀ n, growIter (detach b).2.capacity n < (detach b).2.size + d.length + 1 := by
  have h0 : ∀ n, growIter 0 n = 0 := by
    intro n
    induction n with
    | zero => rfl
    | succ n ih => simp [growIter, ih]
  refine ⟨?_, fun n => by simp [detach, h0]⟩
  have hg : growLoop (0 + d.length + 1) 0 = none := (growLoop_none _ _).2 (fun n => by rw [h0]; omega)
  simp [append, detach, ensure, grow, hd] at hg ⊢
  simp [hg]

/-- The same holds after `apex_buffer_free`. -/
theorem C05_append_after_free_hangs (b : Buf) (h : b.data ≠ none) (d : Bytes) (hd : d ≠ []) :
    append (free b) d = none := by
  have : free b = (detach b).2 := by
    unfold free detach
    cases hb : b.data with
    | none => exact absurd hb h
    | some _ => rfl
  rw [this]
  exact (C05_append_after_detach_hangs b d hd).1

example : (session 8 [.append b!"hi"]).map
    (fun r => match r with | .val b => append (detach b).2 b!"x" | .ub => none) = some none := by
  decide +kernel

end Verif.Buffer
