import Verif.Model.GrowBuf
import Verif.Proof.Buffer

/-! Property C54: the growing output buffers of the serialisers. -/

namespace Verif.GrowBuf
open Buffer Buffer.Spec

theorem write_ok (b : Buf) (t d : Bytes) (h : HoldsU b t)
    (hr : t.length + d.length + 1 ≤ b.capacity) : ∃ b', write b d = .val b' ∧ Holds b' (t ++ d) := by
  obtain ⟨d1, d2, h1, h2, h3⟩ := write_holds b t d h hr
  exact ⟨_, by simp only [write, h1, h2], h3⟩

/-- Before the first append the buffer is the NULL pointer. -/
def Inv (b : Buf) (t : Bytes) : Prop := (t = [] ∧ b = init) ∨ Holds b t

theorem append_inv (first : Nat) (b : Buf) (t d : Bytes) (h : Inv b t) :
    ∃ b', append first b d = .val b' ∧ Inv b' (t ++ d) := by
  unfold append
  by_cases hd : d.length = 0
  · simp only [hd, if_true]
    exact ⟨b, rfl, by rw [List.length_eq_zero_iff.1 hd]; simpa using h⟩
  · simp only [hd, if_false]
    have hg : HoldsU (ensure first b (b.size + d.length + 1)) t ∧
        t.length + d.length + 1 ≤ (ensure first b (b.size + d.length + 1)).capacity := by
      unfold ensure
      rcases h with ⟨rfl, rfl⟩ | h
      · rw [if_pos (by simp [init])]
        refine ⟨⟨_, by simp only [realloc, init]; rfl, by simp [init], rfl, by simp⟩, ?_⟩
        simp [init]; split <;> omega
      · have hU := h.toU
        obtain ⟨blk, h1, h2, h3, h4, h5⟩ := h
        split
        · refine ⟨realloc_holdsU b t _ hU ?_ (by omega), ?_⟩
          · simp; grind
          · simp; grind
        · exact ⟨hU, by omega⟩
    obtain ⟨b', h1, h2⟩ := write_ok _ t d hg.1 hg.2
    exact ⟨b', h1, Or.inr h2⟩

theorem run_inv (first : Nat) (ds : List Bytes) (b : Buf) (t : Bytes) (h : Inv b t) :
    ∃ b', run first b ds = .val b' ∧ Inv b' (t ++ ds.flatten) := by
  induction ds generalizing b t with
  | nil => exact ⟨b, rfl, by simpa using h⟩
  | cons d ds ih =>
    obtain ⟨b1, h1, h2⟩ := append_inv first b t d h
    obtain ⟨b2, h3, h4⟩ := ih b1 _ h2
    exact ⟨b2, by simp [run, h1, h3], by simpa using h4⟩

/-- C54 (man page, Markdown, terminal): after any history of appends the buffer is NULL if nothing was
appended, and otherwise holds exactly the concatenation, NUL-terminated inside its allocation. -/
theorem C54_serializer_buffer (first : Nat) (ds : List Bytes) :
    ∃ b, run first init ds = .val b ∧
      (ds.flatten = [] ∧ b.data = none ∨ Holds b ds.flatten) := by
  obtain ⟨b, h1, h2⟩ := run_inv first ds init [] (Or.inl ⟨rfl, rfl⟩)
  refine ⟨b, h1, ?_⟩
  rcases h2 with ⟨h2, rfl⟩ | h2
  · left; exact ⟨by simpa using h2, rfl⟩
  · right; simpa using h2

theorem jsonAppend_holds (b : Buf) (t d : Bytes) (h : Holds b t) :
    ∃ b', jsonAppend b d = some (.val b') ∧ Holds b' (t ++ d) := by
  have hg : ∃ g : Buf, jsonEnsure b d.length = some g ∧ HoldsU g t ∧
      t.length + d.length + 1 ≤ g.capacity := by
    unfold jsonEnsure
    have hU := h.toU
    obtain ⟨blk, h1, h2, h3, h4, h5⟩ := h
    split
    · exact ⟨b, rfl, hU, by omega⟩
    · obtain ⟨r, hr, hr2, hr3⟩ := growLoop_pos (b.size + d.length + 1) (b.capacity * 2) (by omega)
      simp only [hr]
      exact ⟨_, rfl, realloc_holdsU b t r hU (by omega) (by omega), by simp; omega⟩
  obtain ⟨g, hg1, hg2, hroom⟩ := hg
  obtain ⟨b', h1, h2⟩ := write_ok g t d hg2 hroom
  exact ⟨b', by simp [jsonAppend, hg1, h1], h2⟩

theorem jsonRun_holds (ds : List Bytes) (b : Buf) (t : Bytes) (h : Holds b t) :
    ∃ b', jsonRun b ds = some (.val b') ∧ Holds b' (t ++ ds.flatten) := by
  induction ds generalizing b t with
  | nil => exact ⟨b, rfl, by simpa using h⟩
  | cons d ds ih =>
    obtain ⟨b1, h1, h2⟩ := jsonAppend_holds b t d h
    obtain ⟨b2, h3, h4⟩ := ih b1 _ h2
    exact ⟨b2, by simp [jsonRun, h1, h3], by simpa using h4⟩

/-- C54 (AST JSON): after any history of appends the buffer holds exactly the concatenation; every
append returns. -/
theorem C54_json_buffer (ds : List Bytes) :
    ∃ b0 b, jsonInit = .val b0 ∧ jsonRun b0 ds = some (.val b) ∧ Holds b ds.flatten := by
  obtain ⟨b0, h0, h⟩ := init_holds 4096
  obtain ⟨b, h1, h2⟩ := jsonRun_holds ds b0 [] h
  exact ⟨b0, b, h0, h1, by simpa using h2⟩

/-- The first append allocates, a long second one outgrows doubling. -/
example : (match run 4 init [b!"ab", b!"0123456789"] with
    | .val b => (b.size, b.capacity)
    | .ub => (0, 0)) = (12, 13) := by decide +kernel

end Verif.GrowBuf
