/- C274: the result is written. -/
import Verif.Proof.Finish
import Verif.Props.Wrap

namespace Verif.Finish

/-- What the sink takes of a text. -/
def Room (s : Sink) (text : Bytes) : Prop := ∀ n ∈ s.room, text.length ≤ n

theorem fwrite_room {s : Sink} {text : Bytes} (h : Room s text) : fwrite s text = text := by
  unfold fwrite
  split
  · rename_i n hn
    exact List.take_of_length_le (h n hn)
  · rfl

/-- C274, for a sink with room: all of the result is written as it is, and the status is 0, for formats other than those for the terminal and where no width is given. -/
theorem C274_partial (html : Bytes) (f : Format) (w tw : Int) (file : Bool) (s : Sink) (hs : Room s html) (ho : file = true → s.opens = true)
    (hf : f = .other ∨ Width w tw none) : finish (some html) f w tw file s = .val ⟨0, html, false⟩ := by
  unfold finish
  simp only
  rw [final_same html hf, C.bind, fwrite_room hs]
  cases file with
  | false => rfl
  | true => rw [ho rfl]; rfl

/-- C274: for the terminal the result is wrapped to the width of the command line, or else to that of the metadata: it holds what was there, with no line wider than that. -/
theorem C274_width_partial (html : Bytes) (f : Format) (w tw : Int) (file : Bool) (n : Nat) (room : Option Nat) (hf : f = .terminal ∨ f = .terminal256) (hw : Width w tw (some n)) :
    ∃ ts us, Wrap.Spec.Tokens html ts ∧ Wrap.Spec.Tokens (Wrap.Spec.flat us) us ∧ Wrap.Spec.Added ts us ∧ Wrap.Spec.Narrow n us ∧
      (Room ⟨true, room⟩ (Wrap.Spec.flat us) → finish (some html) f w tw file ⟨true, room⟩ = .val ⟨0, Wrap.Spec.flat us, false⟩) := by
  obtain ⟨ts, us, h1, h2, h3, -, h5, h6⟩ := Wrap.C169_wrap_partial html n ((effective_width hw).2 n rfl)
  refine ⟨ts, us, h1, h3, h5, h6, ?_⟩
  intro hr
  unfold finish
  simp only
  rw [final_width html hf hw, h2, C.bind, fwrite_room hr]
  cases file <;> rfl

/-- C274: the width is always clear. -/
theorem C274_width (w tw : Int) : ∃ o, Width w tw o ∧ ∀ p, Width w tw p → p = o := by
  obtain ⟨o, ho⟩ := width_total w tw
  refine ⟨o, ho, ?_⟩
  intro p hp
  obtain ⟨h1, h2⟩ := effective_width ho
  obtain ⟨h3, h4⟩ := effective_width hp
  have he : p.getD 0 = o.getD 0 := by rw [h1] at h3; exact (Int.ofNat_inj.mp h3).symm
  cases o with
  | none =>
    cases p with
    | none => rfl
    | some a => have := h4 a rfl; simp at he; omega
  | some b =>
    have := h2 b rfl
    cases p with
    | none => simp at he; omega
    | some a => simp at he; rw [he]

/-- C274: a file that cannot be opened is an error, and so is a conversion that fails. -/
theorem C274_error (html : Bytes) (f : Format) (w tw : Int) (file : Bool) (room : Option Nat) (s : Sink) :
    finish (some html) f w tw true ⟨false, room⟩ = .val ⟨1, [], true⟩ ∧ finish none f w tw file s = .val ⟨1, [], true⟩ := by
  refine ⟨?_, rfl⟩
  unfold finish
  simp only
  obtain ⟨o, ho⟩ := width_total w tw
  have hv : ∃ t, final f w tw html = .val t := by
    cases o with
    | none => exact ⟨_, final_same html (.inr ho)⟩
    | some n =>
      cases f with
      | other => exact ⟨_, final_same html (.inl rfl)⟩
      | terminal =>
        obtain ⟨ts, us, -, h2, -⟩ := Wrap.C169_wrap_partial html n ((effective_width ho).2 n rfl)
        exact ⟨_, (final_width html (.inl rfl) ho).trans h2⟩
      | terminal256 =>
        obtain ⟨ts, us, -, h2, -⟩ := Wrap.C169_wrap_partial html n ((effective_width ho).2 n rfl)
        exact ⟨_, (final_width html (.inr rfl) ho).trans h2⟩
  obtain ⟨t, ht⟩ := hv
  rw [ht]
  rfl

/-- C274, refuted: with a status of 0 all was written.  Whenever there is less room than the result needs, part of it is missing, no error is reported and the status is 0. -/
theorem C274_full_fails (html : Bytes) (w tw : Int) (file : Bool) (n : Nat) (h : n < html.length) :
    finish (some html) .other w tw file ⟨true, some n⟩ = .val ⟨0, html.take n, false⟩ ∧ html.take n ≠ html := by
  refine ⟨?_, ?_⟩
  · unfold finish
    simp only
    rw [final_same html (.inl rfl), C.bind]
    cases file <;> rfl
  · intro he
    have := congrArg List.length he
    rw [List.length_take] at this
    omega

/-- C274: a case. -/
theorem C274_case : finish (some b!"one two\n") .terminal (-3) 4 true ⟨true, some 100⟩ = .val ⟨0, b!"one \ntwo\n", false⟩ ∧ Width (-3) 4 (some 4) ∧
    finish (some b!"<p>a</p>\n") .other 2 0 false ⟨true, none⟩ = .val ⟨0, b!"<p>a</p>\n", false⟩ :=
  ⟨by decide +kernel, .metadata 4 (by decide) rfl (by decide), by decide +kernel⟩

end Verif.Finish
