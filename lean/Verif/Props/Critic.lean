/-
C42 (accepting and rejecting critic markup) and C75 (showing it).
-/
import Verif.Proof.Critic

namespace Verif.Critic

open Spec

/-- Every text is read in exactly one way. -/
theorem C42_read (text : Bytes) :
    ∃ d, Spec.Proper d ∧ source d = text ∧ ∀ d', Spec.Proper d' → source d' = text → d' = d := by
  obtain ⟨d, hd, hs, _⟩ := tokens_spec .accept text.length text (Nat.le_refl _)
  exact ⟨d, hd, hs, fun d' hd' hs' => proper_unique hd' hd (hs'.trans hs.symm)⟩

/-- **C42**, accept mode, partial: the result is the text after all changes.  What is missing: the empty text,
see `C42_empty`. -/
theorem C42_accept_partial (d : List Seg) (hd : Spec.Proper d) (hne : d ≠ []) :
    process .accept (source d) = .val (d.flatMap Seg.accepted) := by
  refine process_fits .accept _ d hd rfl ?_
  have h1 : (d.flatMap Seg.accepted).length ≤ (source d).length := flatMap_le accepted_le d
  have h2 : 0 < (source d).length := by
    cases d with
    | nil => exact absurd rfl hne
    | cons e d => have := source_pos e; simp [source]; omega
  show (d.flatMap Seg.accepted).length < _
  omega

/-- **C42**, reject mode, partial: the result is the text before all changes.  What is missing: the empty text. -/
theorem C42_reject_partial (d : List Seg) (hd : Spec.Proper d) (hne : d ≠ []) :
    process .reject (source d) = .val (d.flatMap Seg.rejected) := by
  refine process_fits .reject _ d hd rfl ?_
  have h1 : (d.flatMap Seg.rejected).length ≤ (source d).length := flatMap_le rejected_le d
  have h2 : 0 < (source d).length := by
    cases d with
    | nil => exact absurd rfl hne
    | cons e d => have := source_pos e; simp [source]; omega
  show (d.flatMap Seg.rejected).length < _
  omega

/-- **C42 is false as stated** for the empty text, whose terminator does not fit the buffer of no bytes. -/
theorem C42_empty (mode : Mode) : process mode [] = .ub := by cases mode <;> decide +kernel

/-- A document with every kind of edit, and a brace that opens none. -/
example : Spec.Proper [.insert b!"a", .delete b!"b", .replace b!"c" b!"d", .fresh b!"e", .highlight b!"f", .comment b!"g",
    .plain c!"{", .plain c!"x"] := by
  refine ⟨?_, ?_, ?_, ?_, ?_, ?_, ?_, ?_, trivial⟩
  · simp only [Seg.Proper, Free]; decide
  · simp only [Seg.Proper, Free]; decide
  · simp only [Seg.Proper, Free]; decide
  · simp only [Seg.Proper, Free]; decide
  · simp only [Seg.Proper, Free]; decide
  · simp only [Seg.Proper, Free]; decide
  · exact scan_none_iff.1 (by decide +kernel)
  · exact scan_none_iff.1 (by decide +kernel)

example : process .accept b!"a {++b++} {--c--} {~~d~>e~~} {==f==}{>>g<<} {x" = .val b!"a b  e f {x" := by decide +kernel
example : process .reject b!"a {++b++} {--c--} {~~d~>e~~} {==f==}{>>g<<} {x" = .val b!"a  c d f {x" := by decide +kernel

/-! ### C75 -/

/-- **C75**, partial: the changes are shown as HTML when the result is shorter than twice the text.  What is
missing: otherwise edits are left out, see `C75_lost`. -/
theorem C75_shown_partial (d : List Seg) (hd : Spec.Proper d)
    (hfit : (d.flatMap Seg.shown).length < (source d).length * 2) :
    process .markup (source d) = .val (d.flatMap Seg.shown) :=
  process_fits .markup _ d hd rfl hfit

/-- A document whose changes are shown: it is long enough. -/
example : ([Seg.insert b!"new words in a long sentence"].flatMap Seg.shown).length <
    (source [.insert b!"new words in a long sentence"]).length * 2 := by decide +kernel

/-- **C75 is false as stated**: both the added and the deleted word are gone. -/
theorem C75_lost :
    process .markup b!"{++new++}" = .val [] ∧ process .markup b!"{--old--}" = .val [] := by decide +kernel

/-- … and not only in short texts: added letters are lost however many there are. -/
theorem C75_lost_long (n : Nat) (d : List Seg) (hd : d = List.replicate (n + 1) (.insert b!"a")) :
    process .markup (source d) ≠ .val (d.flatMap Seg.shown) := by
  subst hd
  intro h
  obtain ⟨d', hd', hs', ht⟩ := tokens_spec .markup _ (source (List.replicate (n + 1) (.insert b!"a"))) (Nat.le_refl _)
  have hr : ∀ t ∈ tokens .markup (source (List.replicate (n + 1) (.insert b!"a"))).length
      (source (List.replicate (n + 1) (.insert b!"a"))), ∀ n e, t ≠ .reserve n e := by
    rw [ht]
    intro t h n e' hx
    rw [List.mem_map] at h
    obtain ⟨e, _, rfl⟩ := h
    cases e <;> simp [tok] at hx
  have h2 := (DropBuf.fold_length (cap := (source (List.replicate (n + 1) (.insert b!"a"))).length * 2) _ [] hr (by simp)).2
  unfold process DropBuf.run at h
  simp only [finish] at h
  split at h
  · simp only [C.val.injEq] at h
    rw [h] at h2
    have e1 : ∀ m, (source (List.replicate m (.insert b!"a"))).length = 7 * m := by
      intro m
      induction m with
      | zero => rfl
      | succ m ih => rw [List.replicate_succ, source, List.flatMap_cons, List.length_append]; rw [source] at ih; rw [ih]; simp [Seg.source]; omega
    have e2 : ∀ m, ((List.replicate m (.insert b!"a")).flatMap Seg.shown).length = 27 * m := by
      intro m
      induction m with
      | zero => rfl
      | succ m ih => rw [List.replicate_succ, List.flatMap_cons, List.length_append, ih]; simp [Seg.shown]; omega
    rw [e1, e2] at h2
    omega
  · simp at h

end Verif.Critic
