import Verif.Model.Text
import Verif.Spec.Text

namespace Verif.Text

open Spec

theorem linesFrom_run : ∀ (x cur t : Bytes), c!"\n" ∉ x → linesFrom cur (x ++ t) = linesFrom (cur ++ x) t
  | [], cur, t, _ => by simp
  | c :: x, cur, t, h => by
    simp only [List.mem_cons, not_or] at h
    rw [List.cons_append, linesFrom, if_neg (Ne.symm h.1), linesFrom_run x _ t h.2]
    simp

theorem splitLines_line {x : Bytes} (h : c!"\n" ∉ x) (t : Bytes) : splitLines (x ++ c!"\n" :: t) = x :: splitLines t := by
  unfold splitLines
  rw [linesFrom_run x _ _ h, linesFrom, if_pos rfl]; rfl

theorem splitLines_last {x : Bytes} (h : c!"\n" ∉ x) (hx : x ≠ []) : splitLines x = [x] := by
  unfold splitLines
  have := linesFrom_run x [] [] h
  rw [List.append_nil] at this
  rw [this]; simp [linesFrom, hx]

theorem splitLines_unique {text : Bytes} {ls : List Bytes} (h : Lines text ls) : splitLines text = ls := by
  obtain ⟨hn, h⟩ := h
  rcases h with rfl | ⟨front, last, rfl, hl, rfl⟩
  · induction ls with
    | nil => rfl
    | cons l ls ih =>
      have e : ended (l :: ls) = l ++ c!"\n" :: ended ls := by simp [ended]
      rw [e, splitLines_line (hn l (by simp)), ih fun m hm => hn m (List.mem_cons_of_mem _ hm)]
  · induction front with
    | nil => simpa [ended] using splitLines_last (hn last (by simp)) hl
    | cons l ls ih =>
      have e : ended (l :: ls) ++ last = l ++ c!"\n" :: (ended ls ++ last) := by simp [ended]
      rw [e, splitLines_line (hn l (by simp)), ih fun m hm => hn m (by
        rw [List.cons_append]; exact List.mem_cons_of_mem _ hm)]
      rfl

theorem lines_cons {x t : Bytes} {ls : List Bytes} (hx : c!"\n" ∉ x) (h : Lines t ls) : Lines (x ++ c!"\n" :: t) (x :: ls) := by
  refine ⟨fun l hl => ?_, ?_⟩
  · rcases List.mem_cons.1 hl with rfl | hl
    · exact hx
    · exact h.1 l hl
  · rcases h.2 with rfl | ⟨front, last, rfl, hl, rfl⟩
    · left; simp [ended]
    · right; exact ⟨x :: front, last, rfl, hl, by simp [ended]⟩

theorem linesFrom_spec : ∀ (t cur : Bytes), c!"\n" ∉ cur → Lines (cur ++ t) (linesFrom cur t)
  | [], cur, h => by
    rw [linesFrom]
    by_cases hc : cur = []
    · rw [if_pos hc, hc]; exact ⟨by simp, .inl rfl⟩
    · rw [if_neg hc]; exact ⟨by simpa using h, .inr ⟨[], cur, rfl, hc, by simp [ended]⟩⟩
  | c :: t, cur, h => by
    rw [linesFrom]
    by_cases hc : c = c!"\n"
    · rw [if_pos hc, hc]; exact lines_cons h (linesFrom_spec t [] (by simp))
    · rw [if_neg hc]
      have := linesFrom_spec t (cur ++ [c]) (by simp [h, Ne.symm hc])
      simpa using this

theorem splitLines_spec (text : Bytes) : Lines text (splitLines text) := linesFrom_spec text [] (by simp)

theorem partsFrom_ne (d : Byte) : ∀ (t cur : Bytes), partsFrom d cur t ≠ []
  | [], cur => by simp [partsFrom]
  | c :: t, cur => by
    rw [partsFrom]; split
    · simp
    · exact partsFrom_ne d t _

theorem partsFrom_run (d : Byte) : ∀ (x cur t : Bytes), d ∉ x → partsFrom d cur (x ++ t) = partsFrom d (cur ++ x) t
  | [], cur, t, _ => by simp
  | c :: x, cur, t, h => by
    simp only [List.mem_cons, not_or] at h
    rw [List.cons_append, partsFrom, if_neg (Ne.symm h.1), partsFrom_run d x _ t h.2]
    simp

theorem split_unique {d : Byte} {line : Bytes} {ps : List Bytes} (h : Parts d line ps) : split d line = ps := by
  obtain ⟨hne, hd, rfl⟩ := h
  unfold split
  match ps, hne with
  | [x], _ =>
    have := partsFrom_run d x [] [] (hd x (by simp))
    rw [List.append_nil] at this
    rw [joined, this]; rfl
  | x :: y :: r, _ =>
    rw [joined, partsFrom_run d x _ _ (hd x (by simp)), partsFrom, if_pos rfl]
    have := split_unique (d := d) (line := joined d (y :: r)) (ps := y :: r)
      ⟨by simp, fun p hp => hd p (List.mem_cons_of_mem _ hp), rfl⟩
    unfold split at this
    rw [this]; rfl

theorem partsFrom_spec (d : Byte) : ∀ (t cur : Bytes), d ∉ cur → Parts d (cur ++ t) (partsFrom d cur t)
  | [], cur, h => ⟨by simp [partsFrom], by simpa [partsFrom] using h, by simp [partsFrom, joined]⟩
  | c :: t, cur, h => by
    rw [partsFrom]
    by_cases hc : c = d
    · rw [if_pos hc, hc]
      obtain ⟨h1, h2, h3⟩ := partsFrom_spec d t [] (by simp)
      refine ⟨by simp, ?_, ?_⟩
      · intro p hp
        rcases List.mem_cons.1 hp with rfl | hp
        · exact h
        · exact h2 p hp
      · cases hp : partsFrom d [] t with
        | nil => exact absurd hp h1
        | cons y r => rw [hp] at h3; rw [joined, ← h3]; rfl
    · rw [if_neg hc]
      have := partsFrom_spec d t (cur ++ [c]) (by simp [h, Ne.symm hc])
      simpa using this

theorem split_spec (d : Byte) (line : Bytes) : Parts d line (split d line) := partsFrom_spec d line [] (by simp)

end Verif.Text
