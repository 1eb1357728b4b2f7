/- Lemmas about code in man pages. -/
import Verif.Model.Man
import Verif.Spec.Man
import Verif.Spec.ManCode
import Verif.Proof.Man

namespace Verif.Man
open Spec

theorem squeeze_cons_ne (c : Byte) (t : Bytes) (h : c ≠ 10) : squeeze (c :: t) = c :: squeeze t := by
  cases t with
  | nil => rfl
  | cons d t => rw [squeeze, if_neg (fun hh => h hh.1)]

theorem squeeze_nl (t : Bytes) : squeeze (10 :: t) = 10 :: squeeze (t.dropWhile (· == 10)) := by
  induction t with
  | nil => rfl
  | cons d t ih =>
    by_cases hd : d = 10
    · subst hd; rw [squeeze, if_pos ⟨rfl, rfl⟩, ih]; simp
    · rw [squeeze, if_neg (fun hh => hd hh.2)]; simp [hd]

theorem squeeze_run (x r : Bytes) (h : (10 : Byte) ∉ x) : squeeze (x ++ r) = x ++ squeeze r := by
  induction x with
  | nil => rfl
  | cons c x ih =>
    simp at h
    rw [List.cons_append, squeeze_cons_ne _ _ (fun hh => h.1 hh.symm), ih h.2, List.cons_append]

theorem squeeze_id (s : Bytes) (h : NoEmptyLine s) : squeeze s = s := by
  fun_induction squeeze s with
  | case1 => rfl
  | case2 => rfl
  | case3 c d t hc => exact absurd ⟨[], t, by simp [hc.1, hc.2]⟩ h
  | case4 c d t hc ih => rw [ih (fun hh => h (hh.trans ⟨[c], [], by simp⟩))]

theorem squeeze_length (s : Bytes) : (squeeze s).length ≤ s.length := by
  fun_induction squeeze s with
  | case1 => simp
  | case2 => simp
  | case3 c d t hc ih => simp at ih ⊢; omega
  | case4 c d t hc ih => simp at ih ⊢; omega

theorem squeeze_empty_line (s t : Bytes) : squeeze (s ++ b!"\n\n" ++ t) = squeeze (s ++ b!"\n" ++ t) := by
  induction s with
  | nil => simp [squeeze]
  | cons c s ih =>
    cases s with
    | nil => simp [squeeze] at ih ⊢
    | cons d s => simp only [List.cons_append, squeeze] at ih ⊢; rw [ih]

theorem dash_nl (last : Byte) (x r : Bytes) (a : Byte) :
    dash a last (x ++ 10 :: r) = dash 10 last x := by
  match x with
  | [] => cases r <;> simp [dash]
  | [b] => simp [dash]
  | b :: c :: t => simp [dash]

theorem roffLoop_nl (a : Byte) (st : Bool) (x r : Bytes) (h : (10 : Byte) ∉ x) :
    roffLoop a st (x ++ 10 :: r) = roffLoop 10 st x ++ 10 :: roffLoop a true r := by
  fun_induction roffLoop 10 st x with
  | case1 => simp [roffLoop]
  | case2 st t ih => simp at h; rw [List.cons_append, roffLoop, if_pos rfl, ih h]; simp
  | case3 st t _ ih => simp at h
  | case4 st c t hc1 hc2 hc ih =>
    simp at h
    rw [List.cons_append, roffLoop, if_neg hc1, if_neg hc2, if_pos hc, ih h.2]; simp
  | case5 st t hc1 hc2 hc ih =>
    simp at h
    rw [List.cons_append, roffLoop, if_neg hc1, if_neg hc2, if_neg hc, if_pos rfl, ih h]; simp
  | case6 st c t hc1 hc2 hc3 hc4 hc ih =>
    simp at h
    rw [List.cons_append, roffLoop, if_neg hc1, if_neg hc2, if_neg hc3, if_neg hc4,
      dash_nl, if_pos hc]
    match t, hc, h, ih with
    | [], hc, _, _ => simp [dash] at hc
    | [b], hc, _, _ => simp [dash] at hc
    | b :: d :: t, hc, h, ih => simp at h ih ⊢; exact ih h.2.2.2
  | case7 st c t hc1 hc2 hc3 hc4 hc5 hc ih =>
    simp at h
    rw [List.cons_append, roffLoop, if_neg hc1, if_neg hc2, if_neg hc3, if_neg hc4,
      dash_nl, if_neg hc5, dash_nl, if_pos hc]
    match t, hc, h, ih with
    | [], hc, _, _ => simp [dash] at hc
    | [b], hc, _, _ => simp [dash] at hc
    | b :: d :: t, hc, h, ih => simp at h ih ⊢; exact ih h.2.2.2
  | case8 st c t hc1 hc2 hc3 hc4 hc5 hc6 ih =>
    simp at h
    rw [List.cons_append, roffLoop, if_neg hc1, if_neg hc2, if_neg hc3, if_neg hc4,
      dash_nl, if_neg hc5, dash_nl, if_neg hc6, ih h.2]
    simp

theorem roffLoop_first_nl (a : Byte) (st : Bool) (r : Bytes) :
    roffLoop a st (10 :: r) = 10 :: roffLoop a true r := by
  rw [roffLoop, if_neg (by decide), if_pos rfl]

theorem takeWhile_no_nl (t : Bytes) : (10 : Byte) ∉ t.takeWhile (· != 10) := by
  induction t with
  | nil => simp
  | cons c t ih => by_cases h : c = 10 <;> simp [h, Ne.symm, ih]

theorem atLineStart_nl (out : Bytes) : atLineStart (out ++ [10]) = true := by simp [atLineStart]

/-- The loop writes the code without its empty lines, escaped as any text. -/
theorem codeLoop_eq (out lit : Bytes) : codeLoop out lit = roffSafe 0 out (squeeze lit) := by
  fun_induction codeLoop out lit with
  | case1 => simp [roffSafe, squeeze, roffLoop]
  | case2 out t ih =>
    rw [ih, squeeze_nl, roffSafe, roffSafe, roffLoop, if_neg (by decide), if_pos rfl, atLineStart_nl]
    simp
  | case3 out c t hc run rest ih =>
    have hn : (10 : Byte) ∉ run := by
      simp only [run, List.mem_cons, not_or]; exact ⟨fun hh => hc hh.symm, takeWhile_no_nl t⟩
    have hct : c :: t = run ++ rest := by simp [run, rest, List.takeWhile_append_dropWhile]
    rw [ih, hct, squeeze_run _ _ hn]
    rcases hr : rest with _ | ⟨d, r⟩
    · simp [squeeze, roffSafe, roffLoop]
    · have hd : d = 10 := by
        have := List.head?_dropWhile_not (· != 10) t
        have h2 : t.dropWhile (· != 10) = d :: r := hr
        rw [h2] at this; simpa using this
      subst hd
      rw [squeeze_nl]
      simp only [roffSafe, List.headD_cons]
      rw [roffLoop_nl _ _ _ _ hn, roffLoop_first_nl]
      simp

end Verif.Man
