/- Searching for a tag in text: `<` is only the first byte of a tag. -/
import Verif.Proof.Transforms

namespace Verif.Tags
open Transforms (strstr)

/-- A tag that begins in `v` and is not in it cannot be completed by text that begins with another tag. -/
theorem no_cross {pt v z : Bytes} {d : Byte} (hd : d ∉ pt) (hv : v ≠ []) (h : ¬ (d :: pt) <+: v) : ¬ (d :: pt) <+: v ++ d :: z := by
  intro hp
  by_cases hl : (d :: pt).length ≤ v.length
  · exact h (List.prefix_of_prefix_length_le hp (List.prefix_append _ _) hl)
  · have h1 : v <+: d :: pt := List.prefix_of_prefix_length_le (List.prefix_append _ _) hp (by omega)
    obtain ⟨w, hw⟩ := h1
    cases v with
    | nil => exact hv rfl
    | cons c v =>
      simp at hw
      obtain ⟨rfl, hw⟩ := hw
      rw [← hw] at hp
      have h2 : w <+: c :: z := by
        rw [List.cons_append, List.cons_prefix_cons] at hp
        exact (List.prefix_append_right_inj v).1 hp.2
      cases w with
      | nil => simp at hw; subst hw; simp at hl
      | cons e w =>
        rw [List.cons_prefix_cons] at h2
        exact hd (by rw [← hw]; simp [h2.1])

theorem not_prefix_suffix {pat a x y : Bytes} (h : ¬ pat <:+: a) (e : a = x ++ y) : ¬ pat <+: y :=
  fun hp => h (by rw [e]; exact hp.isInfix.trans (List.suffix_append _ _).isInfix)

theorem not_prefix_suffix' {pat a x y : Bytes} (h : ¬ pat <:+: a) (e : a = x ++ y) : ¬ pat <:+: y :=
  fun hp => h (by rw [e]; exact hp.trans (List.suffix_append _ _).isInfix)

theorem strstr_first {pt a : Bytes} {d : Byte} (z : Bytes) (hd : d ∉ pt) (h : ¬ (d :: pt) <:+: a) :
    strstr (a ++ (d :: pt ++ z)) (d :: pt) = some a.length := by
  induction a with
  | nil =>
    unfold strstr
    rw [if_pos (by rw [List.isPrefixOf_iff_prefix, List.nil_append]; exact List.prefix_append _ _)]
    rfl
  | cons c a ih =>
    have h1 : ¬ (d :: pt) <:+: a := fun hi => h (hi.trans (List.suffix_cons c a).isInfix)
    have h2 : ¬ (d :: pt).isPrefixOf (c :: (a ++ (d :: pt ++ z))) = true := by
      rw [List.isPrefixOf_iff_prefix]
      exact no_cross hd (v := c :: a) (by simp) (fun hp => h hp.isInfix)
    rw [List.cons_append]
    unfold strstr
    rw [if_neg h2]
    show Option.map (· + 1) (strstr (a ++ (d :: pt ++ z)) (d :: pt)) = _
    rw [ih h1]
    rfl

theorem takeWhile_stop {d : Byte} {s z : Bytes} (h : d ∉ s) : (s ++ d :: z).takeWhile (· ≠ d) = s := by
  induction s with
  | nil => simp
  | cons c s ih =>
    have hc : c ≠ d := fun e => h (by simp [e])
    rw [List.cons_append, List.takeWhile_cons, if_pos (by simp [hc]), ih (fun hm => h (by simp [hm]))]

end Verif.Tags
