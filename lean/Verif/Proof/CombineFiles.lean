import Verif.Spec.CombineFiles
import Verif.Proof.Merge
import Verif.Props.Merge

namespace Verif.CombineFiles
open Spec Merge.Spec
open Text.Spec (Lines)

theorem slash_free {n : Bytes} (h : n.map toLower = b!"summary.md") : c!"/" ∉ n := by
  intro hm
  have := List.mem_map_of_mem (f := toLower) hm
  rw [h] at this
  revert this
  decide

theorem back_slash {d x : Bytes} (hd : d = [] ∨ d.getLast? = some c!"/") (hx : c!"/" ∉ x) : ((d ++ x).reverse.takeWhile (· != c!"/")).reverse = x := by
  rw [List.reverse_append]
  have h1 : ∀ c ∈ x.reverse, (c != c!"/") = true := by
    intro c hc
    have : c ≠ c!"/" := fun e => hx (by rw [← e]; exact List.mem_reverse.mp hc)
    simpa using this
  rw [List.takeWhile_append_of_pos h1]
  have h2 : d.reverse.takeWhile (· != c!"/") = [] := by
    rcases hd with rfl | hd
    · rfl
    · obtain ⟨e, rfl⟩ := List.getLast?_eq_some_iff.mp hd
      rw [List.reverse_append]
      rfl
  rw [h2, List.append_nil, List.reverse_reverse]

theorem summary_iff (p : Bytes) : isSummary p = true ↔ Summary p := by
  unfold isSummary
  rw [beq_iff_eq]
  constructor
  · intro h
    obtain ⟨z, e, hz, ht⟩ := Merge.trimEnd_split (· == c!"/") p
    unfold basename at h
    simp only at h
    generalize Merge.trimEnd (· == c!"/") p = t at *
    split at h
    · split at h
      · exact absurd h (by decide)
      · exact absurd h (by decide)
    · have hsplit := List.takeWhile_append_dropWhile (p := (· != c!"/")) (l := t.reverse)
      have he : t = (t.reverse.dropWhile (· != c!"/")).reverse ++ (t.reverse.takeWhile (· != c!"/")).reverse := by
        rw [← List.reverse_append, hsplit, List.reverse_reverse]
      refine ⟨(t.reverse.dropWhile (· != c!"/")).reverse, _, z, by rw [← he, ← e], ?_, h, fun c hc => by simpa using hz c hc⟩
      rw [List.getLast?_reverse]
      cases hd : t.reverse.dropWhile (· != c!"/") with
      | nil => exact .inl rfl
      | cons c r =>
        right
        have := List.head?_dropWhile_not (· != c!"/") t.reverse
        rw [hd] at this
        simp only [List.head?_cons] at this ⊢
        have : c = c!"/" := by simpa using this
        rw [this]
  · rintro ⟨d, n, z, rfl, hd, hn, hz⟩
    have hf := slash_free hn
    have hne : n ≠ [] := by rintro rfl; revert hn; decide
    have ht : Merge.trimEnd (· == c!"/") (d ++ n ++ z) = d ++ n := by
      rw [Merge.trimEnd_tail (fun c hc => by simp [hz c hc])]
      obtain ⟨m, c, rfl⟩ : ∃ m c, n = m ++ [c] := by
        rcases List.eq_nil_or_concat n with e | ⟨m, c, e⟩
        · exact absurd e hne
        · exact ⟨m, c, by rw [e, List.concat_eq_append]⟩
      rw [← List.append_assoc, Merge.trimEnd_last]
      have : c ≠ c!"/" := fun e => hf (by simp [e])
      simpa using this
    unfold basename
    simp only [ht]
    rw [if_neg (by simp [hne]), back_slash hd hf]
    exact hn

theorem between_cons (c : Bytes) (ts : List Bytes) : between (c :: ts) = c ++ (if ts = [] then [] else b!"\n\n" ++ between ts) := by
  cases ts with
  | nil => simp [between]
  | cons t ts => simp [between]

theorem between_append : ∀ (us ts : List Bytes), us ≠ [] → between (us ++ ts) = between us ++ (if ts = [] then [] else b!"\n\n" ++ between ts)
  | [], _, h => absurd rfl h
  | [u], ts, _ => by rw [List.singleton_append, between_cons]; rfl
  | u :: v :: us, ts, _ => by
    have := between_append (v :: us) ts (by simp)
    rw [List.cons_append, between_cons, if_neg (List.append_ne_nil_of_left_ne_nil (by simp) _), this, between_cons u (v :: us), if_neg (List.cons_ne_nil _ _)]
    simp only [List.append_assoc]

theorem plain_go {read file : Bytes → Option Bytes} {dir : Bytes → Bytes} {ps ts : List Bytes} (h : All read file dir ps ts) : (∀ p ∈ ps, ¬ Summary p) → ∀ (sep : Bool) (out : Bytes),
    combineFiles read file dir ps sep out = (out ++ (if ts = [] then [] else (if sep then b!"\n\n" else []) ++ between ts), 0) := by
  induction h with
  | nil => intro _ sep out; simp [combineFiles]
  | @file p c ps ts hs hf _ ih =>
    intro hn sep out
    rw [combineFiles, if_neg (fun e => hs ((summary_iff p).mp e)), hf]
    simp only
    rw [ih (fun q hq => hn q (by simp [hq])), if_neg (by simp : ¬ c :: ts = []), between_cons]
    cases ts <;> simp
  | @missing p ps ts hs hf _ ih =>
    intro hn sep out
    rw [combineFiles, if_neg (fun e => hs ((summary_iff p).mp e)), hf]
    exact ih (fun q hq => hn q (by simp [hq])) sep out
  | summary hs _ _ _ _ _ => intro hn; exact absurd hs (hn _ (by simp))

theorem summary_step {read file : Bytes → Option Bytes} {dir : Bytes → Bytes} {p s : Bytes} {ls us : List Bytes} (hs : Summary p) (hr : read p = some s) (hl : Lines s ls)
    (hu : Texts file (dir p) ls us) (ps : List Bytes) (sep : Bool) (out : Bytes) :
    combineFiles read file dir (p :: ps) sep out = combineFiles read file dir ps true (out ++ between us) := by
  rw [combineFiles, if_pos ((summary_iff p).mpr hs), hr]
  simp only
  rw [(Merge.C172_summary_partial file (dir p) s ls hl).2 us hu]

end Verif.CombineFiles
