/-
Lemmas about metadata lookup, merging and variables.
-/
import Verif.Spec.Metadata
import Verif.Proof.Transforms

namespace Verif.Metadata

open Spec Transforms Transforms.Spec

theorem toLower_fold : toLower = fold := by
  funext c
  have : ∀ c, toLower c = fold c := forall_byte (by decide +kernel)
  exact this c

theorem ciEq_iff (a b : Bytes) : ciEq a b = true ↔ SameCase a b := by
  simp [ciEq, SameCase, toLower_fold]

theorem filter_white (a : Bytes) :
    (a.filter fun c => !isSpace c) = a.filter fun c => decide (¬ White c) := by
  apply List.filter_congr
  intro c _
  have h := isSpace_iff c
  by_cases hc : isSpace c = true
  · have hw := h.1 hc
    simp [hc, hw]
  · have hw : ¬ White c := fun w => hc (h.2 w)
    simp [hc, hw]

theorem normalize_iff (a b : Bytes) : normalizeKey a = normalizeKey b ↔ SameKey a b := by
  simp only [normalizeKey, SameKey, toLower_fold, filter_white]

theorem fold_white : ∀ c, decide (White (fold c)) = decide (White c) := forall_byte (by decide +kernel)

/-- Equal up to case implies equal up to case and white space. -/
theorem Spec.SameCase.sameKey {a b : Bytes} (h : SameCase a b) : SameKey a b := by
  have e : ∀ a : Bytes, (a.filter fun c => ¬ White c).map fold =
      (a.map fold).filter fun c => ¬ White c := by
    intro a
    rw [List.filter_map]
    congr 1
    apply List.filter_congr
    intro c _
    have h := fold_white c
    simp [Function.comp, h]
  unfold SameKey
  rw [e, e, h]

theorem Spec.SameCase.refl (a : Bytes) : SameCase a a := rfl
theorem Spec.SameKey.refl (a : Bytes) : SameKey a a := rfl
theorem Spec.SameKey.symm {a b : Bytes} (h : SameKey a b) : SameKey b a := Eq.symm h
theorem Spec.SameKey.trans {a b c : Bytes} (h : SameKey a b) (h' : SameKey b c) : SameKey a c :=
  Eq.trans h h'
theorem Spec.SameCase.symm {a b : Bytes} (h : SameCase a b) : SameCase b a := Eq.symm h

theorem getCi_some {md : Meta} {key v : Bytes} (h : getCi md key = some v) :
    ∃ k, k ≠ [] ∧ IsFirst md (fun k => k ≠ [] ∧ SameCase k key) k v := by
  induction md with
  | nil => simp [getCi] at h
  | cons it rest ih =>
    obtain ⟨k0, v0⟩ := it
    unfold getCi at h
    split at h
    · rename_i hk
      have hk : k0 = [] := List.length_eq_zero_iff.1 hk
      obtain ⟨k, hn, pre, post, he, hp, hpre⟩ := ih h
      refine ⟨k, hn, (k0, v0) :: pre, post, by simp [he], hp, ?_⟩
      intro it hit
      rcases List.mem_cons.1 hit with rfl | hit
      · simp [hk]
      · exact hpre it hit
    · rename_i hk
      have hk : k0 ≠ [] := fun h => hk (by simp [h])
      split at h
      · rename_i hc
        simp at h; subst h
        exact ⟨k0, hk, [], rest, rfl, ⟨hk, (ciEq_iff ..).1 hc⟩, by simp⟩
      · rename_i hc
        obtain ⟨k, hn, pre, post, he, hp, hpre⟩ := ih h
        refine ⟨k, hn, (k0, v0) :: pre, post, by simp [he], hp, ?_⟩
        intro it hit
        rcases List.mem_cons.1 hit with rfl | hit
        · intro hh; exact hc ((ciEq_iff ..).2 hh.2)
        · exact hpre it hit

theorem getCi_none {md : Meta} {key : Bytes} (h : getCi md key = none) :
    ∀ it ∈ md, ¬ (it.1 ≠ [] ∧ SameCase it.1 key) := by
  induction md with
  | nil => simp
  | cons it rest ih =>
    obtain ⟨k0, v0⟩ := it
    unfold getCi at h
    split at h
    · rename_i hk
      intro it hit
      rcases List.mem_cons.1 hit with rfl | hit
      · have hk : k0 = [] := List.length_eq_zero_iff.1 hk
        simp [hk]
      · exact ih h it hit
    · split at h
      · simp at h
      · rename_i hc
        intro it hit
        rcases List.mem_cons.1 hit with rfl | hit
        · intro hh; exact hc ((ciEq_iff ..).2 hh.2)
        · exact ih h it hit

theorem getNorm_some {md : Meta} {key v : Bytes} (h : getNorm md (normalizeKey key) = some v) :
    ∃ k, k ≠ [] ∧ IsFirst md (fun k => k ≠ [] ∧ SameKey k key) k v := by
  induction md with
  | nil => simp [getNorm] at h
  | cons it rest ih =>
    obtain ⟨k0, v0⟩ := it
    unfold getNorm at h
    split at h
    · rename_i hk
      have hk : k0 = [] := List.length_eq_zero_iff.1 hk
      obtain ⟨k, hn, pre, post, he, hp, hpre⟩ := ih h
      refine ⟨k, hn, (k0, v0) :: pre, post, by simp [he], hp, ?_⟩
      intro it hit
      rcases List.mem_cons.1 hit with rfl | hit
      · simp [hk]
      · exact hpre it hit
    · rename_i hk
      have hk : k0 ≠ [] := fun h => hk (by simp [h])
      split at h
      · rename_i hc
        simp at h; subst h
        exact ⟨k0, hk, [], rest, rfl, ⟨hk, (normalize_iff ..).1 (by simpa using hc)⟩, by simp⟩
      · rename_i hc
        obtain ⟨k, hn, pre, post, he, hp, hpre⟩ := ih h
        refine ⟨k, hn, (k0, v0) :: pre, post, by simp [he], hp, ?_⟩
        intro it hit
        rcases List.mem_cons.1 hit with rfl | hit
        · intro hh; exact hc (by simpa using (normalize_iff ..).2 hh.2)
        · exact hpre it hit

theorem getNorm_none {md : Meta} {key : Bytes} (h : getNorm md (normalizeKey key) = none) :
    ∀ it ∈ md, ¬ (it.1 ≠ [] ∧ SameKey it.1 key) := by
  induction md with
  | nil => simp
  | cons it rest ih =>
    obtain ⟨k0, v0⟩ := it
    unfold getNorm at h
    split at h
    · rename_i hk
      intro it hit
      rcases List.mem_cons.1 hit with rfl | hit
      · have hk : k0 = [] := List.length_eq_zero_iff.1 hk
        simp [hk]
      · exact ih h it hit
    · split at h
      · simp at h
      · rename_i hc
        intro it hit
        rcases List.mem_cons.1 hit with rfl | hit
        · intro hh; exact hc (by simpa using (normalize_iff ..).2 hh.2)
        · exact ih h it hit

/-! ### Lookup in a list with distinct non-empty keys -/

/-- All keys are non-empty. -/
def Keyed (md : Meta) : Prop := ∀ it ∈ md, it.1 ≠ []

/-- In a list with distinct keys, any item with the key is the one found. -/
theorem get_of_mem {md : Meta} (hk : Keyed md) (hd : Distinct md) {k v key : Bytes}
    (hm : (k, v) ∈ md) (hs : SameKey k key) (hne : key ≠ []) : get md key = some v := by
  have huniq : ∀ it ∈ md, SameKey it.1 key → it = (k, v) := by
    intro it hit hsame
    have hkk : SameKey it.1 k := hsame.trans hs.symm
    clear hk
    induction md with
    | nil => simp at hm
    | cons a rest ih =>
      rw [Distinct, List.pairwise_cons] at hd
      rcases List.mem_cons.1 hm with rfl | hm2
      · rcases List.mem_cons.1 hit with rfl | hit
        · rfl
        · exact absurd hkk.symm (hd.1 it hit)
      · rcases List.mem_cons.1 hit with rfl | hit
        · exact absurd hkk (hd.1 (k, v) hm2)
        · exact ih hd.2 hm2 hit
  have hmd : md ≠ [] := by rintro rfl; simp at hm
  have hl : key.length ≠ 0 := fun h => hne (List.length_eq_zero_iff.1 h)
  unfold get
  rw [if_neg hmd, if_neg hl]
  cases h : getCi md key with
  | some w =>
    obtain ⟨k', _, pre, post, he, hp, _⟩ := getCi_some h
    have := huniq (k', w) (by rw [he]; simp) hp.2.sameKey
    simp at this
    simp [this.2]
  | none =>
    cases h2 : getNorm md (normalizeKey key) with
    | some w =>
      obtain ⟨k', _, pre, post, he, hp, _⟩ := getNorm_some h2
      have := huniq (k', w) (by rw [he]; simp) hp.2
      simp at this
      simp [this.2]
    | none => exact absurd ⟨hk _ hm, hs⟩ (getNorm_none h2 _ hm)

theorem get_none_iff {md : Meta} (hk : Keyed md) {key : Bytes} (hne : key ≠ []) :
    get md key = none ↔ ∀ it ∈ md, ¬ SameKey it.1 key := by
  have hl : key.length ≠ 0 := fun h => hne (List.length_eq_zero_iff.1 h)
  constructor
  · intro h it hit hs
    unfold get at h
    have hmd : md ≠ [] := by rintro rfl; simp at hit
    rw [if_neg hmd, if_neg hl] at h
    split at h
    · simp at h
    · exact getNorm_none h it hit ⟨hk _ hit, hs⟩
  · intro h
    unfold get
    by_cases hmd : md = []
    · rw [if_pos hmd]
    · rw [if_neg hmd, if_neg hl]
      cases h1 : getCi md key with
      | some w =>
        obtain ⟨k', _, pre, post, he, hp, _⟩ := getCi_some h1
        exact absurd hp.2.sameKey (h (k', w) (by rw [he]; simp))
      | none =>
        cases h2 : getNorm md (normalizeKey key) with
        | some w =>
          obtain ⟨k', _, pre, post, he, hp, _⟩ := getNorm_some h2
          exact absurd hp.2 (h (k', w) (by rw [he]; simp))
        | none => simp

theorem get_mem {md : Meta} {key v : Bytes} (h : get md key = some v) :
    ∃ k, (k, v) ∈ md ∧ SameKey k key := by
  unfold get at h
  split at h
  · simp at h
  · split at h
    · simp at h
    · split at h
      · rename_i w h1
        simp at h; subst h
        obtain ⟨k', _, pre, post, he, hp, _⟩ := getCi_some h1
        exact ⟨k', by rw [he]; simp, hp.2.sameKey⟩
      · obtain ⟨k', _, pre, post, he, hp, _⟩ := getNorm_some h
        exact ⟨k', by rw [he]; simp, hp.2⟩

/-! ### Merging -/

theorem copyList_eq (l acc : Meta) : copyList acc l = l.reverse ++ acc := by
  induction l generalizing acc with
  | nil => rfl
  | cons it rest ih => simp [copyList, ih, addItem]

theorem removeFirst_sublist (key : Bytes) (l : Meta) : (removeFirst key l).Sublist l := by
  induction l with
  | nil => exact .slnil
  | cons it rest ih =>
    obtain ⟨k, v⟩ := it
    unfold removeFirst
    split
    · exact List.sublist_cons_self ..
    · exact ih.cons_cons _

/-- Keys that agree up to white space and case agree up to case. -/
def Consistent (a b : Meta) : Prop := ∀ x ∈ a, ∀ y ∈ b, SameKey x.1 y.1 → SameCase x.1 y.1

theorem removeFirst_no {key : Bytes} {l : Meta} (hd : Distinct l)
    (hc : ∀ x ∈ l, SameKey x.1 key → SameCase x.1 key) :
    ∀ x ∈ removeFirst key l, ¬ SameKey x.1 key := by
  induction l with
  | nil => simp [removeFirst]
  | cons it rest ih =>
    obtain ⟨k, v⟩ := it
    rw [Distinct, List.pairwise_cons] at hd
    unfold removeFirst
    split
    · rename_i h
      have hk := ((ciEq_iff ..).1 h).sameKey
      intro x hx hs
      exact hd.1 x hx (hk.trans hs.symm)
    · rename_i h
      intro x hx
      rcases List.mem_cons.1 hx with rfl | hx
      · intro hs
        exact h ((ciEq_iff ..).2 (hc _ (by simp) hs))
      · exact ih hd.2 (fun x hx => hc x (by simp [hx])) x hx

theorem removeFirst_mem {key : Bytes} {l : Meta} {x : Item} (hx : x ∈ l)
    (h : ¬ SameKey x.1 key) : x ∈ removeFirst key l := by
  induction l with
  | nil => simp at hx
  | cons it rest ih =>
    obtain ⟨k, v⟩ := it
    unfold removeFirst
    split
    · rename_i hc
      rcases List.mem_cons.1 hx with rfl | hx
      · exact absurd ((ciEq_iff ..).1 hc).sameKey h
      · exact hx
    · rcases List.mem_cons.1 hx with rfl | hx
      · simp
      · simp [ih hx]

theorem mergeList_mem (l : Meta) : ∀ acc, ∀ x ∈ mergeList acc l, x ∈ acc ∨ x ∈ l := by
  induction l with
  | nil => intro acc x hx; exact .inl hx
  | cons it rest ih =>
    intro acc x hx
    simp only [mergeList] at hx
    rcases ih _ x hx with h | h
    · rcases List.mem_cons.1 h with rfl | h
      · simp
      · exact .inl ((removeFirst_sublist ..).subset h)
    · simp [h]

/-- Merging one list into the accumulator: its items win. -/
theorem mergeList_spec (l : Meta) : ∀ acc, Keyed acc → Keyed l → Distinct acc → Distinct l →
    Consistent acc l →
    Keyed (mergeList acc l) ∧ Distinct (mergeList acc l) ∧
      ∀ key, key ≠ [] → get (mergeList acc l) key =
        match get l key with
        | some v => some v
        | none => get acc key := by
  induction l with
  | nil =>
    intro acc hka _ hda _ _
    refine ⟨hka, hda, ?_⟩
    intro key _
    simp [mergeList, get]
  | cons it rest ih =>
    intro acc hka hkl hda hdl hc
    obtain ⟨k, v⟩ := it
    rw [Distinct, List.pairwise_cons] at hdl
    have hno : ∀ x ∈ removeFirst k acc, ¬ SameKey x.1 k :=
      removeFirst_no hda (fun x hx hs => hc x hx (k, v) (by simp) hs)
    have hka' : Keyed (addItem (removeFirst k acc) (k, v)) := by
      intro x hx
      rcases List.mem_cons.1 hx with rfl | hx
      · exact hkl _ (by simp)
      · exact hka _ ((removeFirst_sublist ..).subset hx)
    have hda' : Distinct (addItem (removeFirst k acc) (k, v)) := by
      refine List.pairwise_cons.2 ⟨?_, hda.sublist (removeFirst_sublist ..)⟩
      intro x hx hs
      exact hno x hx hs.symm
    have hkr : Keyed rest := fun x hx => hkl x (by simp [hx])
    have hc' : Consistent (addItem (removeFirst k acc) (k, v)) rest := by
      intro x hx y hy hs
      rcases List.mem_cons.1 hx with rfl | hx
      · exact absurd hs (hdl.1 y hy)
      · exact hc x ((removeFirst_sublist ..).subset hx) y (by simp [hy]) hs
    obtain ⟨h1, h2, h3⟩ := ih _ hka' hkr hda' hdl.2 hc'
    refine ⟨h1, h2, ?_⟩
    intro key hne
    simp only [mergeList]
    rw [h3 key hne]
    have hdl' : Distinct ((k, v) :: rest) := List.pairwise_cons.2 hdl
    by_cases hs : SameKey k key
    · have hr : get rest key = none :=
        (get_none_iff hkr hne).2 (fun x hx hx2 => hdl.1 x hx (hs.trans hx2.symm))
      rw [hr, get_of_mem hka' hda' (k := k) (v := v) (by simp [addItem]) hs hne,
        get_of_mem hkl hdl' (k := k) (v := v) (by simp) hs hne]
    · have hacc : get (addItem (removeFirst k acc) (k, v)) key = get acc key := by
        cases hg : get acc key with
        | none =>
          rw [get_none_iff hka hne] at hg
          rw [get_none_iff hka' hne]
          intro x hx
          rcases List.mem_cons.1 hx with rfl | hx
          · exact hs
          · exact hg x ((removeFirst_sublist ..).subset hx)
        | some w =>
          obtain ⟨k', hm, hs'⟩ := get_mem hg
          refine get_of_mem hka' hda' (k := k') ?_ hs' hne
          exact List.mem_cons_of_mem _ (removeFirst_mem hm (fun h => hs (h.symm.trans hs')))
      rw [hacc]
      have hl : get ((k, v) :: rest) key = get rest key := by
        cases hg : get rest key with
        | none =>
          rw [get_none_iff hkr hne] at hg
          rw [get_none_iff hkl hne]
          intro x hx
          rcases List.mem_cons.1 hx with rfl | hx
          · exact hs
          · exact hg x hx
        | some w =>
          obtain ⟨k', hm, hs'⟩ := get_mem hg
          exact get_of_mem hkl hdl' (by simp [hm]) hs' hne
      rw [hl]

theorem mergeArgs_spec (ls : List Meta) : ∀ acc, Keyed acc → Distinct acc →
    (∀ l ∈ ls, l ≠ [] ∧ Keyed l ∧ Distinct l ∧ Consistent acc l) →
    ls.Pairwise Consistent →
    ∀ key, key ≠ [] → get (mergeArgs acc ls) key =
      match lastValue ls key with
      | some v => some v
      | none => get acc key := by
  induction ls with
  | nil => intro acc _ _ _ _ key _; rfl
  | cons l rest ih =>
    intro acc hk hd hl hp key hne
    rw [List.pairwise_cons] at hp
    obtain ⟨hln, hlk, hld, hlc⟩ := hl l (by simp)
    obtain ⟨h1, h2, h3⟩ := mergeList_spec l acc hk hlk hd hld hlc
    have hmem := mergeList_mem l acc
    have hstep : mergeArgs acc (l :: rest) = mergeArgs (mergeList acc l) rest := by
      cases l with
      | nil => exact absurd rfl hln
      | cons a b => rfl
    rw [hstep, ih _ h1 h2 ?_ hp.2 key hne, h3 key hne]
    · simp only [lastValue]
      cases lastValue rest key <;> rfl
    · intro m hm
      obtain ⟨a, b, c, d⟩ := hl m (by simp [hm])
      refine ⟨a, b, c, ?_⟩
      intro x hx y hy hs
      rcases hmem x hx with h | h
      · exact d x h y hy hs
      · exact hp.1 m hm x h y hy hs

theorem get_reverse {md : Meta} (hk : Keyed md) (hd : Distinct md) {key : Bytes} (hne : key ≠ []) :
    get md.reverse key = get md key := by
  have hk' : Keyed md.reverse := fun x hx => hk x (by simpa using hx)
  have hd' : Distinct md.reverse := by
    unfold Distinct
    rw [List.pairwise_reverse]
    exact hd.imp (fun h hs => h hs.symm)
  cases hg : get md key with
  | none =>
    rw [get_none_iff hk hne] at hg
    rw [get_none_iff hk' hne]
    intro x hx; exact hg x (by simpa using hx)
  | some w =>
    obtain ⟨k', hm, hs'⟩ := get_mem hg
    exact get_of_mem hk' hd' (by simpa using hm) hs' hne

/-! ### Variables -/

/-- `p` opens and closes brackets so that, starting at depth `d`, depth 1 is reached at its end and
depth 0 never before. -/
def Depth (d : Nat) (p : Bytes) : Prop :=
  p.count c!"[" + d = p.count c!"]" + 1 ∧ ∀ q, q <+: p → q.count c!"]" < q.count c!"[" + d

theorem depth_one (p : Bytes) : Depth 1 p ↔ Balanced p := by
  unfold Depth Balanced
  constructor
  · rintro ⟨h1, h2⟩
    exact ⟨by omega, fun q hq => by have := h2 q hq; omega⟩
  · rintro ⟨h1, h2⟩
    exact ⟨by omega, fun q hq => by have := h2 q hq; omega⟩

theorem closeAt_some {t : Bytes} : ∀ {d n : Nat}, 1 ≤ d → closeAt t d = some n →
    ∃ p u, t = p ++ c!"]" :: u ∧ p.length = n ∧ Depth d p := by
  induction t with
  | nil => intro d n _ h; simp [closeAt] at h
  | cons c cs ih =>
    intro d n hd h
    have cons_case : ∀ d', 1 ≤ d' → (d' + (if c = c!"]" then 1 else 0) = d + if c = c!"[" then 1 else 0) →
        ∀ m, closeAt cs d' = some m → ∃ p u, c :: cs = p ++ c!"]" :: u ∧ p.length = m + 1 ∧
        Depth d p := by
      intro d' hd' he m hm
      obtain ⟨p, u, h1, h2, h3, h4⟩ := ih hd' hm
      refine ⟨c :: p, u, by simp [h1], by simp [h2], ?_, ?_⟩
      · simp only [List.count_cons, beq_iff_eq]
        omega
      · intro q hq
        cases q with
        | nil => simp; omega
        | cons x q =>
          obtain ⟨rfl, hq'⟩ := List.cons_prefix_cons.1 hq
          have := h4 q hq'
          simp only [List.count_cons, beq_iff_eq]
          omega
    unfold closeAt at h
    split at h
    · rename_i hc
      simp only [Option.map_eq_some_iff] at h
      obtain ⟨m, hm, rfl⟩ := h
      subst hc
      exact cons_case (d + 1) (by omega) (by simp) m hm
    · rename_i hc
      split at h
      · rename_i hc2
        subst hc2
        split at h
        · simp at h; subst h
          exact ⟨[], cs, rfl, rfl, by simp; omega, by simp; omega⟩
        · simp only [Option.map_eq_some_iff] at h
          obtain ⟨m, hm, rfl⟩ := h
          exact cons_case (d - 1) (by omega) (by simp; omega) m hm
      · rename_i hc2
        simp only [Option.map_eq_some_iff] at h
        obtain ⟨m, hm, rfl⟩ := h
        exact cons_case d hd (by simp [hc, hc2]) m hm

theorem closeAt_of_depth {p : Bytes} : ∀ {d : Nat} {u : Bytes}, Depth d p →
    closeAt (p ++ c!"]" :: u) d = some p.length := by
  induction p with
  | nil =>
    intro d u h
    have h1 := h.1
    simp at h1
    subst h1
    simp [closeAt]
  | cons c p ih =>
    intro d u h
    obtain ⟨h1, h2⟩ := h
    have hd : 1 ≤ d := by have := h2 [] (by simp); simp at this; omega
    have tail : ∀ d', (d' + (if c = c!"]" then 1 else 0) = d + if c = c!"[" then 1 else 0) →
        Depth d' p := by
      intro d' he
      refine ⟨?_, ?_⟩
      · simp only [List.count_cons, beq_iff_eq] at h1
        omega
      · intro q hq
        have := h2 (c :: q) (List.cons_prefix_cons.2 ⟨rfl, hq⟩)
        simp only [List.count_cons, beq_iff_eq] at this
        omega
    simp only [List.cons_append, List.length_cons]
    unfold closeAt
    by_cases hc : c = c!"["
    · subst hc
      simp [ih (tail (d + 1) (by simp))]
    · by_cases hc2 : c = c!"]"
      · subst hc2
        have h3 := h2 [c!"]"] (List.cons_prefix_cons.2 ⟨rfl, by simp⟩)
        simp at h3
        have hd2 : ¬ d - 1 = 0 := by omega
        simp only [hc, if_false, if_true, hd2]
        simp [ih (tail (d - 1) (by simp; omega))]
      · simp [hc, hc2, ih (tail d (by simp [hc, hc2]))]

theorem closeAt_none {t : Bytes} (h : closeAt t 1 = none) (p : Bytes) (hp : Balanced p) :
    ¬ p ++ b!"]" <+: t := by
  rintro ⟨u, rfl⟩
  have := closeAt_of_depth (u := u) ((depth_one p).2 hp)
  simp at h this
  rw [h] at this
  simp at this

theorem append_ok (b : Buf) (s : Bytes) (_ : b.out.length < b.cap) :
    ∃ b', append b s = .val b' ∧ b'.out = b.out ++ s ∧ b'.out.length < b'.cap := by
  simp only [append]
  rw [puts_val (by split <;> omega)]
  refine ⟨⟨_, b.out ++ s⟩, rfl, rfl, ?_⟩
  simp only [List.length_append]
  split <;> omega

theorem appendRest_ok (b : Buf) (s : Bytes) (h : b.out.length < b.cap) :
    appendRest b s = .val (b.out ++ s) := by
  simp only [appendRest]
  split
  · rename_i hs; subst hs
    rw [finish_val h]; simp
  · rw [puts_val (by split <;> omega)]
    simp only [C.val_bind]
    rw [finish_val (by simp only [List.length_append]; split <;> omega)]

theorem appendBefore_ok (b : Buf) (s : Bytes) (h : b.out.length < b.cap) :
    ∃ b', appendBefore b s = .val b' ∧ b'.out = b.out ++ s ∧ b'.out.length < b'.cap := by
  unfold appendBefore
  split
  · exact append_ok b _ h
  · have : s = [] := List.length_eq_zero_iff.1 (by omega)
    subst this
    exact ⟨b, rfl, by simp, h⟩

theorem varLoop_spec (value : Bytes → Option Bytes) (n : Nat) : ∀ (s : Bytes), s.length ≤ n →
    ∀ b : Buf, b.out.length < b.cap →
    ∃ r, varLoop value b s = .val (b.out ++ r) ∧ Expands value s r := by
  induction n with
  | zero =>
    intro s hs b hb
    have : s = [] := by simpa using hs
    subst this
    refine ⟨[], ?_, .plain (by simp)⟩
    unfold varLoop
    split
    · exact appendRest_ok b [] hb
    · rename_i i h; have := strstr_le h; simp at this
  | succ n ih =>
    intro s hs b hb
    unfold varLoop
    split
    · rename_i h
      exact ⟨s, appendRest_ok b s hb, .plain (strstr_none h)⟩
    · rename_i i h
      have hf := strstr_some h
      have hle := strstr_le h
      simp only [List.length_cons, List.length_nil] at hf hle
      cases hc : closeAt (s.drop (i + 2)) 1 with
      | none =>
        exact ⟨s, appendRest_ok b s hb, .unclosed hf (closeAt_none hc)⟩
      | some m =>
        obtain ⟨p, u, he, hl, hdep⟩ := closeAt_some (Nat.le_refl 1) hc
        have hbal := (depth_one p).1 hdep
        have hpat : (s.drop (i + 2)).take m = p := by rw [he, ← hl]; simp
        have hrest : s.drop (i + 2 + m + 1) = u := by
          have : s.drop (i + 2 + m + 1) = (s.drop (i + 2)).drop (m + 1) := by
            rw [List.drop_drop]; congr 1
          rw [this, he, ← hl]
          simp
        have hf' : FirstOcc b!"[%" s (s.take i) (p ++ b!"]" ++ u) := by
          have : (p ++ b!"]" ++ u) = s.drop (i + 2) := by rw [he]; simp
          rw [this]; exact hf
        have hkeep : (s.drop i).take (m + 3) = b!"[%" ++ p ++ b!"]" := by
          have h1 : s.drop i = b!"[%" ++ s.drop (i + 2) := by
            have := hf.1
            have h2 : s.drop i = (s.take i ++ b!"[%" ++ s.drop (i + 2)).drop i := by rw [← this]
            rw [h2, List.append_assoc]
            exact List.drop_left' (by simp; omega)
          have h2 : s.drop i = (b!"[%" ++ p ++ b!"]") ++ u := by rw [h1, he]; simp
          rw [h2]
          exact List.take_left' (by simp; omega)
        obtain ⟨b1, hb1, ho1, hc1⟩ := appendBefore_ok b (s.take i) hb
        have hul : u.length ≤ n := by
          rw [← hrest]; simp; omega
        simp only [hb1, C.val_bind, hpat, hrest, hkeep]
        have keep : (512 ≤ p.length ∨ value p = none) →
            appendVar value b1 p (b!"[%" ++ p ++ b!"]") = append b1 (b!"[%" ++ p ++ b!"]") →
            ∃ r, (do let b ← appendVar value b1 p (b!"[%" ++ p ++ b!"]"); varLoop value b u) =
              .val (b.out ++ r) ∧ Expands value s r := by
          intro hk ha
          obtain ⟨b2, hb2, ho2, hc2⟩ := append_ok b1 (b!"[%" ++ p ++ b!"]") hc1
          obtain ⟨r, hr, hx⟩ := ih u hul b2 hc2
          refine ⟨s.take i ++ b!"[%" ++ p ++ b!"]" ++ r, ?_, .unknown hf' hbal hk hx⟩
          simp only [ha, hb2, C.val_bind, hr, ho2, ho1]
          simp
        by_cases hlong : p.length ≥ 512
        · exact keep (.inl hlong) (by simp only [appendVar, hlong, if_true])
        · cases hv : value p with
          | none => exact keep (.inr hv) (by simp only [appendVar, hlong, if_false, hv])
          | some v =>
            obtain ⟨b2, hb2, ho2, hc2⟩ := append_ok b1 v hc1
            obtain ⟨r, hr, hx⟩ := ih u hul b2 hc2
            refine ⟨s.take i ++ v ++ r, ?_, .known hf' hbal (by omega) hv hx⟩
            simp only [appendVar, hlong, if_false, hv, hb2, C.val_bind, hr, ho2, ho1]
            simp

/-- The closed variable at a position is determined. -/
theorem balanced_unique {p t p' t' : Bytes} (h : p ++ b!"]" ++ t = p' ++ b!"]" ++ t')
    (hp : Balanced p) (hp' : Balanced p') : p = p' ∧ t = t' := by
  have h1 := closeAt_of_depth (u := t) ((depth_one p).2 hp)
  have h2 := closeAt_of_depth (u := t') ((depth_one p').2 hp')
  have e : p ++ c!"]" :: t = p' ++ c!"]" :: t' := by simpa using h
  rw [e, h2] at h1
  have hl : p.length = p'.length := by simpa using h1.symm
  obtain ⟨rfl, h3⟩ := List.append_inj e hl
  exact ⟨rfl, by simpa using h3⟩

theorem expands_unique {value : Bytes → Option Bytes} {s r r' : Bytes} (h : Expands value s r)
    (h' : Expands value s r') : r = r' := by
  have inf : ∀ {s pre t : Bytes}, FirstOcc b!"[%" s pre t → b!"[%" <:+: s :=
    fun hf => ⟨_, _, hf.1.symm⟩
  induction h generalizing r' with
  | plain hn =>
    cases h' with
    | plain => rfl
    | unclosed => rfl
    | known hf => exact absurd (inf hf) hn
    | unknown hf => exact absurd (inf hf) hn
  | unclosed hf hc =>
    cases h' with
    | plain => rfl
    | unclosed => rfl
    | known hf' hb =>
      obtain ⟨rfl, rfl⟩ := firstOcc_unique hf hf'
      exact absurd ⟨_, rfl⟩ (hc _ hb)
    | unknown hf' hb =>
      obtain ⟨rfl, rfl⟩ := firstOcc_unique hf hf'
      exact absurd ⟨_, rfl⟩ (hc _ hb)
  | known hf hb hlen hv _ ih =>
    cases h' with
    | plain hn => exact absurd (inf hf) hn
    | unclosed hf' hc =>
      obtain ⟨rfl, rfl⟩ := firstOcc_unique hf hf'
      exact absurd ⟨_, rfl⟩ (hc _ hb)
    | known hf' hb' hlen' hv' hx' =>
      obtain ⟨rfl, he⟩ := firstOcc_unique hf hf'
      obtain ⟨rfl, rfl⟩ := balanced_unique he hb hb'
      rw [hv] at hv'
      simp at hv'
      rw [ih hx', hv']
    | unknown hf' hb' hk' hx' =>
      obtain ⟨rfl, he⟩ := firstOcc_unique hf hf'
      obtain ⟨rfl, rfl⟩ := balanced_unique he hb hb'
      rcases hk' with hk' | hk'
      · omega
      · rw [hv] at hk'; simp at hk'
  | unknown hf hb hk _ ih =>
    cases h' with
    | plain hn => exact absurd (inf hf) hn
    | unclosed hf' hc =>
      obtain ⟨rfl, rfl⟩ := firstOcc_unique hf hf'
      exact absurd ⟨_, rfl⟩ (hc _ hb)
    | known hf' hb' hlen' hv' hx' =>
      obtain ⟨rfl, he⟩ := firstOcc_unique hf hf'
      obtain ⟨rfl, rfl⟩ := balanced_unique he hb hb'
      rcases hk with hk | hk
      · omega
      · rw [hv'] at hk; simp at hk
    | unknown hf' hb' hk' hx' =>
      obtain ⟨rfl, he⟩ := firstOcc_unique hf hf'
      obtain ⟨rfl, rfl⟩ := balanced_unique he hb hb'
      rw [ih hx']

end Verif.Metadata
