/- Lemmas for bundles of plugins. -/
import Verif.Spec.Bundles

namespace Verif.Bundles
open Spec
open Metadata (Meta Item merge mergeList mergeArgs copyList removeFirst addItem ciEq)
open Plugins (Plugin Rx lastValue phaseOf atoi)

theorem copyList_eq : ∀ (m acc : Meta), copyList acc m = m.reverse ++ acc
  | [], acc => rfl
  | it :: m, acc => by
    unfold copyList
    rw [copyList_eq m]
    simp [addItem]

theorem ciEq_clean {a b : Bytes} (ha : a.map toLower = a) (hb : b.map toLower = b) : ciEq a b = decide (a = b) := by
  unfold ciEq
  rw [ha, hb]
  by_cases h : a = b
  · simp [h]
  · simp [h]

theorem removeFirst_eq {k : Bytes} (hk : k.map toLower = k) : ∀ {m : Meta}, Clean m → removeFirst k m = m.filter fun it => it.1 ≠ k
  | [], _ => rfl
  | (a, v) :: m, h => by
    obtain ⟨h1, h2⟩ := h
    have h1 := List.nodup_cons.mp (show (a :: m.map (·.1)).Nodup from h1)
    have ha : a.map toLower = a := h2 (a, v) (by simp)
    have hm : Clean m := ⟨h1.2, fun it hit => h2 it (List.mem_cons_of_mem _ hit)⟩
    unfold removeFirst
    rw [ciEq_clean ha hk]
    by_cases hak : a = k
    · subst hak
      rw [if_pos (by simp), List.filter_cons_of_neg (by simp)]
      symm
      rw [List.filter_eq_self]
      intro it hit
      have : it.1 ≠ a := fun e => h1.1 (e ▸ List.mem_map_of_mem hit)
      simpa using this
    · rw [if_neg (by simpa using hak), List.filter_cons_of_pos (by simpa using hak), removeFirst_eq hk hm]

theorem clean_filter {m : Meta} (p : Item → Bool) (h : Clean m) : Clean (m.filter p) :=
  ⟨(List.filter_sublist.map _).nodup h.1, fun it hit => h.2 it (List.mem_filter.mp hit).1⟩

theorem clean_tail {it : Item} {m : Meta} (h : Clean (it :: m)) : Clean m :=
  ⟨(List.nodup_cons.mp h.1).2, fun x hx => h.2 x (List.mem_cons_of_mem _ hx)⟩

theorem mergeList_eq : ∀ (e : Meta) {acc : Meta}, Clean e → Clean acc → mergeList acc e = e.reverse ++ acc.filter fun it => it.1 ∉ e.map (·.1)
  | [], acc, _, _ => by
    unfold mergeList
    exact (List.filter_eq_self.mpr (by simp)).symm
  | it :: e, acc, he, ha => by
    have hk := he.2 it (by simp)
    have hn := (List.nodup_cons.mp he.1).1
    have hc : Clean (addItem (removeFirst it.1 acc) it) := by
      rw [removeFirst_eq hk ha]
      refine ⟨?_, ?_⟩
      · refine List.nodup_cons.mpr ⟨?_, (clean_filter _ ha).1⟩
        intro hm
        obtain ⟨x, hx, hxe⟩ := List.mem_map.mp hm
        have := (List.mem_filter.mp hx).2
        simp [hxe] at this
      · intro x hx
        rcases List.mem_cons.mp hx with rfl | hx
        · exact hk
        · exact ha.2 x (List.mem_filter.mp hx).1
    unfold mergeList
    rw [mergeList_eq e (clean_tail he) hc]
    unfold addItem
    rw [List.filter_cons_of_pos (by simpa using hn), removeFirst_eq hk ha, List.filter_filter, List.reverse_cons, List.append_assoc]
    congr 1
    show it :: _ = it :: _
    congr 1
    apply List.filter_congr
    intro x _
    simp only [List.map_cons, List.mem_cons, not_or, Bool.decide_and]
    rw [Bool.and_comm]

theorem clean_reverse {m : Meta} (h : Clean m) : Clean m.reverse := by
  refine ⟨?_, fun it hit => h.2 it (List.mem_reverse.mp hit)⟩
  rw [List.map_reverse]
  exact (List.reverse_perm _).nodup_iff.mpr h.1

/-- The items of an entry: its own, and then those of the bundle. -/
theorem merge_eq {top entry : Meta} (ht : Clean top) (he : Clean entry) (hne : entry ≠ []) :
    merge top [entry] = entry.reverse ++ top.reverse.filter fun it => it.1 ∉ entry.map (·.1) := by
  unfold merge
  rw [copyList_eq, List.append_nil]
  cases entry with
  | nil => exact absurd rfl hne
  | cons it e =>
    show mergeList top.reverse (it :: e) = _
    exact mergeList_eq _ he (clean_reverse ht)

theorem merge_clean {top entry : Meta} (ht : Clean top) (he : Clean entry) (hne : entry ≠ []) : Clean (merge top [entry]) := by
  rw [merge_eq ht he hne]
  refine ⟨?_, ?_⟩
  · rw [List.map_append]
    refine List.nodup_append.mpr ⟨(clean_reverse he).1, (clean_filter _ (clean_reverse ht)).1, ?_⟩
    intro a ha b hb e
    subst e
    obtain ⟨x, hx, rfl⟩ := List.mem_map.mp hb
    have := (List.mem_filter.mp hx).2
    rw [List.map_reverse, List.mem_reverse] at ha
    simp only [decide_eq_true_eq] at this
    exact this ha
  · intro it hit
    rcases List.mem_append.mp hit with h | h
    · exact he.2 it (List.mem_reverse.mp h)
    · exact ht.2 it (List.mem_reverse.mp (List.mem_filter.mp h).1)

theorem mem_merge {top entry : Meta} (ht : Clean top) (he : Clean entry) (hne : entry ≠ []) (k v : Bytes) : (k, v) ∈ merge top [entry] ↔ Value top entry k v := by
  rw [merge_eq ht he hne, List.mem_append, List.mem_reverse, List.mem_filter, List.mem_reverse]
  unfold Value
  constructor
  · rintro (h | ⟨h1, h2⟩)
    · exact .inl h
    · refine .inr ⟨fun w hw => ?_, h1⟩
      simp only [decide_eq_true_eq] at h2
      exact h2 (List.mem_map.mpr ⟨(k, w), hw, rfl⟩)
  · rintro (h | ⟨h1, h2⟩)
    · exact .inl h
    · refine .inr ⟨h2, ?_⟩
      simp only [decide_eq_true_eq]
      intro hm
      obtain ⟨x, hx, hxk⟩ := List.mem_map.mp hm
      obtain ⟨a, b⟩ := x
      cases hxk
      exact h1 b hx

theorem lastValue_append (a b : Meta) (ks : List Bytes) : lastValue (a ++ b) ks = (lastValue b ks).or (lastValue a ks) := by
  unfold lastValue
  rw [List.filter_append, List.getLast?_append]
  cases (b.filter fun it => ks.contains it.1).getLast? <;> rfl

/-- What is found is there. -/
theorem lastValue_mem {m : Meta} {ks : List Bytes} {v : Bytes} (h : lastValue m ks = some v) : ∃ k ∈ ks, (k, v) ∈ m := by
  unfold lastValue at h
  obtain ⟨x, h1, h2⟩ := Option.map_eq_some_iff.mp h
  have hm := List.mem_of_getLast? h1
  have := List.mem_filter.mp hm
  obtain ⟨a, b⟩ := x
  cases h2
  exact ⟨a, by simpa using this.2, this.1⟩

theorem lastValue_none {m : Meta} {ks : List Bytes} : lastValue m ks = none ↔ ∀ k ∈ ks, ∀ v, (k, v) ∉ m := by
  unfold lastValue
  rw [Option.map_eq_none_iff, List.getLast?_eq_none_iff, List.filter_eq_nil_iff]
  constructor
  · intro h k hk v hm
    exact h (k, v) hm (by simpa using hk)
  · rintro h ⟨k, v⟩ hm hk
    exact h k (by simpa using hk) v hm

/-- Each key has one value. -/
theorem clean_unique {m : Meta} (h : Clean m) {k v w : Bytes} (h1 : (k, v) ∈ m) (h2 : (k, w) ∈ m) : v = w := by
  have h := h.1
  rename Clean m => hx
  clear hx
  induction m with
  | nil => cases h1
  | cons it m ih =>
    have hn := List.nodup_cons.mp (show (it.1 :: m.map (·.1)).Nodup from h)
    rcases List.mem_cons.mp h1 with e1 | e1
    · rcases List.mem_cons.mp h2 with e2 | e2
      · rw [← e1] at e2
        cases e2
        rfl
      · subst e1
        exact absurd (List.mem_map.mpr ⟨_, e2, rfl⟩) hn.1
    · rcases List.mem_cons.mp h2 with e2 | e2
      · subst e2
        exact absurd (List.mem_map.mpr ⟨_, e1, rfl⟩) hn.1
      · exact ih e1 e2 hn.2

theorem lastValue_iff {m : Meta} (h : Clean m) (k v : Bytes) : lastValue m [k] = some v ↔ (k, v) ∈ m := by
  constructor
  · intro hv
    obtain ⟨a, ha, hm⟩ := lastValue_mem hv
    simp only [List.mem_cons, List.not_mem_nil, or_false] at ha
    rwa [ha] at hm
  · intro hm
    cases hl : lastValue m [k] with
    | none => exact absurd hm (lastValue_none.mp hl k (by simp) v)
    | some w =>
      obtain ⟨a, ha, hw⟩ := lastValue_mem hl
      simp only [List.mem_cons, List.not_mem_nil, or_false] at ha
      subst ha
      rw [clean_unique h hw hm]

/-- The value of a key of an entry. -/
theorem value_iff {top entry : Meta} (ht : Clean top) (he : Clean entry) (hne : entry ≠ []) (k v : Bytes) : lastValue (merge top [entry]) [k] = some v ↔ Value top entry k v :=
  (lastValue_iff (merge_clean ht he hne) k v).trans (mem_merge ht he hne k v)

theorem not_value {top entry : Meta} {k : Bytes} (h : Missing top entry k) (v : Bytes) : ¬ Value top entry k v := by
  rintro (h1 | ⟨_, h1⟩)
  · exact (h v).1 h1
  · exact (h v).2 h1

theorem missing_iff {top entry : Meta} {k : Bytes} : Missing top entry k ↔ ∀ v, ¬ Value top entry k v := by
  refine ⟨not_value, fun h v => ⟨fun h1 => h v (.inl h1), fun h1 => ?_⟩⟩
  by_cases hw : ∃ w, (k, w) ∈ entry
  · obtain ⟨w, hw⟩ := hw
    exact h w (.inl hw)
  · exact h v (.inr ⟨fun w hm => hw ⟨w, hm⟩, h1⟩)

/-- The command, under one of its names. -/
theorem command_iff {top entry : Meta} (ht : Clean top) (he : Clean entry) (hne : entry ≠ []) (h1 : OneName top entry) (v : Bytes) :
    lastValue (merge top [entry]) [b!"handler.command", b!"handler_command"] = some v ↔ Value top entry b!"handler.command" v ∨ Value top entry b!"handler_command" v := by
  have hc := merge_clean ht he hne
  have key : ∀ {w}, lastValue (merge top [entry]) [b!"handler.command", b!"handler_command"] = some w → Value top entry b!"handler.command" w ∨ Value top entry b!"handler_command" w := by
    intro w hw
    obtain ⟨k, hk, hm⟩ := lastValue_mem hw
    have hm := (mem_merge ht he hne k w).mp hm
    simp only [List.mem_cons, List.not_mem_nil, or_false] at hk
    rcases hk with rfl | rfl
    · exact .inl hm
    · exact .inr hm
  refine ⟨key, fun hv => ?_⟩
  cases hl : lastValue (merge top [entry]) [b!"handler.command", b!"handler_command"] with
  | none =>
    have := lastValue_none.mp hl
    rcases hv with hv | hv
    · exact absurd ((mem_merge ht he hne _ _).mpr hv) (this _ (by simp) v)
    · exact absurd ((mem_merge ht he hne _ _).mpr hv) (this _ (by simp) v)
  | some w =>
    have hw := key hl
    rcases h1 with h1 | h1
    · have hv' := hv.resolve_left (not_value h1 v)
      have hw' := hw.resolve_left (not_value h1 w)
      rw [clean_unique hc ((mem_merge ht he hne _ _).mpr hw') ((mem_merge ht he hne _ _).mpr hv')]
    · have hv' := hv.resolve_right (not_value h1 v)
      have hw' := hw.resolve_right (not_value h1 w)
      rw [clean_unique hc ((mem_merge ht he hne _ _).mpr hw') ((mem_merge ht he hne _ _).mpr hv')]

theorem phaseOf_iff {s : Bytes} {p : Plugins.Phase} : phaseOf s = some p ↔ s = phaseName p := by
  unfold phaseOf
  constructor
  · intro h
    split at h
    · rename_i hs
      cases h
      exact hs
    · split at h
      · rename_i hs
        cases h
        exact hs
      · cases h
  · rintro rfl
    cases p <;> rfl

/-- The fields of the plugin of an entry. -/
theorem fromEntry_some {regcomp : Bytes → Bool → Option Rx} {dir : Bytes} {base : Option Bytes} {top entry : Meta} {p : Plugin} (h : fromEntry regcomp dir base top entry = some p) :
    entry ≠ [] ∧ lastValue (merge top [entry]) [b!"id"] = some p.id ∧ (lastValue (merge top [entry]) [b!"phase"]).bind phaseOf = some p.phase ∧
      p.command = lastValue (merge top [entry]) [b!"handler.command", b!"handler_command"] ∧
      p.priority = (match lastValue (merge top [entry]) [b!"priority"] with
        | some s => atoi s
        | none => 100) ∧ p.dir = dir := by
  unfold fromEntry at h
  split at h
  · cases h
  · rename_i hne
    refine ⟨hne, ?_⟩
    simp only at h
    generalize hid : lastValue (merge top [entry]) [b!"id"] = oid at *
    generalize hph : (lastValue (merge top [entry]) [b!"phase"]).bind phaseOf = oph at *
    cases oid with
    | none => cases h
    | some id =>
      cases oph with
      | none => cases h
      | some ph =>
        simp only at h
        generalize lastValue (merge top [entry]) [b!"handler.command", b!"handler_command"] = cmd at *
        generalize lastValue (merge top [entry]) [b!"pattern"] = pat at *
        generalize lastValue (merge top [entry]) [b!"replacement"] = rep at *
        split at h
        · split at h
          · cases h
            exact ⟨rfl, rfl, rfl, rfl, rfl⟩
          · cases h
        · cases h
          exact ⟨rfl, rfl, rfl, rfl, rfl⟩

/-! ### Directories -/

theorem parent_at {b w : Bytes} (h : c!"/" ∉ w) : parent (b ++ b!"/" ++ w) = b := by
  have hd : ∀ x : Bytes, (∀ c ∈ x, c ≠ c!"/") → (x ++ c!"/" :: b.reverse).dropWhile (· ≠ c!"/") = c!"/" :: b.reverse := by
    intro x hx
    induction x with
    | nil => exact List.dropWhile_cons_of_neg (by decide)
    | cons c x ih =>
      rw [List.cons_append, List.dropWhile_cons_of_pos (by simpa using hx c (by simp)), ih fun y hy => hx y (List.mem_cons_of_mem _ hy)]
  unfold parent
  have e : (b ++ b!"/" ++ w).reverse = w.reverse ++ c!"/" :: b.reverse := by simp
  rw [e, hd w.reverse (by
    intro c hc e
    exact h (e ▸ List.mem_reverse.mp hc))]
  simp

theorem clip_short {s : Bytes} (h : s.length ≤ 1023) : clip s = s := List.take_of_length_le h

theorem mkdir_of {d : Dirs} {b w : Bytes} (hw : c!"/" ∉ w) (hd : d b) : mkdir d (b ++ b!"/" ++ w) (b ++ b!"/" ++ w) := .inr ⟨rfl, by rw [parent_at hw]; exact hd⟩

theorem mkdir_old {d : Dirs} {p q : Bytes} (h : d q) : mkdir d p q := .inl h

theorem mkdir_not {d : Dirs} {b w : Bytes} (hw : c!"/" ∉ w) (hd : ¬ d b) (q : Bytes) : mkdir d (b ++ b!"/" ++ w) q ↔ d q := by
  unfold mkdir
  rw [parent_at hw]
  constructor
  · rintro (h | ⟨_, h⟩)
    · exact h
    · exact absurd h hd
  · exact .inl

theorem supportDir_xdg (home : Option Bytes) {x : Bytes} (id : Bytes) (d : Dirs) (hx : x ≠ []) :
    supportDir (some x) home id d = (mkdir (mkdir d (clip (x ++ b!"/apex/support"))) (clip (clip (x ++ b!"/apex/support") ++ b!"/" ++ id)), some (clip (clip (x ++ b!"/apex/support") ++ b!"/" ++ id))) := by
  have hf : (some x).filter (fun s => decide (s ≠ [])) = some x := by simp [hx]
  unfold supportDir supportBase
  simp only [hf]

theorem supportDir_home {xdg : Option Bytes} {x : Bytes} (id : Bytes) (d : Dirs) (hg : xdg = none ∨ xdg = some []) (hx : x ≠ []) :
    supportDir xdg (some x) id d = (mkdir (mkdir (mkdir d (clip (x ++ b!"/.config/apex"))) (clip (x ++ b!"/.config/apex/support"))) (clip (clip (x ++ b!"/.config/apex/support") ++ b!"/" ++ id)),
      some (clip (clip (x ++ b!"/.config/apex/support") ++ b!"/" ++ id))) := by
  have hf : (some x).filter (fun s => decide (s ≠ [])) = some x := by simp [hx]
  have hn : xdg.filter (fun s => decide (s ≠ [])) = none := by
    rcases hg with rfl | rfl <;> rfl
  unfold supportDir supportBase
  simp only [hf, hn]

end Verif.Bundles
