import Verif.Spec.ListPlugins
import Verif.Proof.Bundles
import Verif.Proof.Install

namespace Verif.ListPlugins
open Spec
open Metadata (Meta)
open Plugins (lastValue)
open Install (clip clip_short)

theorem last_cons (x : Bytes × Bytes) (m : Meta) (k : Bytes) :
    lastValue (x :: m) [k] = (lastValue m [k]).or (if x.1 = k then some x.2 else none) := by
  have h := Bundles.lastValue_append [x] m [k]
  rw [List.singleton_append] at h
  rw [h]
  congr 1
  unfold lastValue
  by_cases e : x.1 = k
  · simp [e]
  · simp [e]

theorem last_iff (m : Meta) (k : Bytes) : ∀ v, lastValue m [k] = v ↔ Last m k v := by
  induction m with
  | nil =>
    intro v
    cases v with
    | none => simp [lastValue, Last]
    | some w => simp [lastValue, Last]
  | cons x m ih =>
    intro v
    rw [last_cons]
    cases hm : lastValue m [k] with
    | some u =>
      obtain ⟨a, b, e, hb⟩ := (ih (some u)).mp hm
      rw [Option.some_or]
      cases v with
      | none =>
        simp only [reduceCtorEq, false_iff, Last]
        intro h
        exact h (k, u) (by simp [e]) rfl
      | some w =>
        simp only [Option.some.injEq]
        constructor
        · rintro rfl
          exact ⟨x :: a, b, by simp [e], hb⟩
        · rintro ⟨a', b', e', hb'⟩
          cases a' with
          | nil =>
            simp only [List.nil_append, List.cons.injEq] at e'
            exact absurd rfl (hb' (k, u) (by rw [← e'.2, e]; simp))
          | cons y a' =>
            simp only [List.cons_append, List.cons.injEq] at e'
            have := (ih (some w)).mpr ⟨a', b', e'.2, hb'⟩
            rw [hm] at this
            simpa using this
    | none =>
      have hn : ∀ y ∈ m, y.1 ≠ k := (ih none).mp hm
      rw [Option.none_or]
      by_cases hx : x.1 = k
      · rw [if_pos hx]
        cases v with
        | none =>
          simp only [reduceCtorEq, false_iff, Last]
          exact fun h => h x (by simp) hx
        | some w =>
          simp only [Option.some.injEq]
          constructor
          · intro e
            refine ⟨[], m, ?_, hn⟩
            rw [← hx, ← e]
            rfl
          · rintro ⟨a, b, e, hb⟩
            cases a with
            | nil => simp only [List.nil_append, List.cons.injEq] at e; rw [e.1]
            | cons y a =>
              simp only [List.cons_append, List.cons.injEq] at e
              exact absurd rfl (hn (k, w) (by rw [e.2]; simp))
      · rw [if_neg hx]
        cases v with
        | none =>
          simp only [true_iff, Last]
          intro y hy
          rcases List.mem_cons.mp hy with rfl | hy
          · exact hx
          · exact hn y hy
        | some w =>
          simp only [reduceCtorEq, false_iff]
          rintro ⟨a, b, e, hb⟩
          have : (k, w) ∈ x :: m := by rw [e]; simp
          rcases List.mem_cons.mp this with h | h
          · exact hx (by rw [← h])
          · exact hn _ h rfl

theorem describes_iff (name : Bytes) (m : Meta) (i : Item) : item name m = i ↔ Describes name m i := by
  obtain ⟨id, ti, au, de, ho⟩ := i
  unfold Describes item
  simp only [Item.mk.injEq, ← last_iff]
  refine and_congr ?_ Iff.rfl
  cases lastValue m [b!"id"] with
  | none => simp [eq_comm]
  | some w => simp

theorem hidden_iff (name : Bytes) : name.head? = some c!"." ↔ ∃ s, name = c!"." :: s := by
  cases name with
  | nil => simp
  | cons c s => simp

theorem read_iff {k : Disk} {load : Bytes → Meta} {root name : Bytes} (h : (root ++ b!"/" ++ name).length < 1200) (i : Item) :
    read k load root name = some i ↔ Plugin k load root name i := by
  unfold read Plugin
  have h1 : (root ++ b!"/" ++ name ++ b!"/plugin.yml").length < 1300 := by
    rw [List.length_append]
    have : (b!"/plugin.yml").length = 11 := by decide
    omega
  have h2 : (root ++ b!"/" ++ name ++ b!"/plugin.yaml").length < 1300 := by
    rw [List.length_append]
    have : (b!"/plugin.yaml").length = 12 := by decide
    omega
  simp only [clip_short h, clip_short h1, clip_short h2]
  by_cases hd : name.head? = some c!"."
  · obtain ⟨s, hs⟩ := (hidden_iff name).mp hd
    rw [if_pos hd]
    simp only [reduceCtorEq, false_iff]
    exact fun x => x.1 s hs
  · rw [if_neg hd]
    have hn : ∀ s, name ≠ c!"." :: s := fun s hs => hd ((hidden_iff name).mpr ⟨s, hs⟩)
    by_cases hk : k.dir (root ++ b!"/" ++ name) = some true
    · rw [if_pos hk]
      have key : ∀ s : Bytes, ((if load s = [] then none else some (item name (load s))) = some i ↔ load s ≠ [] ∧ Describes name (load s) i) := by
        intro s
        split
        · rename_i e; simp [e]
        · rename_i e
          rw [Option.some.injEq, describes_iff]
          simp [e]
      cases h3 : k.file (root ++ b!"/" ++ name ++ b!"/plugin.yml") with
      | some s =>
        simp only [Option.some_or, key]
        constructor
        · exact fun h => ⟨hn, hk, s, .inl rfl, h⟩
        · rintro ⟨_, _, t, e | ⟨e, _⟩, h⟩
          · cases e; exact h
          · cases e
      | none =>
        cases h4 : k.file (root ++ b!"/" ++ name ++ b!"/plugin.yaml") with
        | some s =>
          simp only [Option.none_or, key]
          constructor
          · exact fun h => ⟨hn, hk, s, .inr (by simp), h⟩
          · rintro ⟨_, _, t, e | ⟨_, e⟩, h⟩
            · cases e
            · cases e; exact h
        | none =>
          simp only [Option.none_or, reduceCtorEq, false_iff]
          rintro ⟨_, _, t, e | ⟨_, e⟩, h⟩ <;> cases e
    · rw [if_neg hk]
      simp only [reduceCtorEq, false_iff]
      exact fun x => hk x.2.1

/-! ### Items with new ids -/

theorem any_iff (l : List Item) (i : Item) : (l.any fun j => j.id = i.id) = true ↔ ∃ j ∈ l, j.id = i.id := by
  rw [List.any_eq_true]
  simp only [decide_eq_true_eq]

theorem fold_mem (new : List Item) : ∀ (l : List Item) (i : Item), i ∈ new.foldl add l ↔
    i ∈ l ∨ (∀ j ∈ l, j.id ≠ i.id) ∧ ∃ x y, new = x ++ i :: y ∧ ∀ j ∈ x, j.id ≠ i.id := by
  induction new with
  | nil => intro l i; simp
  | cons n new ih =>
    intro l i
    rw [List.foldl_cons, ih]
    unfold add
    split
    · rename_i h
      obtain ⟨j, hj, e⟩ := (any_iff l n).mp h
      constructor
      · rintro (h | ⟨h1, x, y, rfl, h2⟩)
        · exact .inl h
        · refine .inr ⟨h1, n :: x, y, rfl, ?_⟩
          intro j' hj'
          rcases List.mem_cons.mp hj' with rfl | hj'
          · rw [← e]; exact h1 j hj
          · exact h2 j' hj'
      · rintro (h | ⟨h1, x, y, e', h2⟩)
        · exact .inl h
        · cases x with
          | nil =>
            simp only [List.nil_append, List.cons.injEq] at e'
            rw [e'.1] at e
            exact absurd e (h1 j hj)
          | cons x0 x =>
            simp only [List.cons_append, List.cons.injEq] at e'
            exact .inr ⟨h1, x, y, e'.2, fun j hj => h2 j (List.mem_cons_of_mem _ hj)⟩
    · rename_i h
      rw [any_iff] at h
      have h' : ∀ j ∈ l, j.id ≠ n.id := fun j hj e => h ⟨j, hj, e⟩
      constructor
      · rintro (h1 | ⟨h1, x, y, rfl, h2⟩)
        · rcases List.mem_append.mp h1 with h1 | h1
          · exact .inl h1
          · rw [List.mem_singleton] at h1
            subst h1
            exact .inr ⟨h', [], new, rfl, by simp⟩
        · refine .inr ⟨fun j hj => h1 j (by simp [hj]), n :: x, y, rfl, ?_⟩
          intro j hj
          rcases List.mem_cons.mp hj with rfl | hj
          · exact h1 j (by simp)
          · exact h2 j hj
      · rintro (h1 | ⟨h1, x, y, e', h2⟩)
        · exact .inl (by simp [h1])
        · cases x with
          | nil =>
            simp only [List.nil_append, List.cons.injEq] at e'
            exact .inl (by simp [e'.1])
          | cons x0 x =>
            simp only [List.cons_append, List.cons.injEq] at e'
            refine .inr ⟨?_, x, y, e'.2, fun j hj => h2 j (List.mem_cons_of_mem _ hj)⟩
            intro j hj
            rcases List.mem_append.mp hj with hj | hj
            · exact h1 j hj
            · rw [List.mem_singleton] at hj
              rw [hj, e'.1]
              exact h2 x0 (by simp)

theorem fold_ids (new : List Item) : ∀ (l : List Item) (w : Bytes), (∃ j ∈ new.foldl add l, j.id = w) ↔ (∃ j ∈ l, j.id = w) ∨ ∃ j ∈ new, j.id = w := by
  induction new with
  | nil => intro l w; simp
  | cons n new ih =>
    intro l w
    rw [List.foldl_cons, ih]
    unfold add
    split
    · rename_i h
      obtain ⟨j, hj, e⟩ := (any_iff l n).mp h
      constructor
      · rintro (h | ⟨j', hj', e'⟩)
        · exact .inl h
        · exact .inr ⟨j', by simp [hj'], e'⟩
      · rintro (h | ⟨j', hj', e'⟩)
        · exact .inl h
        · rcases List.mem_cons.mp hj' with rfl | hj'
          · exact .inl ⟨j, hj, e.trans e'⟩
          · exact .inr ⟨j', hj', e'⟩
    · constructor
      · rintro (⟨j, hj, e⟩ | ⟨j, hj, e⟩)
        · rcases List.mem_append.mp hj with hj | hj
          · exact .inl ⟨j, hj, e⟩
          · rw [List.mem_singleton] at hj
            exact .inr ⟨j, by simp [hj], e⟩
        · exact .inr ⟨j, by simp [hj], e⟩
      · rintro (⟨j, hj, e⟩ | ⟨j, hj, e⟩)
        · exact .inl ⟨j, by simp [hj], e⟩
        · rcases List.mem_cons.mp hj with rfl | hj
          · exact .inl ⟨j, by simp, e⟩
          · exact .inr ⟨j, hj, e⟩

theorem fold_nodup (new : List Item) : ∀ (l : List Item), (l.map (·.id)).Nodup → ((new.foldl add l).map (·.id)).Nodup := by
  induction new with
  | nil => exact fun l h => h
  | cons n new ih =>
    intro l h
    rw [List.foldl_cons]
    apply ih
    unfold add
    split
    · exact h
    · rename_i hn
      rw [any_iff] at hn
      rw [List.map_append, List.nodup_append]
      refine ⟨h, by simp, ?_⟩
      intro a ha b hb
      obtain ⟨j, hj, rfl⟩ := List.mem_map.mp ha
      simp only [List.map_cons, List.map_nil, List.mem_singleton] at hb
      rw [hb]
      exact fun e => hn ⟨j, hj, e⟩

/-- Items whose ids are all there change nothing. -/
theorem fold_same (new : List Item) : ∀ (l : List Item), (∀ i ∈ new, ∃ j ∈ l, j.id = i.id) → new.foldl add l = l := by
  induction new with
  | nil => exact fun l _ => rfl
  | cons n new ih =>
    intro l h
    rw [List.foldl_cons]
    have e : add l n = l := by
      unfold add
      rw [if_pos ((any_iff l n).mpr (h n (by simp)))]
    rw [e]
    exact ih l fun i hi => h i (by simp [hi])

theorem filterMap_split {α β : Type} (f : α → Option β) (l : List α) (x : List β) (i : β) (y : List β) :
    l.filterMap f = x ++ i :: y → ∃ a n b, l = a ++ n :: b ∧ f n = some i ∧ a.filterMap f = x := by
  intro h
  obtain ⟨a, l', rfl, ha, hl'⟩ := List.filterMap_eq_append_iff.mp h
  obtain ⟨a', n, b, rfl, ha', hn, _⟩ := List.filterMap_eq_cons_iff.mp hl'
  refine ⟨a ++ a', n, b, by simp, hn, ?_⟩
  rw [List.filterMap_append, ha, List.filterMap_eq_nil_iff.mpr ha', List.append_nil]

/-- The names of a directory. -/
theorem collect_mem {k : Disk} {load : Bytes → Meta} {root : Bytes} (l : List Item) (i : Item) : i ∈ collect k load l root ↔
    i ∈ l ∨ (∀ j ∈ l, j.id ≠ i.id) ∧ ∃ x n y, k.names root = some (x ++ n :: y) ∧ read k load root n = some i ∧
      ∀ n' ∈ x, ∀ j, read k load root n' = some j → j.id ≠ i.id := by
  unfold collect
  rw [fold_mem]
  refine or_congr Iff.rfl (and_congr Iff.rfl ?_)
  constructor
  · rintro ⟨x, y, e, h⟩
    obtain ⟨a, n, b, e', hn, rfl⟩ := filterMap_split _ _ _ _ _ e
    cases hk : k.names root with
    | none => rw [hk] at e'; simp at e'
    | some names =>
      rw [hk] at e'
      simp only [Option.getD_some] at e'
      exact ⟨a, n, b, by rw [e'], hn, fun n' hn' j hj => h j (List.mem_filterMap.mpr ⟨n', hn', hj⟩)⟩
  · rintro ⟨x, n, y, e, hn, h⟩
    refine ⟨x.filterMap (read k load root), y.filterMap (read k load root), ?_, ?_⟩
    · rw [e]
      simp only [Option.getD_some, List.filterMap_append, List.filterMap_cons, hn]
    · intro j hj
      obtain ⟨n', hn', e'⟩ := List.mem_filterMap.mp hj
      exact h n' hn' j e'

theorem collect_ids {k : Disk} {load : Bytes → Meta} {root : Bytes} (l : List Item) (w : Bytes) : (∃ j ∈ collect k load l root, j.id = w) ↔
    (∃ j ∈ l, j.id = w) ∨ ∃ names, k.names root = some names ∧ ∃ n ∈ names, ∃ j, read k load root n = some j ∧ j.id = w := by
  unfold collect
  rw [fold_ids]
  refine or_congr Iff.rfl ?_
  constructor
  · rintro ⟨j, hj, e⟩
    obtain ⟨n, hn, hr⟩ := List.mem_filterMap.mp hj
    cases hk : k.names root with
    | none => rw [hk] at hn; simp at hn
    | some names =>
      rw [hk] at hn
      exact ⟨names, rfl, n, hn, j, hr, e⟩
  · rintro ⟨names, hk, n, hn, j, hr, e⟩
    exact ⟨j, List.mem_filterMap.mpr ⟨n, by rw [hk]; exact hn, hr⟩, e⟩

theorem installed_mem {k : Disk} {load : Bytes → Meta} (dirs : List Bytes) : ∀ (l : List Item) (i : Item), i ∈ dirs.foldl (collect k load) l ↔
    i ∈ l ∨ (∀ j ∈ l, j.id ≠ i.id) ∧ ∃ a d b x n y, dirs = a ++ d :: b ∧ k.names d = some (x ++ n :: y) ∧ read k load d n = some i ∧
      (∀ d' ∈ a, ∀ l', k.names d' = some l' → ∀ n' ∈ l', ∀ j, read k load d' n' = some j → j.id ≠ i.id) ∧
      ∀ n' ∈ x, ∀ j, read k load d n' = some j → j.id ≠ i.id := by
  induction dirs with
  | nil => intro l i; simp
  | cons d0 dirs ih =>
    intro l i
    rw [List.foldl_cons, ih, collect_mem]
    have hids : (∀ j ∈ collect k load l d0, j.id ≠ i.id) ↔ (∀ j ∈ l, j.id ≠ i.id) ∧
        ∀ l', k.names d0 = some l' → ∀ n' ∈ l', ∀ j, read k load d0 n' = some j → j.id ≠ i.id := by
      have h := @collect_ids k load d0 l i.id
      constructor
      · intro hc
        refine ⟨fun j hj e => ?_, fun l' hl n' hn' j hj e => ?_⟩
        · obtain ⟨j', hj', e'⟩ := h.mpr (.inl ⟨j, hj, e⟩)
          exact hc j' hj' e'
        · obtain ⟨j', hj', e'⟩ := h.mpr (.inr ⟨l', hl, n', hn', j, hj, e⟩)
          exact hc j' hj' e'
      · rintro ⟨h1, h2⟩ j hj e
        rcases h.mp ⟨j, hj, e⟩ with ⟨j', hj', e'⟩ | ⟨l', hl, n', hn', j', hj', e'⟩
        · exact h1 j' hj' e'
        · exact h2 l' hl n' hn' j' hj' e'
    rw [hids]
    constructor
    · rintro ((h | ⟨h1, x, n, y, h2, h3, h4⟩) | ⟨⟨h1, h2⟩, a, d, b, x, n, y, rfl, h4, h5, h6, h7⟩)
      · exact .inl h
      · exact .inr ⟨h1, [], d0, dirs, x, n, y, rfl, h2, h3, by simp, h4⟩
      · refine .inr ⟨h1, d0 :: a, d, b, x, n, y, rfl, h4, h5, ?_, h7⟩
        intro d' hd'
        rcases List.mem_cons.mp hd' with rfl | hd'
        · exact h2
        · exact h6 d' hd'
    · rintro (h | ⟨h1, a, d, b, x, n, y, e, h4, h5, h6, h7⟩)
      · exact .inl (.inl h)
      · cases a with
        | nil =>
          simp only [List.nil_append, List.cons.injEq] at e
          obtain ⟨rfl, rfl⟩ := e
          exact .inl (.inr ⟨h1, x, n, y, h4, h5, h7⟩)
        | cons a0 a =>
          simp only [List.cons_append, List.cons.injEq] at e
          obtain ⟨rfl, rfl⟩ := e
          exact .inr ⟨⟨h1, h6 d0 (by simp)⟩, a, d, b, x, n, y, rfl, h4, h5, fun d' hd' => h6 d' (by simp [hd']), h7⟩

theorem installed_nodup {k : Disk} {load : Bytes → Meta} (dirs : List Bytes) : ∀ (l : List Item), (l.map (·.id)).Nodup →
    ((dirs.foldl (collect k load) l).map (·.id)).Nodup := by
  induction dirs with
  | nil => exact fun l h => h
  | cons d dirs ih => exact fun l h => ih _ (fold_nodup _ l h)

/-- A directory that has been read changes nothing when it is read again. -/
theorem collect_again {k : Disk} {load : Bytes → Meta} (d : Bytes) (l : List Item) : collect k load (collect k load l d) d = collect k load l d := by
  show (((k.names d).getD []).filterMap (read k load d)).foldl add (collect k load l d) = _
  apply fold_same
  intro i hi
  obtain ⟨n, hn, hr⟩ := List.mem_filterMap.mp hi
  cases hk : k.names d with
  | none => rw [hk] at hn; simp at hn
  | some names =>
    rw [hk] at hn
    exact (collect_ids l i.id).mpr (.inr ⟨names, hk, n, hn, i, hr, rfl⟩)

/-! ### The directories -/

/-- The directory of the repository, if the current directory is inside. -/
def inside (cwd git : Option Bytes) : List Bytes :=
  match git, cwd with
  | some g, some d => if g.isPrefixOf d ∧ (d.drop g.length = [] ∨ (d.drop g.length).head? = some c!"/") then [g] else []
  | _, _ => []

theorem roots_eq (cwd base git : Option Bytes) (user : Bytes) : roots cwd base git user =
    (cwd.toList ++ base.toList ++ inside cwd git).map (fun d => clip 1200 (d ++ b!"/.apex/plugins")) ++ [user] := by
  unfold roots inside
  cases cwd <;> cases base <;> cases git <;> simp <;> split <;> rfl

theorem search_eq (cwd base git xdg home : Option Bytes) (user : Bytes)
    (hu : (∃ x, xdg = some x ∧ user = x ++ b!"/apex/plugins") ∨ xdg = none ∧ ∃ x, home = some x ∧ user = x ++ b!"/.config/apex/plugins") :
    Plugins.searchDirs cwd base git xdg home =
      (cwd.toList ++ base.toList ++ if base = git then [] else inside cwd git).map (fun d => Plugins.join d b!".apex/plugins") ++ [user] := by
  unfold Plugins.searchDirs inside
  rcases hu with ⟨x, rfl, rfl⟩ | ⟨rfl, x, rfl, rfl⟩ <;> cases cwd <;> cases base <;> cases git <;> simp <;> split <;> (try split) <;> simp_all

end Verif.ListPlugins
