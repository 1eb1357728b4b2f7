import Verif.Spec.PluginDirs

namespace Verif.PluginDirs
open Spec
open Bundles (clip)

theorem front_iff (k : Disk) (p : Bytes) : front k p = true ↔ Begins k p := by
  unfold front Begins
  cases k.file p with
  | none => simp
  | some s =>
    simp only [Option.any_some, List.isPrefixOf_iff_prefix, Option.some.injEq]
    exact ⟨fun ⟨t, h⟩ => ⟨t, h.symm⟩, fun ⟨t, h⟩ => ⟨t, h.symm⟩⟩

theorem yaml_iff (name : Bytes) : yaml name = true ↔ ∃ s, s ≠ [] ∧ (name = s ++ b!".yml" ∨ name = s ++ b!".yaml") := by
  unfold yaml
  simp only [Bool.or_eq_true, Bool.and_eq_true, decide_eq_true_eq, List.isSuffixOf_iff_suffix]
  constructor
  · rintro (⟨h1, s, rfl⟩ | ⟨h1, s, rfl⟩)
    · exact ⟨s, by rintro rfl; simp at h1, .inl rfl⟩
    · exact ⟨s, by rintro rfl; simp at h1, .inr rfl⟩
  · rintro ⟨s, hs, rfl | rfl⟩
    · exact .inl ⟨by have := List.length_pos_iff.mpr hs; simp; omega, s, rfl⟩
    · exact .inr ⟨by have := List.length_pos_iff.mpr hs; simp; omega, s, rfl⟩

theorem clip_short {s : Bytes} (h : s.length < 1024) : clip s = s := List.take_of_length_le (by omega)

theorem manifest_iff {k : Disk} {dir name : Bytes} (h : (dir ++ b!"/" ++ name ++ b!"/plugin.yaml").length < 1024) (path : Bytes) :
    manifest k dir name = some path ↔ Manifest k dir name path := by
  have h1 : (dir ++ b!"/" ++ name).length < 1024 := by rw [List.length_append] at h; omega
  have h2 : (dir ++ b!"/" ++ name ++ b!"/plugin.yml").length < 1024 := by
    rw [List.length_append] at h ⊢
    simp only [List.length_cons, List.length_nil] at h ⊢
    omega
  have hd : name.head? = some c!"." ↔ ¬ ∀ s, name ≠ c!"." :: s := by
    cases name with
    | nil => simp
    | cons c s => simp
  unfold manifest Manifest
  simp only [clip_short h, clip_short h1, clip_short h2]
  generalize dir ++ b!"/" ++ name = p
  by_cases hn : name.head? = some c!"."
  · rw [if_pos hn]
    exact ⟨fun e => (by cases e), fun e => absurd e.1 (hd.mp hn)⟩
  rw [if_neg hn]
  have hn' : ∀ s, name ≠ c!"." :: s := Classical.not_not.mp (fun e => hn (hd.mpr e))
  cases hp : k.dir p with
  | none => simp
  | some b =>
    cases b with
    | true =>
      simp only
      by_cases hy : front k (p ++ b!"/plugin.yml") = true
      · rw [if_pos hy]
        have hy' := (front_iff _ _).mp hy
        constructor
        · intro e
          cases e
          exact ⟨hn', hy', .inl ⟨by trivial, rfl⟩⟩
        · rintro ⟨_, _, ⟨_, rfl⟩ | ⟨_, hno, _⟩ | ⟨hno, _⟩⟩
          · rfl
          · exact absurd hy' hno
          · cases hno
      · rw [if_neg hy]
        have hy' : ¬ Begins k (p ++ b!"/plugin.yml") := fun e => hy ((front_iff _ _).mpr e)
        constructor
        · intro e
          split at e
          · rename_i hf
            cases e
            exact ⟨hn', (front_iff _ _).mp hf, .inr (.inl ⟨by trivial, hy', rfl⟩)⟩
          · cases e
        · rintro ⟨_, hb, ⟨_, rfl⟩ | ⟨_, hno, rfl⟩ | ⟨hno, _⟩⟩
          · exact absurd hb hy'
          · rw [if_pos ((front_iff _ _).mpr hb)]
          · cases hno
    | false =>
      simp only
      constructor
      · intro e
        split at e
        · rename_i hf
          cases e
          rw [Bool.and_eq_true] at hf
          exact ⟨hn', (front_iff _ _).mp hf.2, .inr (.inr ⟨by trivial, rfl, (yaml_iff _).mp hf.1⟩)⟩
        · cases e
      · rintro ⟨_, hb, ⟨hno, _⟩ | ⟨hno, _⟩ | ⟨_, rfl, hy⟩⟩
        · cases hno
        · cases hno
        · rw [if_pos (by rw [Bool.and_eq_true]; exact ⟨(yaml_iff _).mpr hy, (front_iff _ _).mpr hb⟩)]

theorem clip_length (s : Bytes) : (clip s).length ≤ 1023 := by
  unfold clip
  rw [List.length_take]
  omega

theorem manifest_length {k : Disk} {dir name path : Bytes} (h : manifest k dir name = some path) : path.length ≤ 1023 := by
  unfold manifest at h
  simp only at h
  split at h
  · cases h
  split at h
  · cases h
  · split at h
    · cases h; exact clip_length _
    · split at h
      · cases h; exact clip_length _
      · cases h
  · split at h
    · cases h; exact clip_length _
    · cases h

/-! ### The repository -/

theorem fgets_line {s : Bytes} : ∀ {n : Nat} {r : Bytes}, c!"\n" ∉ s → s.length < n → fgets n (s ++ c!"\n" :: r) = s ++ b!"\n" := by
  induction s with
  | nil =>
    intro n r _ h
    obtain ⟨m, rfl⟩ : ∃ m, n = m + 1 := ⟨n - 1, by simp only [List.length_nil] at h; omega⟩
    simp [fgets]
  | cons c s ih =>
    intro n r hm h
    simp only [List.length_cons] at h
    simp only [List.mem_cons, not_or] at hm
    obtain ⟨m, rfl⟩ : ∃ m, n = m + 1 := ⟨n - 1, by omega⟩
    rw [List.cons_append, fgets, if_neg (fun e => hm.1 e.symm), ih hm.2 (by omega)]
    rfl

theorem fgets_cut {s : Bytes} : ∀ {n : Nat}, c!"\n" ∉ s.take n → n ≤ s.length → fgets n s = s.take n := by
  induction s with
  | nil => intro n _ h; cases n <;> simp [fgets]
  | cons c s ih =>
    intro n hm h
    cases n with
    | zero => simp [fgets]
    | succ m =>
      simp only [List.take_succ_cons, List.mem_cons, not_or] at hm
      simp only [List.length_cons] at h
      rw [fgets, if_neg (fun e => hm.1 e.symm), ih hm.2 (by omega)]
      rfl

theorem strip_line {s : Bytes} (h : ∀ c, s.getLast? = some c → c ∉ b!"\n\r") (t : Bytes) (ht : ∀ c ∈ t, c = c!"\n") :
    ((s ++ t).reverse.dropWhile fun c => c = c!"\n" || c = c!"\r").reverse = s := by
  rw [List.reverse_append]
  have h1 : ∀ c ∈ t.reverse, (decide (c = c!"\n") || decide (c = c!"\r")) = true := by
    intro c hc
    rw [ht c (by simpa using hc)]
    decide
  rw [List.dropWhile_append_of_pos h1]
  rcases List.eq_nil_or_concat s with hs | ⟨s', c, hs⟩
  · subst hs; rfl
  · rw [List.concat_eq_append] at hs
    subst hs
    have hc := h c (by simp)
    simp only [List.mem_cons, List.not_mem_nil, or_false, not_or] at hc
    rw [List.reverse_append]
    simp only [List.reverse_cons, List.reverse_nil, List.nil_append, List.cons_append, List.dropWhile_cons]
    rw [if_neg (by simp [hc.1, hc.2])]
    simp

end Verif.PluginDirs
