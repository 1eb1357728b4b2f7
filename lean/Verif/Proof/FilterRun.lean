/- Lemmas about the commands for filters. -/
import Verif.Spec.FilterRun
import Verif.Proof.Install

namespace Verif.FilterRun
open Install (clip quote clip_short)
open Install.Spec (Safe)
open Spec

theorem root_eq {xdg home : Option Bytes} {root : Bytes} (h : Root xdg home root) (hl : root.length < 1024) : rootOf xdg home = some root := by
  rcases h with ⟨x, hx, rfl, rfl⟩ | ⟨hx, h, hh, rfl, rfl⟩
  · unfold rootOf
    rw [show (some x).filter (· ≠ []) = some x by simp [Option.filter, hx]]
    simp only
    rw [clip_short hl]
  · unfold rootOf
    have e : xdg.filter (· ≠ []) = none := by rcases hx with rfl | rfl <;> simp [Option.filter]
    rw [e, show (some h).filter (· ≠ []) = some h by simp [Option.filter, hh]]
    simp only
    rw [clip_short hl]

/-- The first element with a property. -/
theorem find_first {l : List Bytes} {stat : Stat} {p : Bytes} :
    (l.find? fun p => stat p = some .reg) = some p ↔ ∃ a b, l = a ++ p :: b ∧ stat p = some .reg ∧ ∀ x ∈ a, stat x ≠ some .reg := by
  rw [List.find?_eq_some_iff_append]
  simp only [decide_eq_true_eq, Bool.not_eq_eq_eq_not, Bool.not_true, decide_eq_false_iff_not]
  constructor
  · rintro ⟨h, a, b, e, hn⟩
    exact ⟨a, b, e, h, hn⟩
  · rintro ⟨a, b, e, h, hn⟩
    exact ⟨h, a, b, e, hn⟩

theorem resolve_find {stat : Stat} {root name : Bytes} (hl : root.length + 2 * name.length ≤ 1100) :
    resolve stat root name = (candidates (stat (root ++ b!"/" ++ name) = some .dir) root name).find? fun p => stat p = some .reg := by
  have h0 : clip 1200 (root ++ b!"/" ++ name) = root ++ b!"/" ++ name := clip_short (by simp; omega)
  have h1 : ∀ e ∈ exts, clip 1400 (root ++ b!"/" ++ name ++ e) = root ++ b!"/" ++ name ++ e := by
    intro e he
    refine clip_short ?_
    have : e.length ≤ 4 := by revert e; decide
    simp
    omega
  have h2 : ∀ e ∈ ([] :: exts), clip 1400 (root ++ b!"/" ++ name ++ b!"/" ++ name ++ e) = root ++ b!"/" ++ name ++ b!"/" ++ name ++ e := by
    intro e he
    refine clip_short ?_
    have : e.length ≤ 4 := by revert e; decide
    simp
    omega
  unfold resolve
  simp only [h0]
  rw [List.map_congr_left h1, List.map_congr_left h2]
  unfold candidates
  simp only [exts, List.map_cons, List.map_nil, List.append_nil]
  rw [List.find?_append]
  by_cases hr : stat (root ++ b!"/" ++ name) = some .reg
  · rw [if_pos hr, List.find?_cons_of_pos (by simpa using hr)]
    rfl
  · rw [if_neg hr, List.find?_cons_of_neg (a := root ++ b!"/" ++ name) (by rw [decide_eq_true_eq]; exact hr)]
    cases List.find? (fun p => decide (stat p = some Kind.reg)) [root ++ b!"/" ++ name ++ b!".lua", root ++ b!"/" ++ name ++ b!".py", root ++ b!"/" ++ name ++ b!".rb"] with
    | some p => rfl
    | none =>
      simp only [Option.none_or]
      split <;> simp

theorem resolve_iff {stat : Stat} {root name p : Bytes} (hl : root.length + 2 * name.length ≤ 1100) : resolve stat root name = some p ↔ Script stat root name p := by
  rw [resolve_find hl]
  exact find_first

/-- A script is below the directory. -/
theorem script_form {stat : Stat} {root name p : Bytes} (h : Script stat root name p) : ∃ e ∈ ([] :: exts), p = root ++ b!"/" ++ name ++ e ∨ p = root ++ b!"/" ++ name ++ b!"/" ++ name ++ e := by
  obtain ⟨a, b, e, _⟩ := h
  have hm : p ∈ candidates (stat (root ++ b!"/" ++ name) = some .dir) root name := by rw [e]; simp
  unfold candidates at hm
  rcases List.mem_append.mp hm with hm | hm
  · simp only [List.mem_cons, List.not_mem_nil, or_false] at hm
    rcases hm with rfl | rfl | rfl | rfl
    · exact ⟨[], by decide, .inl (by simp)⟩
    · exact ⟨b!".lua", by decide, .inl rfl⟩
    · exact ⟨b!".py", by decide, .inl rfl⟩
    · exact ⟨b!".rb", by decide, .inl rfl⟩
  · split at hm
    · simp only [List.mem_cons, List.not_mem_nil, or_false] at hm
      rcases hm with rfl | rfl | rfl | rfl
      · exact ⟨[], by decide, .inr (by simp)⟩
      · exact ⟨b!".lua", by decide, .inr rfl⟩
      · exact ⟨b!".py", by decide, .inr rfl⟩
      · exact ⟨b!".rb", by decide, .inr rfl⟩
    · cases hm

theorem bare_safe {s : Bytes} (h : ∀ c ∈ s, Bare c) : Safe s := by
  intro c hc
  have := h c hc
  unfold Bare at this
  revert this
  unfold Install.Spec.Plain
  exact of_decide_eq_true (forall_byte (p := fun c => decide ((isAlnum c = true ∨ c ∈ b!"/._-+") → c ≠ c!"\"" ∧ c ≠ c!"$" ∧ c ≠ 96 ∧ c ≠ 92)) (by decide +kernel) c)

theorem script_bare {stat : Stat} {root name p : Bytes} (h : Script stat root name p) (hb : ∀ c ∈ root ++ name, Bare c) : (∀ c ∈ p, Bare c) ∧ p ≠ [] := by
  have he : ∀ e ∈ ([] :: exts), ∀ c ∈ e, isAlnum c = true ∨ c ∈ b!"/._-+" := by decide +kernel
  have hsl : Bare c!"/" := .inr (by decide)
  obtain ⟨e, hm, hp⟩ := script_form h
  constructor
  · intro c hc
    rcases hp with rfl | rfl
    · simp only [List.mem_append, List.mem_singleton] at hc
      rcases hc with ((hc | rfl) | hc) | hc
      · exact hb c (by simp [hc])
      · exact hsl
      · exact hb c (by simp [hc])
      · exact he e hm c hc
    · simp only [List.mem_append, List.mem_singleton] at hc
      rcases hc with ((((hc | rfl) | hc) | rfl) | hc) | hc
      · exact hb c (by simp [hc])
      · exact hsl
      · exact hb c (by simp [hc])
      · exact hsl
      · exact hb c (by simp [hc])
      · exact he e hm c hc
  · rcases hp with rfl | rfl <;> simp

theorem script_length {stat : Stat} {root name p : Bytes} (h : Script stat root name p) : p.length ≤ root.length + 2 * name.length + 6 := by
  obtain ⟨e, hm, hp⟩ := script_form h
  have : e.length ≤ 4 := by clear hp; revert e; decide
  rcases hp with rfl | rfl <;> simp <;> omega

theorem lua_line {s : Bytes} (hs : Safe s) (hl : s.length ≤ 1393) : Line (lua s) [b!"lua", s] := by
  unfold lua quote
  rw [clip_short (by simp; omega)]
  have hb : ∀ c ∈ b!"lua", isAlnum c = true ∨ c ∈ b!"/._-+" := by decide
  exact .more (t := b!"lua") (.bare (by decide) hb) (.one (.quoted hs))

theorem command_line {p : Bytes} (hb : ∀ c ∈ p, Bare c) (h0 : p ≠ []) (h4 : p ≠ b!".lua") (hl : p.length ≤ 1393) : Line (command p) (call p) := by
  unfold command call
  by_cases hs : b!".lua" <:+ p
  · have : p.length > 4 := by
      obtain ⟨t, rfl⟩ := hs
      cases t with
      | nil => exact absurd rfl h4
      | cons c t => simp
    rw [if_pos ⟨this, hs⟩, if_pos hs]
    exact lua_line (bare_safe hb) hl
  · rw [if_neg (fun h => hs h.2), if_neg hs]
    exact .one (.bare h0 hb)

theorem named_eq {stat : Stat} {root : Bytes} : ∀ {l : List (Bytes × Bytes)}, (∀ x ∈ l, resolve stat root x.1 = some x.2) →
    named stat root (l.map (·.1)) = some (l.map fun x => command x.2)
  | [], _ => rfl
  | x :: l, h => by
    simp only [List.map_cons, named]
    rw [h x (by simp), named_eq fun y hy => h y (by simp [hy])]
    rfl

theorem named_none {stat : Stat} {root n : Bytes} (hn : resolve stat root n = none) : ∀ {names : List Bytes}, n ∈ names → named stat root names = none
  | m :: ns, h => by
    rw [named]
    cases hr : resolve stat root m with
    | none => rfl
    | some p =>
      rcases List.mem_cons.mp h with rfl | h
      · rw [hn] at hr; cases hr
      · simp only [named_none hn h, Option.map_none]

end Verif.FilterRun
