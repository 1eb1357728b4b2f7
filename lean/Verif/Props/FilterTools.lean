/- Theorems about removing and listing filters. -/
import Verif.Proof.FilterRun
import Verif.Spec.FilterTools

namespace Verif.FilterTools
open Install (clip quote clip_short)
open Install.Spec (Name Safe Word Words)
open FilterRun (Stat Kind exts)
open Spec

theorem first_some {l : List Bytes} {stat : Stat} {p : Bytes} {k : Kind} :
    (l.findSome? fun p => (stat p).map fun k => (p, k)) = some (p, k) ↔ ∃ a b, l = a ++ p :: b ∧ stat p = some k ∧ ∀ x ∈ a, stat x = none := by
  rw [List.findSome?_eq_some_iff]
  constructor
  · rintro ⟨a, q, b, e, hq, hn⟩
    obtain ⟨j, hj, hjk⟩ := Option.map_eq_some_iff.mp hq
    cases hjk
    exact ⟨a, b, e, hj, fun x hx => Option.map_eq_none_iff.mp (hn x hx)⟩
  · rintro ⟨a, b, e, h, hn⟩
    exact ⟨a, p, b, e, by rw [h]; rfl, fun x hx => by rw [hn x hx]; rfl⟩

theorem target_iff {stat : Stat} {root id p : Bytes} {k : Kind} (hl : root.length + id.length ≤ 1190) : target stat root id = some (p, k) ↔ Installed stat root id p k := by
  have h0 : clip 1200 (root ++ b!"/" ++ id) = root ++ b!"/" ++ id := clip_short (by simp; omega)
  have h1 : ∀ e ∈ exts, clip 1200 (root ++ b!"/" ++ id ++ e) = root ++ b!"/" ++ id ++ e := by
    intro e he
    refine clip_short ?_
    have : e.length ≤ 4 := by revert e; decide
    simp
    omega
  unfold Installed
  simp only
  rw [← first_some]
  unfold target
  rw [h0, List.map_congr_left h1]
  simp only [List.findSome?_cons, exts, List.map_cons, List.map_nil]
  cases stat (root ++ b!"/" ++ id) <;> rfl

/-! ### C267: removing a filter removes this filter and nothing else -/

/-- With the answer `y` exactly the file or directory of the filter is removed.  Missing: names that are paths, where it fails, and paths with bytes that are special between double quotes. -/
theorem C267_partial {stat : Stat} {root id p : Bytes} {k : Kind} (h : Installed stat root id p k) (hl : root.length + id.length ≤ 1190) (hs : Safe (root ++ id)) {c : Byte} (hc : c = c!"y" ∨ c = c!"Y") (s : Bytes) :
    ∃ a, remove stat root id (some (c :: s)) = some a ∧ Removes k p a := by
  have ht := (target_iff hl).mpr h
  have hp : Safe p ∧ p.length ≤ 1195 := by
    obtain ⟨a, b, e, _⟩ := h
    have hm : p ∈ [root ++ b!"/" ++ id, root ++ b!"/" ++ id ++ b!".lua", root ++ b!"/" ++ id ++ b!".py", root ++ b!"/" ++ id ++ b!".rb"] := by rw [e]; simp
    have hq : Safe (root ++ b!"/" ++ id) := Install.safe_at (Install.safe_append.mp hs).1 (Install.safe_append.mp hs).2
    have hx : ∀ e : Bytes, (∀ c ∈ e, c ∈ b!".luapyrb") → e.length ≤ 4 → Safe (root ++ b!"/" ++ id ++ e) ∧ (root ++ b!"/" ++ id ++ e).length ≤ 1195 := by
      intro e he hle
      refine ⟨Install.safe_append.mpr ⟨hq, fun c hc => ?_⟩, by simp; omega⟩
      have := he c hc
      revert this
      unfold Install.Spec.Plain
      exact of_decide_eq_true (forall_byte (p := fun c => decide (c ∈ b!".luapyrb" → c ≠ c!"\"" ∧ c ≠ c!"$" ∧ c ≠ 96 ∧ c ≠ 92)) (by decide +kernel) c)
    simp only [List.mem_cons, List.not_mem_nil, or_false] at hm
    rcases hm with rfl | rfl | rfl | rfl
    · exact ⟨hq, by simp; omega⟩
    · exact hx _ (by decide) (by decide)
    · exact hx _ (by decide) (by decide)
    · exact hx _ (by decide) (by decide)
  unfold remove
  rw [ht]
  simp only
  rw [if_pos hc]
  refine ⟨_, rfl, ?_⟩
  by_cases hk : k = .dir
  · rw [if_pos hk]
    refine ⟨hk, ?_⟩
    rw [clip_short (by simp [quote]; omega)]
    exact Install.words_two (.bare (by decide) (by decide)) (.bare (by decide) (by decide)) hp.1 (by simp)
  · rw [if_neg hk]
    exact ⟨hk, rfl⟩

/-- Without this answer, or without such a filter, nothing is removed. -/
theorem C267_kept (stat : Stat) (root id : Bytes) : remove stat root id none = none ∧ (∀ c s, c ≠ c!"y" → c ≠ c!"Y" → remove stat root id (some (c :: s)) = none) ∧
    ((∀ p k, ¬ Installed stat root id p k) → root.length + id.length ≤ 1190 → ∀ answer, remove stat root id answer = none) := by
  refine ⟨?_, ?_, ?_⟩
  · unfold remove
    split <;> rfl
  · intro c s h1 h2
    unfold remove
    split
    · rfl
    · simp [h1, h2]
  · intro h hl answer
    unfold remove
    cases ht : target stat root id with
    | none => rfl
    | some x => exact absurd ((target_iff hl).mp ht) (h x.1 x.2)

/-- The property fails: with an empty name all filters are removed, and with `..` all that is configured. -/
theorem C267_fails {stat : Stat} {root id : Bytes} (hi : id = [] ∨ id = b!"..") (hd : stat (root ++ b!"/" ++ id) = some .dir) (hl : root.length ≤ 1100) (hs : Safe root) :
    ∃ cmd, remove stat root id (some b!"y\n") = some (.run cmd) ∧ Words cmd [b!"rm", b!"-rf", root ++ b!"/" ++ id] := by
  have hsi : Safe (root ++ id) := by
    refine Install.safe_append.mpr ⟨hs, ?_⟩
    rcases hi with rfl | rfl
    · intro c hc; cases hc
    · intro c hc
      unfold Install.Spec.Plain
      revert c
      decide
  have hli : root.length + id.length ≤ 1190 := by rcases hi with rfl | rfl <;> simp <;> omega
  obtain ⟨a, ha, hr⟩ := C267_partial (stat := stat) (k := .dir) ⟨[], _, rfl, hd, by simp⟩ hli hsi (.inl rfl) b!"\n"
  cases a with
  | run cmd => exact ⟨cmd, ha, hr.2⟩
  | unlink q => exact absurd rfl hr.1

theorem C267_case : let stat : Stat := fun p => if p = b!"/f/a.lua" then some .reg else if p = b!"/f/b" ∨ p = b!"/f/" then some .dir else none
    remove stat b!"/f" b!"a" (some b!"y\n") = some (.unlink b!"/f/a.lua") ∧ remove stat b!"/f" b!"b" (some b!"Y\n") = some (.run b!"rm -rf \"/f/b\"") ∧
      remove stat b!"/f" b!"c" (some b!"y\n") = none ∧ remove stat b!"/f" b!"b" (some b!"no\n") = none ∧ remove stat b!"/f" b!"" (some b!"y\n") = some (.run b!"rm -rf \"/f/\"") := by decide +kernel

/-! ### C268: the list of filters says which are installed and which are not -/

/-- Up to 128 filters are all listed, and of the others those that have no file of their name.  Missing: more of them, and files with an extension, where it fails. -/
theorem C268_partial {entries : List Bytes} (h : entries.length ≤ 128) : (∀ n, n ∈ listed entries ↔ n ∈ entries ∧ Visible n) ∧
    ∀ (remote : List Remote.Entry) e, e ∈ available (listed entries) remote ↔ e ∈ remote ∧ ¬ (e.id ∈ entries ∧ Visible e.id) := by
  have h1 : ∀ n, n ∈ listed entries ↔ n ∈ entries ∧ Visible n := by
    intro n
    unfold listed Visible
    rw [List.take_of_length_le (Nat.le_trans (List.length_filter_le _ _) h), List.mem_filter]
    simp only [decide_eq_true_eq]
    constructor
    · rintro ⟨hm, a, b, c⟩
      exact ⟨hm, a, b, fun s e => c ⟨s, e.symm⟩⟩
    · rintro ⟨hm, a, b, c⟩
      exact ⟨hm, a, b, fun ⟨s, e⟩ => c s e.symm⟩
  refine ⟨h1, fun remote e => ?_⟩
  unfold available
  rw [List.mem_filter]
  simp only [decide_eq_true_eq, h1]

/-- Where there are installed filters, each of them has its line. -/
theorem C268_lines {entries : List Bytes} (h : entries.length ≤ 128) (hv : ∀ n ∈ entries, Visible n) (hne : entries ≠ []) (remote : List Remote.Entry) :
    ∃ rest, list entries remote = b!"## Installed Filters\n" ++ entries.flatMap (· ++ b!"\n") ++ b!"---\n## Available Filters\n" ++ rest := by
  have he : listed entries = entries := by
    unfold listed
    rw [List.filter_eq_self.mpr, List.take_of_length_le h]
    intro n hn
    have := hv n hn
    unfold Visible at this
    simp only [decide_eq_true_eq]
    exact ⟨this.1, this.2.1, fun ⟨s, e⟩ => this.2.2 s e.symm⟩
  unfold list
  rw [he, if_neg hne]
  exact ⟨_, rfl⟩

/-- The property fails: of more than 128 filters, one is not listed. -/
theorem C268_many_fails {entries : List Bytes} (hv : ∀ n ∈ entries, Visible n) (hn : entries.Nodup) (h : 128 < entries.length) : ∃ n ∈ entries, n ∉ listed entries := by
  have he : listed entries = entries.take 128 := by
    unfold listed
    rw [List.filter_eq_self.mpr]
    intro n hn
    have := hv n hn
    unfold Visible at this
    simp only [decide_eq_true_eq]
    exact ⟨this.1, this.2.1, fun ⟨s, e⟩ => this.2.2 s e.symm⟩
  refine ⟨entries[128], List.getElem_mem h, ?_⟩
  rw [he]
  intro hm
  obtain ⟨i, hi, e⟩ := List.mem_iff_getElem.mp hm
  rw [List.length_take] at hi
  rw [List.getElem_take] at e
  have := (List.getElem_inj hn).mp e
  omega

/-- The property fails: a filter that is installed as a file with an extension is run by its name and removed by its name, and listed as not installed. -/
theorem C268_extension_fails {stat : Stat} {root : Bytes} {entries : List Bytes} {remote : List Remote.Entry} {e : Remote.Entry} (he : e ∈ remote) (hn : e.id ∉ entries) (h0 : stat (root ++ b!"/" ++ e.id) = none)
    (h1 : stat (root ++ b!"/" ++ e.id ++ b!".lua") = some .reg) :
    FilterRun.Spec.Script stat root e.id (root ++ b!"/" ++ e.id ++ b!".lua") ∧ Installed stat root e.id (root ++ b!"/" ++ e.id ++ b!".lua") .reg ∧ e ∈ available (listed entries) remote := by
  refine ⟨⟨[root ++ b!"/" ++ e.id], _, rfl, h1, ?_⟩, ⟨[root ++ b!"/" ++ e.id], _, rfl, h1, ?_⟩, ?_⟩
  · intro x hx
    simp only [List.mem_singleton] at hx
    subst hx
    rw [h0]
    simp
  · intro x hx
    simp only [List.mem_singleton] at hx
    subst hx
    exact h0
  · unfold available listed
    rw [List.mem_filter]
    refine ⟨he, ?_⟩
    simp only [decide_eq_true_eq]
    exact fun hm => hn (List.mem_filter.mp (List.mem_of_mem_take hm)).1

theorem C268_case : list [b!"a.lua", b!".", b!".apex_install_x", b!"b"] [⟨b!"a", b!"u/a", none, none, none, none⟩, ⟨b!"b", b!"u/b", none, none, none, none⟩, ⟨b!"c", b!"u/c", some b!"C", some b!"D", some b!"E", none⟩] =
    b!"## Installed Filters\na.lua\nb\n---\n## Available Filters\na                    - a\n    repo: u/a\nc                    - C  (author: E)\n    D\n    repo: u/c\n" := by decide +kernel

/-- C268: what is said about a filter that can be installed: its name, its title and author, and below that what it is about, and its page or else its source. -/
theorem C268_entry (id repo t d a p : Bytes) (hd : d ≠ []) (ha : a ≠ []) (hp : p ≠ []) :
    entry ⟨id, repo, some t, some d, some a, some p⟩ = id ++ List.replicate (20 - id.length) c!" " ++ b!" - " ++ t ++ b!"  (author: " ++ a ++ b!")\n    " ++ d ++ b!"\n    homepage: " ++ p ++ b!"\n" ∧
    entry ⟨id, repo, none, none, none, none⟩ = id ++ List.replicate (20 - id.length) c!" " ++ b!" - " ++ id ++ b!"\n" ++ (if repo = [] then [] else b!"    repo: " ++ repo ++ b!"\n") := by
  constructor
  · obtain ⟨x, d, rfl⟩ := List.exists_cons_of_ne_nil hd
    obtain ⟨y, a, rfl⟩ := List.exists_cons_of_ne_nil ha
    obtain ⟨z, p, rfl⟩ := List.exists_cons_of_ne_nil hp
    simp [entry, opt]
  · cases repo <;> simp [entry, opt]

end Verif.FilterTools
