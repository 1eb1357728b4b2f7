/- Theorems about bundles of plugins and the directories for their data. -/
import Verif.Proof.Bundles

namespace Verif.Bundles
open Spec
open Metadata (Meta merge)
open Plugins (Plugin Rx lastValue phaseOf atoi)

/-! ### C255: the entries of a bundle -/

/-- The plugin of an entry has the values of the entry and, where the entry has none, those of the bundle. -/
theorem C255_partial {regcomp : Bytes → Bool → Option Rx} {dir : Bytes} {base : Option Bytes} {top entry : Meta} (ht : Clean top) (he : Clean entry) (h1 : OneName top entry) {p : Plugin}
    (h : fromEntry regcomp dir base top entry = some p) :
    Value top entry b!"id" p.id ∧ Value top entry b!"phase" (phaseName p.phase) ∧
      (∀ c, p.command = some c ↔ Value top entry b!"handler.command" c ∨ Value top entry b!"handler_command" c) ∧
      (∀ s, Value top entry b!"priority" s → p.priority = atoi s) ∧ (Missing top entry b!"priority" → p.priority = 100) := by
  obtain ⟨hne, h2, h3, h4, h5, _⟩ := fromEntry_some h
  refine ⟨(value_iff ht he hne _ _).mp h2, ?_, ?_, ?_, ?_⟩
  · obtain ⟨s, hs1, hs2⟩ := Option.bind_eq_some_iff.mp h3
    rw [phaseOf_iff] at hs2
    subst hs2
    exact (value_iff ht he hne _ _).mp hs1
  · intro c
    rw [h4]
    exact command_iff ht he hne h1 c
  · intro s hs
    rw [h5, (value_iff ht he hne _ _).mpr hs]
  · intro hm
    have : lastValue (merge top [entry]) [b!"priority"] = none := by
      cases hl : lastValue (merge top [entry]) [b!"priority"] with
      | none => rfl
      | some w => exact absurd ((value_iff ht he hne _ _).mp hl) (not_value hm w)
    rw [h5, this]

/-- An entry with an id, a phase and a command is a plugin. -/
theorem C255_loaded (regcomp : Bytes → Bool → Option Rx) (dir : Bytes) (base : Option Bytes) {top entry : Meta} (ht : Clean top) (he : Clean entry) (h1 : OneName top entry)
    (hne : entry ≠ []) {id c : Bytes} {ph : Plugins.Phase} (hid : Value top entry b!"id" id) (hph : Value top entry b!"phase" (phaseName ph))
    (hc : Value top entry b!"handler.command" c ∨ Value top entry b!"handler_command" c) :
    ∃ p, fromEntry regcomp dir base top entry = some p ∧ p.id = id ∧ p.phase = ph ∧ p.command = some c := by
  have e1 := (value_iff ht he hne _ _).mpr hid
  have e2 := (value_iff ht he hne _ _).mpr hph
  have e3 := (command_iff ht he hne h1 c).mpr hc
  unfold fromEntry
  rw [if_neg hne]
  simp only [e1, e2, e3, Option.bind_some, phaseOf_iff.mpr (rfl : phaseName ph = phaseName ph)]
  exact ⟨_, rfl, rfl, rfl, rfl⟩

/-- An entry without a command, with an id, a phase, a pattern and a replacement is a plugin with them; with `i` among its flags the pattern is for both cases. -/
theorem C255_pattern {regcomp : Bytes → Bool → Option Rx} (dir : Bytes) (base : Option Bytes) {top entry : Meta} (ht : Clean top) (he : Clean entry) (hne : entry ≠ []) {id pat rep : Bytes} {ph : Plugins.Phase}
    (hid : Value top entry b!"id" id) (hph : Value top entry b!"phase" (phaseName ph)) (hc1 : Missing top entry b!"handler.command") (hc2 : Missing top entry b!"handler_command")
    (hp : Value top entry b!"pattern" pat) (hr : Value top entry b!"replacement" rep) {rx : Rx} {both : Bool} (hb : both = true ↔ ∃ f, Value top entry b!"flags" f ∧ c!"i" ∈ f)
    (hx : regcomp pat both = some rx) :
    ∃ p, fromEntry regcomp dir base top entry = some p ∧ p.id = id ∧ p.phase = ph ∧ p.command = none ∧ p.regex = some (rx, rep) := by
  have e1 := (value_iff ht he hne _ _).mpr hid
  have e2 := (value_iff ht he hne _ _).mpr hph
  have e3 : lastValue (merge top [entry]) [b!"handler.command", b!"handler_command"] = none := by
    cases hl : lastValue (merge top [entry]) [b!"handler.command", b!"handler_command"] with
    | none => rfl
    | some w =>
      rcases (command_iff ht he hne (.inl hc1) w).mp hl with h | h
      · exact absurd h (not_value hc1 w)
      · exact absurd h (not_value hc2 w)
  have e4 := (value_iff ht he hne _ _).mpr hp
  have e5 := (value_iff ht he hne _ _).mpr hr
  have e6 : ((lastValue (merge top [entry]) [b!"flags"]).getD []).contains c!"i" = both := by
    rw [Bool.eq_iff_iff, hb, List.contains_iff_mem]
    constructor
    · intro hm
      cases hl : lastValue (merge top [entry]) [b!"flags"] with
      | none => rw [hl] at hm; simp at hm
      | some f =>
        rw [hl] at hm
        exact ⟨f, (value_iff ht he hne _ _).mp hl, hm⟩
    · rintro ⟨f, hf, hi⟩
      rw [(value_iff ht he hne _ _).mpr hf]
      exact hi
  unfold fromEntry
  rw [if_neg hne]
  simp only [e1, e2, e3, e4, e5, e6, hx, Option.bind_some, phaseOf_iff.mpr (rfl : phaseName ph = phaseName ph)]
  exact ⟨_, rfl, rfl, rfl, rfl, rfl⟩

/-- An entry like this with a flag. -/
theorem C255_pattern_case : ((fromBundle (fun p i => if p = b!"a" ∧ i = true then some fun _ => none else none) b!"d" none [(b!"phase", b!"pre_parse")]
    [[(b!"id", b!"one"), (b!"pattern", b!"a"), (b!"replacement", b!"b"), (b!"flags", b!"gi")]]).map fun p => (p.id, p.regex.map fun r => r.2)) = [(b!"one", some b!"b")] := by decide +kernel

/-- All entries of a bundle are treated like this, in their order. -/
theorem C255_all (regcomp : Bytes → Bool → Option Rx) (dir : Bytes) (base : Option Bytes) (top : Meta) (p : Plugin) (entries : List Meta) :
    p ∈ fromBundle regcomp dir base top entries ↔ ∃ e ∈ entries, fromEntry regcomp dir base top e = some p := List.mem_filterMap

/-- The property fails: a command of an entry is lost when the bundle has one under the other name. -/
theorem C255_fails {regcomp : Bytes → Bool → Option Rx} {dir : Bytes} {base : Option Bytes} {top entry : Meta} (ht : Clean top) (he : Clean entry) {x y : Bytes}
    (hx : (b!"handler_command", x) ∈ entry) (hn : ∀ w, (b!"handler.command", w) ∉ entry) (hy : (b!"handler.command", y) ∈ top) {p : Plugin}
    (h : fromEntry regcomp dir base top entry = some p) : p.command = some y := by
  obtain ⟨hne, _, _, h4, _⟩ := fromEntry_some h
  have hf : lastValue (top.reverse.filter fun it => it.1 ∉ entry.map (·.1)) [b!"handler.command", b!"handler_command"] = some y := by
    have hmem : (b!"handler.command", y) ∈ top.reverse.filter fun it => it.1 ∉ entry.map (·.1) := by
      rw [List.mem_filter, List.mem_reverse]
      refine ⟨hy, ?_⟩
      simp only [decide_eq_true_eq]
      intro hm
      obtain ⟨⟨a, b⟩, ha, hb⟩ := List.mem_map.mp hm
      cases hb
      exact hn b ha
    cases hl : lastValue (top.reverse.filter fun it => it.1 ∉ entry.map (·.1)) [b!"handler.command", b!"handler_command"] with
    | none => exact absurd hmem (lastValue_none.mp hl _ (by simp) y)
    | some w =>
      obtain ⟨k, hk, hw⟩ := lastValue_mem hl
      have hk' : k = b!"handler.command" := by
        simp only [List.mem_cons, List.not_mem_nil, or_false] at hk
        rcases hk with hk | hk
        · exact hk
        · subst hk
          have := (List.mem_filter.mp hw).2
          simp only [decide_eq_true_eq] at this
          exact absurd (List.mem_map.mpr ⟨_, hx, rfl⟩) this
      subst hk'
      rw [clean_unique (clean_filter _ (clean_reverse ht)) hw hmem]
  rw [h4, merge_eq ht he hne, lastValue_append, hf]
  rfl

/-- A bundle with an author and a phase for all, and two entries. -/
theorem C255_case : ∃ top entry : Meta, Clean top ∧ Clean entry ∧ OneName top entry ∧ Value top entry b!"phase" (phaseName .post) ∧ Value top entry b!"id" b!"two" ∧
    Value top entry b!"handler_command" b!"./two" ∧ Missing top entry b!"priority" := by
  refine ⟨[(b!"phase", b!"post_render"), (b!"id", b!"all")], [(b!"id", b!"two"), (b!"handler_command", b!"./two")], ?_, ?_, .inl ?_, .inr ⟨?_, ?_⟩, .inl ?_, .inl ?_, ?_⟩
  · unfold Clean; decide
  · unfold Clean; decide
  · intro w; simp
  · intro w; simp
  · decide
  · decide
  · decide
  · intro w; simp

/-- The program on this bundle, and on one that has its own command. -/
theorem C255_run : ((fromBundle (fun _ _ => none) b!"d" none [(b!"phase", b!"post_render"), (b!"id", b!"all")] [[(b!"id", b!"one"), (b!"handler_command", b!"./one"), (b!"phase", b!"pre_parse")],
      [], [(b!"id", b!"two"), (b!"handler_command", b!"./two")]]).map fun p => (p.id, p.phase, p.command)) = [(b!"one", .pre, some b!"./one"), (b!"two", .post, some b!"./two")] ∧
    ((fromBundle (fun _ _ => none) b!"d" none [(b!"phase", b!"post_render"), (b!"handler.command", b!"./all")] [[(b!"id", b!"two"), (b!"handler_command", b!"./two")]]).map fun p => (p.id, p.command)) =
      [(b!"two", some b!"./all")] := by decide +kernel

/-! ### C256: the directory for the data of a plugin -/

/-- When the configuration directory of apex exists, the directory a plugin is told about exists. -/
theorem C256_xdg_partial (home : Option Bytes) {x id : Bytes} (d : Dirs) (hx : x ≠ []) (hid : Plain id) (hl : (x ++ b!"/apex/support/" ++ id).length ≤ 1023) (hd : d (x ++ b!"/apex")) :
    (supportDir (some x) home id d).2 = some (x ++ b!"/apex/support/" ++ id) ∧ (supportDir (some x) home id d).1 (x ++ b!"/apex/support/" ++ id) := by
  have h1 : clip (x ++ b!"/apex/support") = x ++ b!"/apex/support" := clip_short (by simp at hl ⊢; omega)
  have e1 : x ++ b!"/apex/support" = (x ++ b!"/apex") ++ b!"/" ++ b!"support" := by simp
  have e2 : x ++ b!"/apex/support/" ++ id = (x ++ b!"/apex/support") ++ b!"/" ++ id := by simp
  have h2 : clip ((x ++ b!"/apex/support") ++ b!"/" ++ id) = (x ++ b!"/apex/support") ++ b!"/" ++ id := clip_short (by rw [← e2]; exact hl)
  rw [supportDir_xdg home id d hx, h1, h2, e2]
  refine ⟨rfl, mkdir_of hid.2 ?_⟩
  rw [e1]
  exact mkdir_of (by decide) hd

/-- Without that variable the same for the directory `.config` of the user. -/
theorem C256_home_partial {xdg : Option Bytes} (hg : xdg = none ∨ xdg = some []) {x id : Bytes} (d : Dirs) (hx : x ≠ []) (hid : Plain id) (hl : (x ++ b!"/.config/apex/support/" ++ id).length ≤ 1023)
    (hd : d (x ++ b!"/.config")) :
    (supportDir xdg (some x) id d).2 = some (x ++ b!"/.config/apex/support/" ++ id) ∧ (supportDir xdg (some x) id d).1 (x ++ b!"/.config/apex/support/" ++ id) := by
  have h0 : clip (x ++ b!"/.config/apex") = x ++ b!"/.config/apex" := clip_short (by simp at hl ⊢; omega)
  have h1 : clip (x ++ b!"/.config/apex/support") = x ++ b!"/.config/apex/support" := clip_short (by simp at hl ⊢; omega)
  have e0 : x ++ b!"/.config/apex" = (x ++ b!"/.config") ++ b!"/" ++ b!"apex" := by simp
  have e1 : x ++ b!"/.config/apex/support" = (x ++ b!"/.config/apex") ++ b!"/" ++ b!"support" := by simp
  have e2 : x ++ b!"/.config/apex/support/" ++ id = (x ++ b!"/.config/apex/support") ++ b!"/" ++ id := by simp
  have h2 : clip ((x ++ b!"/.config/apex/support") ++ b!"/" ++ id) = (x ++ b!"/.config/apex/support") ++ b!"/" ++ id := clip_short (by rw [← e2]; exact hl)
  rw [supportDir_home id d hg hx, h0, h1, h2, e2]
  refine ⟨rfl, mkdir_of hid.2 ?_⟩
  rw [e1]
  refine mkdir_of (by decide) ?_
  rw [e0]
  exact mkdir_of (by decide) hd

/-- The property fails: when `$XDG_CONFIG_HOME/apex` does not exist, nothing is made, and each plugin is told about a directory that does not exist. -/
theorem C256_xdg_fails (home : Option Bytes) {x id : Bytes} {d : Dirs} (ht : Tree d) (hx : x ≠ []) (hid : Plain id) (hl : (x ++ b!"/apex/support/" ++ id).length ≤ 1023) (hd : ¬ d (x ++ b!"/apex")) :
    (supportDir (some x) home id d).2 = some (x ++ b!"/apex/support/" ++ id) ∧ ∀ q, (supportDir (some x) home id d).1 q → q ≠ x ++ b!"/apex/support/" ++ id ∧ d q := by
  have h1 : clip (x ++ b!"/apex/support") = x ++ b!"/apex/support" := clip_short (by simp at hl ⊢; omega)
  have e1 : x ++ b!"/apex/support" = (x ++ b!"/apex") ++ b!"/" ++ b!"support" := by simp
  have e2 : x ++ b!"/apex/support/" ++ id = (x ++ b!"/apex/support") ++ b!"/" ++ id := by simp
  have h2 : clip ((x ++ b!"/apex/support") ++ b!"/" ++ id) = (x ++ b!"/apex/support") ++ b!"/" ++ id := clip_short (by rw [← e2]; exact hl)
  have hs : ¬ d (x ++ b!"/apex/support") := by
    rw [e1]
    exact fun h => hd (ht _ _ (by decide) h)
  have hm : ∀ q, mkdir d (x ++ b!"/apex/support") q ↔ d q := by
    rw [e1]
    exact mkdir_not (by decide) hd
  rw [supportDir_xdg home id d hx, h1, h2, e2]
  refine ⟨rfl, fun q hq => ?_⟩
  have hq' := (hm q).mp ((mkdir_not hid.2 (fun h => hs ((hm _).mp h)) q).mp hq)
  refine ⟨?_, hq'⟩
  rintro rfl
  exact hs (ht _ _ hid.2 hq')

/-- Two plugins have two directories. -/
theorem C256_own_partial (home : Option Bytes) {x a b : Bytes} (d : Dirs) (hx : x ≠ []) (ha : (x ++ b!"/apex/support/" ++ a).length ≤ 1023) (hb : (x ++ b!"/apex/support/" ++ b).length ≤ 1023)
    (h : (supportDir (some x) home a d).2 = (supportDir (some x) home b d).2) : a = b := by
  have h1 : clip (x ++ b!"/apex/support") = x ++ b!"/apex/support" := clip_short (by simp at ha ⊢; omega)
  have e2 : ∀ id, x ++ b!"/apex/support/" ++ id = (x ++ b!"/apex/support") ++ b!"/" ++ id := by simp
  rw [supportDir_xdg home a d hx, supportDir_xdg home b d hx, h1, clip_short (by rw [← e2]; exact ha), clip_short (by rw [← e2]; exact hb)] at h
  exact List.append_cancel_left (Option.some.inj h)

/-- The property fails: behind a long path all plugins have the same directory. -/
theorem C256_own_fails (home : Option Bytes) {x : Bytes} (d : Dirs) (hl : 1010 ≤ x.length) (a b : Bytes) : (supportDir (some x) home a d).2 = (supportDir (some x) home b d).2 := by
  have hx : x ≠ [] := by
    rintro rfl
    simp at hl
  have hc : (clip (x ++ b!"/apex/support")).length = 1023 := by
    unfold clip
    simp
    omega
  have h : ∀ id, clip (clip (x ++ b!"/apex/support") ++ b!"/" ++ id) = clip (x ++ b!"/apex/support") := by
    intro id
    generalize clip (x ++ b!"/apex/support") = y at hc
    unfold clip
    rw [List.append_assoc, ← hc]
    exact List.take_left
  rw [supportDir_xdg home a d hx, supportDir_xdg home b d hx, h, h]

/-- Directories as they are for a new user: `/h` and `/h/.config`, and for the variable `/x`. -/
theorem C256_case : ∃ d : Dirs, Tree d ∧ d (b!"/h" ++ b!"/.config") ∧ ¬ d (b!"/x" ++ b!"/apex") ∧ Plain b!"toc" := by
  refine ⟨fun q => q = [] ∨ q = b!"/h" ∨ q = b!"/h/.config" ∨ q = b!"/x", ?_, by decide, by decide, by unfold Plain; decide⟩
  intro b w hw h
  have hp := parent_at (b := b) hw
  rcases h with h | h | h | h
  · simp at h
  · rw [h] at hp
    subst hp
    exact .inl (by decide)
  · rw [h] at hp
    subst hp
    exact .inr (.inl (by decide))
  · rw [h] at hp
    subst hp
    exact .inl (by decide)

end Verif.Bundles
