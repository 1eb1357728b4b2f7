import Verif.Proof.ListPlugins
import Verif.Proof.PluginDirs

namespace Verif.ListPlugins
open Spec
open Metadata (Meta)
open Plugins (lastValue)
open Install (clip clip_short)
open FilterTools (opt available)

/-! ### C269: the list of plugins has each installed plugin once, from the first directory that has it -/

/-- Missing: paths of 1200 bytes and more. -/
theorem C269_partial {k : Disk} {load : Bytes → Meta} {dirs : List Bytes} (h : Short k dirs) :
    (∀ i, i ∈ installed k load dirs ↔ First k load dirs i) ∧ ((installed k load dirs).map (·.id)).Nodup := by
  refine ⟨fun i => ?_, installed_nodup dirs [] (by simp)⟩
  unfold installed First
  rw [installed_mem]
  have hr : ∀ d ∈ dirs, ∀ l, k.names d = some l → ∀ n ∈ l, ∀ j, read k load d n = some j ↔ Plugin k load d n j :=
    fun d hd l hl n hn j => read_iff (h d hd l hl n hn) j
  constructor
  · rintro (hi | ⟨_, a, d, b, x, n, y, rfl, h1, h2, h3, h4⟩)
    · simp at hi
    · refine ⟨a, d, b, x, n, y, rfl, h1, (hr d (by simp) _ h1 n (by simp) i).mp h2, ?_, ?_⟩
      · exact fun d' hd' l hl n' hn' j hj => h3 d' hd' l hl n' hn' j ((hr d' (by simp [hd']) l hl n' hn' j).mpr hj)
      · exact fun n' hn' j hj => h4 n' hn' j ((hr d (by simp) _ h1 n' (by simp [hn']) j).mpr hj)
  · rintro ⟨a, d, b, x, n, y, rfl, h1, h2, h3, h4⟩
    refine .inr ⟨by simp, a, d, b, x, n, y, rfl, h1, (hr d (by simp) _ h1 n (by simp) i).mpr h2, ?_, ?_⟩
    · exact fun d' hd' l hl n' hn' j hj => h3 d' hd' l hl n' hn' j ((hr d' (by simp [hd']) l hl n' hn' j).mp hj)
    · exact fun n' hn' j hj => h4 n' hn' j ((hr d (by simp) _ h1 n' (by simp [hn']) j).mp hj)

/-- The directories are those of which plugins are loaded, in their order: the directory of a repository that is also the base directory is
read twice, which changes nothing. -/
theorem C269_places {k : Disk} {load : Bytes → Meta} {cwd base git xdg home : Option Bytes} {user : Bytes}
    (hs : ∀ d, cwd = some d ∨ base = some d ∨ git = some d → d ≠ [] ∧ (d ++ b!"/.apex/plugins").length < 1200)
    (hu : (∃ x, xdg = some x ∧ user = x ++ b!"/apex/plugins") ∨ xdg = none ∧ ∃ x, home = some x ∧ user = x ++ b!"/.config/apex/plugins") :
    installed k load (roots cwd base git user) = installed k load (Plugins.searchDirs cwd base git xdg home) := by
  have hj : ∀ d, cwd = some d ∨ base = some d ∨ git = some d → clip 1200 (d ++ b!"/.apex/plugins") = Plugins.join d b!".apex/plugins" := by
    intro d hd
    rw [clip_short (hs d hd).2]
    unfold Plugins.join
    rw [if_neg (by decide), if_neg (hs d hd).1]
    simp
  have hg : ∀ d ∈ inside cwd git, git = some d := by
    intro d hd
    unfold inside at hd
    split at hd
    · split at hd
      · rw [List.mem_singleton] at hd
        rw [hd]
      · cases hd
    · cases hd
  have hm : (cwd.toList ++ base.toList ++ inside cwd git).map (fun d => clip 1200 (d ++ b!"/.apex/plugins")) =
      (cwd.toList ++ base.toList ++ inside cwd git).map (fun d => Plugins.join d b!".apex/plugins") := by
    apply List.map_congr_left
    intro d hd
    apply hj
    rcases List.mem_append.mp hd with hd | hd
    · rcases List.mem_append.mp hd with hd | hd
      · exact .inl (by simpa using hd)
      · exact .inr (.inl (by simpa using hd))
    · exact .inr (.inr (hg d hd))
  rw [roots_eq, search_eq _ _ _ _ _ _ hu, hm]
  split
  · rename_i hb
    subst hb
    unfold installed
    simp only [List.map_append, List.foldl_append, List.append_nil]
    congr 1
    unfold inside
    split
    · split
      · simp only [Option.toList_some, List.map_cons, List.map_nil, List.foldl_cons, List.foldl_nil]
        exact collect_again _ _
      · rfl
    · rfl
  · rfl

/-- Each plugin is shown with its id, its title and what else is known about it. -/
theorem C269_shown (i : Item) : Shown i (line i) := by
  obtain ⟨id, ti, au, de, ho⟩ := i
  constructor
  · refine ⟨List.replicate (20 - id.length) c!" ", byline au ++ b!"\n" ++ opt [] de ++ opt b!"homepage: " ho, ?_, fun c hc => List.eq_of_mem_replicate hc, ?_⟩
    · unfold line
      cases ti <;> simp
    · simp only [List.length_append, List.length_replicate]
      omega
  · intro a ha hne
    simp only at ha
    subst ha
    cases a with
    | nil => exact absurd rfl hne
    | cons c a =>
      exact ⟨id ++ List.replicate (20 - id.length) c!" " ++ b!" - " ++ ti.getD id, opt [] de ++ opt b!"homepage: " ho, by simp [line, byline]⟩
  · intro a ha hne
    simp only at ha
    subst ha
    cases a with
    | nil => exact absurd rfl hne
    | cons c a =>
      exact ⟨id ++ List.replicate (20 - id.length) c!" " ++ b!" - " ++ ti.getD id ++ byline au,
        opt b!"homepage: " ho, by simp [line, opt]⟩
  · intro a ha hne
    simp only at ha
    subst ha
    cases a with
    | nil => exact absurd rfl hne
    | cons c a =>
      cases de with
      | none =>
        exact ⟨id ++ List.replicate (20 - id.length) c!" " ++ b!" - " ++ ti.getD id ++ byline au, by simp [line, opt]⟩
      | some de =>
        cases de with
        | nil =>
          exact ⟨id ++ List.replicate (20 - id.length) c!" " ++ b!" - " ++ ti.getD id ++ byline au, by simp [line, opt]⟩
        | cons e de =>
          exact ⟨id ++ List.replicate (20 - id.length) c!" " ++ b!" - " ++ ti.getD id ++ byline au ++ b!"\n    " ++ e :: de, by simp [line, opt]⟩

/-- All of them are shown in front of those of the remote directory that are not installed; without that directory the installed ones are
shown all the same, and the status is 1. -/
theorem C269_text (items : List Item) (hne : items ≠ []) (remote : Option (List Remote.Entry)) : ∃ rest : List Remote.Entry, list items remote =
    (b!"## Installed Plugins\n\n" ++ items.flatMap line ++ b!"\n---\n\n## Available Plugins\n\n" ++ rest.flatMap FilterTools.entry, if remote = none then 1 else 0) ∧
    ∀ e, e ∈ rest ↔ ∃ r, remote = some r ∧ e ∈ r ∧ ∀ i ∈ items, i.id ≠ e.id := by
  unfold list
  rw [if_neg hne]
  cases remote with
  | none => exact ⟨[], by simp, by simp⟩
  | some r =>
    refine ⟨available (items.map (·.id)) r, by simp, fun e => ?_⟩
    unfold available
    rw [List.mem_filter]
    simp only [decide_eq_true_eq, List.mem_map, not_exists, not_and, Option.some.injEq]
    constructor
    · exact fun ⟨h1, h2⟩ => ⟨r, rfl, h1, h2⟩
    · rintro ⟨r', rfl, h1, h2⟩
      exact ⟨h1, h2⟩

/-- Two directories; both have a plugin `a`. -/
def disk : Disk where
  dir p := if p = b!"p/x" ∨ p = b!"u/x" ∨ p = b!"u/y" then some true else none
  file p := if p = b!"p/x/plugin.yml" then some b!"A" else if p = b!"u/x/plugin.yaml" then some b!"B" else if p = b!"u/y/plugin.yaml" then some b!"C" else none
  names d := if d = b!"p" then some [b!".", b!"x"] else if d = b!"u" then some [b!"x", b!"y"] else none

def items (s : Bytes) : Meta :=
  if s = b!"A" then [(b!"id", b!"a"), (b!"title", b!"The A")] else if s = b!"B" then [(b!"id", b!"a"), (b!"title", b!"Old")] else [(b!"author", b!"me")]

theorem C269_case : installed disk items [b!"p", b!"q", b!"u"] = [⟨b!"a", some b!"The A", none, none, none⟩, ⟨b!"y", none, some b!"me", none, none⟩] ∧
    line ⟨b!"y", none, some b!"me", none, some b!"h"⟩ = b!"y                    - y  (author: me)\n    homepage: h\n" ∧ Short disk [b!"p", b!"q", b!"u"] := by
  refine ⟨by decide +kernel, by decide +kernel, ?_⟩
  intro d hd l hl n hn
  have hl' : n = b!"." ∨ n = b!"x" ∨ n = b!"y" := by
    simp only [disk] at hl
    split at hl
    · cases hl; simp at hn; rcases hn with rfl | rfl <;> simp
    · split at hl
      · cases hl; simp at hn; rcases hn with rfl | rfl <;> simp
      · cases hl
  have hd' : d.length ≤ 1 := by
    simp only [List.mem_cons, List.not_mem_nil, or_false] at hd
    rcases hd with rfl | rfl | rfl <;> decide
  have hn' : n.length ≤ 1 := by rcases hl' with rfl | rfl | rfl <;> decide
  simp only [List.length_append]
  have : (b!"/").length = 1 := by decide
  omega

/-! ### C270: the plugins that are listed are those that are loaded -/

/-- A plugin whose manifest begins with `---` in `plugin.yml` is described by the file from which it is loaded.  Missing: other manifests,
where it fails. -/
theorem C270_partial {k : Disk} {load : Bytes → Meta} {dir name s : Bytes} (hl : (dir ++ b!"/" ++ name ++ b!"/plugin.yaml").length < 1024)
    (hn : ∀ s, name ≠ c!"." :: s) (hd : k.dir (dir ++ b!"/" ++ name) = some true) (hf : k.file (dir ++ b!"/" ++ name ++ b!"/plugin.yml") = some (b!"---" ++ s))
    (hne : load (b!"---" ++ s) ≠ []) :
    PluginDirs.manifest k.toDisk dir name = some (dir ++ b!"/" ++ name ++ b!"/plugin.yml") ∧
    ∃ i, read k load dir name = some i ∧ Describes name (load (b!"---" ++ s)) i ∧
      ∀ (regcomp : Bytes → Bool → Option Plugins.Rx) sup q, Plugins.fromManifest regcomp name (dir ++ b!"/" ++ name) sup (load (b!"---" ++ s)) = some q → q.id = i.id := by
  refine ⟨(PluginDirs.manifest_iff hl _).mpr ⟨hn, ⟨s, hf⟩, .inl ⟨hd, rfl⟩⟩, item name (load (b!"---" ++ s)), ?_, (describes_iff _ _ _).mp rfl, ?_⟩
  · refine (read_iff ?_ _).mpr ⟨hn, hd, _, .inl hf, hne, (describes_iff _ _ _).mp rfl⟩
    rw [List.length_append] at hl
    omega
  · intro regcomp sup q hq
    unfold Plugins.fromManifest at hq
    split at hq
    · cases hq
    · simp only at hq
      split at hq
      · split at hq
        · cases hq; rfl
        · cases hq
      · cases hq; rfl

/-- A plugin in a single file is loaded, but never listed. -/
theorem C270_file_fails {k : Disk} (load : Bytes → Meta) {dir name : Bytes} (hl : (dir ++ b!"/" ++ name ++ b!"/plugin.yaml").length < 1024)
    (hn : ∀ s, name ≠ c!"." :: s) (hd : k.dir (dir ++ b!"/" ++ name) = some false) (hy : ∃ s, s ≠ [] ∧ name = s ++ b!".yml")
    (hf : ∃ s, k.file (dir ++ b!"/" ++ name) = some (b!"---" ++ s)) :
    PluginDirs.manifest k.toDisk dir name = some (dir ++ b!"/" ++ name) ∧ read k load dir name = none := by
  obtain ⟨s, h1, h2⟩ := hy
  refine ⟨(PluginDirs.manifest_iff hl _).mpr ⟨hn, hf, .inr (.inr ⟨hd, rfl, s, h1, .inl h2⟩)⟩, ?_⟩
  have h3 : (dir ++ b!"/" ++ name).length < 1200 := by rw [List.length_append] at hl; omega
  unfold read
  simp only [clip_short h3, hd]
  simp

/-- A plugin whose manifest does not begin with `---` is listed, but never loaded. -/
theorem C270_front_fails {k : Disk} {load : Bytes → Meta} {dir name s : Bytes} (hl : (dir ++ b!"/" ++ name ++ b!"/plugin.yaml").length < 1024)
    (hn : ∀ s, name ≠ c!"." :: s) (hd : k.dir (dir ++ b!"/" ++ name) = some true) (hf : k.file (dir ++ b!"/" ++ name ++ b!"/plugin.yml") = some s)
    (hs : ¬ b!"---" <+: s) (ho : k.file (dir ++ b!"/" ++ name ++ b!"/plugin.yaml") = none) (hne : load s ≠ []) :
    (∃ i, read k load dir name = some i) ∧ PluginDirs.manifest k.toDisk dir name = none := by
  constructor
  · refine ⟨item name (load s), (read_iff ?_ _).mpr ⟨hn, hd, _, .inl hf, hne, (describes_iff _ _ _).mp rfl⟩⟩
    rw [List.length_append] at hl
    omega
  · rw [Option.eq_none_iff_forall_ne_some]
    intro path hp
    obtain ⟨_, ⟨t, ht⟩, h⟩ := (PluginDirs.manifest_iff hl _).mp hp
    rcases h with ⟨_, rfl⟩ | ⟨_, _, rfl⟩ | ⟨h, _⟩
    · rw [hf] at ht
      cases ht
      exact hs ⟨t, rfl⟩
    · rw [ho] at ht
      cases ht
    · rw [hd] at h
      cases h

/-- A directory with a plugin in a file. -/
def single : Disk := ⟨⟨fun _ => some false, fun _ => some b!"---\nid: x\n"⟩, fun _ => some [b!"x.yml"]⟩

/-- A directory with a plugin and this manifest. -/
def withText (s : Bytes) : Disk := ⟨⟨fun _ => some true, fun p => if p = b!"d/x/plugin.yml" then some s else none⟩, fun _ => some [b!"x"]⟩

theorem C270_case :
    (PluginDirs.manifests single.toDisk b!"d" [b!"x.yml"] = [b!"d/x.yml"] ∧ installed single (fun _ => [(b!"id", b!"x")]) [b!"d"] = []) ∧
    (PluginDirs.manifests (withText b!"id: x\n").toDisk b!"d" [b!"x"] = [] ∧
      installed (withText b!"id: x\n") (fun _ => [(b!"id", b!"x")]) [b!"d"] = [⟨b!"x", none, none, none, none⟩]) ∧
    PluginDirs.manifests (withText b!"---\nid: x\n").toDisk b!"d" [b!"x"] = [b!"d/x/plugin.yml"] :=
  ⟨by decide +kernel, by decide +kernel, by decide +kernel⟩

/-- Of two plugins with an id, the first is listed although it has no phase and the second is loaded. -/
theorem C270_phase_fails (regcomp : Bytes → Bool → Option Plugins.Rx) {k : Disk} {load : Bytes → Meta} {d n1 n2 : Bytes} {m1 m2 : Meta} {i : Bytes} {dir : Bytes} {sup : Option Bytes}
    (h1 : read k load d n1 = some (item n1 m1)) (h2 : read k load d n2 = some (item n2 m2)) (e1 : Last m1 b!"id" (some i)) (e2 : Last m2 b!"id" (some i))
    (hk : k.names d = some [n1, n2]) (p1 : Last m1 b!"phase" none) (p2 : Last m2 b!"phase" (some b!"pre_parse")) (c2 : ∃ c, lastValue m2 [b!"handler.command", b!"handler_command"] = some c) :
    installed k load [d] = [item n1 m1] ∧ Plugins.fromManifest regcomp n1 dir sup m1 = none ∧ ∃ q, Plugins.fromManifest regcomp n2 dir sup m2 = some q ∧ q.id = i := by
  have i1 : (item n1 m1).id = i := by simp [item, (last_iff m1 b!"id" _).mpr e1]
  have i2 : (item n2 m2).id = i := by simp [item, (last_iff m2 b!"id" _).mpr e2]
  refine ⟨?_, ?_, ?_⟩
  · simp [installed, collect, hk, h1, h2, add, i1, i2]
  · unfold Plugins.fromManifest
    rw [(last_iff m1 b!"phase" _).mpr p1]
    rfl
  · obtain ⟨c, hc⟩ := c2
    unfold Plugins.fromManifest
    rw [(last_iff m2 b!"phase" _).mpr p2, hc, (last_iff m2 b!"id" _).mpr e2]
    exact ⟨_, rfl, rfl⟩

end Verif.ListPlugins
