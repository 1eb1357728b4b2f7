import Verif.Proof.PluginDirs

namespace Verif.PluginDirs
open Spec

/-! C259: the plugins of a directory are all found, and nothing else is taken for a plugin. -/

/-- Missing: paths of 1024 bytes and more, where it fails. -/
theorem C259_partial {k : Disk} {dir : Bytes} {names : List Bytes} (h : ∀ n ∈ names, (dir ++ b!"/" ++ n ++ b!"/plugin.yaml").length < 1024)
    (path : Bytes) : path ∈ manifests k dir names ↔ ∃ n ∈ names, Manifest k dir n path := by
  unfold manifests
  rw [List.mem_filterMap]
  exact ⟨fun ⟨n, hn, e⟩ => ⟨n, hn, (manifest_iff (h n hn) path).mp e⟩, fun ⟨n, hn, e⟩ => ⟨n, hn, (manifest_iff (h n hn) path).mpr e⟩⟩

/-- Each entry has at most one manifest, and they are in the order of the entries. -/
theorem C259_order {k : Disk} {dir : Bytes} (a b : List Bytes) : manifests k dir (a ++ b) = manifests k dir a ++ manifests k dir b :=
  List.filterMap_append

def disk : Disk where
  dir p := if p = b!"d/x" then some true else if p = b!"d/y.yml" ∨ p = b!"d/z.txt" ∨ p = b!"d/.h.yml" then some false else none
  file p := if p = b!"d/x/plugin.yaml" ∨ p = b!"d/y.yml" ∨ p = b!"d/z.txt" ∨ p = b!"d/.h.yml" then some b!"---\nid: x\n" else none

theorem C259_case : manifests disk b!"d" [b!"y.yml", b!"z.txt", b!".h.yml", b!"x"] = [b!"d/y.yml", b!"d/x/plugin.yaml"] ∧
    ∀ n ∈ [b!"y.yml", b!"z.txt", b!".h.yml", b!"x"], (b!"d" ++ b!"/" ++ n ++ b!"/plugin.yaml").length < 1024 :=
  ⟨by decide +kernel, by decide⟩

/-- A plugin whose manifest has a path of 1024 bytes or more is never found; `snprintf` cuts its path. -/
theorem C259_long_fails {k : Disk} {dir name path : Bytes} (h : Manifest k dir name path) (hl : 1024 ≤ path.length) :
    manifest k dir name ≠ some path := by
  have _ := h
  intro e
  have := manifest_length e
  omega

/-- A directory with a long name and a manifest. -/
theorem C259_long_case : ∃ (k : Disk) (dir name path : Bytes), Manifest k dir name path ∧ 1024 ≤ path.length := by
  refine ⟨⟨fun _ => some true, fun _ => some b!"---"⟩, List.replicate 1100 c!"d", b!"x", _, ⟨by simp, ⟨[], rfl⟩, .inl ⟨rfl, rfl⟩⟩, ?_⟩
  simp only [List.length_append, List.length_replicate]
  omega

/-! C260: inside a repository, the plugins of the repository are found. -/

/-- Git writes the path and a line break.  Missing: paths with line breaks, at whose end there is a carriage return, or of 1023 bytes and
more, where it fails. -/
theorem C260_partial {root : Bytes} (h0 : root ≠ []) (h1 : c!"\n" ∉ root) (h2 : root.getLast? ≠ some c!"\r") (h3 : root.length < 1023) :
    gitTop (root ++ b!"\n") true = some root ∧
    ∀ (sub : Bytes) (base xdg home : Option Bytes), (sub = [] ∨ ∃ s, sub = c!"/" :: s) →
      root ++ b!"/.apex/plugins" ∈ Plugins.searchDirs (some (root ++ sub)) base (gitTop (root ++ b!"\n") true) xdg home := by
  have hg : gitTop (root ++ b!"\n") true = some root := by
    unfold gitTop
    rw [fgets_line h1 h3]
    have hs := strip_line (s := root) (t := b!"\n") (by
      intro c hc hm
      simp only [List.mem_cons, List.not_mem_nil, or_false] at hm
      rcases hm with rfl | rfl
      · exact h1 (List.mem_of_getLast? hc)
      · exact h2 hc) (by simp)
    simp only [hs]
    rw [if_neg (by simp), if_neg (by decide), if_neg h0]
  refine ⟨hg, fun sub base xdg home hsub => ?_⟩
  rw [hg]
  have hj : Plugins.join root b!".apex/plugins" = root ++ b!"/.apex/plugins" := by
    unfold Plugins.join
    rw [if_neg (by decide), if_neg h0]
    simp
  unfold Plugins.searchDirs
  simp only [List.mem_append]
  by_cases hb : base = some root
  · left; left; right
    rw [hb]
    simp [hj]
  · left; right
    have hp : root.isPrefixOf (root ++ sub) = true := List.isPrefixOf_iff_prefix.mpr ⟨sub, rfl⟩
    rw [if_pos ⟨hp, by rcases hsub with rfl | ⟨s, rfl⟩ <;> simp⟩, if_neg hb, hj]
    simp

theorem C260_case : gitTop b!"/home/a/p\n" true = some b!"/home/a/p" ∧ b!"/home/a/p/.apex/plugins" ∈ Plugins.searchDirs (some b!"/home/a/p/src") none (some b!"/home/a/p") none none :=
  ⟨by decide +kernel, by decide +kernel⟩

/-- Outside of a repository there is no directory. -/
theorem C260_outside (out : Bytes) : gitTop out false = none ∧ gitTop [] true = none := by
  refine ⟨?_, by decide⟩
  unfold gitTop
  simp

/-- A path with 1023 bytes or more is cut to 1023 bytes. -/
theorem C260_long_fails {root : Bytes} (h1 : c!"\n" ∉ root) (h2 : c!"\r" ∉ root) (h3 : 1023 ≤ root.length) :
    gitTop (root ++ b!"\n") true = some (root.take 1023) := by
  have ht : (root ++ b!"\n").take 1023 = root.take 1023 := List.take_append_of_le_length h3
  have hne : root.take 1023 ≠ [] := by
    intro e
    have := congrArg List.length e
    rw [List.length_take] at this
    simp only [List.length_nil] at this
    omega
  unfold gitTop
  rw [fgets_cut (by rw [ht]; exact fun e => h1 (List.mem_of_mem_take e)) (by rw [List.length_append]; omega), ht]
  have hs := strip_line (s := root.take 1023) (t := []) (by
    intro c hc hm
    have := List.mem_of_mem_take (List.mem_of_getLast? hc)
    simp only [List.mem_cons, List.not_mem_nil, or_false] at hm
    rcases hm with rfl | rfl
    · exact h1 this
    · exact h2 this) (by simp)
  rw [List.append_nil] at hs
  simp only [hs]
  rw [if_neg hne, if_neg (by decide), if_neg hne]

/-- Of a path with a line break only the first line is used. -/
theorem C260_line_fails {a b : Bytes} (h0 : a ≠ []) (h1 : c!"\n" ∉ a) (h2 : a.getLast? ≠ some c!"\r") (h3 : a.length < 1023) :
    gitTop (a ++ b!"\n" ++ b ++ b!"\n") true = some a := by
  unfold gitTop
  have e : a ++ b!"\n" ++ b ++ b!"\n" = a ++ c!"\n" :: (b ++ b!"\n") := by simp
  rw [e, fgets_line h1 h3]
  have hs := strip_line (s := a) (t := b!"\n") (by
    intro c hc hm
    simp only [List.mem_cons, List.not_mem_nil, or_false] at hm
    rcases hm with rfl | rfl
    · exact h1 (List.mem_of_getLast? hc)
    · exact h2 hc) (by simp)
  simp only [hs]
  rw [if_neg (by simp), if_neg (by decide), if_neg h0]

end Verif.PluginDirs
