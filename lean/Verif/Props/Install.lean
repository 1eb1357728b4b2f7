/-
C173–C175: installing and removing plugins and filters.
-/
import Verif.Proof.Install

namespace Verif.Install
open Spec (Plain Safe Word Words RunsInside Name Below Meant Hook Repo)

/-! ### C173 -/

/-- A command has one reading as words. -/
theorem C173_words_unique (s : Bytes) (ws ws' : List Bytes) (h : Words s ws) (h' : Words s ws') : ws = ws' := words_unique h h'

/-- Every command of an installation is one of those meant, about directories in the directory of plugins, or the one the manifest asks for; whatever succeeds or fails.
Missing: names, directories and addresses that are long or have a `"`, `$`, backquote or backslash, and names of a manifest that are paths. -/
theorem C173_install_partial (w : World) (root repo : Bytes) (known : Option Bytes) (hr : Safe root) (hl : root.length ≤ 900) (hs : Safe repo) (hrl : repo.length ≤ 800)
    (hk : ∀ id, known = some id → Name id ∧ Safe id ∧ id.length < 214) (hi : ∀ d id, w.id d = some id → Name id ∧ Safe id ∧ id.length < 214)
    (hh : ∀ d k, w.hook d = some k → k.length ≤ 800) :
    ∀ cmd ∈ install w root repo known, (∃ ws, Words cmd ws ∧ Meant root repo (fun n => Name n ∧ Safe n ∧ n.length < 214) ws) ∨
      Hook root (fun n => Name n ∧ Safe n ∧ n.length < 214) (fun k => ∃ d, w.hook d = some k) cmd := by
  have h : Fits root repo := ⟨hr, hl, hs, hrl⟩
  have hhook : ∀ n, Usable n → ∀ cmd ∈ hooks w (root ++ b!"/" ++ n), Hook root Usable (fun k => ∃ d, w.hook d = some k) cmd := by
    intro n hn cmd hc
    obtain ⟨m, k, h1, h2, h3⟩ := hooks_eq h hn hh cmd hc
    exact ⟨m, k, h1, ⟨_, h2⟩, h3⟩
  have hu := usable_temp (repo := repo) hs
  intro cmd hc
  cases known with
  | some id =>
    have hid := hk id rfl
    unfold install at hc
    simp only [target_usable h hid.2.2] at hc
    have k1 := meant_mkdir h
    have k2 := meant_test h hid
    have k3 := meant_clone h hid
    repeat' split at hc
    all_goals
      simp only [List.mem_append, List.mem_singleton] at hc
      rcases hc with hc
    · exact .inl (hc ▸ k1)
    · rcases hc with rfl | rfl
      · exact .inl k1
      · exact .inl k2
    · rcases hc with (rfl | rfl) | rfl
      · exact .inl k1
      · exact .inl k2
      · exact .inl k3
    · rcases hc with ((rfl | rfl) | rfl) | hc
      · exact .inl k1
      · exact .inl k2
      · exact .inl k3
      · exact .inr (hhook id hid cmd hc)
  | none =>
    have hid : ∀ id, pluginId w (temp root repo) = some id → Usable id := by
      intro id e
      unfold pluginId at e
      split at e
      · rename_i c t ei
        rw [Option.some.injEq] at e
        exact e ▸ hi _ _ ei
      · rw [fallback_temp h, Option.some.injEq] at e
        exact e ▸ hu
    unfold install at hc
    simp only [temp_usable h] at hc hid
    have k1 := meant_mkdir h
    have k2 := meant_test h hu
    have k3 := meant_clone h hu
    have k4 := meant_rm h
    cases hp : pluginId w (root ++ b!"/" ++ tempName repo) with
    | none =>
      simp only [hp] at hc
      repeat' split at hc
      all_goals simp only [List.mem_append, List.mem_singleton] at hc
      · exact .inl (hc ▸ k1)
      · rcases hc with rfl | rfl
        · exact .inl k1
        · exact .inl k2
      · rcases hc with (rfl | rfl) | rfl
        · exact .inl k1
        · exact .inl k2
        · exact .inl k3
      · rcases hc with ((rfl | rfl) | rfl) | rfl
        · exact .inl k1
        · exact .inl k2
        · exact .inl k3
        · exact .inl k4
    | some id =>
      have hd := hid id hp
      simp only [hp, target_usable h hd.2.2] at hc
      have k5 := meant_test h hd
      have k6 := meant_mv h hu hd
      repeat' split at hc
      all_goals simp only [List.mem_append, List.mem_singleton] at hc
      · exact .inl (hc ▸ k1)
      · rcases hc with rfl | rfl
        · exact .inl k1
        · exact .inl k2
      · rcases hc with (rfl | rfl) | rfl
        · exact .inl k1
        · exact .inl k2
        · exact .inl k3
      · rcases hc with (((rfl | rfl) | rfl) | rfl) | rfl
        · exact .inl k1
        · exact .inl k2
        · exact .inl k3
        · exact .inl k5
        · exact .inl k4
      · rcases hc with ((((rfl | rfl) | rfl) | rfl) | rfl) | rfl
        · exact .inl k1
        · exact .inl k2
        · exact .inl k3
        · exact .inl k5
        · exact .inl k6
        · exact .inl k4
      · rcases hc with ((((rfl | rfl) | rfl) | rfl) | rfl) | hc
        · exact .inl k1
        · exact .inl k2
        · exact .inl k3
        · exact .inl k5
        · exact .inl k6
        · exact .inr (hhook id hd cmd hc)

/-- A directory is only removed after it was cloned in this installation; a directory that was there before stays. -/
theorem C173_removed (w : World) (root repo : Bytes) (known : Option Bytes) (hr : Safe root) (hl : root.length ≤ 900) (hs : Safe repo) (hrl : repo.length ≤ 800)
    (hk : ∀ id, known = some id → id.length < 214) (cmd : Bytes) (hc : cmd ∈ install w root repo known) (hrm : b!"rm " <+: cmd) :
    ∃ n before after, install w root repo known = before ++ (b!"git clone \"" ++ repo ++ b!"\" \"" ++ root ++ b!"/" ++ n ++ b!"\"") :: after ∧ b!".apex_install_" <+: n ∧ Name n ∧
      w.ok before (b!"git clone \"" ++ repo ++ b!"\" \"" ++ root ++ b!"/" ++ n ++ b!"\"") = true ∧ cmd ∈ after ∧ cmd = b!"rm -rf \"" ++ root ++ b!"/" ++ n ++ b!"\"" := by
  have h : Fits root repo := ⟨hr, hl, hs, hrl⟩
  have e1 : ∀ d : Bytes, d.length < 1200 → cloneC repo d = b!"git clone \"" ++ repo ++ b!"\" \"" ++ d ++ b!"\"" := by
    intro d hd
    unfold cloneC
    rw [clip_short (by simp [quote]; omega)]
    simp [quote]
  have e2 : ∀ d : Bytes, d.length < 1200 → rmC 1300 d = b!"rm -rf \"" ++ d ++ b!"\"" := by
    intro d hd
    unfold rmC
    rw [clip_short (by simp [quote]; omega)]
    simp [quote]
  have hd := len_at hl (tempName_length repo)
  have no : ∀ (k s : Bytes), ¬ b!"rm " <+: b!"mkdir" ++ k ∧ ¬ b!"rm " <+: b!"[ " ++ k ∧ ¬ b!"rm " <+: b!"git" ++ k ∧ ¬ b!"rm " <+: b!"mv " ++ k ∧ ¬ b!"rm " <+: b!"cd " ++ k := by
    intro k _
    refine ⟨?_, ?_, ?_, ?_, ?_⟩ <;> (rintro ⟨z, e⟩; simp at e)
  have n1 : ¬ b!"rm " <+: mkdirC root := by
    have : mkdirC root = b!"mkdir" ++ (b!" -p " ++ quote root).take 1194 := by
      simp [mkdirC, clip]
    rw [this]; exact (no _ []).1
  have n2 : ∀ d, ¬ b!"rm " <+: dirC d := by
    intro d
    have : dirC d = b!"[ " ++ (b!"-d " ++ quote d ++ b!" ]").take 1297 := by
      simp [dirC, clip]
    rw [this]; exact (no _ []).2.1
  have n3 : ∀ d, ¬ b!"rm " <+: cloneC repo d := by
    intro d
    have : cloneC repo d = b!"git" ++ (b!" clone " ++ quote repo ++ b!" " ++ quote d).take 2044 := by
      simp [cloneC, clip]
    rw [this]; exact (no _ []).2.2.1
  have n4 : ∀ a d, ¬ b!"rm " <+: mvC a d := by
    intro a d
    have : mvC a d = b!"mv " ++ (quote a ++ b!" " ++ quote d).take 2496 := by
      simp [mvC, clip]
    rw [this]; exact (no _ []).2.2.2.1
  have n5 : ∀ d, ∀ c ∈ hooks w d, ¬ b!"rm " <+: c := by
    intro d c hc
    unfold hooks at hc
    split at hc
    · rw [List.mem_singleton] at hc
      subst hc
      rename_i x y _
      have : hookC d (x :: y) = b!"cd " ++ (quote d ++ b!" && " ++ x :: y).take 2044 := by
        simp [hookC, clip]
      rw [this]; exact (no _ []).2.2.2.2
    · simp at hc
  cases known with
  | some id =>
    exfalso
    unfold install at hc
    simp only [] at hc
    repeat' split at hc
    all_goals
      simp only [List.mem_append, List.mem_singleton] at hc
    · exact n1 (hc ▸ hrm)
    · rcases hc with rfl | rfl
      · exact n1 hrm
      · exact n2 _ hrm
    · rcases hc with (rfl | rfl) | rfl
      · exact n1 hrm
      · exact n2 _ hrm
      · exact n3 _ hrm
    · rcases hc with ((rfl | rfl) | rfl) | hc
      · exact n1 hrm
      · exact n2 _ hrm
      · exact n3 _ hrm
      · exact n5 _ _ hc hrm
  | none =>
    have key : ∃ before after, install w root repo none = before ++ cloneC repo (temp root repo) :: after ∧ w.ok before (cloneC repo (temp root repo)) = true ∧ cmd ∈ after ∧
        cmd = rmC 1300 (temp root repo) := by
      unfold install at hc ⊢
      simp only [Option.isSome_none, Bool.false_eq_true, and_false, if_false] at hc ⊢
      by_cases c1 : w.ok [] (mkdirC root) = true
      · rw [if_neg (by simp [c1])] at hc ⊢
        by_cases c2 : w.ok ([mkdirC root] ++ [dirC (temp root repo)]) (cloneC repo (temp root repo)) = true
        · rw [if_neg (by simp only [c2]; decide)] at hc ⊢
          refine ⟨[mkdirC root] ++ [dirC (temp root repo)], ?_⟩
          cases hp : pluginId w (temp root repo) with
          | none =>
            simp only [hp, List.mem_append, List.mem_singleton] at hc ⊢
            refine ⟨[rmC 1300 (temp root repo)], by simp, c2, ?_, ?_⟩
            all_goals
              rcases hc with ((rfl | rfl) | rfl) | rfl
              · exact absurd hrm n1
              · exact absurd hrm (n2 _)
              · exact absurd hrm (n3 _)
              · simp
          | some id =>
            simp only [hp] at hc ⊢
            split at hc
            · rename_i c3
              rw [if_pos c3]
              simp only [List.mem_append, List.mem_singleton] at hc
              refine ⟨[dirC (target root id), rmC 1300 (temp root repo)], by simp, c2, ?_, ?_⟩
              all_goals
                rcases hc with (((rfl | rfl) | rfl) | rfl) | rfl
                · exact absurd hrm n1
                · exact absurd hrm (n2 _)
                · exact absurd hrm (n3 _)
                · exact absurd hrm (n2 _)
                · simp
            · rename_i c3
              rw [if_neg c3]
              split at hc
              · rename_i c4
                rw [if_pos c4]
                simp only [List.mem_append, List.mem_singleton] at hc
                refine ⟨[dirC (target root id), mvC (temp root repo) (target root id), rmC 1300 (temp root repo)], by simp, c2, ?_, ?_⟩
                all_goals
                  rcases hc with ((((rfl | rfl) | rfl) | rfl) | rfl) | rfl
                  · exact absurd hrm n1
                  · exact absurd hrm (n2 _)
                  · exact absurd hrm (n3 _)
                  · exact absurd hrm (n2 _)
                  · exact absurd hrm (n4 _ _)
                  · simp
              · exfalso
                simp only [List.mem_append, List.mem_singleton] at hc
                rcases hc with ((((rfl | rfl) | rfl) | rfl) | rfl) | hc
                · exact absurd hrm n1
                · exact absurd hrm (n2 _)
                · exact absurd hrm (n3 _)
                · exact absurd hrm (n2 _)
                · exact absurd hrm (n4 _ _)
                · exact n5 _ _ hc hrm
        · exfalso
          rw [if_pos (by simpa using c2)] at hc
          simp only [List.mem_append, List.mem_singleton] at hc
          rcases hc with (rfl | rfl) | rfl
          · exact n1 hrm
          · exact n2 _ hrm
          · exact n3 _ hrm
      · exfalso
        rw [if_pos (by simpa using c1)] at hc
        rw [List.mem_singleton] at hc
        exact n1 (hc ▸ hrm)
    obtain ⟨before, after, k1, k2, k3, k4⟩ := key
    rw [temp_usable h] at k1 k2 k4
    rw [e1 _ hd] at k1 k2
    rw [e2 _ hd] at k4
    refine ⟨tempName repo, before, after, ?_, ⟨_, rfl⟩, tempName_name repo, ?_, k3, ?_⟩
    · rw [k1]; simp only [List.append_assoc]
    · rw [← k2]; simp only [List.append_assoc]
    · rw [k4]; simp only [List.append_assoc]

/-- Removing a plugin is one command with three words, the third a path.
Missing: that the path is in the directory of plugins. -/
theorem C173_uninstall_partial (root id : Bytes) (hr : Safe root) (hi : Safe id) (hl : root.length + id.length < 1199) :
    ∃ cmd, uninstall root id = [cmd] ∧ Words cmd [b!"rm", b!"-rf", root ++ b!"/" ++ id] := by
  have h1 : target root id = root ++ b!"/" ++ id := by
    unfold target at'
    rw [clip_short (by simp; omega)]
  refine ⟨_, rfl, ?_⟩
  rw [h1]
  exact rm_words (safe_at hr hi) (by simp; omega)

/-- The commands for a filter of the list of filters, likewise. -/
theorem C173_filter_partial (w : World) (root repo id : Bytes) (hr : Safe root) (hl : root.length ≤ 900) (hs : Safe repo) (hrl : repo.length ≤ 800) (hn : Name id) (hi : Safe id)
    (hil : id.length < 214) : ∀ cmd ∈ installFilter w root repo id true, ∃ ws, Words cmd ws ∧ Meant root repo (fun n => Name n ∧ Safe n ∧ n.length < 214) ws := by
  have h : Fits root repo := ⟨hr, hl, hs, hrl⟩
  have hid : Usable id := ⟨hn, hi, hil⟩
  intro cmd hc
  have k1 := meant_mkdir h
  have k2 := meant_test h hid
  have k3 := meant_clone h hid
  unfold installFilter at hc
  simp only [target_usable h hil, if_true, true_and] at hc
  repeat' split at hc
  all_goals simp only [List.mem_append, List.mem_singleton] at hc
  · exact hc ▸ k1
  · rcases hc with rfl | rfl
    · exact k1
    · exact k2
  · rcases hc with (rfl | rfl) | rfl
    · exact k1
    · exact k2
    · exact k3
  · rcases hc with (rfl | rfl) | rfl
    · exact k1
    · exact k2
    · exact k3

/-- The commands for a filter that is one file of a repository, and their order: a file that exists stays, and the clone is removed. -/
theorem C173_file_partial (w : World) (root repo id path : Bytes) (hr : Safe root) (hl : root.length ≤ 900) (hs : Safe repo) (hrl : repo.length ≤ 800) (hi : Safe id)
    (hil : id.length < 200) (hp : Safe path) (hpl : path.length < 200) :
    ∃ dir f, dir = root ++ b!"/.apex_install_" ++ id ∧ (c!"/" ∉ f ∧ (path = f ∨ ∃ a, path = a ++ b!"/" ++ f)) ∧
      ∀ cmd ∈ installFile w root repo id path, Words cmd [b!"mkdir", b!"-p", root] ∨ Words cmd [b!"[", b!"-e", root ++ b!"/" ++ f, b!"]"] ∨
        Words cmd [b!"git", b!"clone", b!"--depth", b!"1", repo, dir] ∨ Words cmd [b!"cp", dir ++ b!"/" ++ path, root ++ b!"/" ++ f] ∨ Words cmd [b!"chmod", b!"+x", root ++ b!"/" ++ f] ∨
        Words cmd [b!"rm", b!"-rf", dir] := by
  have hb := base_split path
  have hbl : (base path).length < 200 := by
    rcases hb.2 with ⟨_, e⟩ | ⟨a, e⟩
    · rw [e]; exact hpl
    · have := congrArg List.length e
      simp at this
      omega
  have hbs : Safe (base path) := fun c hc => hp c (base_mem hc)
  have hin : Safe b!"/.apex_install_" := by
    have : ∀ c ∈ b!"/.apex_install_", c ≠ c!"\"" ∧ c ≠ c!"$" ∧ c ≠ 96 ∧ c ≠ 92 := by decide
    exact this
  have hd : Safe (root ++ b!"/.apex_install_" ++ id) := safe_append.2 ⟨safe_append.2 ⟨hr, hin⟩, hi⟩
  have hdl : (root ++ b!"/.apex_install_" ++ id).length < 1117 := by simp; omega
  refine ⟨_, base path, rfl, ⟨hb.1, ?_⟩, ?_⟩
  · rcases hb.2 with ⟨_, e⟩ | ⟨a, e⟩
    · exact .inl e.symm
    · exact .inr ⟨a, by simpa using e⟩
  · intro cmd hc
    have e1 : target root (base path) = root ++ b!"/" ++ base path := by
      unfold target at'
      rw [clip_short (by simp; omega)]
    have e2 : clip 1200 (root ++ b!"/.apex_install_" ++ id) = root ++ b!"/.apex_install_" ++ id := clip_short (by omega)
    have e3 : clip 1800 (at' (root ++ b!"/.apex_install_" ++ id) path) = root ++ b!"/.apex_install_" ++ id ++ b!"/" ++ path := by
      unfold at'
      rw [clip_short]
      rw [List.length_append, List.length_append]
      simp only [List.length_cons, List.length_nil]
      omega
    have hf : (root ++ b!"/" ++ base path).length < 1200 := by simp; omega
    have hsl : (root ++ b!"/.apex_install_" ++ id ++ b!"/" ++ path).length < 1700 := by
      rw [List.length_append, List.length_append]
      simp only [List.length_cons, List.length_nil]
      omega
    have k1 : Words (mkdirC root) [b!"mkdir", b!"-p", root] := mkdir_words hr (by omega)
    have k2 := file_words (safe_at hr hbs) hf
    have k3 := shallow_words hs hd (by omega)
    have k4 := cp_words (safe_at hd hp) (safe_at hr hbs) hsl hf
    have k5 := chmod_words (safe_at hr hbs) hf
    have k6 := rm_words (n := 3000) hd (by omega)
    unfold installFile at hc
    simp only [e1, e2, e3] at hc
    generalize root ++ b!"/.apex_install_" ++ id = d at *
    repeat' split at hc
    all_goals simp only [List.mem_append, List.mem_singleton, List.mem_cons, List.not_mem_nil, or_false] at hc
    · exact .inl (hc ▸ k1)
    · rcases hc with rfl | rfl
      · exact .inl k1
      · exact .inr (.inl k2)
    · rcases hc with (rfl | rfl) | rfl
      · exact .inl k1
      · exact .inr (.inl k2)
      · exact .inr (.inr (.inl k3))
    · rcases hc with (((rfl | rfl) | rfl) | rfl) | rfl
      · exact .inl k1
      · exact .inr (.inl k2)
      · exact .inr (.inr (.inl k3))
      · exact .inr (.inr (.inr (.inl k4)))
      · exact .inr (.inr (.inr (.inr (.inr k6))))
    · rcases hc with (((rfl | rfl) | rfl) | rfl) | rfl | rfl
      · exact .inl k1
      · exact .inr (.inl k2)
      · exact .inr (.inr (.inl k3))
      · exact .inr (.inr (.inr (.inl k4)))
      · exact .inr (.inr (.inr (.inr (.inl k5))))
      · exact .inr (.inr (.inr (.inr (.inr k6))))

/-- A world in which all commands succeed except the tests of directories, and manifests have an `id`. -/
def plain (id : Bytes) : World := ⟨fun _ c => !(b!"[ " <+: c), fun _ => some id, fun _ => some b!"make"⟩

theorem C173_case : install (plain b!"kbd") b!"/h/.config/apex/plugins" b!"https://github.com/u/r.git" none =
    [b!"mkdir -p \"/h/.config/apex/plugins\"", b!"[ -d \"/h/.config/apex/plugins/.apex_install_r\" ]",
      b!"git clone \"https://github.com/u/r.git\" \"/h/.config/apex/plugins/.apex_install_r\"", b!"[ -d \"/h/.config/apex/plugins/kbd\" ]",
      b!"mv \"/h/.config/apex/plugins/.apex_install_r\" \"/h/.config/apex/plugins/kbd\"", b!"cd \"/h/.config/apex/plugins/kbd\" && make"] := by decide +kernel

/-- A name to be removed that is a path: the command removes a directory elsewhere. -/
theorem C173_path_refuted : uninstall b!"/h/.config/apex/plugins" b!"../../../Documents" = [b!"rm -rf \"/h/.config/apex/plugins/../../../Documents\""] ∧
    uninstall b!"/h/.config/apex/plugins" [] = [b!"rm -rf \"/h/.config/apex/plugins/\""] := by decide +kernel

/-- The `id` of a manifest is read by the shell: a command in it is run, before the plugin is in its place. -/
theorem C173_manifest_refuted (root repo : Bytes) (hr : Safe root) (hl : root.length ≤ 900) : ∃ cmd ∈ install (plain b!"$(reboot)") root repo none, RunsInside cmd b!"reboot" := by
  have h1 : target root b!"$(reboot)" = root ++ b!"/" ++ b!"$(reboot)" := by
    unfold target at'
    rw [clip_short (by simp; omega)]
  have h2 : dirC (root ++ b!"/" ++ b!"$(reboot)") = b!"[ -d \"" ++ root ++ b!"/$(reboot)\" ]" := by
    unfold dirC
    rw [clip_short (by simp [quote]; omega)]
    simp [quote]
  refine ⟨dirC (root ++ b!"/" ++ b!"$(reboot)"), ?_, ?_⟩
  · have k1 : (plain b!"$(reboot)").ok [] (mkdirC root) = true := by
      simp [plain, mkdirC, clip]
    have k2 : ∀ b d, (plain b!"$(reboot)").ok b (cloneC repo d) = true := by
      intro b d
      simp [plain, cloneC, clip]
    unfold install
    simp only [k1, k2, h1]
    simp [pluginId, plain, h1]
    split
    · split
      · simp
      · simp
    · simp
  · rw [h2]
    refine ⟨b!"[ -d ", root ++ b!"/", b!"\" ]", by simp, by decide, safe_append.2 ⟨hr, safe_slash⟩, by decide⟩

/-- A `"` in the `id` of a manifest ends the word: the command has another one. -/
theorem C173_quote_refuted : ∃ cmd ∈ install (plain b!"a\" \"/etc/b") b!"/p" b!"u@h:r" none, Words cmd [b!"mv", b!"/p/.apex_install_u@h:r", b!"/p/a", b!"/etc/b"] := by
  refine ⟨b!"mv \"/p/.apex_install_u@h:r\" \"/p/a\" \"/etc/b\"", by decide +kernel, ?_⟩
  have s1 : Safe b!"/p/.apex_install_u@h:r" := by
    have : ∀ c ∈ b!"/p/.apex_install_u@h:r", c ≠ c!"\"" ∧ c ≠ c!"$" ∧ c ≠ 96 ∧ c ≠ 92 := by decide
    exact this
  have s2 : Safe b!"/p/a" := by
    have : ∀ c ∈ b!"/p/a", c ≠ c!"\"" ∧ c ≠ c!"$" ∧ c ≠ 96 ∧ c ≠ 92 := by decide
    exact this
  have s3 : Safe b!"/etc/b" := by
    have : ∀ c ∈ b!"/etc/b", c ≠ c!"\"" ∧ c ≠ c!"$" ∧ c ≠ 96 ∧ c ≠ 92 := by decide
    exact this
  have := Words.more (.bare (w := b!"mv") (by decide) (by decide)) (.more (.quoted s1) (.more (.quoted s2) (.one (.quoted s3))))
  simpa using this

/-! ### C174 -/

/-- The repository of an argument, for every argument. -/
theorem C174_repo (a u : Bytes) : repoUrl a = some u ↔ Repo a u := repoUrl_iff

/-- An address that was found stands for itself. -/
theorem C174_again (a u : Bytes) (h : repoUrl a = some u) : repoUrl u = some u := by
  rw [repoUrl_iff] at h ⊢
  cases h with
  | address hs hg => exact .address hs hg
  | github hs hg h1 =>
    refine .address ?_ (fun h => h.2 ⟨a, rfl⟩)
    rcases hs with ⟨x, y, rfl⟩ | h
    · exact .inl ⟨x, y ++ b!".git", by simp⟩
    · exact .inr (by simp [h])
  | @short x r => exact .address (.inl ⟨b!"https", b!"github.com/" ++ x ++ b!"/" ++ r ++ b!".git", by simp⟩) (fun h => h.2 ⟨_, rfl⟩)

theorem C174_example : repoUrl b!"u/r" = some b!"https://github.com/u/r.git" ∧ repoUrl b!"https://github.com/u/r" = some b!"https://github.com/u/r.git" ∧ repoUrl b!"kbd" = none ∧
    repoUrl b!"git@x.org:r" = some b!"git@x.org:r" := by decide +kernel

/-- A user and a name with `.git` get another one; a local path is an address at GitHub. -/
theorem C174_short_refuted : repoUrl b!"u/r.git" = some b!"https://github.com/u/r.git.git" ∧ repoUrl b!"./my-plugin" = some b!"https://github.com/./my-plugin.git" ∧
    repoUrl b!"https://github.com/u/r/" = some b!"https://github.com/u/r/.git" := by decide +kernel

/-! ### C175 -/

/-- A plugin from an address with an `id` in its manifest, when all succeeds and no such directory exists: it is cloned, moved to its name, and its command is run there.
Missing: a manifest without `id`. -/
theorem C175_plugin_partial (w : World) (root repo id : Bytes) (hr : Safe root) (hl : root.length ≤ 900) (hs : Safe repo) (hrl : repo.length ≤ 800) (hid : id ≠ []) (hil : id.length < 214)
    (hi : ∀ d, w.id d = some id) (h1 : ∀ b c, w.ok b c = !decide (b!"[ " <+: c)) :
    ∃ n, Name n ∧ b!".apex_install_" <+: n ∧ install w root repo none =
      [mkdirC root, dirC (root ++ b!"/" ++ n), cloneC repo (root ++ b!"/" ++ n), dirC (root ++ b!"/" ++ id), mvC (root ++ b!"/" ++ n) (root ++ b!"/" ++ id)] ++ hooks w (root ++ b!"/" ++ id) := by
  have h : Fits root repo := ⟨hr, hl, hs, hrl⟩
  refine ⟨tempName repo, tempName_name repo, ⟨_, rfl⟩, ?_⟩
  have hp : pluginId w (root ++ b!"/" ++ tempName repo) = some id := by
    unfold pluginId
    rw [hi]
    cases id with
    | nil => exact absurd rfl hid
    | cons c t => rfl
  have n1 : ∀ b, w.ok b (mkdirC root) = true := by intro b; rw [h1]; simp [mkdirC, clip]
  have n2 : ∀ b d, w.ok b (dirC d) = false := by intro b d; rw [h1]; simp [dirC, clip]
  have n3 : ∀ b d, w.ok b (cloneC repo d) = true := by intro b d; rw [h1]; simp [cloneC, clip]
  have n4 : ∀ b a d, w.ok b (mvC a d) = true := by intro b a d; rw [h1]; simp [mvC, clip]
  unfold install
  simp only [temp_usable h, target_usable h hil, hp, n1, n2, n3, n4]
  simp

/-- A plugin from an address whose manifest has no `id` is removed again, whatever its repository is: the name it gets is the one of the directory it was cloned into, which exists. -/
theorem C175_fallback_refuted (w : World) (root repo : Bytes) (hr : Safe root) (hl : root.length ≤ 900) (hs : Safe repo) (hrl : repo.length ≤ 800) (hi : ∀ d, w.id d = none)
    (h1 : w.ok [] (mkdirC root) = true) (h2 : ∀ b d, w.ok b (cloneC repo d) = true) (h3 : ∀ b d, cloneC repo d ∈ b → w.ok b (dirC d) = true) :
    ∃ n, Name n ∧ b!".apex_install_" <+: n ∧ install w root repo none =
      [mkdirC root, dirC (root ++ b!"/" ++ n), cloneC repo (root ++ b!"/" ++ n), dirC (root ++ b!"/" ++ n), rmC 1300 (root ++ b!"/" ++ n)] := by
  have h : Fits root repo := ⟨hr, hl, hs, hrl⟩
  refine ⟨tempName repo, tempName_name repo, ⟨_, rfl⟩, ?_⟩
  have hp : pluginId w (root ++ b!"/" ++ tempName repo) = some (tempName repo) := by
    have := fallback_temp h
    rw [temp_usable h] at this
    unfold pluginId
    rw [hi]
    exact this
  unfold install
  simp only [temp_usable h, target_usable h (tempName_length repo), hp, h1, h2]
  have h4 := h3 ([mkdirC root] ++ [dirC (root ++ b!"/" ++ tempName repo)] ++ [cloneC repo (root ++ b!"/" ++ tempName repo)]) (root ++ b!"/" ++ tempName repo) (by simp)
  simp only [h4]
  simp

/-- A filter from an address is moved to a path made of the whole argument: not a name in the directory of filters, where filters are looked up. -/
theorem C175_filter_refuted (w : World) (root repo u r : Bytes) (hr : Safe root) (hl : root.length ≤ 900) (hs : Safe repo) (hrl : repo.length ≤ 800)
    (ha : (u ++ b!"/" ++ r).length < 214) (h1 : ∀ b c, w.ok b c = !decide (b!"[ " <+: c)) :
    mvC (temp root repo) (root ++ b!"/" ++ (u ++ b!"/" ++ r)) ∈ installFilter w root repo (u ++ b!"/" ++ r) false ∧ ¬ Below root (root ++ b!"/" ++ (u ++ b!"/" ++ r)) := by
  have h : Fits root repo := ⟨hr, hl, hs, hrl⟩
  have hb : ¬ Below root (root ++ b!"/" ++ (u ++ b!"/" ++ r)) := by
    rintro ⟨n, hn, e⟩
    have := List.append_cancel_left e
    exact hn.2.1 (by rw [← this]; simp)
  refine ⟨?_, hb⟩
  have n1 : ∀ b, w.ok b (mkdirC root) = true := by intro b; rw [h1]; simp [mkdirC, clip]
  have n2 : ∀ b d, w.ok b (dirC d) = false := by intro b d; rw [h1]; simp [dirC, clip]
  have n3 : ∀ b d, w.ok b (cloneC repo d) = true := by intro b d; rw [h1]; simp [cloneC, clip]
  have n4 : ∀ b a d, w.ok b (mvC a d) = true := by intro b a d; rw [h1]; simp [mvC, clip]
  have hne : root ++ b!"/" ++ tempName repo ≠ root ++ b!"/" ++ (u ++ b!"/" ++ r) := by
    intro e
    have := List.append_cancel_left e
    exact tempName_slash repo (by rw [this]; simp)
  unfold installFilter
  simp only [temp_usable h, target_usable h ha, n1, n2, n3, n4, if_neg hne, Bool.false_eq_true, if_false]
  simp

theorem C175_filter_case : installFilter (plain []) b!"/f" b!"https://github.com/u/r.git" b!"u/r" false =
    [b!"mkdir -p \"/f\"", b!"git clone \"https://github.com/u/r.git\" \"/f/.apex_install_r\"", b!"[ -d \"/f/u/r\" ]", b!"mv \"/f/.apex_install_r\" \"/f/u/r\""] := by decide +kernel

end Verif.Install
