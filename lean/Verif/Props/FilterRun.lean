/- Theorems about the commands for filters. -/
import Verif.Proof.FilterRun

namespace Verif.FilterRun
open Install (clip quote clip_short)
open Install.Spec (Safe RunsInside)
open Spec

/-! ### C264: a filter asked for by its name runs its script -/

/-- With `--filter` for each name, the shell runs the script of each, in their order.  Missing: paths with blanks and other bytes that are special to the shell, where it fails, and long ones. -/
theorem C264_partial {stat : Stat} (entries : Bytes → Option (List Bytes)) {xdg home : Option Bytes} {root : Bytes} (hr : Root xdg home root) (hd : stat root = some .dir) (hl : root.length < 1024)
    {l : List (Bytes × Bytes)} (h : ∀ x ∈ l, Script stat root x.1 x.2 ∧ root.length + 2 * x.1.length ≤ 1100 ∧ ∀ c ∈ root ++ x.1, Bare c) :
    ∃ cmds, commands stat entries xdg home false (l.map (·.1)) [] = some cmds ∧ cmds.length = l.length ∧ ∀ (i : Nat) (c : Bytes) (x : Bytes × Bytes), cmds[i]? = some c → l[i]? = some x → Line c (call x.2) := by
  refine ⟨l.map fun x => command x.2, ?_, by simp, ?_⟩
  · unfold commands
    by_cases hn : l = []
    · subst hn
      simp
    · rw [if_neg (by simp [hn]), root_eq hr hl]
      simp only [hd, ne_eq, not_true_eq_false, and_false, if_false, Bool.false_eq_true]
      rw [named_eq fun x hx => (resolve_iff (h x hx).2.1).mpr (h x hx).1]
      simp
  · intro i c x hc hx
    rw [List.getElem?_map, hx] at hc
    cases hc
    have hm := List.mem_of_getElem? hx
    obtain ⟨h1, h2, h3⟩ := h x hm
    have hb := script_bare h1 h3
    refine command_line hb.1 hb.2 ?_ ?_
    · intro e
      obtain ⟨t, _, hp⟩ := script_form h1
      rw [e] at hp
      have : c!"/" ∈ b!".lua" := by
        rcases hp with hp | hp <;> (rw [hp]; simp)
      revert this
      decide
    · have := script_length h1
      omega

/-- A name without a script is an error. -/
theorem C264_missing {stat : Stat} (entries : Bytes → Option (List Bytes)) {xdg home : Option Bytes} {root : Bytes} (hr : Root xdg home root) (hl : root.length < 1024) (luas : List Bytes) {names : List Bytes} {n : Bytes}
    (hn : n ∈ names) (h : ∀ p, ¬ Script stat root n p) (hs : root.length + 2 * n.length ≤ 1100) : commands stat entries xdg home false names luas = none := by
  have hne : names ≠ [] := List.ne_nil_of_mem hn
  have : resolve stat root n = none := by
    cases hx : resolve stat root n with
    | none => rfl
    | some p => exact absurd ((resolve_iff hs).mp hx) (h p)
  unfold commands
  rw [if_neg (by simp [hne]), root_eq hr hl]
  simp only [named_none this hn, Option.map_none, Bool.false_eq_true, if_false]
  split <;> rfl

/-- The property fails: in a directory with a blank in its path, the shell takes the path of a script that is not in Lua for two words. -/
theorem C264_blank_fails {a b : Bytes} (ha : a ≠ []) (hb : b ≠ []) (h1 : ∀ c ∈ a, Bare c) (h2 : ∀ c ∈ b, Bare c) (hs : ¬ b!".lua" <:+ a ++ b!" " ++ b) :
    Line (command (a ++ b!" " ++ b)) [a, b] := by
  unfold command
  rw [if_neg fun h => hs h.2]
  exact .more (.bare ha h1) (.one (.bare hb h2))

def disk : Stat := fun p => if p = b!"/h/.config/apex/filters" ∨ p = b!"/h/.config/apex/filters/b" then some .dir
  else if p = b!"/h/.config/apex/filters/a.lua" ∨ p = b!"/h/.config/apex/filters/b/b.py" then some .reg else none

/-- Two filters: a file and one in a directory. -/
theorem C264_case : Root none (some b!"/h") b!"/h/.config/apex/filters" ∧ Script disk b!"/h/.config/apex/filters" b!"a" b!"/h/.config/apex/filters/a.lua" ∧
    Script disk b!"/h/.config/apex/filters" b!"b" b!"/h/.config/apex/filters/b/b.py" ∧
    commands disk (fun _ => none) none (some b!"/h") false [b!"b", b!"a"] [] = some [b!"/h/.config/apex/filters/b/b.py", b!"lua \"/h/.config/apex/filters/a.lua\""] := by
  refine ⟨.inr ⟨.inl rfl, b!"/h", by decide, rfl, by decide⟩, ?_, ?_, by decide +kernel⟩
  · exact (resolve_iff (by decide)).mp (by decide +kernel)
  · exact (resolve_iff (by decide)).mp (by decide +kernel)

/-! ### C265: with `--filters` all filters of the directory are run -/

/-- Exactly the files that are not hidden are run, each as a command of its own.  Missing: scripts in Lua and paths with bytes that are special to the shell, where it fails. -/
theorem C265_partial {stat : Stat} {entries : Bytes → Option (List Bytes)} {xdg home : Option Bytes} {root : Bytes} (hr : Root xdg home root) (hd : stat root = some .dir) (hl : root.length < 1024)
    {es : List Bytes} (he : entries root = some es) (hn : ∀ n ∈ es, n.length ≤ 170) :
    ∃ cmds, commands stat entries xdg home true [] [] = some cmds ∧
      (∀ p, p ∈ cmds ↔ ∃ n ∈ es, (∀ s, n ≠ c!"." :: s) ∧ p = root ++ b!"/" ++ n ∧ stat p = some .reg) ∧
      ∀ p ∈ cmds, (∀ c ∈ p, Bare c) → Line p [p] := by
  have hm : ∀ p, p ∈ ofDir stat root es ↔ ∃ n ∈ es, (∀ s, n ≠ c!"." :: s) ∧ p = root ++ b!"/" ++ n ∧ stat p = some .reg := by
    intro p
    unfold ofDir
    rw [List.mem_filterMap]
    have hc : ∀ n ∈ es, clip 1200 (root ++ b!"/" ++ n) = root ++ b!"/" ++ n := fun n hn' => clip_short (by have := hn n hn'; simp; omega)
    constructor
    · rintro ⟨n, hn', e⟩
      split at e
      · cases e
      · next hdot =>
        simp only [hc n hn'] at e
        split at e
        · next hs =>
          cases e
          exact ⟨n, hn', fun s e => hdot (by rw [e]; rfl), rfl, hs⟩
        · cases e
    · rintro ⟨n, hn', hdot, rfl, hs⟩
      refine ⟨n, hn', ?_⟩
      rw [if_neg (by
        intro e
        cases n with
        | nil => cases e
        | cons c s =>
          simp only [List.head?_cons, Option.some.injEq] at e
          exact hdot s (by rw [e]))]
      simp only [hc n hn']
      rw [if_pos hs]
  refine ⟨ofDir stat root es, ?_, hm, ?_⟩
  · unfold commands
    rw [if_neg (by simp), root_eq hr hl]
    simp [hd, he, named]
  · intro p hp hb
    obtain ⟨n, _, _, rfl, _⟩ := (hm p).mp hp
    exact .one (.bare (by simp) hb)

/-- The property fails: a script in Lua is run by `lua` when it is asked for by its name, and as a program of its own when all filters are asked for. -/
theorem C265_lua_fails {stat : Stat} {root n : Bytes} (hb : ∀ c ∈ root ++ n, Bare c) (hn : ∀ s, n ≠ c!"." :: s) (hs : b!".lua" <:+ n) (hf : stat (root ++ b!"/" ++ n) = some .reg)
    (hl : root.length + 2 * n.length ≤ 1100) :
    ∃ p, ofDir stat root [n] = [p] ∧ Line p [p] ∧ ∃ c, named stat root [n] = some [c] ∧ Line c [b!"lua", p] := by
  have hc : clip 1200 (root ++ b!"/" ++ n) = root ++ b!"/" ++ n := clip_short (by simp; omega)
  have hsc : Script stat root n (root ++ b!"/" ++ n) := ⟨[], _, rfl, hf, by simp⟩
  have hbb := script_bare hsc hb
  refine ⟨root ++ b!"/" ++ n, ?_, .one (.bare hbb.2 hbb.1), command (root ++ b!"/" ++ n), ?_, ?_⟩
  · unfold ofDir
    simp only [List.filterMap_cons, List.filterMap_nil]
    rw [if_neg (by
      intro e
      cases n with
      | nil => cases e
      | cons c s =>
        simp only [List.head?_cons, Option.some.injEq] at e
        exact hn s (by rw [e])), hc, if_pos hf]
  · simp [named, (resolve_iff hl).mpr hsc]
  · have hcl : call (root ++ b!"/" ++ n) = [b!"lua", root ++ b!"/" ++ n] := if_pos (hs.trans (List.suffix_append _ _))
    rw [← hcl]
    refine command_line hbb.1 hbb.2 (fun e => ?_) (by simp; omega)
    have : c!"/" ∈ b!".lua" := by rw [← e]; simp
    revert this
    decide

theorem C265_case : Root (some b!"/x") none b!"/x/apex/filters" ∧
    commands (fun p => if p = b!"/x/apex/filters" then some .dir else some .reg) (fun _ => some [b!"b.py", b!".h", b!"a.lua"]) (some b!"/x") none true [] [] =
      some [b!"/x/apex/filters/b.py", b!"/x/apex/filters/a.lua"] :=
  ⟨.inl ⟨b!"/x", by decide, rfl, by decide⟩, by decide +kernel⟩

/-! ### C266: a script given with `--lua-filter` is run by `lua`, in its turn -/

/-- Scripts without bytes that are special between double quotes are run by `lua`, in their order.  Missing: other scripts, other filters beside them, and no home directory, where it fails. -/
theorem C266_partial (stat : Stat) (entries : Bytes → Option (List Bytes)) {xdg home : Option Bytes} {root : Bytes} (hr : Root xdg home root) (hl : root.length < 1024)
    {luas : List Bytes} (h : ∀ s ∈ luas, Safe s ∧ s.length ≤ 1393) :
    ∃ cmds, commands stat entries xdg home false [] luas = some cmds ∧ cmds.length = luas.length ∧ ∀ (i : Nat) (c s : Bytes), cmds[i]? = some c → luas[i]? = some s → Line c [b!"lua", s] := by
  refine ⟨luas.map lua, ?_, by simp, ?_⟩
  · unfold commands
    by_cases hn : luas = []
    · subst hn
      simp
    · rw [if_neg (by simp [hn]), root_eq hr hl]
      simp [named]
  · intro i c s hc hs
    rw [List.getElem?_map, hs] at hc
    cases hc
    have := h s (List.mem_of_getElem? hs)
    exact lua_line this.1 this.2

/-- The property fails: without a home directory such a script is not run, although its path has nothing to do with it. -/
theorem C266_home_fails (stat : Stat) (entries : Bytes → Option (List Bytes)) {xdg home : Option Bytes} (hx : xdg = none ∨ xdg = some []) (hh : home = none ∨ home = some []) {luas : List Bytes} (hl : luas ≠ []) :
    commands stat entries xdg home false [] luas = none := by
  unfold commands
  rw [if_neg (by simp [hl])]
  have : rootOf xdg home = none := by
    unfold rootOf
    rcases hx with rfl | rfl <;> rcases hh with rfl | rfl <;> rfl
  rw [this]

/-- The property fails: what is in `$(…)` in a path is run. -/
theorem C266_injected_fails {a cmd z : Bytes} (ha : Safe a) (hc : c!")" ∉ cmd) (hl : a.length + cmd.length + z.length ≤ 1380) : RunsInside (lua (a ++ b!"$(" ++ cmd ++ b!")" ++ z)) cmd := by
  refine ⟨b!"lua ", a, z ++ b!"\"", ?_, by decide, ha, hc⟩
  unfold lua quote
  rw [clip_short (by simp; omega)]
  simp

/-- The property fails: a script given in front of a name is run behind it. -/
theorem C266_order_fails {stat : Stat} (entries : Bytes → Option (List Bytes)) {xdg home : Option Bytes} {all : Bool} {names luas cmds : List Bytes} (h : commands stat entries xdg home all names luas = some cmds) :
    luas.map lua <:+ cmds := by
  unfold commands at h
  split at h
  · next hz => cases h; rw [hz.2.2]; exact List.suffix_refl _
  · split at h
    · cases h
    · split at h
      · cases h
      · split at h
        · cases h
        · obtain ⟨b, _, rfl⟩ := Option.map_eq_some_iff.mp h
          exact List.suffix_append _ _

theorem C266_case : commands disk (fun _ => none) none (some b!"/h") false [b!"a"] [b!"my filters/x.lua"] = some [b!"lua \"/h/.config/apex/filters/a.lua\"", b!"lua \"my filters/x.lua\""] ∧
    Line b!"lua \"my filters/x.lua\"" [b!"lua", b!"my filters/x.lua"] :=
  ⟨by decide +kernel, by
    have hs : Safe b!"my filters/x.lua" := by
      intro c hc
      unfold Install.Spec.Plain
      revert c
      decide
    have := lua_line hs (by decide)
    have e : lua b!"my filters/x.lua" = b!"lua \"my filters/x.lua\"" := by decide +kernel
    rw [e] at this
    exact this⟩

/-! ### Without the directory -/

/-- C264 and C265: if filters of the directory are asked for and there is none, that is an error. -/
theorem C265_missing {stat : Stat} (entries : Bytes → Option (List Bytes)) {xdg home : Option Bytes} {root : Bytes} (hr : Root xdg home root) (hl : root.length < 1024) (hd : stat root ≠ some .dir) (luas : List Bytes) :
    (∀ names, commands stat entries xdg home true names luas = none) ∧ ∀ names, names ≠ [] → commands stat entries xdg home false names luas = none := by
  refine ⟨fun names => ?_, fun names hn => ?_⟩
  · unfold commands
    rw [if_neg (by simp), root_eq hr hl]
    simp only
    rw [if_pos ⟨.inl trivial, hd⟩]
  · unfold commands
    rw [if_neg (by simp [hn]), root_eq hr hl]
    simp only
    rw [if_pos ⟨.inr hn, hd⟩]

end Verif.FilterRun
