/-
C29 (plugin order), C30 (first id wins), C31 (text phases), C65 (regex plugins), C67 (plugin requests).
-/
import Verif.Proof.Plugins

namespace Verif.Plugins

open Spec

def sample (id : Bytes) (priority : Int) (dir : Bytes) : Plugin :=
  ⟨id, .pre, priority, some b!"cat", none, dir, none⟩

/-! ### C29 -/

/-- **C29**: inserting any sequence of plugins one by one gives a list ordered by priority and then id,
holding exactly the given plugins, those with equal priority and id in the order they came. -/
theorem C29_sorted (ps : List Plugin) :
    (ps.foldl (fun l p => insert p l) []).Pairwise Before ∧
    (ps.foldl (fun l p => insert p l) []).Perm ps ∧
    ∀ (k : Int) (i : Bytes),
      (ps.foldl (fun l p => insert p l) []).filter (fun q => q.priority = k ∧ q.id = i) =
        ps.filter (fun q => q.priority = k ∧ q.id = i) := by
  simpa using foldl_insert ps [] .nil

/-- What a user notices: a plugin with a smaller priority runs first, however the plugins were found. -/
theorem C29_smaller_first (ps : List Plugin) (p q : Plugin) (hp : p ∈ ps) (hq : q ∈ ps)
    (h : p.priority < q.priority) :
    ∃ a b c, ps.foldl (fun l p => insert p l) [] = a ++ p :: b ++ q :: c := by
  obtain ⟨h1, h2, -⟩ := C29_sorted ps
  generalize ps.foldl (fun l p => insert p l) [] = l at h1 h2
  obtain ⟨a, b, rfl⟩ := List.append_of_mem (h2.mem_iff.2 hp)
  have hq' := h2.mem_iff.2 hq
  rw [List.pairwise_append] at h1
  rcases List.mem_append.1 hq' with hm | hm
  · exfalso
    rcases h1.2.2 q hm p (by simp) with h' | ⟨h', _⟩ <;> omega
  · rcases List.mem_cons.1 hm with rfl | hm
    · omega
    · obtain ⟨c, d, rfl⟩ := List.append_of_mem hm
      exact ⟨a, c, d, by simp⟩

example : ([sample b!"b" 10 b!"1", sample b!"a" 20 b!"2", sample b!"a" 10 b!"3", sample b!"b" 10 b!"4"].foldl
    (fun l p => insert p l) []).map (·.dir) = [b!"3", b!"1", b!"4", b!"2"] := by decide +kernel

/-! ### C30 -/

/-- **C30**: after scanning any sequence of directories the list of a phase holds exactly the plugins that
are the first with their id in this phase, no id twice, in order. -/
theorem C30_first_wins (scan : Bytes → List Plugin) (dirs : List Bytes) (ph : Phase) :
    (∀ p, p ∈ load scan dirs ph ↔ First ph (dirs.map scan).flatten p) ∧
    (load scan dirs ph).Pairwise (fun p q => p.id ≠ q.id) ∧
    (load scan dirs ph).Pairwise Before :=
  ⟨(found_spec ph _).2.1, (found_spec ph _).2.2, (found_spec ph _).1⟩

/-- **C30**: a plugin found in earlier directories stays whatever later directories hold. -/
theorem C30_not_displaced (scan : Bytes → List Plugin) (ds es : List Bytes) (ph : Phase) (p : Plugin)
    (h : p ∈ load scan ds ph) :
    p ∈ load scan (ds ++ es) ph ∧ ∀ q ∈ load scan (ds ++ es) ph, q.id = p.id → q = p := by
  have hmem : p ∈ load scan (ds ++ es) ph := by
    obtain ⟨pre, post, he, h1, h2⟩ := ((C30_first_wins scan ds ph).1 p).1 h
    refine ((C30_first_wins scan _ ph).1 p).2 ⟨pre, post ++ (es.map scan).flatten, ?_, h1, h2⟩
    rw [List.map_append, List.flatten_append, he]
    simp
  refine ⟨hmem, fun q hq hid => ?_⟩
  obtain ⟨a, b, hl⟩ := List.append_of_mem hmem
  have hp := (C30_first_wins scan (ds ++ es) ph).2.1
  rw [hl] at hq hp
  rw [List.pairwise_append] at hp
  rcases List.mem_append.1 hq with hq | hq
  · exact absurd hid (hp.2.2 q hq p (by simp))
  · rcases List.mem_cons.1 hq with rfl | hq
    · rfl
    · exact absurd hid.symm ((List.pairwise_cons.1 hp.2.1).1 q hq)

/-- The project's directory comes before every other one. -/
theorem C30_project_first (d : Bytes) (base git xdg home : Option Bytes) :
    ∃ rest, searchDirs (some d) base git xdg home = join d b!".apex/plugins" :: rest := ⟨_, rfl⟩

/-- The directories in full: the working directory, the given base directory, the top of the Git work tree
when the working directory is inside it and it is not the base directory again, the user's directory. -/
theorem C30_dirs (d b g x : Bytes) (t : Bytes) (ht : t = [] ∨ ∃ r, t = c!"/" :: r) (hd : d ≠ []) (hb : b ≠ [])
    (hg : g ≠ []) (hdg : d = g ++ t) :
    searchDirs (some d) (some b) (some g) (some x) none =
      [d ++ b!"/.apex/plugins", b ++ b!"/.apex/plugins"] ++
        (if g = b then [] else [g ++ b!"/.apex/plugins"]) ++ [x ++ b!"/apex/plugins"] := by
  have hj : ∀ y : Bytes, y ≠ [] → join y b!".apex/plugins" = y ++ b!"/.apex/plugins" := by
    intro y hy; simp [join, hy]
  have hp : g.isPrefixOf d = true := List.isPrefixOf_iff_prefix.2 ⟨t, hdg.symm⟩
  have hr : d.drop g.length = [] ∨ (d.drop g.length).head? = some c!"/" := by
    rw [hdg, List.drop_left]
    rcases ht with rfl | ⟨r, rfl⟩
    · exact .inl rfl
    · exact .inr rfl
  unfold searchDirs
  simp only [hj d hd, hj b hb, hj g hg]
  rw [if_pos ⟨hp, hr⟩]
  by_cases h : g = b
  · subst h; simp
  · rw [if_neg h, if_neg (by simpa using fun e => h e.symm)]; simp

/-- A Git work tree that the working directory is not inside of is not searched. -/
theorem C30_dirs_outside (d g : Bytes) (base xdg home : Option Bytes)
    (h : ∀ t, d = g ++ t → t ≠ [] ∧ ∀ r, t ≠ c!"/" :: r) :
    searchDirs (some d) base (some g) xdg home = searchDirs (some d) base none xdg home := by
  have hn : ¬ (g.isPrefixOf d = true ∧ (d.drop g.length = [] ∨ (d.drop g.length).head? = some c!"/")) := by
    rintro ⟨hp, hr⟩
    obtain ⟨t, rfl⟩ := List.isPrefixOf_iff_prefix.1 hp
    rw [List.drop_left] at hr
    obtain ⟨h1, h2⟩ := h t rfl
    rcases hr with hr | hr
    · exact h1 hr
    · cases t with
      | nil => exact h1 rfl
      | cons a r => simp at hr; subst hr; exact h2 r rfl
  unfold searchDirs
  simp only []
  rw [if_neg hn]

example : searchDirs (some b!"/p/docs") (some b!"/p") (some b!"/p") (some b!"/x") none =
    [b!"/p/docs/.apex/plugins", b!"/p/.apex/plugins", b!"/x/apex/plugins"] := by decide +kernel

/-- The user's directory comes last. -/
theorem C30_user_last (cwd base git home : Option Bytes) (x : Bytes) :
    ∃ front, searchDirs cwd base git (some x) home = front ++ [x ++ b!"/apex/plugins"] := ⟨_, rfl⟩

example : (load (fun d => if d = b!"p" then [sample b!"b" 10 b!"p"] else [sample b!"b" 5 d, sample b!"a" 50 d])
    [b!"p", b!"u"] .pre).map (fun p => (p.id, p.dir)) = [(b!"b", b!"p"), (b!"a", b!"u")] := by decide +kernel

/-! ### C31 -/

/-- **C31**, partial: running a phase never leaves a buffer, restores the environment exactly, and gives the
result of applying the plugins of the phase one after the other (NULL when the text is unchanged).
What is missing from C31: that a failing command leaves the text as it was.  The exit status is not looked
at, so the output of a command that failed replaces the text; see `C31_failure_erases_text`. -/
theorem C31_fold_partial (proc : Proc) (file : Bytes) (ph : Phase) (ps : List Plugin)
    (hv : ∀ p ∈ ps, ∀ rx rep, p.regex = some (rx, rep) → Valid rx) (env : Env) (text : Bytes) :
    ∃ out, runPhase proc file ph ps env text = .val (env, if out = text then none else some out) ∧
      Steps proc file env (ps.filter fun p => p.phase = ph) text out := by
  obtain ⟨out, h1, h2⟩ := runLoop_val proc file ph ps hv env text
  refine ⟨out, ?_, h2⟩
  simp only [runPhase]
  rw [h1]
  rfl

/-- A shell that knows one command, `up`, writing `UP`; anything else exits with 127 and writes nothing. -/
def shell : Proc := fun _ cmd _ => if cmd = b!"up" then some (0, b!"UP") else some (127, [])

/-- C31 fails: a plugin whose command cannot be found erases the whole document. -/
theorem C31_failure_erases_text :
    ∃ p : Plugin, p.command = some b!"nosuch" ∧ (∀ env inp, shell env b!"nosuch" inp = some (127, [])) ∧
      ∀ env, runPhase shell [] .pre [p] env b!"My document" = .val (env, some []) := by
  refine ⟨⟨b!"x", .pre, 100, some b!"nosuch", none, b!"d", none⟩, rfl, fun _ _ => rfl, fun env => ?_⟩
  obtain ⟨out, h1, h2⟩ := C31_fold_partial shell [] .pre
    [⟨b!"x", .pre, 100, some b!"nosuch", none, b!"d", none⟩] (by simp) env b!"My document"
  rw [h1]
  cases h2 with
  | cons hs ht =>
    cases ht
    cases hs with
    | ran hc _ _ hp hu =>
      cases hc
      cases hp
      rcases hu.2 with h | ⟨r, h⟩
      · subst h; rfl
      · simp at h
    | noStart hc _ _ hp => cases hc; cases hp
    | noCommand hc => cases hc
    | regex hc => cases hc
    | nothing hc => cases hc

/-- With commands that write the text back when they fail, the claim holds: `proc` never replaces the
text with a non-zero status, so a step that changes the text comes from a command that succeeded or from a
regular expression. -/
theorem C31_changes_partial (proc : Proc) (file : Bytes) (env : Env) (p : Plugin) (text out : Bytes)
    (hfail : ∀ en cmd e code o, Json.value e = some text →
      proc en cmd (request p.id (phaseName p.phase) e) = some (code, o) → code ≠ 0 → UpToNul o text)
    (h : Step proc file env p text out) (hne : out ≠ text) :
    (∃ cmd e o, p.command = some cmd ∧ Json.value e = some text ∧
      proc (seen env p file) cmd (request p.id (phaseName p.phase) e) = some (0, o) ∧ UpToNul o out) ∨
    (∃ rx rep, p.command = none ∧ p.regex = some (rx, rep) ∧ Replaced rx rep text out) := by
  cases h with
  | @ran cmd e code o _ hc hn he hp hu =>
    left
    by_cases h0 : code = 0
    · subst h0; exact ⟨cmd, e, o, hc, he, hp, hu⟩
    · exact absurd (upToNul_unique hu (hfail _ _ _ _ _ he hp h0)) hne
  | noStart => exact absurd rfl hne
  | noCommand => exact absurd rfl hne
  | regex hc hr h => exact .inr ⟨_, _, hc, hr, h⟩
  | nothing => exact absurd rfl hne

example (env : Env) : ∃ out, runPhase shell b!"a.md" .pre
    [⟨b!"u", .pre, 1, some b!"up", none, b!"d", some b!"s"⟩, ⟨b!"v", .post, 1, some b!"x", none, b!"d", none⟩]
    env b!"text" = .val (env, if out = b!"text" then none else some out) :=
  (C31_fold_partial shell b!"a.md" .pre _ (by simp) env b!"text").imp fun _ h => h.1

/-! ### C65 -/

/-- **C65**, partial: with any regular expression engine whose offsets lie inside the text, a regex plugin
terminates inside its buffer; it returns NULL when nothing matches and otherwise the text with successive
matches replaced by the expanded template.
What is missing from C65: "each match of the text once".  Each search starts afresh on the rest of the
text, so anchors match again; see the two theorems below. -/
theorem C65_regex_partial (rx : Rx) (hrx : Valid rx) (rep s : Bytes) :
    (rx s = none ∧ applyRegex rx rep s = .val none) ∨
    (rx s ≠ none ∧ ∃ o, applyRegex rx rep s = .val (some o) ∧ Replaced rx rep s o) :=
  applyRegex_val rx hrx rep s

/-- The specification determines the result. -/
theorem C65_unique (rx : Rx) (rep s o₁ o₂ : Bytes) (h₁ : Replaced rx rep s o₁) (h₂ : Replaced rx rep s o₂) :
    o₁ = o₂ := by
  have hexp : ∀ {grp : Nat → Bytes} {r e₁ e₂ : Bytes}, Expand grp r e₁ → Expand grp r e₂ → e₁ = e₂ := by
    intro grp r e₁ e₂ h1
    induction h1 generalizing e₂ with
    | nil => intro h2; cases h2; rfl
    | ref hd _ ih =>
      intro h2
      cases h2 with
      | ref _ h2 => rw [ih h2]
      | chr hn _ => exact absurd hd (hn rfl _ _ rfl)
    | chr hn _ ih =>
      intro h2
      cases h2 with
      | ref hd _ => exact absurd hd (hn rfl _ _ rfl)
      | chr _ h2 => rw [ih h2]
  have hsplit : ∀ {pre m post pre' m' post' : Bytes}, pre ++ m ++ post = pre' ++ m' ++ post' →
      some (pre.length, pre.length + m.length) = some (pre'.length, pre'.length + m'.length) →
      pre = pre' ∧ m = m' ∧ post = post' := by
    intro pre m post pre' m' post' h h'
    simp only [Option.some.injEq, Prod.mk.injEq] at h'
    obtain ⟨h1, h2⟩ := List.append_inj h (by rw [List.length_append, List.length_append]; omega)
    obtain ⟨h3, h4⟩ := List.append_inj h1 h'.1
    exact ⟨h3, h4, h2⟩
  induction h₁ generalizing o₂ with
  | done hn =>
    generalize hs : (‹Bytes› : Bytes) = s at *
    cases h₂ with
    | done _ => rfl
    | zeroEnd h => rw [hn] at h; cases h
    | zero h => rw [hn] at h; cases h
    | step h => rw [hn] at h; cases h
  | @zeroEnd g e hg he =>
    generalize hs : ([] : Bytes) = s at h₂
    cases h₂ with
    | done h => subst hs; rw [hg] at h; cases h
    | zeroEnd h h' => rw [hg] at h; cases h; exact hexp he h'
    | zero => cases hs
    | @step pre m post g' e' o' h h' hne =>
      exact absurd (List.append_eq_nil_iff.1 hs.symm).1 hne
  | @zero c t g e o hg h0 he _ ih =>
    generalize hs : c :: t = s at h₂
    cases h₂ with
    | done h => subst hs; rw [hg] at h; cases h
    | zeroEnd => cases hs
    | zero h h' hx hr =>
      cases hs
      rw [hg] at h; cases h
      rw [hexp he hx, ih _ hr]
    | @step pre m post g' e' o' h h' hne =>
      rw [← hs, hg] at h; cases h
      rw [h0] at h'
      simp only [Option.some.injEq, Prod.mk.injEq] at h'
      exfalso
      apply hne
      rw [← List.length_eq_zero_iff, List.length_append]
      omega
  | @step pre m post g e o hg h0 hne he _ ih =>
    generalize hs : pre ++ m ++ post = s at h₂
    cases h₂ with
    | done h => subst hs; rw [hg] at h; cases h
    | zeroEnd => exact absurd (List.append_eq_nil_iff.1 hs).1 hne
    | zero h h' hx hr =>
      rw [← hs, hg] at h; cases h
      rw [h0] at h'
      simp only [Option.some.injEq, Prod.mk.injEq] at h'
      exfalso
      apply hne
      rw [← List.length_eq_zero_iff, List.length_append]
      omega
    | @step pre' m' post' g' e' o' h h' hne' hx hr =>
      rw [← hs, hg] at h; cases h
      obtain ⟨rfl, rfl, rfl⟩ := hsplit hs (h0.symm.trans h')
      rw [hexp he (hs ▸ hx), ih _ hr]

/-- The pattern `$`: an empty match at the end of any text. -/
def dollarRx : Rx := fun s => some fun i => if i = 0 then some (s.length, s.length) else none

/-- The pattern `^`: an empty match at the start of any text. -/
def caretRx : Rx := fun _ => some fun i => if i = 0 then some (0, 0) else none

/-- C65 fails: `$`, which matches a text once, is replaced twice, and `^` is replaced before every byte. -/
theorem C65_anchors_repeat :
    Valid dollarRx ∧ Valid caretRx ∧
    applyRegex dollarRx b!"!" b!"ab" = .val (some b!"ab!!") ∧
    applyRegex caretRx b!"> " b!"ab" = .val (some b!"> a> b> ") := by
  refine ⟨?_, ?_, ?_, ?_⟩
  · intro s g h
    simp only [dollarRx, Option.some.injEq] at h
    subst h
    refine ⟨⟨_, _, rfl⟩, fun i a e h => ?_⟩
    simp only [] at h
    split at h <;> simp at h
    omega
  · intro s g h
    simp only [caretRx, Option.some.injEq] at h
    subst h
    refine ⟨⟨_, _, rfl⟩, fun i a e h => ?_⟩
    simp only [] at h
    split at h <;> simp at h
    omega
  · decide +kernel
  · decide +kernel

/-- The pattern `([a-z])-`, enough of it for an example: a letter and a hyphen at the start or later. -/
def hyphenRx : Rx := fun s =>
  (List.range s.length).find? (fun i => (s[i]?).any isLower && s[i+1]? == some c!"-") |>.map fun i =>
    fun g => if g = 0 then some (i, i + 2) else if g = 1 then some (i, i + 1) else none

example : applyRegex hyphenRx b!"<$1$2$$1>" b!"1a-b-c" = .val (some b!"1<a$a><b$b>c") := by decide +kernel

/-! ### C67 -/

/-- **C67**, partial: the request written to a command is a JSON object whose members are the version, the
id, the phase and the text, for every text and every id that may stand in a JSON string as it is.
What is missing: ids are copied without escaping, so others break the request; see
`C67_id_injection`. -/
theorem C67_request_partial (id text : Bytes) (ph : Phase) (hid : Json.value id = some id) :
    ∃ e, Escape.jsonEscape text = .val (some e) ∧ IsObject (request id (phaseName ph) e)
      [(b!"version", .num b!"1"), (b!"plugin_id", .str id), (b!"phase", .str (phaseName ph)),
        (b!"text", .str text)] := by
  refine ⟨_, Escape.jsonEscape_eq text, ?_⟩
  generalize he : text.flatMap Escape.jsonByte = e
  have hv : Json.value e = some text := he ▸ Escape.value_flatMap text
  have hph : Json.value (phaseName ph) = some (phaseName ph) := by cases ph <;> decide +kernel
  refine ⟨b!"\"version\"" ++ b!": " ++ b!"1" ++ b!", " ++
    (b!"\"plugin_id\"" ++ b!": " ++ (b!"\"" ++ id ++ b!"\"") ++ b!", " ++
    (b!"\"phase\"" ++ b!": " ++ (b!"\"" ++ phaseName ph ++ b!"\"") ++ b!", " ++
    (b!"\"text\"" ++ b!": " ++ (b!"\"" ++ e ++ b!"\"")))), ?_, ?_⟩
  · simp [request]
  · refine .cons ⟨b!"version", by decide, by decide +kernel⟩ ⟨rfl, by decide, by decide⟩ ?_
    refine .cons ⟨b!"plugin_id", by decide, by decide +kernel⟩ ⟨id, rfl, hid⟩ ?_
    refine .cons ⟨b!"phase", by decide, by decide +kernel⟩ ⟨phaseName ph, rfl, hph⟩ ?_
    exact .one ⟨b!"text", by decide, by decide +kernel⟩ ⟨e, rfl, hv⟩

example : Json.value b!"smart-quotes" = some b!"smart-quotes" := by decide +kernel

/-- C67 fails: an id with quotes adds members of its own to the request. -/
theorem C67_id_injection :
    IsObject (request b!"x\", \"text\": \"evil" b!"pre_parse" b!"mine")
      [(b!"version", .num b!"1"), (b!"plugin_id", .str b!"x"), (b!"text", .str b!"evil"),
        (b!"phase", .str b!"pre_parse"), (b!"text", .str b!"mine")] := by
  refine ⟨b!"\"version\"" ++ b!": " ++ b!"1" ++ b!", " ++
    (b!"\"plugin_id\"" ++ b!": " ++ b!"\"x\"" ++ b!", " ++
    (b!"\"text\"" ++ b!": " ++ b!"\"evil\"" ++ b!", " ++
    (b!"\"phase\"" ++ b!": " ++ b!"\"pre_parse\"" ++ b!", " ++
    (b!"\"text\"" ++ b!": " ++ b!"\"mine\"")))), by decide +kernel, ?_⟩
  refine .cons ⟨b!"version", by decide, by decide +kernel⟩ ⟨rfl, by decide, by decide⟩ ?_
  refine .cons ⟨b!"plugin_id", by decide, by decide +kernel⟩ ⟨b!"x", by decide, by decide +kernel⟩ ?_
  refine .cons ⟨b!"text", by decide, by decide +kernel⟩ ⟨b!"evil", by decide, by decide +kernel⟩ ?_
  refine .cons ⟨b!"phase", by decide, by decide +kernel⟩ ⟨b!"pre_parse", by decide, by decide +kernel⟩ ?_
  exact .one ⟨b!"text", by decide, by decide +kernel⟩ ⟨b!"mine", by decide, by decide +kernel⟩

/-- A line break in an id makes the request no JSON string at all. -/
theorem C67_id_control : Json.value b!"a\nb" = none := by decide +kernel

/-! ### C68 -/

/-- **C68**: a manifest gives a plugin exactly when its phase is known and its pattern, where one is used,
compiles.  The id is the last one given or the name of the entry, the priority the number written or 100,
and a plugin never has both a command and a pattern. -/
theorem C68_manifest (regcomp : Bytes → Bool → Option Rx) (entry dir : Bytes) (sup : Option Bytes)
    (m : Metadata.Meta) (p : Plugin) (h : fromManifest regcomp entry dir sup m = some p) :
    (∃ s, lastValue m [b!"phase"] = some s ∧ s = phaseName p.phase) ∧
    (∀ pre post i, m = pre ++ (b!"id", i) :: post → (∀ it ∈ post, it.1 ≠ b!"id") → p.id = i) ∧
    ((∀ it ∈ m, it.1 ≠ b!"id") → p.id = entry) ∧
    (∀ pre post n, m = pre ++ (b!"priority", Man.decimal n) :: post →
      (∀ it ∈ post, it.1 ≠ b!"priority") → p.priority = n) ∧
    (∀ pre post n, m = pre ++ (b!"priority", c!"-" :: Man.decimal n) :: post →
      (∀ it ∈ post, it.1 ≠ b!"priority") → p.priority = -(n : Int)) ∧
    ((∀ it ∈ m, it.1 ≠ b!"priority") → p.priority = 100) ∧
    (p.command = none ∨ p.regex = none) := by
  obtain ⟨phase, hph, h1, h2, h3, h4⟩ := fromManifest_some h
  refine ⟨?_, ?_, ?_, ?_, ?_, ?_, h4⟩
  · cases hl : lastValue m [b!"phase"] with
    | none => rw [hl] at hph; cases hph
    | some s =>
      refine ⟨s, rfl, ?_⟩
      rw [hl] at hph
      simp only [Option.bind_some, phaseOf] at hph
      rw [h1]
      split at hph
      · cases hph; assumption
      · split at hph
        · cases hph; assumption
        · cases hph
  · rintro pre post i rfl hpost
    rw [h2, lastValue_last hpost]
    rfl
  · intro hno
    rw [h2, lastValue_none hno]
    rfl
  · rintro pre post n rfl hpost
    rw [h3, lastValue_last hpost]
    exact atoi_decimal n
  · rintro pre post n rfl hpost
    rw [h3, lastValue_last hpost]
    exact atoi_neg_decimal n
  · intro hno
    rw [h3, lastValue_none hno]

/-- No plugin without a known phase. -/
theorem C68_unknown_phase (regcomp : Bytes → Bool → Option Rx) (entry dir : Bytes) (sup : Option Bytes)
    (m : Metadata.Meta) (h : ∀ s, lastValue m [b!"phase"] = some s → s ≠ b!"pre_parse" ∧ s ≠ b!"post_render") :
    fromManifest regcomp entry dir sup m = none := by
  have : (lastValue m [b!"phase"]).bind phaseOf = none := by
    cases hl : lastValue m [b!"phase"] with
    | none => rfl
    | some s => simp [phaseOf, h s hl]
  simp only [fromManifest, this]

example : (fromManifest (fun _ _ => none) b!"dir" b!"/p/dir" (some b!"/s")
    [(b!"id", b!"kbd"), (b!"phase", b!"pre_parse"), (b!"priority", b!"-5"), (b!"handler.command", b!"ruby k.rb")]).map
      (fun p => (p.id, p.priority, p.command, p.support)) =
    some (b!"kbd", -5, some b!"ruby k.rb", some b!"/s/kbd") := by decide +kernel

end Verif.Plugins
