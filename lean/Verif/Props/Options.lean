/-
Modes, metadata and the command line: C53, C96, C97, C98 and C99.
-/
import Verif.Proof.Options

namespace Verif.Options
open Spec
open Metadata (Item Meta)

/-! ### C53: processor modes -/

/-- C53: no extension is on in CommonMark mode. -/
theorem C53_commonmark : ∀ f ∈ extensions, (forMode .commonmark).flag f = false := by decide +kernel

/-- C53: of the extensions, GFM mode has exactly tables, task lists, strikethrough and autolinks. -/
theorem C53_gfm : ∀ f ∈ extensions, (forMode .gfm).flag f = true ↔ f ∈ [.tables, .taskLists, .strikethrough, .autolink] := by
  decide +kernel

/-- C53: raw HTML is off in both, and on in the other modes. -/
theorem C53_raw_html (m : Mode) : (forMode m).flag .rawHtml = false ↔ m = .commonmark ∨ m = .gfm := by
  cases m <;> decide +kernel

/-- All that is on in CommonMark mode; header ids are among it. -/
theorem C53_commonmark_all (f : Flag) : (forMode .commonmark).flag f = true ↔
    f ∈ [.stripMetadata, .validateUtf8, .githubPreLang, .headerIds, .groupIndex, .filterStrict] := by
  cases f <;> decide +kernel

/-- C53: metadata leaves the mode alone or switches to the mode that an entry called `mode` names. -/
theorem C53_metadata (md : Meta) (o : Options) : (applyMeta md o).mode = o.mode ∨
    ∃ it ∈ md, Word b!"mode" it.1 ∧ Named (applyMeta md o).mode it.2 := by
  unfold applyMeta
  rw [fold_mode]
  unfold modePass
  split
  · rename_i it hit
    split
    · rename_i m hm
      right
      rw [forMode_mode]
      exact ⟨it, List.mem_of_find?_eq_some hit, (ciEq_word (by decide)).1 (by simpa using List.find?_some hit), modeOf_named.1 hm⟩
    · exact .inl rfl
  · exact .inl rfl

/-- C53: the first entry called `mode` counts. -/
theorem C53_first {a b : Meta} {k v : Bytes} {m : Mode} {o : Options} (ha : ∀ it ∈ a, ¬ Word b!"mode" it.1) (hk : Word b!"mode" k)
    (hv : Named m v) : (applyMeta (a ++ (k, v) :: b) o).mode = m := by
  unfold applyMeta
  rw [fold_mode]
  unfold modePass
  have : (a ++ (k, v) :: b).find? (fun it => Metadata.ciEq it.1 b!"mode") = some (k, v) := by
    rw [List.find?_append, List.find?_eq_none.2 (fun it hit e => ha it hit ((ciEq_word (by decide)).1 e)), Option.none_or,
      List.find?_cons_of_pos]
    exact (ciEq_word (by decide)).2 hk
  rw [this]
  simp only []
  rw [modeOf_named.2 hv]
  exact forMode_mode m

example : (applyMeta [(b!"title", b!"x"), (b!"Mode", b!"GFM")] default).mode = .gfm := by decide +kernel

/-! ### C96: boolean options in metadata -/

/-- C96, for the options of the manual except `per-cell-alignment`, `emoji-autocorrect` and `wikilink-sanitize`: the last
entry about an option decides, whatever the entries before it and whatever the mode. -/
theorem C96_partial {w : Bytes} {f : Flag} (hd : (w, f) ∈ documented) (hf : f ≠ .perCellAlignment ∧ f ≠ .emoji ∧ f ≠ .wikilinkSanitize)
    {a b : Meta} {k v : Bytes} {x : Bool} {o : Options} (hk : Word w k) (hv : Says x v)
    (hb : ∀ it ∈ b, ∀ w ∈ keys f, ¬ Word w it.1) : (applyMeta (a ++ (k, v) :: b) o).flag f = x := by
  have : ∀ p ∈ documented, p.2 ≠ .perCellAlignment ∧ p.2 ≠ .emoji ∧ p.2 ≠ .wikilinkSanitize → ∃ e ∈ boolKeys, p.1 ∈ e.1 ∧ e.2 = p.2 := by
    decide +kernel
  obtain ⟨e, he, hw, rfl⟩ := this _ hd hf
  unfold applyMeta
  rw [List.foldl_append, List.foldl_cons, fold_other hb]
  exact applyItem_bool he hw hk hv

example : (applyMeta [(b!"Tables", b!"No")] default).flag .tables = false := by decide +kernel

/-- C96 is false for `per-cell-alignment`: nothing reads the key. -/
theorem C96_cells (v : Bytes) (o : Options) : (applyMeta [(b!"per-cell-alignment", v)] o).flag .perCellAlignment = o.flag .perCellAlignment := by
  unfold applyMeta
  rw [fold_other (by intro it _ w hw; simp [keys] at hw), modePass_none (by intro it hit; simp at hit; rw [hit]; dsimp only; decide)]

/-- C96 is false for `emoji-autocorrect`: nothing reads the key. -/
theorem C96_emoji (v : Bytes) (o : Options) : (applyMeta [(b!"emoji-autocorrect", v)] o).flag .emoji = o.flag .emoji := by
  unfold applyMeta
  rw [fold_other (by intro it _ w hw; simp [keys] at hw), modePass_none (by intro it hit; simp at hit; rw [hit]; dsimp only; decide)]

/-- C96 is false for `wikilink-sanitize`: `yes` switches it off. -/
theorem C96_sanitize : (applyMeta [(b!"wikilink-sanitize", b!"yes")] (default.set .wikilinkSanitize true)).flag .wikilinkSanitize = false := by
  decide +kernel

/-! ### C97: command line flags and metadata -/

/-- C97, for the flags about plugins: the last one decides, whatever the metadata. -/
theorem C97_plugins {parse : Bytes → Meta} {c c' : Cli} {pre : List Bytes} (h : parseArgs parse c pre = some c') (on : Bool)
    (dir : Bytes → Option Bytes) (file doc : Meta) :
    ∃ c'', parseArgs parse c (pre ++ [if on then b!"--plugins" else b!"--no-plugins"]) = some c'' ∧
      (finalOptions dir c'' file doc).flag .plugins = on := by
  rw [parse_append parse _ pre _ c c' (Nat.le_refl _) h]
  cases on
  · refine ⟨{ c' with options := c'.options.set .plugins false, plugins := some false }, ?_, ?_⟩
    · rfl
    · unfold finalOptions; simp only []; exact keepPlugins_set rfl _
  · refine ⟨{ c' with options := c'.options.set .plugins true, plugins := some true }, ?_, ?_⟩
    · rfl
    · unfold finalOptions; simp only []; exact keepPlugins_set rfl _

/-- C97, for the other flags: as long as no metadata is about the option and none is about the mode, the last flag
decides. -/
theorem C97_partial {parse : Bytes → Meta} {c c' : Cli} {pre : List Bytes} (h : parseArgs parse c pre = some c')
    {a : Bytes} {l : List (Flag × Bool)} (ha : (a, l) ∈ cliFlags) {f : Flag} {b : Bool} (hl : lastSaid f l = some b)
    {dir : Bytes → Option Bytes} {file doc : Meta}
    (hm : ∀ it, it ∈ file ∨ it ∈ doc ∨ it ∈ c'.metadata → Unrelated f it.1) :
    ∃ c'', parseArgs parse c (pre ++ [a]) = some c'' ∧ (finalOptions dir c'' file doc).flag f = b := by
  rw [parse_append parse _ pre _ c c' (Nat.le_refl _) h]
  have := parse_flags parse [(a, l)] c' (by simpa using ha)
  simp only [List.map_cons, List.map_nil, List.flatMap_cons, List.flatMap_nil, List.append_nil] at this
  refine ⟨_, this, ?_⟩
  rw [final_flag]
  · show (c'.options.assign l).flag f = b
    rw [assign_flag, hl]; rfl
  · rintro rfl
    have h6 : ∀ e ∈ cliFlags, ∀ p ∈ e.2, p.1 ≠ .plugins := by decide +kernel
    exact h6 _ ha _ (lastSaid_mem hl) rfl
  · exact hm

/-- A case. -/
example : (b!"--no-unsafe", [(Flag.rawHtml, false)]) ∈ cliFlags ∧ Unrelated .rawHtml b!"title" :=
  ⟨by decide +kernel, by decide, by decide +kernel⟩

/-- The command line at the start (cli/main.c:1380). -/
def begin : Cli := { options := default }

/-- C97 is false: a document that says so gets its raw HTML passed on in spite of `--no-unsafe`. -/
theorem C97_raw_html (parse : Bytes → Meta) (dir : Bytes → Option Bytes) :
    ∃ c, parseArgs parse begin [b!"--no-unsafe"] = some c ∧
      (finalOptions dir c [] [(b!"unsafe", b!"true")]).flag .rawHtml = true := by
  refine ⟨_, parse_flags parse [(b!"--no-unsafe", [(.rawHtml, false)])] begin (by decide +kernel), ?_⟩
  rfl

/-- C97 is false: a document with a `mode` changes the output format asked for with `-t json`. -/
theorem C97_format (parse : Bytes → Meta) (dir : Bytes → Option Bytes) :
    ∃ c, parseArgs parse begin [b!"-t", b!"json"] = some c ∧ c.options.outputFormat = 1 ∧
      (finalOptions dir c [] [(b!"mode", b!"unified")]).outputFormat = 0 :=
  ⟨{ begin with options := { default with outputFormat := 1 } }, rfl, rfl, rfl⟩

/-- C97 is false: a style sheet of the document replaces those of `--css`. -/
theorem C97_css (parse : Bytes → Meta) (dir : Bytes → Option Bytes) :
    ∃ c, parseArgs parse begin [b!"--css", b!"a.css"] = some c ∧ c.css = [b!"a.css"] ∧
      (finalOptions dir c [] [(b!"css", b!"b.css")]).stylesheets = some [b!"b.css"] :=
  ⟨{ begin with options := default.set .standalone true, css := [b!"a.css"] }, rfl, rfl, rfl⟩

/-- A document with a `mode` forgets the directory of its own file, which its includes and images are relative to. -/
theorem C97_directory (parse : Bytes → Meta) (dir : Bytes → Option Bytes) (hd : dir b!"docs/a.md" = some b!"docs") :
    ∃ c, parseArgs parse begin [b!"docs/a.md"] = some c ∧ (finalOptions dir c [] []).baseDirectory = some b!"docs" ∧
      (finalOptions dir c [] [(b!"mode", b!"unified")]).baseDirectory = none := by
  refine ⟨{ begin with input := some b!"docs/a.md" }, rfl, ?_, rfl⟩
  exact hd

/-! ### C98: the order of the flags -/

/-- C98, for flags without a value behind the mode: their order does not matter unless they contradict each other. -/
theorem C98_partial {parse : Bytes → Meta} {c : Cli} {m : Bytes} {M : Mode} (hm : modeOf m = some M)
    {l l' : List (Bytes × List (Flag × Bool))} (hl : ∀ e ∈ l, e ∈ cliFlags) (hp : l.Perm l')
    (hc : ∀ f, (f, true) ∈ l.flatMap Prod.snd → (f, false) ∉ l.flatMap Prod.snd) :
    ∃ r r', parseArgs parse c (b!"--mode" :: m :: l.map Prod.fst) = some r ∧
      parseArgs parse c (b!"--mode" :: m :: l'.map Prod.fst) = some r' ∧ ∀ f, r.options.flag f = r'.options.flag f := by
  rw [parse_mode parse hm, parse_mode parse hm, parse_flags parse l _ hl,
    parse_flags parse l' _ (fun e he => hl e (hp.mem_iff.2 he))]
  refine ⟨_, _, rfl, rfl, ?_⟩
  intro f
  show ((forMode M).assign _).flag f = ((forMode M).assign _).flag f
  rw [assign_flag, assign_flag]
  have hmem : ∀ p, p ∈ l.flatMap Prod.snd ↔ p ∈ l'.flatMap Prod.snd := by
    intro p
    simp only [List.mem_flatMap]
    constructor
    · rintro ⟨e, he, h⟩; exact ⟨e, hp.mem_iff.1 he, h⟩
    · rintro ⟨e, he, h⟩; exact ⟨e, hp.mem_iff.2 he, h⟩
  cases h1 : lastSaid f (l.flatMap Prod.snd) with
  | none =>
    cases h2 : lastSaid f (l'.flatMap Prod.snd) with
    | none => rfl
    | some b => exact absurd ((hmem _).2 (lastSaid_mem h2)) (lastSaid_none h1 b)
  | some b =>
    cases h2 : lastSaid f (l'.flatMap Prod.snd) with
    | none => exact absurd ((hmem _).1 (lastSaid_mem h1)) (lastSaid_none h2 b)
    | some b' =>
      have k1 := lastSaid_mem h1
      have k2 := (hmem _).2 (lastSaid_mem h2)
      cases b <;> cases b'
      · rfl
      · exact absurd k1 (hc f k2)
      · exact absurd k2 (hc f k1)
      · rfl

/-- The flags behind the mode say what the options are: the last one about an option, or else the mode. -/
theorem C98_behind {parse : Bytes → Meta} {c : Cli} {m : Bytes} {M : Mode} (hm : modeOf m = some M)
    {l : List (Bytes × List (Flag × Bool))} (hl : ∀ e ∈ l, e ∈ cliFlags) :
    ∃ r, parseArgs parse c (b!"--mode" :: m :: l.map Prod.fst) = some r ∧
      ∀ f, r.options.flag f = (lastSaid f (l.flatMap Prod.snd)).getD ((forMode M).flag f) := by
  rw [parse_mode parse hm, parse_flags parse l _ hl]
  exact ⟨_, rfl, fun f => assign_flag f _ _⟩

/-- C98 is false: whatever the arguments before the mode, the options are those of the mode. -/
theorem C98_before {parse : Bytes → Meta} {c c' : Cli} {pre : List Bytes} (h : parseArgs parse c pre = some c')
    {m : Bytes} {M : Mode} (hm : modeOf m = some M) :
    parseArgs parse c (pre ++ [b!"--mode", m]) = some { c' with options := forMode M } := by
  rw [parse_append parse _ pre _ c c' (Nat.le_refl _) h, parse_mode parse hm]
  rfl

/-- For example `--pretty`. -/
theorem C98_pretty (parse : Bytes → Meta) :
    ∃ r r', parseArgs parse begin [b!"--pretty", b!"--mode", b!"gfm"] = some r ∧
      parseArgs parse begin [b!"--mode", b!"gfm", b!"--pretty"] = some r' ∧
      r.options.flag .pretty = false ∧ r'.options.flag .pretty = true :=
  ⟨_, _, C98_before (pre := [b!"--pretty"]) (parse_flags parse [(b!"--pretty", [(.pretty, true)])] begin (by decide +kernel)) (by rfl),
    (parse_mode parse (m := b!"gfm") (M := .gfm) rfl _).trans
      (parse_flags parse [(b!"--pretty", [(.pretty, true)])] _ (by decide +kernel)), rfl, rfl⟩

/-! ### C99: the default is unified mode -/

/-- C99, without citations and indices: the default options are those of unified mode. -/
theorem C99_partial : (∀ f, f ∉ [.citations, .indices, .mmarkIndex, .textIndex, .leanpubIndex] →
      default.flag f = (forMode .unified).flag f) ∧
    { default with flag := (forMode .unified).flag } = forMode .unified := by
  refine ⟨?_, rfl⟩
  intro f
  cases f <;> decide +kernel

/-- C99 is false: citations and indices are off by default, and on in unified mode. -/
theorem C99_differs : ∀ f ∈ [Flag.citations, .indices, .mmarkIndex, .textIndex, .leanpubIndex],
    default.flag f = false ∧ (forMode .unified).flag f = true := by decide +kernel

/-! ### C108: the flags of the help text -/

/-- C108: a flag of the help text sets the options the help names, changes nothing else, and leaves the arguments behind it
to be read. -/
theorem C108_flags (parse : Bytes → Meta) {a : Bytes} {l : List (Flag × Bool)} (h : (a, l) ∈ help) (c : Cli) (post : List Bytes) :
    ∃ o, parseArgs parse c (a :: post) = parseArgs parse { c with options := o } post ∧
      (∀ f b, (f, b) ∈ l → o.flag f = b) ∧ (∀ f, (∀ b, (f, b) ∉ l) → o.flag f = c.options.flag f) ∧
      { o with flag := c.options.flag } = c.options := by
  have key : ∀ e ∈ help, ∃ e' ∈ cliFlags, e'.1 = e.1 ∧ (∀ p ∈ e.2, lastSaid p.1 e'.2 = some p.2) ∧ (∀ p ∈ e'.2, p ∈ e.2) := by
    decide +kernel
  obtain ⟨e', he, h1, h2, h3⟩ := key _ h
  dsimp only at h1 h2 h3
  refine ⟨c.options.assign e'.2, ?_, ?_, ?_, ?_⟩
  · rw [← h1]; exact parse_flag parse he post
  · intro f b hb
    rw [assign_flag, h2 _ hb]
    rfl
  · intro f hf
    rw [assign_flag]
    cases hs : lastSaid f e'.2 with
    | none => rfl
    | some b => exact absurd (h3 _ (lastSaid_mem hs)) (hf b)
  · exact assign_rest _ _

/-- C108: a value from the list of the help text is accepted, and does what the help says. -/
theorem C108_choices (parse : Bytes → Meta) {a v : Bytes} {c : Cli} {o : Options} (h : Chooses a v c.options o) (post : List Bytes) :
    parseArgs parse c (a :: v :: post) = parseArgs parse { c with options := o } post := by
  cases h with
  | captions h => 
    refine parse_value parse (by decide) rfl ?_ post
    simp only [List.mem_cons, List.not_mem_nil, or_false, Prod.mk.injEq] at h
    rcases h with ⟨rfl, rfl⟩ | ⟨rfl, rfl⟩ <;> rfl
  | idFormat h =>
    refine parse_value parse (by decide) rfl ?_ post
    simp only [List.mem_cons, List.not_mem_nil, or_false, Prod.mk.injEq] at h
    rcases h with ⟨rfl, rfl⟩ | ⟨rfl, rfl⟩ | ⟨rfl, rfl⟩ <;> rfl
  | space h =>
    refine parse_value parse (by decide) rfl ?_ post
    simp only [List.mem_cons, List.not_mem_nil, or_false, Prod.mk.injEq] at h
    rcases h with ⟨rfl, rfl⟩ | ⟨rfl, rfl⟩ | ⟨rfl, rfl⟩ | ⟨rfl, rfl⟩ <;> rfl
  | highlighter h =>
    refine parse_value parse (by decide) rfl ?_ post
    simp only [List.mem_cons, List.not_mem_nil, or_false, Prod.mk.injEq] at h
    rcases h with ⟨rfl, rfl⟩ | ⟨rfl, rfl⟩ | ⟨rfl, rfl⟩ | ⟨rfl, rfl⟩ | ⟨rfl, rfl⟩ | ⟨rfl, rfl⟩ <;> rfl
  | format ha h =>
    simp only [List.mem_cons, List.not_mem_nil, or_false] at ha
    have key : ∀ e ∈ formatNames, (formats.findIdx? fun l => decide (e.1 ∈ l)) = some e.2 := by decide +kernel
    have := key _ h
    dsimp only at this
    rcases ha with rfl | rfl
    · refine parse_value parse (by decide) rfl ?_ post
      show some ((formats.findIdx? fun l => decide (v ∈ l)).map _) = _
      rw [this]; rfl
    · refine parse_value parse (by decide) rfl ?_ post
      show some ((formats.findIdx? fun l => decide (v ∈ l)).map _) = _
      rw [this]; rfl

example : Chooses b!"-t" b!"md" default { default with outputFormat := 3 } := .format (by decide) (by decide)

/-- C108: every `--bibliography` counts, whatever the metadata; they keep their order. -/
theorem C108_bibliography {parse : Bytes → Meta} {c c' : Cli} {pre : List Bytes} (h : parseArgs parse c pre = some c') (v : Bytes)
    (dir : Bytes → Option Bytes) (file doc : Meta) :
    ∃ c'', parseArgs parse c (pre ++ [b!"--bibliography", v]) = some c'' ∧
      (finalOptions dir c'' file doc).bibliography = some (c'.bibliography ++ [v]) := by
  rw [parse_append parse _ pre _ c c' (Nat.le_refl _) h]
  refine ⟨{ c' with options := c'.options.set .citations true, bibliography := c'.bibliography ++ [v] }, ?_, ?_⟩
  · exact parse_value parse (by decide) rfl rfl []
  · exact final_bibliography dir file doc (by simp)

/-- C108: every `--css` counts unless metadata names a style sheet; they keep their order. -/
theorem C108_css_partial {parse : Bytes → Meta} {c c' : Cli} {pre : List Bytes} (h : parseArgs parse c pre = some c') {v : Bytes}
    (hv : v ≠ [] ∧ c!"," ∉ v ∧ (∀ x ∈ v.head?, x ≠ 32 ∧ x ≠ 9) ∧ (∀ x ∈ v.getLast?, x ≠ 32 ∧ x ≠ 9))
    (dir : Bytes → Option Bytes) {file doc : Meta}
    (hm : ∀ it, it ∈ file ∨ it ∈ doc ∨ it ∈ c'.metadata → ¬ Word b!"css" it.1 ∧ ¬ Word b!"style" it.1) :
    ∃ c'', parseArgs parse c (pre ++ [b!"--css", v]) = some c'' ∧
      (finalOptions dir c'' file doc).stylesheets = some (c'.css ++ [v]) := by
  rw [parse_append parse _ pre _ c c' (Nat.le_refl _) h]
  refine ⟨{ c' with options := c'.options.set .standalone true, css := c'.css ++ cssPaths v }, ?_, ?_⟩
  · exact parse_value parse (by decide) rfl rfl []
  · rw [cssPaths_single hv]
    exact final_stylesheets dir (by simp) hm

/-! ### C109: misspelt flags -/

/-- C109, except for arguments that begin with `--meta`: an argument that begins with a dash and is not in the help text ends
the program, whatever the arguments behind it. -/
theorem C109_partial (parse : Bytes → Meta) {a : Bytes} (hd : a.head? = some c!"-") (hm : ¬ b!"--meta" <+: a)
    (h : a ∉ helpArgs) (c : Cli) (post : List Bytes) : parseArgs parse c (a :: post) = none := by
  have h1 : ∀ x ∈ valueArgs, x ∈ helpArgs := by decide +kernel
  have h2 : ∀ x ∈ cliFlags, x.1 ∈ helpArgs := by decide +kernel
  have h3 : ∀ x ∈ silentFlags, x ∈ helpArgs := by decide +kernel
  have h4 : ∀ x ∈ [b!"--plugins", b!"--no-plugins", b!"--accept", b!"--reject", b!"--proofreader"], x ∈ helpArgs := by decide +kernel
  rw [parseArgs.eq_def]
  simp only []
  split
  · rfl
  · rw [withValue_none (fun hx => h (h1 _ hx)), if_neg (by decide),
      withoutValue_none (a := a) (fun e he hx => h (hx ▸ h2 e he)) (fun hx => h (h3 _ hx)) (fun hx => h (h4 _ hx)) hd]

example : b!"--prety".head? = some c!"-" ∧ ¬ b!"--meta" <+: b!"--prety" ∧ b!"--prety" ∉ helpArgs := by decide +kernel

/-- C109 is false: `--metadat` is taken for `--meta`. -/
theorem C109_meta (parse : Bytes → Meta) (c : Cli) (v : Bytes) :
    b!"--metadat" ∉ helpArgs ∧ parseArgs parse c [b!"--metadat", v] = some (addMeta parse c v) := by
  refine ⟨by decide +kernel, ?_⟩
  rfl

/-- C109: what stands behind a flag with a value is its value, even if it looks like a flag. -/
theorem C109_swallow (parse : Bytes → Meta) (c : Cli) :
    parseArgs parse c [b!"--title", b!"--prety"] = some { c with options := { c.options with title := some b!"--prety" } } := by
  rfl

end Verif.Options
