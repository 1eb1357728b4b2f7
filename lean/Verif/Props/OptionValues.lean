/-
Metadata with values and the two forms of `--meta`: C116.
-/
import Verif.Props.Options

namespace Verif.Options
open Spec
open Metadata (Item Meta ciEq)

theorem ci_val {k w x : Bytes} (hk : Word w k) (hx : x.map toLower = x) : ciEq k x = decide (w = x) := by
  rw [Bool.eq_iff_iff, ciEq_word hx, decide_eq_true_eq]
  unfold Word at *
  rw [hk]

/-- The keys with values. -/
def valueKeys : List Bytes :=
  [b!"bibliography", b!"csl", b!"title", b!"style", b!"css", b!"id-format", b!"id_format", b!"base-dir", b!"base_dir", b!"wikilink-space",
   b!"wikilink_space", b!"wikilink-extension", b!"wikilink_extension", b!"terminal.theme", b!"terminal_theme", b!"terminal.width",
   b!"terminal_width", b!"code-highlight", b!"code_highlight"]

theorem applyItem_value {w : Bytes} (hw : w ∈ valueKeys) {o : Options} {k v : Bytes} (hk : Word w k) : applyItem o (k, v) = setString o k v := by
  have h1 : ∀ w ∈ valueKeys, w ≠ b!"mode" ∧ ∀ e ∈ boolKeys, ∀ x ∈ e.1, w ≠ x := by decide +kernel
  obtain ⟨h2, h3⟩ := h1 w hw
  unfold applyItem
  rw [ci_val hk (by decide), if_neg (by simpa using h2), List.find?_eq_none.2]
  intro e he hany
  obtain ⟨x, hx, e1⟩ := List.any_eq_true.1 hany
  rw [ci_val hk (boolKeys_lower e he x hx), decide_eq_true_eq] at e1
  exact h3 e he x hx e1

theorem applyMeta_last (a : Meta) (k v : Bytes) (o : Options) : ∃ o', applyMeta (a ++ [(k, v)]) o = applyItem o' (k, v) := by
  unfold applyMeta
  rw [List.foldl_append]
  exact ⟨_, rfl⟩

/-- C116: the keys whose value is taken as it is. -/
theorem C116_texts (a : Meta) {w k : Bytes} (v : Bytes) (o : Options) (hk : Word w k) :
    (w = b!"csl" → (applyMeta (a ++ [(k, v)]) o).csl = some v ∧ (applyMeta (a ++ [(k, v)]) o).flag .citations = true) ∧
    (w = b!"bibliography" → (applyMeta (a ++ [(k, v)]) o).flag .citations = true) ∧
    (w = b!"title" → (applyMeta (a ++ [(k, v)]) o).title = some v) ∧
    (w ∈ [b!"style", b!"css"] → (applyMeta (a ++ [(k, v)]) o).stylesheets = some [v] ∧
      (applyMeta (a ++ [(k, v)]) o).flag .standalone = true) ∧
    (w ∈ [b!"base-dir", b!"base_dir"] → (applyMeta (a ++ [(k, v)]) o).baseDirectory = some v) ∧
    (w ∈ [b!"wikilink-extension", b!"wikilink_extension"] → (applyMeta (a ++ [(k, v)]) o).wikilinkExtension = some v) := by
  obtain ⟨o', ho⟩ := applyMeta_last a k v o
  rw [ho]
  refine ⟨?_, ?_, ?_, ?_, ?_, ?_⟩
  · rintro rfl
    rw [applyItem_value (by decide) hk]
    unfold setString
    simp only [ci_val hk (x := b!"bibliography") (by decide), ci_val hk (x := b!"csl") (by decide)]
    exact ⟨rfl, rfl⟩
  · rintro rfl
    rw [applyItem_value (by decide) hk]
    unfold setString
    simp only [ci_val hk (x := b!"bibliography") (by decide)]
    rfl
  · rintro rfl
    rw [applyItem_value (by decide) hk]
    unfold setString
    simp only [ci_val hk (x := b!"bibliography") (by decide), ci_val hk (x := b!"csl") (by decide), ci_val hk (x := b!"title") (by decide)]
    rfl
  · intro hw
    rw [List.mem_cons, List.mem_singleton] at hw
    rcases hw with rfl | rfl <;>
    · rw [applyItem_value (by decide) hk]
      unfold setString
      simp only [ci_val hk (x := b!"bibliography") (by decide), ci_val hk (x := b!"csl") (by decide), ci_val hk (x := b!"title") (by decide),
        ci_val hk (x := b!"style") (by decide), ci_val hk (x := b!"css") (by decide)]
      exact ⟨rfl, rfl⟩
  · intro hw
    rw [List.mem_cons, List.mem_singleton] at hw
    rcases hw with rfl | rfl <;>
    · rw [applyItem_value (by decide) hk]
      unfold setString
      simp only [ci_val hk (x := b!"bibliography") (by decide), ci_val hk (x := b!"csl") (by decide), ci_val hk (x := b!"title") (by decide),
        ci_val hk (x := b!"style") (by decide), ci_val hk (x := b!"css") (by decide), ci_val hk (x := b!"id-format") (by decide),
        ci_val hk (x := b!"id_format") (by decide), ci_val hk (x := b!"base-dir") (by decide), ci_val hk (x := b!"base_dir") (by decide)]
      rfl
  · intro hw
    rw [List.mem_cons, List.mem_singleton] at hw
    rcases hw with rfl | rfl <;>
    · rw [applyItem_value (by decide) hk]
      unfold setString
      simp only [ci_val hk (x := b!"bibliography") (by decide), ci_val hk (x := b!"csl") (by decide), ci_val hk (x := b!"title") (by decide),
        ci_val hk (x := b!"style") (by decide), ci_val hk (x := b!"css") (by decide), ci_val hk (x := b!"id-format") (by decide),
        ci_val hk (x := b!"id_format") (by decide), ci_val hk (x := b!"base-dir") (by decide), ci_val hk (x := b!"base_dir") (by decide),
        ci_val hk (x := b!"wikilink-space") (by decide), ci_val hk (x := b!"wikilink_space") (by decide),
        ci_val hk (x := b!"wikilink-extension") (by decide), ci_val hk (x := b!"wikilink_extension") (by decide)]
      rfl

example : Word b!"wikilink-extension" b!"Wikilink-Extension" := by decide

/-- src/_README.md:255, the formats of heading ids. -/
def idFormats : List (Bytes × Nat) := [(b!"gfm", 0), (b!"mmd", 1), (b!"kramdown", 2)]

/-- src/_README.md:285, what becomes of spaces in wiki links. -/
def spaceModes : List (Bytes × Nat) := [(b!"dash", 0), (b!"none", 1), (b!"underscore", 2), (b!"space", 3)]

/-- src/_README.md:295, the names of the highlighters. -/
def highlighters : List (Bytes × Bytes) :=
  [(b!"pygments", b!"pygments"), (b!"p", b!"pygments"), (b!"pyg", b!"pygments"), (b!"skylighting", b!"skylighting"),
   (b!"s", b!"skylighting"), (b!"sky", b!"skylighting"), (b!"shiki", b!"shiki"), (b!"sh", b!"shiki")]

/-- C116: the keys whose value is one of a few words, in any case. -/
theorem C116_words (a : Meta) {w k : Bytes} (v : Bytes) (o : Options) (hk : Word w k) :
    (w ∈ [b!"id-format", b!"id_format"] → ∀ x ∈ idFormats, Word x.1 v → (applyMeta (a ++ [(k, v)]) o).idFormat = x.2) ∧
    (w ∈ [b!"wikilink-space", b!"wikilink_space"] → ∀ x ∈ spaceModes, Word x.1 v → (applyMeta (a ++ [(k, v)]) o).wikilinkSpace = x.2) ∧
    (w ∈ [b!"code-highlight", b!"code_highlight"] → ∀ x ∈ highlighters, Word x.1 v →
      (applyMeta (a ++ [(k, v)]) o).highlighter = some x.2) := by
  obtain ⟨o', ho⟩ := applyMeta_last a k v o
  rw [ho]
  have hv : ∀ x : Bytes, Word x v → v.map toLower = x := fun x h => h
  refine ⟨?_, ?_, ?_⟩
  · intro hw x hx hxv
    have h1 : applyItem o' (k, v) = setIdFormat o' v := by
      rw [List.mem_cons, List.mem_singleton] at hw
      rcases hw with rfl | rfl <;>
      · rw [applyItem_value (by decide) hk]
        unfold setString
        simp only [ci_val hk (x := b!"bibliography") (by decide), ci_val hk (x := b!"csl") (by decide), ci_val hk (x := b!"title") (by decide),
          ci_val hk (x := b!"style") (by decide), ci_val hk (x := b!"css") (by decide), ci_val hk (x := b!"id-format") (by decide),
          ci_val hk (x := b!"id_format") (by decide)]
        rfl
    rw [h1]
    unfold setIdFormat
    rw [hv _ hxv]
    simp [idFormats] at hx
    rcases hx with rfl | rfl | rfl <;> rfl
  · intro hw x hx hxv
    have h1 : applyItem o' (k, v) = setSpace o' v := by
      rw [List.mem_cons, List.mem_singleton] at hw
      rcases hw with rfl | rfl <;>
      · rw [applyItem_value (by decide) hk]
        unfold setString
        simp only [ci_val hk (x := b!"bibliography") (by decide), ci_val hk (x := b!"csl") (by decide), ci_val hk (x := b!"title") (by decide),
          ci_val hk (x := b!"style") (by decide), ci_val hk (x := b!"css") (by decide), ci_val hk (x := b!"id-format") (by decide),
          ci_val hk (x := b!"id_format") (by decide), ci_val hk (x := b!"base-dir") (by decide), ci_val hk (x := b!"base_dir") (by decide),
          ci_val hk (x := b!"wikilink-space") (by decide), ci_val hk (x := b!"wikilink_space") (by decide)]
        rfl
    rw [h1]
    unfold setSpace
    rw [hv _ hxv]
    simp [spaceModes] at hx
    rcases hx with rfl | rfl | rfl | rfl <;> rfl
  · intro hw x hx hxv
    have h1 : applyItem o' (k, v) = setHighlighter o' v := by
      rw [List.mem_cons, List.mem_singleton] at hw
      rcases hw with rfl | rfl <;>
      · rw [applyItem_value (by decide) hk]
        unfold setString
        simp only [ci_val hk (x := b!"bibliography") (by decide), ci_val hk (x := b!"csl") (by decide), ci_val hk (x := b!"title") (by decide),
          ci_val hk (x := b!"style") (by decide), ci_val hk (x := b!"css") (by decide), ci_val hk (x := b!"id-format") (by decide),
          ci_val hk (x := b!"id_format") (by decide), ci_val hk (x := b!"base-dir") (by decide), ci_val hk (x := b!"base_dir") (by decide),
          ci_val hk (x := b!"wikilink-space") (by decide), ci_val hk (x := b!"wikilink_space") (by decide),
          ci_val hk (x := b!"wikilink-extension") (by decide), ci_val hk (x := b!"wikilink_extension") (by decide),
          ci_val hk (x := b!"wikilink-sanitize") (by decide), ci_val hk (x := b!"wikilink_sanitize") (by decide),
          ci_val hk (x := b!"terminal.theme") (by decide), ci_val hk (x := b!"terminal_theme") (by decide),
          ci_val hk (x := b!"terminal.width") (by decide), ci_val hk (x := b!"terminal_width") (by decide),
          ci_val hk (x := b!"code-highlight") (by decide), ci_val hk (x := b!"code_highlight") (by decide)]
        rfl
    rw [h1]
    unfold setHighlighter
    rw [hv _ hxv]
    simp [highlighters] at hx
    rcases hx with rfl | rfl | rfl | rfl | rfl | rfl | rfl | rfl <;> rfl

example : Word b!"underscore" b!"Underscore" ∧ (b!"underscore", 2) ∈ spaceModes := by decide

/-- C116: `--meta=VALUE` and `--meta VALUE` say the same. -/
theorem C116_meta (parse : Bytes → Meta) (c : Cli) (v : Bytes) (rest : List Bytes) :
    parseArgs parse c ((b!"--meta=" ++ v) :: rest) = parseArgs parse c (b!"--meta" :: v :: rest) ∧
    parseArgs parse c (b!"--meta" :: v :: rest) = parseArgs parse (addMeta parse c v) rest := by
  have h1 : b!"--meta=" ++ v ∉ valueArgs := by
    have : ∀ x ∈ valueArgs, ¬ b!"--meta=" <+: x := by decide +kernel
    exact fun h => this _ h (List.prefix_append _ _)
  have h2 : b!"--meta=" ++ v ∉ [b!"-h", b!"--help", b!"-v", b!"--version"] := by simp
  have e1 : parseArgs parse c ((b!"--meta=" ++ v) :: rest) = parseArgs parse (addMeta parse c v) rest := by
    conv => lhs; unfold parseArgs
    rw [if_neg h2, withValue_none h1]
    rw [if_neg (by simp), if_pos ⟨b!"=" ++ v, rfl⟩, if_pos (by constructor <;> simp)]
    rfl
  have e2 : parseArgs parse c (b!"--meta" :: v :: rest) = parseArgs parse (addMeta parse c v) rest := by
    conv => lhs; unfold parseArgs
    rw [if_neg (by decide), withValue_none (by decide +kernel)]
    rw [if_neg (by simp), if_pos (List.prefix_refl _), if_neg (by simp)]
  exact ⟨e1.trans e2.symm, e2⟩

end Verif.Options
