/-
Lemmas about options.
-/
import Verif.Spec.Options

namespace Verif.Options
open Spec
open Metadata (Item Meta ciEq)

theorem set_flag (o : Options) (f g : Flag) (b : Bool) : (o.set f b).flag g = if g = f then b else o.flag g := rfl

theorem ciEq_word {w k : Bytes} (hw : w.map toLower = w) : ciEq k w = true ↔ Word w k := by
  unfold ciEq Word
  rw [hw, beq_iff_eq]

theorem ciEq_comm (a b : Bytes) : ciEq a b = ciEq b a := by
  unfold ciEq
  rw [Bool.eq_iff_iff, beq_iff_eq, beq_iff_eq]
  exact eq_comm

/-- Every key of the tables is in lower case. -/
theorem boolKeys_lower : ∀ e ∈ boolKeys, ∀ w ∈ e.1, w.map toLower = w := by decide +kernel

/-- The flags switched on with a flag. -/
def impliedFlags : Flag → List Flag
  | .indices => [.mmarkIndex, .textIndex]
  | .titleCaptionsOnly => [.imageCaptions]
  | .poetry => [.languageOnly]
  | .proofreader => [.critic]
  | _ => []

theorem implied_flag (f g : Flag) (o : Options) : (implied f o).flag g = if g ∈ impliedFlags f then true else o.flag g := by
  cases f
  case indices =>
    show (if g = .textIndex then true else if g = .mmarkIndex then true else o.flag g) = _
    by_cases h1 : g = .textIndex
    · subst h1; rfl
    · by_cases h2 : g = .mmarkIndex
      · subst h2; rfl
      · rw [if_neg h1, if_neg h2, if_neg (by simp [impliedFlags, h1, h2])]
  case titleCaptionsOnly =>
    show (if g = .imageCaptions then true else o.flag g) = _
    simp [impliedFlags]
  case poetry =>
    show (if g = .languageOnly then true else o.flag g) = _
    simp [impliedFlags]
  case proofreader =>
    show (if g = .critic then true else o.flag g) = _
    simp [impliedFlags]
  all_goals rfl

theorem keys_complete (f : Flag) : ∀ e ∈ boolKeys, (e.2 = f ∨ f ∈ impliedFlags e.2) → ∀ w ∈ e.1, w ∈ keys f := by
  cases f <;> decide +kernel

theorem setBool_other {o : Options} {f g : Flag} {v : Bytes} (h : ¬ (f = g ∨ g ∈ impliedFlags f)) :
    (setBool o f v).flag g = o.flag g := by
  simp only [not_or] at h
  unfold setBool
  split
  · rw [implied_flag, if_neg h.2, set_flag, if_neg (Ne.symm h.1)]
  · split
    · rw [set_flag, if_neg (Ne.symm h.1)]
    · rfl

theorem ite_prop {P : Options → Prop} {c : Prop} [Decidable c] {a b : Options} (h1 : c → P a) (h2 : P b) :
    P (if c then a else b) := by
  split
  · exact h1 ‹_›
  · exact h2

theorem setString_other {o : Options} {g : Flag} {k v : Bytes} (h : ∀ w ∈ keys g, ¬ Word w k) :
    (setString o k v).flag g = o.flag g := by
  have hk : ∀ w ∈ keys g, w.map toLower = w → ciEq k w = false := by
    intro w hw hl
    rw [Bool.eq_false_iff]
    intro e
    exact h w hw ((ciEq_word hl).1 e)
  have h1 : ciEq k b!"bibliography" = true → g ≠ .citations := by
    rintro e rfl; rw [hk _ (by decide) (by decide)] at e; cases e
  have h2 : ciEq k b!"csl" = true → g ≠ .citations := by
    rintro e rfl; rw [hk _ (by decide) (by decide)] at e; cases e
  have h3 : (ciEq k b!"style" || ciEq k b!"css") = true → g ≠ .standalone := by
    rintro e rfl
    rw [hk b!"style" (by decide) (by decide), hk b!"css" (by decide) (by decide)] at e; cases e
  have h4 : (ciEq k b!"wikilink-sanitize" || ciEq k b!"wikilink_sanitize") = true → g ≠ .wikilinkSanitize := by
    rintro e rfl
    rw [hk b!"wikilink-sanitize" (by decide) (by decide), hk b!"wikilink_sanitize" (by decide) (by decide)] at e; cases e
  unfold setString
  refine ite_prop (P := fun o' => o'.flag g = o.flag g) (fun e => by rw [set_flag, if_neg (h1 e)]) ?_
  refine ite_prop (P := fun o' => o'.flag g = o.flag g) (fun e => (if_neg (h2 e) : (o.set .citations true).flag g = _)) ?_
  refine ite_prop (P := fun o' => o'.flag g = o.flag g) (fun _ => rfl) ?_
  refine ite_prop (P := fun o' => o'.flag g = o.flag g) (fun e => (if_neg (h3 e) : (o.set .standalone true).flag g = _)) ?_
  refine ite_prop (P := fun o' => o'.flag g = o.flag g) (fun _ => by unfold setIdFormat; (repeat' split) <;> rfl) ?_
  refine ite_prop (P := fun o' => o'.flag g = o.flag g) (fun _ => rfl) ?_
  refine ite_prop (P := fun o' => o'.flag g = o.flag g) (fun _ => by unfold setSpace; (repeat' split) <;> rfl) ?_
  refine ite_prop (P := fun o' => o'.flag g = o.flag g) (fun _ => rfl) ?_
  refine ite_prop (P := fun o' => o'.flag g = o.flag g) (fun e => by rw [set_flag, if_neg (h4 e)]) ?_
  refine ite_prop (P := fun o' => o'.flag g = o.flag g) (fun _ => by unfold setTheme; split <;> rfl) ?_
  refine ite_prop (P := fun o' => o'.flag g = o.flag g) (fun _ => by unfold setWidth; split <;> rfl) ?_
  refine ite_prop (P := fun o' => o'.flag g = o.flag g) (fun _ => by unfold setHighlighter; (repeat' split) <;> rfl) ?_
  rfl

theorem applyItem_other {o : Options} {g : Flag} {it : Item} (h : ∀ w ∈ keys g, ¬ Word w it.1) :
    (applyItem o it).flag g = o.flag g := by
  unfold applyItem
  split
  · rfl
  · split
    · rename_i e he
      apply setBool_other
      intro hc
      have hm := List.mem_of_find?_eq_some he
      have hp := List.find?_some he
      obtain ⟨w, hw, e1⟩ := List.any_eq_true.1 hp
      exact h w (keys_complete g e hm hc w hw) ((ciEq_word (boolKeys_lower e hm w hw)).1 e1)
    · exact setString_other h

theorem fold_other {g : Flag} {md : Meta} : ∀ {o : Options}, (∀ it ∈ md, ∀ w ∈ keys g, ¬ Word w it.1) →
    (md.foldl applyItem o).flag g = o.flag g := by
  induction md with
  | nil => intros; rfl
  | cons it md ih =>
    intro o h
    rw [List.foldl_cons, ih (fun x hx => h x (by simp [hx])), applyItem_other (h it (by simp))]

theorem modePass_none {md : Meta} {o : Options} (h : ∀ it ∈ md, ¬ Word b!"mode" it.1) : modePass md o = o := by
  unfold modePass
  rw [List.find?_eq_none.2]
  intro it hit e
  exact h it hit ((ciEq_word (by decide)).1 e)

/-- An item with a boolean key. -/
theorem applyItem_bool {o : Options} {it : Item} {e : List Bytes × Flag} (he : e ∈ boolKeys) {w : Bytes} (hw : w ∈ e.1)
    (hk : Word w it.1) {b : Bool} (hv : Says b it.2) : (applyItem o it).flag e.2 = b := by
  have hmode : ciEq it.1 b!"mode" = false := by
    rw [Bool.eq_false_iff]
    intro e1
    have h1 := (ciEq_word (w := b!"mode") (by decide)).1 e1
    unfold Word at h1 hk
    rw [h1] at hk
    have : ∀ e ∈ boolKeys, b!"mode" ∉ e.1 := by decide +kernel
    exact this e he (hk ▸ hw)
  have huniq : ∀ e ∈ boolKeys, ∀ e' ∈ boolKeys, ∀ w ∈ e.1, w ∈ e'.1 → e'.2 = e.2 := by decide +kernel
  have hself : ∀ f : Flag, f ∉ impliedFlags f := by intro f; cases f <;> decide
  unfold applyItem
  rw [hmode]
  simp only [Bool.false_eq_true, if_false]
  have hex : (boolKeys.find? fun e => e.1.any (ciEq it.1)).isSome = true := by
    rw [List.find?_isSome]
    exact ⟨e, he, List.any_eq_true.2 ⟨w, hw, (ciEq_word (boolKeys_lower e he w hw)).2 hk⟩⟩
  split
  · rename_i e' he'
    have hm := List.mem_of_find?_eq_some he'
    have hp := List.find?_some he'
    obtain ⟨w', hw', e1⟩ := List.any_eq_true.1 hp
    have hk' := (ciEq_word (boolKeys_lower e' hm w' hw')).1 e1
    have hww : w' = w := by unfold Word at hk hk'; rw [← hk, ← hk']
    subst hww
    rw [huniq e he e' hm w' hw hw']
    unfold setBool isTrue isFalse
    cases hv with
    | yes h1 h2 =>
      unfold Word at h2
      rw [h2, if_pos (by simp at h1 ⊢; rcases h1 with h | h | h <;> simp [h])]
      rw [implied_flag, if_neg (hself _), set_flag, if_pos rfl]
    | no h1 h2 =>
      unfold Word at h2
      rw [h2]
      simp only [List.mem_cons, List.not_mem_nil, or_false] at h1
      rcases h1 with h | h | h <;> subst h <;> exact (if_pos rfl : (o.set e.2 false).flag e.2 = _)
  · rename_i hn
    rw [hn] at hex
    cases hex

theorem modeOf_named {v : Bytes} {m : Mode} : modeOf (v.map toLower) = some m ↔ Named m v := by
  constructor
  · intro h
    unfold modeOf at h
    split at h
    · rename_i e; cases h; exact .commonmark (by simpa [Word] using e)
    split at h
    · rename_i e; cases h; exact .gfm (by simpa [Word] using e)
    split at h
    · rename_i e
      cases h
      simp only [Bool.or_eq_true, beq_iff_eq] at e
      rcases e with e | e
      · exact .mmd e
      · exact .multimarkdown e
    split at h
    · rename_i e; cases h; exact .kramdown (by simpa [Word] using e)
    split at h
    · rename_i e; cases h; exact .unified (by simpa [Word] using e)
    · cases h
  · intro h
    cases h <;> (rename_i h; unfold Word at h; rw [h]; rfl)

theorem implied_mode (f : Flag) (o : Options) : (implied f o).mode = o.mode := by cases f <;> rfl

theorem applyItem_mode (o : Options) (it : Item) : (applyItem o it).mode = o.mode := by
  unfold applyItem
  split
  · rfl
  · split
    · unfold setBool
      repeat' split
      · rw [implied_mode]; rfl
      · rfl
      · rfl
    · unfold setString
      refine ite_prop (P := fun o' => o'.mode = o.mode) (fun _ => rfl) ?_
      refine ite_prop (P := fun o' => o'.mode = o.mode) (fun _ => rfl) ?_
      refine ite_prop (P := fun o' => o'.mode = o.mode) (fun _ => rfl) ?_
      refine ite_prop (P := fun o' => o'.mode = o.mode) (fun _ => rfl) ?_
      refine ite_prop (P := fun o' => o'.mode = o.mode) (fun _ => by unfold setIdFormat; (repeat' split) <;> rfl) ?_
      refine ite_prop (P := fun o' => o'.mode = o.mode) (fun _ => rfl) ?_
      refine ite_prop (P := fun o' => o'.mode = o.mode) (fun _ => by unfold setSpace; (repeat' split) <;> rfl) ?_
      refine ite_prop (P := fun o' => o'.mode = o.mode) (fun _ => rfl) ?_
      refine ite_prop (P := fun o' => o'.mode = o.mode) (fun _ => rfl) ?_
      refine ite_prop (P := fun o' => o'.mode = o.mode) (fun _ => by unfold setTheme; split <;> rfl) ?_
      refine ite_prop (P := fun o' => o'.mode = o.mode) (fun _ => by unfold setWidth; split <;> rfl) ?_
      refine ite_prop (P := fun o' => o'.mode = o.mode) (fun _ => by unfold setHighlighter; (repeat' split) <;> rfl) ?_
      rfl

theorem fold_mode {md : Meta} : ∀ {o : Options}, (md.foldl applyItem o).mode = o.mode := by
  induction md with
  | nil => intros; rfl
  | cons it md ih => intro o; rw [List.foldl_cons, ih, applyItem_mode]

theorem forMode_mode (m : Mode) : (forMode m).mode = m := by cases m <;> rfl

/-! ### Merging -/

open Metadata (addItem removeFirst mergeList mergeArgs copyList merge cliMerge)

theorem mem_removeFirst {k : Bytes} {md : Meta} {it : Item} (h : it ∈ removeFirst k md) : it ∈ md := by
  induction md with
  | nil => exact h
  | cons x md ih =>
    unfold removeFirst at h
    split at h
    · simp [h]
    · rcases List.mem_cons.1 h with h | h
      · simp [h]
      · simp [ih h]

theorem mem_mergeList {it : Item} {l : Meta} : ∀ {acc : Meta}, it ∈ mergeList acc l → it ∈ acc ∨ it ∈ l := by
  induction l with
  | nil => intro acc h; exact .inl h
  | cons x l ih =>
    intro acc h
    unfold mergeList at h
    rcases ih h with h | h
    · rcases List.mem_cons.1 h with h | h
      · exact .inr (by simp [h])
      · exact .inl (mem_removeFirst h)
    · exact .inr (by simp [h])

theorem mem_copyList {it : Item} {l : Meta} : ∀ {acc : Meta}, it ∈ copyList acc l → it ∈ acc ∨ it ∈ l := by
  induction l with
  | nil => intro acc h; exact .inl h
  | cons x l ih =>
    intro acc h
    unfold copyList at h
    rcases ih h with h | h
    · rcases List.mem_cons.1 h with h | h
      · exact .inr (by simp [h])
      · exact .inl h
    · exact .inr (by simp [h])

theorem mem_mergeArgs {it : Item} {ls : List Meta} : ∀ {acc : Meta}, it ∈ mergeArgs acc ls → it ∈ acc ∨ ∃ l ∈ ls, it ∈ l := by
  induction ls with
  | nil => intro acc h; exact .inl h
  | cons l ls ih =>
    intro acc h
    cases l with
    | nil => exact .inl h
    | cons x l =>
      rw [mergeArgs] at h
      · rcases ih h with h | ⟨l', h1, h2⟩
        · rcases mem_mergeList h with h | h
          · exact .inl h
          · exact .inr ⟨_, by simp, h⟩
        · exact .inr ⟨l', by simp [h1], h2⟩
      · simp

theorem mem_cliMerge {it : Item} {file doc cmd : Meta} (h : it ∈ cliMerge file doc cmd) : it ∈ file ∨ it ∈ doc ∨ it ∈ cmd := by
  unfold cliMerge at h
  split at h
  · unfold merge at h
    rcases mem_mergeArgs h with h | ⟨l, h1, h2⟩
    · rcases mem_copyList h with h | h
      · simp at h
      · exact .inl h
    · simp only [List.mem_cons, List.not_mem_nil, or_false] at h1
      rcases h1 with rfl | rfl
      · exact .inr (.inl h2)
      · exact .inr (.inr h2)
  · simp at h

/-! ### The command line -/

theorem baseFromInput_flag (dir : Bytes → Option Bytes) (c : Cli) : (baseFromInput dir c).flag = c.options.flag := by
  unfold baseFromInput
  split <;> rfl

theorem addLists_flag (c : Cli) (o : Options) : (addLists c o).flag = o.flag := by
  unfold addLists
  simp only []
  split <;> split <;> rfl

theorem keepLists_flag (c : Cli) (o : Options) : (keepLists c o).flag = o.flag := by
  unfold keepLists
  simp only []
  split <;> split <;> rfl

theorem keepPlugins_flag {c : Cli} {o : Options} {f : Flag} (hp : f ≠ .plugins) : (keepPlugins c o).flag f = o.flag f := by
  unfold keepPlugins
  cases c.plugins with
  | none => rfl
  | some b => exact if_neg hp

theorem keepPlugins_set {c : Cli} {b : Bool} (h : c.plugins = some b) (o : Options) : (keepPlugins c o).flag .plugins = b := by
  unfold keepPlugins
  rw [h]
  exact (set_flag o .plugins .plugins b).trans (if_pos rfl)

/-- What happens to a flag. -/
theorem final_flag (dir : Bytes → Option Bytes) (c : Cli) (file doc : Meta) (f : Flag) (hp : f ≠ .plugins)
    (h : ∀ it, it ∈ file ∨ it ∈ doc ∨ it ∈ c.metadata → Unrelated f it.1) :
    (finalOptions dir c file doc).flag f = c.options.flag f := by
  unfold finalOptions
  simp only []
  rw [keepPlugins_flag hp]
  have hm : ∀ it ∈ cliMerge file (docMeta (baseFromInput dir c).mode doc) c.metadata, Unrelated f it.1 := by
    intro it hit
    rcases mem_cliMerge hit with h1 | h1 | h1
    · exact h it (.inl h1)
    · unfold docMeta at h1
      split at h1
      · exact h it (.inr (.inl h1))
      · simp at h1
    · exact h it (.inr (.inr h1))
  split
  · rw [keepLists_flag]
    unfold applyMeta
    rw [fold_other (fun it hit => (hm it hit).2), modePass_none (fun it hit => (hm it hit).1), addLists_flag, baseFromInput_flag]
  · rw [addLists_flag, baseFromInput_flag]

/-- A mode starts from scratch. -/
theorem parse_mode (parse : Bytes → Meta) {c : Cli} {m : Bytes} {M : Mode} (hm : modeOf m = some M) (post : List Bytes) :
    parseArgs parse c (b!"--mode" :: m :: post) = parseArgs parse { c with options := forMode M } post := by
  have h1 : ∀ v, withValue c b!"--mode" v = some ((modeOf v).map fun m => { c with options := forMode m }) := by
    intro v; rfl
  rw [parseArgs.eq_def]
  simp only []
  rw [if_neg (by decide), if_pos (by rw [h1]; rfl), h1, hm]
  rfl

/-- An argument of the table. -/
theorem parse_flag (parse : Bytes → Meta) {c : Cli} {e : Bytes × List (Flag × Bool)} (he : e ∈ cliFlags) (post : List Bytes) :
    parseArgs parse c (e.1 :: post) = parseArgs parse { c with options := c.options.assign e.2 } post := by
  have h1 : ∀ e ∈ cliFlags, e.1 ∉ [b!"-h", b!"--help", b!"-v", b!"--version"] := by decide +kernel
  have h2 : ∀ e ∈ cliFlags, ∀ (c : Cli), withValue c e.1 [] = none := by
    intro e he c
    have : ∀ e ∈ cliFlags, e.1 ∉ [b!"-m", b!"--mode", b!"-t", b!"--to", b!"--theme", b!"--css", b!"--style", b!"--title",
      b!"--id-format", b!"--captions", b!"--code-highlight", b!"--wikilink-space", b!"--wikilink-extension", b!"--base-dir",
      b!"--bibliography", b!"--csl", b!"--meta-file"] ++ silentArgs := by decide +kernel
    have hn := this e he
    simp only [List.cons_append, List.nil_append, List.mem_cons, not_or] at hn
    unfold withValue
    simp only [beq_iff_eq, Bool.or_eq_true]
    rw [if_neg (by simp [hn]), if_neg (by simp [hn]), if_neg (by simp [hn]), if_neg (by simp [hn]), if_neg (by simp [hn]),
      if_neg (by simp [hn]), if_neg (by simp [hn]), if_neg (by simp [hn]), if_neg (by simp [hn]), if_neg (by simp [hn]),
      if_neg (by simp [hn]), if_neg (by simp [hn]), if_neg (by simp [hn]), if_neg (by simp [hn]), if_neg (by simp [hn])]
  have h3 : ∀ e ∈ cliFlags, ¬ b!"--meta" <+: e.1 := by decide +kernel
  have h4 : ∀ e ∈ cliFlags, e.1 ∉ [b!"--plugins", b!"--no-plugins", b!"--accept", b!"--reject", b!"--proofreader"] ++ silentFlags := by
    decide +kernel
  have h5 : ∀ e ∈ cliFlags, cliFlags.find? (fun e' => e'.1 == e.1) = some e := by decide +kernel
  rw [parseArgs.eq_def]
  simp only []
  rw [if_neg (h1 e he), if_neg (by rw [h2 e he]; simp), if_neg (h3 e he)]
  have hn := h4 e he
  simp only [List.cons_append, List.nil_append, List.mem_cons, not_or] at hn
  have hw : withoutValue c e.1 = some { c with options := c.options.assign e.2 } := by
    unfold withoutValue
    simp only [beq_iff_eq]
    rw [if_neg hn.1, if_neg hn.2.1, if_neg hn.2.2.1, if_neg hn.2.2.2.1, if_neg hn.2.2.2.2.1, if_neg hn.2.2.2.2.2, h5 e he]
  rw [hw]

theorem parse_flags (parse : Bytes → Meta) : ∀ (l : List (Bytes × List (Flag × Bool))) (c : Cli), (∀ e ∈ l, e ∈ cliFlags) →
    parseArgs parse c (l.map Prod.fst) = some { c with options := c.options.assign (l.flatMap Prod.snd) } := by
  intro l
  induction l with
  | nil => intro c _; simp [parseArgs, Options.assign]
  | cons e l ih =>
    intro c h
    rw [List.map_cons, parse_flag parse (h e (by simp)), ih _ (fun e he => h e (by simp [he]))]
    simp [Options.assign, List.foldl_append]

theorem lastSaid_mem {f : Flag} {b : Bool} {l : List (Flag × Bool)} (h : lastSaid f l = some b) : (f, b) ∈ l := by
  induction l with
  | nil => cases h
  | cons p l ih =>
    rw [lastSaid] at h
    cases hl : lastSaid f l with
    | some b' =>
      rw [hl] at h
      have h : b' = b := by simpa using h
      subst h
      exact List.mem_cons_of_mem _ (ih hl)
    | none =>
      rw [hl, Option.none_or] at h
      split at h
      · rename_i e
        cases h
        obtain ⟨p1, p2⟩ := p
        simp only at e
        subst e
        simp
      · cases h

theorem lastSaid_none {f : Flag} {l : List (Flag × Bool)} (h : lastSaid f l = none) (b : Bool) : (f, b) ∉ l := by
  induction l with
  | nil => simp
  | cons p l ih =>
    rw [lastSaid] at h
    cases hl : lastSaid f l with
    | some b' => rw [hl] at h; cases h
    | none =>
      rw [hl, Option.none_or] at h
      split at h
      · cases h
      · rename_i e
        intro hm
        rcases List.mem_cons.1 hm with hm | hm
        · rw [← hm] at e; exact e rfl
        · exact ih hl hm


theorem assign_flag (f : Flag) (l : List (Flag × Bool)) : ∀ o : Options,
    (o.assign l).flag f = (lastSaid f l).getD (o.flag f) := by
  induction l with
  | nil => intro o; rfl
  | cons p l ih =>
    intro o
    unfold Options.assign at ih ⊢
    rw [List.foldl_cons, ih, lastSaid]
    cases lastSaid f l with
    | some b => rfl
    | none =>
      simp only [Option.getD_none, Option.none_or, set_flag]
      by_cases h : f = p.1
      · rw [if_pos h, if_pos h.symm]; rfl
      · rw [if_neg h, if_neg (Ne.symm h)]; rfl

/-- The option-independent part of `withValue`. -/
theorem parse_append (parse : Bytes → Meta) : ∀ (n : Nat) (pre post : List Bytes) (c c' : Cli), pre.length ≤ n →
    parseArgs parse c pre = some c' → parseArgs parse c (pre ++ post) = parseArgs parse c' post := by
  intro n
  induction n with
  | zero =>
    intro pre post c c' hl h
    have : pre = [] := List.length_eq_zero_iff.1 (by omega)
    subst this
    simp only [parseArgs] at h
    cases h; rfl
  | succ n ih =>
    intro pre post c c' hl h
    cases pre with
    | nil => simp only [parseArgs] at h; cases h; rfl
    | cons a rest =>
      rw [List.cons_append]
      rw [parseArgs.eq_def] at h ⊢
      simp only [] at h ⊢
      simp only [List.length_cons] at hl
      split at h
      · cases h
      rename_i h1
      rw [if_neg h1]
      split at h
      · rename_i h2
        rw [if_pos h2]
        cases rest with
        | nil => cases h
        | cons v rest' =>
          simp only [List.cons_append] at h ⊢
          cases hj : (withValue c a v).join with
          | none => rw [hj] at h; cases h
          | some c2 =>
            rw [hj] at h
            exact ih rest' post c2 c' (by simp at hl; omega) h
      rename_i h2
      rw [if_neg h2]
      split at h
      · rename_i h3
        rw [if_pos h3]
        split at h
        · rename_i h4
          rw [if_pos h4]
          exact ih rest post _ c' (by omega) h
        · rename_i h4
          rw [if_neg h4]
          cases rest with
          | nil => cases h
          | cons v rest' => exact ih rest' post _ c' (by simp at hl; omega) h
      · rename_i h3
        rw [if_neg h3]
        cases hw : withoutValue c a with
        | none => rw [hw] at h; cases h
        | some c2 =>
          rw [hw] at h
          exact ih rest post c2 c' (by omega) h

/-! ### Lists -/

theorem implied_lists (f : Flag) (o : Options) :
    (implied f o).bibliography = o.bibliography ∧ (implied f o).stylesheets = o.stylesheets := by cases f <;> exact ⟨rfl, rfl⟩

theorem setString_bibliography (o : Options) (k v : Bytes) : (setString o k v).bibliography = o.bibliography := by
  unfold setString
  refine ite_prop (P := fun o' => o'.bibliography = o.bibliography) (fun _ => rfl) ?_
  refine ite_prop (P := fun o' => o'.bibliography = o.bibliography) (fun _ => rfl) ?_
  refine ite_prop (P := fun o' => o'.bibliography = o.bibliography) (fun _ => rfl) ?_
  refine ite_prop (P := fun o' => o'.bibliography = o.bibliography) (fun _ => rfl) ?_
  refine ite_prop (P := fun o' => o'.bibliography = o.bibliography) (fun _ => by unfold setIdFormat; (repeat' split) <;> rfl) ?_
  refine ite_prop (P := fun o' => o'.bibliography = o.bibliography) (fun _ => rfl) ?_
  refine ite_prop (P := fun o' => o'.bibliography = o.bibliography) (fun _ => by unfold setSpace; (repeat' split) <;> rfl) ?_
  refine ite_prop (P := fun o' => o'.bibliography = o.bibliography) (fun _ => rfl) ?_
  refine ite_prop (P := fun o' => o'.bibliography = o.bibliography) (fun _ => rfl) ?_
  refine ite_prop (P := fun o' => o'.bibliography = o.bibliography) (fun _ => by unfold setTheme; split <;> rfl) ?_
  refine ite_prop (P := fun o' => o'.bibliography = o.bibliography) (fun _ => by unfold setWidth; split <;> rfl) ?_
  refine ite_prop (P := fun o' => o'.bibliography = o.bibliography) (fun _ => by unfold setHighlighter; (repeat' split) <;> rfl) ?_
  rfl

theorem setString_stylesheets {o : Options} {k v : Bytes} (h : ¬ Word b!"css" k ∧ ¬ Word b!"style" k) :
    (setString o k v).stylesheets = o.stylesheets := by
  unfold setString
  refine ite_prop (P := fun o' => o'.stylesheets = o.stylesheets) (fun _ => rfl) ?_
  refine ite_prop (P := fun o' => o'.stylesheets = o.stylesheets) (fun _ => rfl) ?_
  refine ite_prop (P := fun o' => o'.stylesheets = o.stylesheets) (fun _ => rfl) ?_
  refine ite_prop (P := fun o' => o'.stylesheets = o.stylesheets) (fun hc => ?_) ?_
  · rw [Bool.or_eq_true, ciEq_word (by decide), ciEq_word (by decide)] at hc
    rcases hc with hc | hc
    · exact absurd hc h.2
    · exact absurd hc h.1
  refine ite_prop (P := fun o' => o'.stylesheets = o.stylesheets) (fun _ => by unfold setIdFormat; (repeat' split) <;> rfl) ?_
  refine ite_prop (P := fun o' => o'.stylesheets = o.stylesheets) (fun _ => rfl) ?_
  refine ite_prop (P := fun o' => o'.stylesheets = o.stylesheets) (fun _ => by unfold setSpace; (repeat' split) <;> rfl) ?_
  refine ite_prop (P := fun o' => o'.stylesheets = o.stylesheets) (fun _ => rfl) ?_
  refine ite_prop (P := fun o' => o'.stylesheets = o.stylesheets) (fun _ => rfl) ?_
  refine ite_prop (P := fun o' => o'.stylesheets = o.stylesheets) (fun _ => by unfold setTheme; split <;> rfl) ?_
  refine ite_prop (P := fun o' => o'.stylesheets = o.stylesheets) (fun _ => by unfold setWidth; split <;> rfl) ?_
  refine ite_prop (P := fun o' => o'.stylesheets = o.stylesheets) (fun _ => by unfold setHighlighter; (repeat' split) <;> rfl) ?_
  rfl

theorem setBool_lists (o : Options) (f : Flag) (v : Bytes) :
    (setBool o f v).bibliography = o.bibliography ∧ (setBool o f v).stylesheets = o.stylesheets := by
  unfold setBool
  split
  · rw [(implied_lists _ _).1, (implied_lists _ _).2]; exact ⟨rfl, rfl⟩
  · split <;> exact ⟨rfl, rfl⟩

theorem fold_bibliography : ∀ {md : Meta} {o : Options}, (md.foldl applyItem o).bibliography = o.bibliography := by
  intro md
  induction md with
  | nil => intros; rfl
  | cons it md ih =>
    intro o
    rw [List.foldl_cons, ih]
    unfold applyItem
    split
    · rfl
    · split
      · exact (setBool_lists _ _ _).1
      · exact setString_bibliography _ _ _

theorem fold_stylesheets : ∀ {md : Meta} {o : Options}, (∀ it ∈ md, ¬ Word b!"css" it.1 ∧ ¬ Word b!"style" it.1) →
    (md.foldl applyItem o).stylesheets = o.stylesheets := by
  intro md
  induction md with
  | nil => intros; rfl
  | cons it md ih =>
    intro o h
    rw [List.foldl_cons, ih (fun it hit => h it (by simp [hit]))]
    unfold applyItem
    split
    · rfl
    · split
      · exact (setBool_lists _ _ _).2
      · exact setString_stylesheets (h it (by simp))

theorem modePass_lists (md : Meta) (o : Options) :
    ((modePass md o).bibliography = o.bibliography ∨ (modePass md o).bibliography = none) ∧
    ((modePass md o).stylesheets = o.stylesheets ∨ (modePass md o).stylesheets = none) := by
  unfold modePass
  split
  · split
    · rename_i m _
      cases m <;> exact ⟨.inr rfl, .inr rfl⟩
    · exact ⟨.inl rfl, .inl rfl⟩
  · exact ⟨.inl rfl, .inl rfl⟩

theorem keepPlugins_lists (c : Cli) (o : Options) :
    (keepPlugins c o).bibliography = o.bibliography ∧ (keepPlugins c o).stylesheets = o.stylesheets := by
  unfold keepPlugins
  split <;> exact ⟨rfl, rfl⟩

theorem addLists_bibliography {c : Cli} {o : Options} (h : c.bibliography ≠ []) : (addLists c o).bibliography = some c.bibliography := by
  unfold addLists
  simp only [if_pos h]
  split <;> rfl

theorem addLists_stylesheets {c : Cli} {o : Options} (h : c.css ≠ []) : (addLists c o).stylesheets = some c.css := by
  unfold addLists
  simp only [if_pos h]

theorem keepLists_bibliography {c : Cli} {o : Options} (h : c.bibliography ≠ [])
    (ho : o.bibliography = some c.bibliography ∨ o.bibliography = none) : (keepLists c o).bibliography = some c.bibliography := by
  unfold keepLists
  simp only []
  rcases ho with ho | ho
  · have : ¬ (c.bibliography ≠ [] ∧ o.bibliography = none) := by rw [ho]; simp
    rw [if_neg this]
    split <;> exact ho
  · have hc : c.bibliography ≠ [] ∧ o.bibliography = none := ⟨h, ho⟩
    simp only [if_pos hc]
    split <;> rfl

theorem keepLists_stylesheets {c : Cli} {o : Options} (h : c.css ≠ [])
    (ho : o.stylesheets = some c.css ∨ o.stylesheets = none) : (keepLists c o).stylesheets = some c.css := by
  unfold keepLists
  simp only []
  have he : ∀ x : Option (List Bytes), (if c.bibliography ≠ [] ∧ o.bibliography = none then
      { o with bibliography := x } else o).stylesheets = o.stylesheets := by
    intro x; split <;> rfl
  rcases ho with ho | ho
  · rw [if_neg (by rw [he, ho]; simp), he, ho]
  · rw [if_pos ⟨h, by rw [he, ho]⟩]

theorem final_bibliography (dir : Bytes → Option Bytes) {c : Cli} (file doc : Meta) (h : c.bibliography ≠ []) :
    (finalOptions dir c file doc).bibliography = some c.bibliography := by
  unfold finalOptions
  simp only []
  rw [(keepPlugins_lists _ _).1]
  split
  · refine keepLists_bibliography h ?_
    unfold applyMeta
    rw [fold_bibliography]
    rw [← addLists_bibliography (o := baseFromInput dir c) h]
    exact (modePass_lists _ _).1
  · exact addLists_bibliography h

theorem final_stylesheets (dir : Bytes → Option Bytes) {c : Cli} {file doc : Meta} (h : c.css ≠ [])
    (hm : ∀ it, it ∈ file ∨ it ∈ doc ∨ it ∈ c.metadata → ¬ Word b!"css" it.1 ∧ ¬ Word b!"style" it.1) :
    (finalOptions dir c file doc).stylesheets = some c.css := by
  unfold finalOptions
  simp only []
  rw [(keepPlugins_lists _ _).2]
  split
  · refine keepLists_stylesheets h ?_
    unfold applyMeta
    rw [fold_stylesheets]
    · rw [← addLists_stylesheets (o := baseFromInput dir c) h]
      exact (modePass_lists _ _).2
    · intro it hit
      rcases mem_cliMerge hit with h1 | h1 | h1
      · exact hm it (.inl h1)
      · unfold docMeta at h1
        split at h1
        · exact hm it (.inr (.inl h1))
        · simp at h1
      · exact hm it (.inr (.inr h1))
  · exact addLists_stylesheets h

/-! ### Arguments in general -/

/-- Every argument with a value. -/
def valueArgs : List Bytes :=
  [b!"-m", b!"--mode", b!"-t", b!"--to", b!"--theme", b!"--css", b!"--style", b!"--title",
   b!"--id-format", b!"--captions", b!"--code-highlight", b!"--wikilink-space", b!"--wikilink-extension", b!"--base-dir",
   b!"--bibliography", b!"--csl", b!"--meta-file"] ++ silentArgs

theorem withValue_none {a : Bytes} (h : a ∉ valueArgs) (c : Cli) (v : Bytes) : withValue c a v = none := by
  unfold valueArgs at h
  simp only [List.cons_append, List.nil_append, List.mem_cons, not_or] at h
  unfold withValue
  simp only [beq_iff_eq, Bool.or_eq_true]
  rw [if_neg (by simp [h]), if_neg (by simp [h]), if_neg (by simp [h]), if_neg (by simp [h]), if_neg (by simp [h]),
    if_neg (by simp [h]), if_neg (by simp [h]), if_neg (by simp [h]), if_neg (by simp [h]), if_neg (by simp [h]),
    if_neg (by simp [h]), if_neg (by simp [h]), if_neg (by simp [h]), if_neg (by simp [h]), if_neg (by simp [h])]

theorem withoutValue_none {a : Bytes} (h1 : ∀ e ∈ cliFlags, e.1 ≠ a) (h2 : a ∉ silentFlags)
    (h3 : a ∉ [b!"--plugins", b!"--no-plugins", b!"--accept", b!"--reject", b!"--proofreader"]) (hd : a.head? = some c!"-") (c : Cli) :
    withoutValue c a = none := by
  simp only [List.mem_cons, not_or] at h3
  unfold withoutValue
  simp only [beq_iff_eq]
  rw [if_neg h3.1, if_neg h3.2.1, if_neg h3.2.2.1, if_neg h3.2.2.2.1, if_neg h3.2.2.2.2.1, if_neg h2]
  have : (cliFlags.find? fun e => e.1 == a) = none := by
    rw [List.find?_eq_none]
    intro e he hb
    exact h1 e he (beq_iff_eq.1 hb)
  rw [this]
  simp [hd]

/-- An argument with a value. -/
theorem parse_value (parse : Bytes → Meta) {c c' : Cli} {a v : Bytes} (h0 : a ∉ [b!"-h", b!"--help", b!"-v", b!"--version"])
    (h1 : (withValue c a []).isSome) (h2 : withValue c a v = some (some c')) (post : List Bytes) :
    parseArgs parse c (a :: v :: post) = parseArgs parse c' post := by
  rw [parseArgs.eq_def]
  simp only []
  rw [if_neg h0, if_pos h1, h2]
  rfl

theorem assign_rest (l : List (Flag × Bool)) : ∀ (o : Options), { o.assign l with flag := o.flag } = o := by
  induction l with
  | nil => intro o; rfl
  | cons p l ih =>
    intro o
    have := ih (o.set p.1 p.2)
    show { (o.set p.1 p.2).assign l with flag := o.flag } = o
    have h2 : ∀ (x y : Options), { x with flag := y.flag } = y → ∀ g, { x with flag := g } = { y with flag := g } := by
      intro x y h g
      rw [← h]
    rw [h2 _ _ this]
    rfl

theorem splitOn_single {c : Byte} : ∀ {v : Bytes}, c ∉ v → v.splitOn c = [v] := by
  intro v h
  unfold List.splitOn
  refine List.splitOnP_eq_singleton fun x hx => ?_
  rw [Bool.eq_false_iff]
  intro e
  exact h (eq_of_beq e ▸ hx)

theorem cssPaths_single {v : Bytes}
    (hv : v ≠ [] ∧ c!"," ∉ v ∧ (∀ x ∈ v.head?, x ≠ 32 ∧ x ≠ 9) ∧ (∀ x ∈ v.getLast?, x ≠ 32 ∧ x ≠ 9)) : cssPaths v = [v] := by
  obtain ⟨h1, h2, h3, h4⟩ := hv
  have hd : ∀ s : Bytes, (∀ x ∈ s.head?, x ≠ 32 ∧ x ≠ 9) → s.dropWhile (fun c => c == 32 || c == 9) = s := by
    intro s hs
    cases s with
    | nil => rfl
    | cons a s =>
      rw [List.dropWhile_cons_of_neg]
      have := hs a (by simp)
      simp [this]
  unfold cssPaths
  simp only [splitOn_single h2, List.map_cons, List.map_nil]
  rw [hd v h3, hd v.reverse (by simpa using h4), List.reverse_reverse]
  simp [h1]

end Verif.Options
