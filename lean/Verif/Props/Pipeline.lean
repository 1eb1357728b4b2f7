/- C216-C221: the conversion as a whole. -/
import Verif.Proof.Pipeline

namespace Verif.Pipeline
open Options (Options Mode Flag forMode)
open Metadata (Meta)
open Spec

/-- A small program for the examples: the functions without a condition are those of apex, the trees are the texts, every
other function does nothing. -/
def copy : Code Bytes where
  load := fun _ => false
  metadata := fun t => .val ([], t)
  alds := fun t => .val ([], t)
  abbrs := fun t => .val ([], t)
  loadFiles := fun _ _ => false
  loadFile := fun _ => false
  pre := fun p _ _ t =>
    match p with
    | .inlineTables => InlineTables.process t >>= fun r => .val ⟨some r, []⟩
    | .highlights => Highlight.process Highlight.highlightRule [0] t >>= fun r => .val ⟨some r, []⟩
    | .inserts => Highlight.process (Highlight.insertRule fun _ => none) [0] t >>= fun r => .val ⟨some r, []⟩
    | .liquid => Liquid.protect t >>= fun r =>
      .val (match r with
        | none => ⟨none, []⟩
        | some (t, tags) => ⟨some t, tags⟩)
    | _ => .val ⟨none, []⟩
  parse := fun _ t => t
  filters := none
  tree := fun _ _ _ d => .val d
  write := fun _ d => d
  render := fun _ _ d => d
  post := fun p _ n _ h =>
    match p with
    | .liquid => Liquid.restore h n.tags >>= fun r => .val (some r)
    | _ => .val none
  wrap := fun _ _ h => .val h

/-- Its functions without a condition are those of apex. -/
theorem copy_real : Real copy [0] (fun _ => none) where
  readable := by simp
  inlineTables := fun _ _ _ => rfl
  highlights := fun _ _ _ => rfl
  inserts := fun _ _ _ => rfl
  liquid := fun _ _ _ => rfl

/-- A program that does nothing at all, for the examples on memory. -/
def still : Code Bytes := { copy with pre := fun _ _ _ _ => .val ⟨none, []⟩, post := fun _ _ _ _ _ => .val none }

/-- It leaves its memory nowhere. -/
theorem still_safe : Safe still where
  metadata := fun _ => val_ne _
  alds := fun _ => val_ne _
  abbrs := fun _ => val_ne _
  pre := fun _ _ _ _ => val_ne _
  tree := fun _ _ _ _ => val_ne _
  post := fun _ _ _ _ _ => val_ne _
  wrap := fun _ _ _ => val_ne _

/-! ## C216: what is off does nothing -/

/-- C216: the functions of an extension whose option is off have no influence on the conversion: the text, the tree and the
page are the same, whatever these functions are.  For citations this needs a mode without metadata or a document without a
bibliography; see `C216_citations_fails`. -/
theorem C216_partial {T : Type} {o : Options} {c c' : Code T} (h : Same o c c')
    (hc : o.flag .citations = true ∨ (o.mode = .commonmark ∨ o.mode = .gfm) ∨ Unnamed c) (mem : Option Bytes) (len : Nat) :
    convert c o mem len = convert c' o mem len := convert_same h hc mem len

/-- Two programs that differ in what they do with tables, with hashtags and with headings for ARIA. -/
example : Same (forMode .commonmark) copy { copy with
      pre := fun p o n t => if p = .captions ∨ p = .hashtags then .val ⟨some (t ++ t), []⟩ else copy.pre p o n t
      post := fun p o n d h => if p = .aria then .ub else copy.post p o n d h } ∧
    ((forMode .commonmark).mode = .commonmark ∨ (forMode .commonmark).mode = .gfm) := by
  refine ⟨⟨rfl, rfl, rfl, rfl, rfl, rfl, rfl, rfl, rfl, rfl, rfl, fun p hp => ?_, fun _ _ => rfl, fun p hp => ?_⟩, .inl rfl⟩
  · by_cases h : p = .captions ∨ p = .hashtags
    · rcases h with rfl | rfl
      · exact absurd (hp .tables (by decide)) (by decide)
      · exact absurd (hp .hashtags (by decide)) (by decide)
    · simp [h]
  · by_cases h : p = .aria
    · subst h
      exact absurd (hp .aria (by decide)) (by decide)
    · simp [h]

/-- Programs that answer a citation, and whose documents name a bibliography. -/
def answering (r : Bytes) : Code Bytes :=
  { still with
    metadata := fun t => .val ([(b!"bibliography", b!"x.bib")], t)
    pre := fun p _ _ _ => if p = .citations then .val ⟨some r, []⟩ else .val ⟨none, []⟩ }

/-- **C216 is false as stated**: citations are off, and yet the functions for citations decide about the page, for the
document names a bibliography. -/
theorem C216_citations_fails : Options.default.flag .citations = false ∧ Same Options.default (answering b!"a\n") (answering b!"b\n") ∧
    convert (answering b!"a\n") Options.default (some b!"[@x]\n\x00") 5 = .val (some b!"a\n") ∧
    convert (answering b!"b\n") Options.default (some b!"[@x]\n\x00") 5 = .val (some b!"b\n") := by
  refine ⟨by decide, ⟨rfl, rfl, rfl, rfl, rfl, rfl, rfl, rfl, rfl, rfl, rfl, fun p hp => ?_, fun _ _ => rfl, fun _ _ => rfl⟩, by decide +kernel,
    by decide +kernel⟩
  by_cases h : p = .citations
  · subst h
    exact absurd (hp .citations (by decide)) (by decide)
  · simp [answering, h]

/-- C216: likewise for the extensions of the parser. -/
theorem C216_parser (o : Options) : ∀ e ∈ (setup o).exts, On o (needsExt e) := by
  intro e he f hf
  simp only [setup, extensions, List.mem_append] at he
  rcases he with (((((((he | he) | he) | he) | he) | he) | he) | he) | he <;> split at he <;> simp at he <;> subst he <;> rename_i ht <;>
    simp [needsExt] at hf
  · subst hf; exact ht
  · subst hf; exact ht
  · subst hf; exact ht
  · simp at ht
    subst hf
    exact ht.1
  · subst hf; exact ht
  · subst hf; exact ht
  · subst hf; exact ht
  · split at hf <;> rename_i e' <;> simp at e' hf
    · subst hf; exact ht
    · rcases hf with rfl | rfl
      · exact ht
      · exact e'

example : (setup (forMode .gfm)).exts = [.table, .tasklist, .strikethrough, .autolink, .tagfilter, .tables false] := by decide

/-! ## C217: CommonMark mode -/

/-- C217: in CommonMark mode the parser gets the text as it is, with a line ending added if there is none, provided that the
text has none of five marks in it; the tree is changed by the function for header ids only; and the page goes through seven
functions. -/
theorem C217_partial {T : Type} {c : Code T} {mem : Bytes} {attrs : Bytes → Option Bytes} (hr : Real c mem attrs) (hf : c.filters = none)
    {o : Options} (h : CommonMark o) (hh : o.highlighter = none)
    {t u : Bytes} (hne : t ≠ []) (h0 : 0 ∉ t) (h1 : ¬ b!"==" <:+: t) (h2 : ¬ b!"++" <:+: t) (h3 : ¬ b!"```" <:+: t)
    (h4 : ¬ b!"<!--TABLE-->" <:+: t) (h5 : ¬ b!"{%" <:+: t) (hu : Line t u) (x : Bytes) :
    (o.outputFormat = 1 → convert c o (some (t ++ 0 :: x)) t.length = .val (some (c.write o (c.parse plain u)))) ∧
    (2 ≤ o.outputFormat → convert c o (some (t ++ 0 :: x)) t.length =
      c.tree .ids o [] (c.parse plain u) >>= fun d => .val (some (c.write o d))) ∧
    (o.outputFormat = 0 → ∃ n, convert c o (some (t ++ 0 :: x)) t.length =
      c.tree .ids o [] (c.parse plain u) >>= fun d =>
      through c o n d [.autoMedia, .imgCaptions, .figureP, .blockP, .headerIds, .tagSpacing, .collapse] (c.render false plain.opts d) >>=
      c.wrap o [] >>= fun h => .val (some h)) := by
  have key : convert c o (some (t ++ 0 :: x)) t.length = output c o { bib := files c o } t := by
    have e : (t ++ 0 :: x).takeWhile (· != 0) = t := by
      rw [List.takeWhile_append_of_pos]
      · simp
      · intro a ha
        simp
        rintro rfl
        exact h0 ha
    have hl : t.length ≠ 0 := by simpa using hne
    unfold convert
    simp only [hl, if_false]
    rw [if_pos (by simp), e, List.take_length, prepare_cm hr (bare h), four_plain hr.readable hne h1 h2 h3 h4, C.val_bind, protect_plain h0 h5]
    rfl
  have eu := line_unique hu
  have hflt : ∀ d, filtered c o d = some d := by
    intro d
    unfold filtered
    rw [hf]
  rw [key, eu]
  refine ⟨fun hj => ?_, fun hj => ?_, fun hj => ⟨{ bib := files c o }, ?_⟩⟩
  · unfold output
    rw [if_pos hj, setup_cm h]
  · unfold output
    rw [if_neg (by omega), hflt, setup_cm h]
    simp only
    rw [grow_cm h rfl rfl]
    refine bind_congr_val fun d _ => ?_
    rw [if_neg (by omega)]
  · unfold output
    rw [if_neg (by omega), hflt, setup_cm h]
    simp only
    rw [grow_cm h rfl rfl]
    refine bind_congr_val fun d _ => ?_
    rw [if_pos hj]
    unfold page
    rw [stepsPost_eq]
    have hl : lists o = false := by simp [lists, h.1]
    have hfil : orderPost.filter (wantedPost · o { bib := files c o }) =
        [.autoMedia, .imgCaptions, .figureP, .blockP, .headerIds, .tagSpacing, .collapse] := by
      rw [List.filter_congr (fun q _ => wantedPost_cm h rfl rfl rfl rfl hh q)]
      decide
    rw [hfil, hl, cmark_cm h]
    rfl

example : CommonMark (forMode .commonmark) ∧ (forMode .commonmark).highlighter = none ∧ Line b!"# *A* | B" b!"# *A* | B\n" ∧
    convert copy (forMode .commonmark) (some b!"# *A* | B\x00rest") 9 = .val (some b!"# *A* | B\n") :=
  ⟨⟨rfl, rfl⟩, rfl, .added (by unfold EndsLine; decide), by decide +kernel⟩

/-- **C217 is false as stated**: signs of equality, plus signs, a marked table and a tag of Liquid are changed in CommonMark mode
too, for every parser. -/
theorem C217_fails {T : Type} {c : Code T} (hr : Real c [0] (fun _ => none)) {o : Options} (h : CommonMark o) (hj : o.outputFormat = 1) :
    convert c o (some b!"x ==y== and more\n\x00") 17 = .val (some (c.write o (c.parse plain b!"x <mark>y</mark> and more\n"))) ∧
    convert c o (some b!"x ++y++ and more\n\x00") 17 = .val (some (c.write o (c.parse plain b!"x <ins>y</ins> and more\n"))) ∧
    convert c o (some b!"```table\na,b\n```\n\x00") 17 = .val (some (c.write o (c.parse plain b!"| a | b |\n| --- | --- |\n\n"))) ∧
    convert c o (some b!"{% a %}\n\x00") 8 = .val (some (c.write o (c.parse plain b!"APEX_LIQUID_TAG_0\n"))) := by
  have key : ∀ (m : Bytes) (len : Nat) (u v : Bytes) (r : Option (Bytes × List Bytes)), 0 ∈ m → len ≠ 0 →
      four [0] (fun _ => none) ((m.takeWhile (· != 0)).take len) = .val u → Liquid.protect u = .val r →
      fed (tagged { bib := files c o } u r).2 = v →
      convert c o (some m) len = .val (some (c.write o (c.parse plain v))) := by
    intro m len u v r hm hl hu hp hv
    unfold convert
    simp only [hl, if_false]
    rw [if_pos hm, prepare_cm hr (bare h), hu, C.val_bind, hp]
    simp only [C.val_bind]
    unfold output
    rw [if_pos hj, hv, setup_cm h]
  refine ⟨?_, ?_, ?_, ?_⟩
  · exact key _ _ b!"x <mark>y</mark> and more\n" _ none (by decide) (by decide) (by decide +kernel) (by decide +kernel) (by rfl)
  · exact key _ _ b!"x <ins>y</ins> and more\n" _ none (by decide) (by decide) (by decide +kernel) (by decide +kernel) (by rfl)
  · exact key _ _ b!"| a | b |\n| --- | --- |\n\n" _ none (by decide) (by decide) (by decide +kernel) (by decide +kernel) (by rfl)
  · exact key _ _ b!"{% a %}\n" _ (some (b!"APEX_LIQUID_TAG_0\n", [b!"{% a %}"])) (by decide) (by decide) (by decide +kernel) (by decide +kernel) (by rfl)

/-! ## C218: what is read -/

/-- C218: what stands behind the given length or behind the first NUL does not matter, as long as there is a NUL. -/
theorem C218_partial {T : Type} (c : Code T) (o : Options) (t : Bytes) (h0 : 0 ∉ t) (len : Nat) (x y : Bytes) :
    convert c o (some (t ++ 0 :: x)) len = convert c o (some (t.take len ++ 0 :: y)) len := by
  have e : ∀ (a b : Bytes), 0 ∉ a → (a ++ 0 :: b).takeWhile (· != 0) = a := by
    intro a b ha
    rw [List.takeWhile_append_of_pos]
    · simp
    · intro z hz
      simp
      rintro rfl
      exact ha hz
  unfold convert
  simp only
  rw [if_pos (show 0 ∈ t ++ 0 :: x by simp), if_pos (show 0 ∈ t.take len ++ 0 :: y by simp), e t x h0,
    e (t.take len) y (fun h => h0 (List.mem_of_mem_take h)), List.take_take, Nat.min_self]

example : convert copy (forMode .commonmark) (some b!"ab\ncd\x00ef") 3 = .val (some b!"ab\n") ∧
    convert copy (forMode .commonmark) (some b!"ab\n\x00") 3 = .val (some b!"ab\n") := by decide +kernel

/-- **C218 is false as stated**: a text that fills its memory, without a NUL, is read past its end, although its length is given. -/
theorem C218_unterminated {T : Type} (c : Code T) (o : Options) (t : Bytes) (h0 : 0 ∉ t) (hne : t ≠ []) :
    convert c o (some t) t.length = .ub := by
  have hl : t.length ≠ 0 := by simpa using hne
  unfold convert
  simp only [hl, if_false]
  rw [if_neg h0]

/-- C218: no text, and a text of length 0, give the empty page. -/
theorem C218_empty {T : Type} (c : Code T) (o : Options) (m : Option Bytes) (len : Nat) (h : m = none ∨ len = 0) :
    convert c o m len = .val (some []) := by
  unfold convert
  rcases h with rfl | rfl
  · rfl
  · cases m <;> rfl

/-- C218: every text that the parser gets ends in a line ending: parsers that agree on such texts cannot be told apart. -/
theorem C218_line {T : Type} (c : Code T) (parse : Setup → Bytes → T) (h : ∀ s t, EndsLine t → c.parse s t = parse s t) (o : Options)
    (m : Option Bytes) (len : Nat) : convert c o m len = convert { c with parse := parse } o m len := by
  have hs : ∀ (o : Options) (ps : List Pre) (s : Notes × Bytes), steps c o ps s = steps { c with parse := parse } o ps s := by
    intro o ps
    induction ps with
    | nil => exact fun _ => rfl
    | cons p ps ih => exact fun s => bind_congr_val fun x _ => ih x
  have hp : ∀ (o : Options) (n : Notes) (d : T) (ps : List Post) (h : Bytes), stepsPost c o n d ps h = stepsPost { c with parse := parse } o n d ps h := by
    intro o n d ps
    induction ps with
    | nil => exact fun _ => rfl
    | cons p ps ih => exact fun h => bind_congr_val fun x _ => ih x
  have ho : ∀ o n t, output c o n t = output { c with parse := parse } o n t := by
    intro o n t
    unfold output page
    simp only [← h (setup o) (fed t) (line_ends (line_fed t)), hp]
    rfl
  have hpr : ∀ t, prepare c o t = prepare { c with parse := parse } o t := by
    intro t
    unfold prepare
    simp only [hs]
    rfl
  unfold convert
  simp only [ho, hpr]

example : EndsLine b!"a\r" ∧ EndsLine b!"a\n" ∧ ¬ EndsLine b!"a" ∧ ¬ EndsLine [] := by unfold EndsLine; decide

/-! ## C222: raw HTML -/

theorem convert_parser {T : Type} {c : Code T} {parse : Setup → Bytes → T} {render : Bool → List Opt → T → Bytes} {o : Options}
    (hp : ∀ m t, c.parse (setup (citing o m)) t = parse (setup (citing o m)) t)
    (hr : ∀ m b d, c.render b (cmarkOptions (citing o m)) d = render b (cmarkOptions (citing o m)) d) (m : Option Bytes) (len : Nat) :
    convert c o m len = convert { c with parse := parse, render := render } o m len := by
  have hs : ∀ (o : Options) (ps : List Pre) (s : Notes × Bytes), steps c o ps s = steps { c with parse := parse, render := render } o ps s := by
    intro o ps
    induction ps with
    | nil => exact fun _ => rfl
    | cons p ps ih => exact fun s => bind_congr_val fun x _ => ih x
  have hps : ∀ (o : Options) (n : Notes) (d : T) (ps : List Post) (h : Bytes),
      stepsPost c o n d ps h = stepsPost { c with parse := parse, render := render } o n d ps h := by
    intro o n d ps
    induction ps with
    | nil => exact fun _ => rfl
    | cons p ps ih => exact fun h => bind_congr_val fun x _ => ih x
  have ho : ∀ md n t, output c (citing o md) n t = output { c with parse := parse, render := render } (citing o md) n t := by
    intro md n t
    unfold output page
    simp only [hp, hr, hps]
    rfl
  have hpr : ∀ t, prepare c o t = prepare { c with parse := parse, render := render } o t := by
    intro t
    unfold prepare
    simp only [hs]
    rfl
  unfold convert
  simp only [← hpr]
  split
  · rfl
  split
  · rfl
  split
  · refine bind_congr_val fun r hr => ?_
    obtain ⟨⟨md, h⟩, -⟩ := prepare_out hr
    rw [h, ho]
  · rfl

/-- C222: when raw HTML is off, the parser and the writer of HTML are never called in a way that lets raw HTML through, whatever the
document: other ones that differ for such calls only cannot be told apart. -/
theorem C222_off {T : Type} (c : Code T) (parse : Setup → Bytes → T) (render : Bool → List Opt → T → Bytes) {o : Options}
    (ho : o.flag .rawHtml = false) (hp : ∀ s t, .raw ∉ s.opts → c.parse s t = parse s t)
    (hr : ∀ b l d, .raw ∉ l → c.render b l d = render b l d) (m : Option Bytes) (len : Nat) :
    convert c o m len = convert { c with parse := parse, render := render } o m len := by
  have hn : ∀ md, .raw ∉ cmarkOptions (citing o md) := by
    intro md
    have : (citing o md).flag .rawHtml = false := by rw [citing_flag o md (by decide)]; exact ho
    unfold cmarkOptions
    rw [this]
    simp only [Bool.false_eq_true, if_false]
    intro h
    simp only [List.mem_append] at h
    rcases h with (((((h | h) | h) | h) | h) | h) | h
    all_goals first | (split at h <;> simp at h) | simp at h
  exact convert_parser (fun md t => hp _ t (hn md)) (fun md b d => hr b _ d (hn md)) m len

/-- C222: when raw HTML is on, they always let it through. -/
theorem C222_on {T : Type} (c : Code T) (parse : Setup → Bytes → T) (render : Bool → List Opt → T → Bytes) {o : Options}
    (ho : o.flag .rawHtml = true) (hp : ∀ s t, .raw ∈ s.opts → c.parse s t = parse s t)
    (hr : ∀ b l d, .raw ∈ l → c.render b l d = render b l d) (m : Option Bytes) (len : Nat) :
    convert c o m len = convert { c with parse := parse, render := render } o m len := by
  have hn : ∀ md, .raw ∈ cmarkOptions (citing o md) := by
    intro md
    have : (citing o md).flag .rawHtml = true := by rw [citing_flag o md (by decide)]; exact ho
    unfold cmarkOptions
    rw [this]
    simp
  exact convert_parser (fun md t => hp _ t (hn md)) (fun md b d => hr b _ d (hn md)) m len

/-- C222: in GFM mode the filter for tags is always there, in the other modes never. -/
theorem C222_filter {T : Type} (c : Code T) (parse : Setup → Bytes → T) {o : Options}
    (hp : ∀ s t, (.tagfilter ∈ s.exts ↔ o.mode = .gfm) → c.parse s t = parse s t) (m : Option Bytes) (len : Nat) :
    convert c o m len = convert { c with parse := parse } o m len := by
  have hn : ∀ md, .tagfilter ∈ (setup (citing o md)).exts ↔ o.mode = .gfm := by
    intro md
    have hmode := citing_mode o md
    simp only [setup, extensions, List.mem_append, hmode]
    constructor
    · rintro ((((((((h | h) | h) | h) | h) | h) | h) | h) | h) <;> split at h <;> simp at h <;> assumption
    · intro h
      simp [h]
  exact convert_parser (render := c.render) (fun md t => hp _ t (hn md)) (fun _ _ _ => rfl) m len

example : (forMode .gfm).flag .rawHtml = false ∧ (forMode .commonmark).flag .rawHtml = false ∧ (forMode .unified).flag .rawHtml = true ∧
    Opt.raw ∉ (setup (forMode .gfm)).opts ∧ Opt.raw ∈ (setup (forMode .unified)).opts ∧ Ext.tagfilter ∈ (setup (forMode .gfm)).exts ∧
    Ext.tagfilter ∉ (setup (forMode .unified)).exts := by decide

/-! ## C219: released memory -/

/-- C219, exactly, for a program whose functions do not leave their memory: when `t` is the text behind the last function on the
text and `n` what they have found, the conversion reads memory that was released if and only if `t` does not end in a line ending
and wiki links are on, attribute lists were defined, or the mode is Kramdown or unified. -/
theorem C219_iff_partial {T : Type} {c : Code T} (hs : Safe c) (hf : c.filters = none) {o o' : Options} {m : Bytes} {len : Nat} {n : Notes} {t : Bytes}
    (hm : 0 ∈ m) (hl : len ≠ 0) (hp : prepare c o ((m.takeWhile (· != 0)).take len) = .val (o', n, t)) (hj : o.outputFormat ≠ 1) :
    convert c o (some m) len = .ub ↔
      ¬ EndsLine t ∧ (o.flag .wikiLinks = true ∨ n.alds ≠ [] ∨ o.mode = .kramdown ∨ o.mode = .unified) := by
  obtain ⟨⟨md, rfl⟩, -⟩ := prepare_out hp
  have e : convert c o (some m) len = output c (citing o md) n t := by
    unfold convert
    simp only [hl, if_false]
    rw [if_pos hm, hp]
    rfl
  have hmode : (citing o md).mode = o.mode := citing_mode o md
  have hwiki : (citing o md).flag .wikiLinks = o.flag .wikiLinks := citing_flag o md (by decide)
  have hfmt : (citing o md).outputFormat = o.outputFormat := by
    unfold citing
    split <;> rfl
  have hflt : ∀ d, filtered c (citing o md) d ≠ none := by
    intro d
    unfold filtered
    rw [hf]
    simp
  rw [e]
  constructor
  · intro h
    by_cases ht : EndsLine t
    · exact absurd h (output_safe hs (.inl ht))
    · refine ⟨ht, ?_⟩
      by_cases hw : o.flag .wikiLinks = true
      · exact .inl hw
      by_cases ha : n.alds = []
      · by_cases hk : o.mode = .kramdown
        · exact .inr (.inr (.inl hk))
        by_cases hu : o.mode = .unified
        · exact .inr (.inr (.inr hu))
        exact absurd h (output_safe hs (.inr ⟨by rw [hwiki]; simpa using hw, ha, by rw [hmode]; exact hk, by rw [hmode]; exact hu⟩))
      · exact .inr (.inl ha)
  · rintro ⟨ht, hw⟩
    exact output_ub ht (by rw [hfmt]; exact hj) (hflt _) (by rw [hwiki, hmode]; exact hw)

/-- C219: in the modes CommonMark, GFM and MultiMarkdown, without wiki links, no conversion leaves its memory, if no function does,
the text has its NUL and the directory of the documents is not the empty string. -/
theorem C219_partial {T : Type} {c : Code T} (hs : Safe c) {o : Options} (hw : o.flag .wikiLinks = false) (hk : o.mode ≠ .kramdown)
    (hu : o.mode ≠ .unified) (hb : o.baseDirectory ≠ some []) {m : Bytes} (hm : 0 ∈ m) (len : Nat) : convert c o (some m) len ≠ .ub := by
  unfold convert
  simp only
  refine ite_ne_ub (val_ne _) ?_
  rw [if_pos hm]
  rcases hp : prepare c o ((m.takeWhile (· != 0)).take len) with r | _
  · obtain ⟨⟨md, hr⟩, ha⟩ := prepare_out hp
    rw [C.val_bind, hr]
    exact output_safe hs (.inr ⟨by rw [citing_flag o md (by decide)]; exact hw, ha hk hu, by rw [citing_mode]; exact hk, by rw [citing_mode]; exact hu⟩)
  · exact absurd hp (prepare_safe hs hb _)

example : Safe still ∧ (forMode .gfm).flag .wikiLinks = false ∧ (forMode .gfm).mode ≠ .kramdown ∧ (forMode .gfm).mode ≠ .unified ∧
    (forMode .gfm).baseDirectory ≠ some [] := ⟨still_safe, by decide, by decide, by decide, by simp [forMode, Options.default, Options.Options.sets, Options.Options.set]⟩

/-- **C219 is false as stated**: with wiki links, a text in CommonMark mode without a line ending is searched for them in memory that
was released, for every parser. -/
theorem C219_wiki {T : Type} {c : Code T} {mem : Bytes} {attrs : Bytes → Option Bytes} (hr : Real c mem attrs) (hf : c.filters = none) :
    convert c ((forMode .commonmark).set .wikiLinks true) (some b!"[[Home]]\x00") 8 = .ub := by
  have hb : Bare ((forMode .commonmark).set .wikiLinks true) := ⟨rfl, fun f hf => by simp [Options.Options.set, hf]⟩
  have e : ((b!"[[Home]]\x00").takeWhile (· != 0)).take 8 = b!"[[Home]]" := by decide
  unfold convert
  simp only [show (8 : Nat) ≠ 0 by decide, if_false]
  rw [if_pos (by decide), e, prepare_cm hr hb, four_plain hr.readable (by decide) (by decide) (by decide) (by decide) (by decide), C.val_bind,
    protect_plain (by decide) (by decide)]
  simp only [C.val_bind, tagged]
  refine output_ub (by unfold EndsLine; decide) (by decide) ?_ (.inl (by decide))
  unfold filtered
  rw [hf]
  simp

/-- Behind a line ending it is another matter. -/
example : convert copy ((forMode .commonmark).set .wikiLinks true) (some b!"[[Home]]\n\x00") 9 = .val (some b!"[[Home]]\n") := by decide +kernel

/-- **C219 is false as stated**: in Kramdown mode every text without a line ending behind the last function, for every program. -/
theorem C219_kramdown : convert still (forMode .kramdown) (some b!"a\x00") 1 = .ub ∧ Safe still := ⟨by decide +kernel, still_safe⟩

/-! ## C220: the bibliography of a document -/

/-- C220: with a directory for the documents that is not the empty string, the bibliography that a document names is looked for in
this directory, with one slash between the two; without a directory, under its own name.  The document decides about no other file. -/
theorem C220_partial {T : Type} (c : Code T) (o : Options) (m : Meta) (b : Bytes) (hb : Metadata.get m b!"bibliography" = some b) :
    (o.baseDirectory = none → library c o m = .val (files c o || c.loadFile b)) ∧
    (∀ d, o.baseDirectory = some (d ++ b!"/") → library c o m = .val (files c o || c.loadFile (d ++ b!"/" ++ b))) ∧
    (∀ d x, o.baseDirectory = some (d ++ [x]) → x ≠ c!"/" → library c o m = .val (files c o || c.loadFile (d ++ [x] ++ b!"/" ++ b))) := by
  refine ⟨fun h => ?_, fun d h => ?_, fun d x h hx => ?_⟩
  · unfold library files bibPath
    simp only [hb, h, C.val_bind]
    rfl
  · unfold library files bibPath
    simp only [hb, h, C.val_bind, List.getLast?_concat, if_true]
    rfl
  · unfold library files bibPath
    simp only [hb, h, C.val_bind, List.getLast?_concat, if_neg hx]
    rfl

example : Metadata.get [(b!"Bibliography", b!"refs.bib")] b!"bibliography" = some b!"refs.bib" := by decide +kernel

/-- **C220 is false as stated**: with an empty string for the directory, the byte in front of a block is read, for every program, whatever
the document, as soon as it names a bibliography. -/
theorem C220_empty_directory {T : Type} {c : Code T} {o : Options} (ho : o.baseDirectory = some []) {m : Bytes} {len : Nat} (hl : len ≠ 0)
    (hm : o.mode = .multimarkdown ∨ o.mode = .kramdown ∨ o.mode = .unified)
    (hc : ∀ t r, c.metadata t = .val r → (Metadata.get r.1 b!"bibliography").isSome = true) : convert c o (some m) len = .ub := by
  have hr : rich o = true := by
    rcases hm with h | h | h <;> simp [rich, h]
  have key : ∀ s, (extract c o s >>= fun s => library c (citing o s.1.md) s.1.md >>= fun b =>
      steps c (citing o s.1.md) order ({ s.1 with bib := b }, s.2) >>= fun r => (.val (citing o s.1.md, r.1, r.2) : C (Options × Notes × Bytes))) = .ub := by
    intro s
    rcases he : extract c o s with r | _
    · rw [C.val_bind]
      rcases (extract_md he).2 with ⟨h, _⟩ | ⟨t, x, hx, hmd⟩
      · rw [hr] at h
        cases h
      · have := hc t x hx
        rw [← hmd] at this
        obtain ⟨b, hb⟩ := Option.isSome_iff_exists.1 this
        have : library c (citing o r.1.md) r.1.md = .ub := by
          unfold library bibPath
          simp only [hb, citing_base, ho]
          rfl
        rw [this]
        rfl
    · rfl
  unfold convert
  simp only [hl, if_false]
  split
  · unfold prepare
    simp only [key, bind_ub', C.ub_bind]
  · rfl

/-! ## C221: Liquid tags and the formats -/

/-- The marks that are changed in CommonMark mode are not in the text. -/
def Unmarked (t : Bytes) : Prop := ¬ b!"==" <:+: t ∧ ¬ b!"++" <:+: t ∧ ¬ b!"```" <:+: t ∧ ¬ b!"<!--TABLE-->" <:+: t

theorem convert_doc {T : Type} {c : Code T} {mem : Bytes} {attrs : Bytes → Option Bytes} (hr : Real c mem attrs) {o : Options} (h : CommonMark o)
    (d : Liquid.Spec.Doc) (hd : d.Ok) (h0 : 0 ∉ d.source) (hne : d.source ≠ []) (hu : Unmarked d.source) (x : Bytes) :
    convert c o (some (d.source ++ 0 :: x)) d.source.length =
      output c o { bib := files c o, tags := d.tagTexts } (Liquid.Spec.marked 0 d.tags d.rest) := by
  have e : (d.source ++ 0 :: x).takeWhile (· != 0) = d.source := by
    rw [List.takeWhile_append_of_pos]
    · simp
    · intro a ha
      simp
      rintro rfl
      exact h0 ha
  have hl : d.source.length ≠ 0 := by simpa using hne
  unfold convert
  simp only [hl, if_false]
  rw [if_pos (by simp), e, List.take_length, prepare_cm hr (bare h), four_plain hr.readable hne hu.1 hu.2.1 hu.2.2.1 hu.2.2.2, C.val_bind,
    Liquid.C133_protect.2 d hd h0, C.val_bind, C.val_bind]
  by_cases ht : d.tags = []
  · simp only [ht, if_true, tagged]
    simp [Liquid.Spec.Doc.tagTexts, Liquid.Spec.Doc.source, Liquid.Spec.marked, ht]
  · simp only [ht, if_false, tagged]

/-- C221, for HTML: the page that was made from the text with placeholders gets the tags back before anything else is done to it. -/
theorem C221_html_partial {T : Type} {c : Code T} {mem : Bytes} {attrs : Bytes → Option Bytes} (hr : Real c mem attrs) (hf : c.filters = none)
    (hl : ∀ o n d h, c.post .liquid o n d h = Liquid.restore h n.tags >>= fun r => .val (some r))
    {o : Options} (h : CommonMark o) (hh : o.highlighter = none) (hj : o.outputFormat = 0)
    (d : Liquid.Spec.Doc) (hd : d.Ok) (ht : d.tags ≠ []) (h0 : 0 ∉ d.source) (hu : Unmarked d.source) (x : Bytes) {u : Bytes}
    (hline : Line (Liquid.Spec.marked 0 d.tags d.rest) u) :
    ∃ n, convert c o (some (d.source ++ 0 :: x)) d.source.length =
      c.tree .ids o [] (c.parse plain u) >>= fun t => Liquid.restore (c.render false plain.opts t) d.tagTexts >>= fun page =>
      through c o n t [.autoMedia, .imgCaptions, .figureP, .blockP, .headerIds, .tagSpacing, .collapse] page >>= c.wrap o [] >>= fun h => .val (some h) := by
  have hne : d.source ≠ [] := by
    rcases hdt : d.tags with _ | ⟨a, l⟩
    · exact absurd hdt ht
    · simp [Liquid.Spec.Doc.source, hdt, Liquid.Spec.tagText]
  refine ⟨{ bib := files c o, tags := d.tagTexts }, ?_⟩
  rw [convert_doc hr h d hd h0 hne hu, line_unique hline]
  unfold output
  have hflt : ∀ d, filtered c o d = some d := by
    intro d
    unfold filtered
    rw [hf]
  rw [if_neg (by omega), hflt, setup_cm h]
  simp only
  rw [grow_cm h rfl rfl]
  refine bind_congr_val fun t _ => ?_
  rw [if_pos hj]
  unfold page
  have hlo : lists o = false := by simp [lists, h.1]
  have htt : d.tagTexts ≠ [] := by simpa [Liquid.Spec.Doc.tagTexts] using ht
  rw [stepsPost_liquid (hl _ _ _ _) htt, hlo, cmark_cm h]
  have hfil : tailPost.filter (wantedPost · o { bib := files c o, tags := d.tagTexts }) =
      [.autoMedia, .imgCaptions, .figureP, .blockP, .headerIds, .tagSpacing, .collapse] := by
    have : ∀ q : Post, q ≠ .liquid → wantedPost q o { bib := files c o, tags := d.tagTexts } = wantedPost q o { bib := files c o } := by
      intro q hq
      cases q <;> first | rfl | exact absurd rfl hq
    rw [List.filter_congr (fun q hq => (this q (by rintro rfl; revert hq; decide)).trans (wantedPost_cm h rfl rfl rfl rfl hh q))]
    decide
  simp only [stepsPost_eq, hfil, bind_assoc']
  rfl

/-- **C221 is false as stated**: in every other format the tags are lost: two texts that differ in nothing but the words of their tags
give the same output, for every parser and every writer. -/
theorem C221_formats {T : Type} {c : Code T} {mem : Bytes} {attrs : Bytes → Option Bytes} (hr : Real c mem attrs) {o : Options} (h : CommonMark o)
    (hj : o.outputFormat ≠ 0) (d e : Liquid.Spec.Doc) (hd : d.Ok) (he : e.Ok) (hd0 : 0 ∉ d.source) (he0 : 0 ∉ e.source)
    (hdu : Unmarked d.source) (heu : Unmarked e.source) (hsame : d.tags.map Prod.fst = e.tags.map Prod.fst) (hrest : d.rest = e.rest) (x : Bytes) :
    convert c o (some (d.source ++ 0 :: x)) d.source.length = convert c o (some (e.source ++ 0 :: x)) e.source.length := by
  have hm : ∀ (k : Nat) (l l' : List (Bytes × Bytes)) (r : Bytes), l.map Prod.fst = l'.map Prod.fst → Liquid.Spec.marked k l r = Liquid.Spec.marked k l' r := by
    intro k l
    induction l generalizing k with
    | nil =>
      intro l' r h
      rcases l' with _ | ⟨a, l'⟩
      · rfl
      · simp at h
    | cons a l ih =>
      intro l' r h
      rcases l' with _ | ⟨b, l'⟩
      · simp at h
      · simp only [List.map_cons, List.cons.injEq] at h
        unfold Liquid.Spec.marked
        rw [h.1, ih (k + 1) l' r h.2]
  by_cases hde : d.source = [] ∨ e.source = []
  · -- without a byte there are no tags
    have key : ∀ a b : Liquid.Spec.Doc, a.tags.map Prod.fst = b.tags.map Prod.fst → a.rest = b.rest → a.source = [] → b.source = [] := by
      intro a b h1 h2 h3
      have ha : a.tags = [] := by
        rcases hat : a.tags with _ | ⟨y, l⟩
        · rfl
        · simp [Liquid.Spec.Doc.source, hat, Liquid.Spec.tagText] at h3
      have hb : b.tags = [] := by
        rw [ha] at h1
        simpa using h1.symm
      simp [Liquid.Spec.Doc.source, ha] at h3
      simp [Liquid.Spec.Doc.source, hb, ← h2, h3]
    have : d.source = [] ∧ e.source = [] := by
      rcases hde with h | h
      · exact ⟨h, key d e hsame hrest h⟩
      · exact ⟨key e d hsame.symm hrest.symm h, h⟩
    rw [this.1, this.2]
  · rw [not_or] at hde
    rw [convert_doc hr h d hd hd0 hde.1 hdu, convert_doc hr h e he he0 hde.2 heu, hm 0 d.tags e.tags d.rest hsame, hrest]
    unfold output
    split
    · rfl
    · split
      · rfl
      · simp only [grow_cm h (n := ⟨_, _, [], _, _, [], _, _, _⟩) rfl rfl]

/-- **C221 is false as stated**: also in HTML a tag does not come through as it was written, for its signs of equality are taken for a
highlight before it is protected. -/
theorem C221_early : convert copy (forMode .commonmark) (some b!"{% if a==b or b==c %}yes{% endif %}\n\x00") 36 =
    .val (some b!"{% if a<mark>b or b</mark>c %}yes{% endif %}\n") := by decide +kernel

/-- The same tag, protected at once, comes through. -/
example : convert copy (forMode .commonmark) (some b!"{% if a == b %}yes{% endif %}\n\x00") 30 = .val (some b!"{% if a == b %}yes{% endif %}\n") ∧
    convert copy { forMode .commonmark with outputFormat := 3 } (some b!"{% if a == b %}yes{% endif %}\n\x00") 30 =
      .val (some b!"APEX_LIQUID_TAG_0yesAPEX_LIQUID_TAG_1\n") := by decide +kernel

end Verif.Pipeline
