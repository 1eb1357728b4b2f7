/- Proofs for the conversion as a whole. -/
import Verif.Spec.Pipeline
import Verif.Props.Highlight
import Verif.Props.InlineTables
import Verif.Props.Liquid
import Verif.Props.Options

namespace Verif.Pipeline
open Options (Options Mode Flag)
open Metadata (Meta)
open Spec

variable {T : Type}

/-! ## Lines -/

theorem ends_iff (t : Bytes) : EndsLine t ↔ ∃ c, t.getLast? = some c ∧ (c = c!"\n" ∨ c = c!"\r") := by
  unfold EndsLine
  constructor
  · rintro (h | h)
    · exact ⟨_, h, .inl rfl⟩
    · exact ⟨_, h, .inr rfl⟩
  · rintro ⟨c, h, rfl | rfl⟩
    · exact .inl h
    · exact .inr h

theorem fed_same {t : Bytes} (h : EndsLine t) : fed t = t := by
  obtain ⟨c, hc, h'⟩ := (ends_iff t).1 h
  unfold fed ended
  rw [hc]
  have : t ≠ [] := by rintro rfl; simp at hc
  simp [this, h']

theorem fed_added {t : Bytes} (h : ¬ EndsLine t) : fed t = t ++ b!"\n" := by
  unfold fed ended
  rcases ht : t.getLast? with _ | c
  · rw [List.getLast?_eq_none_iff] at ht
    subst ht
    rfl
  · have : t ≠ [] := by rintro rfl; simp at ht
    have h2 : ¬ (c = c!"\n" ∨ c = c!"\r") := fun hc => h ((ends_iff t).2 ⟨c, ht, hc⟩)
    simp [this, h2]

theorem line_fed (t : Bytes) : Line t (fed t) := by
  by_cases h : EndsLine t
  · rw [fed_same h]
    exact .same h
  · rw [fed_added h]
    exact .added h

theorem line_unique {t u : Bytes} (h : Line t u) : u = fed t := by
  cases h with
  | same h => exact (fed_same h).symm
  | added h => exact (fed_added h).symm

theorem line_ends {t u : Bytes} (h : Line t u) : EndsLine u := by
  cases h with
  | same h => exact h
  | added h => exact .inl (by simp)

theorem released_iff (t : Bytes) : released t = true ↔ ¬ EndsLine t := by
  unfold released
  by_cases h : EndsLine t
  · simp [fed_same h, h]
  · simp [fed_added h, h]

/-! ## Citations -/

theorem citing_mode (o : Options) (m : Meta) : (citing o m).mode = o.mode := by
  unfold citing
  split <;> rfl

theorem citing_none {o : Options} {m : Meta} (h : Metadata.get m b!"bibliography" = none ∧ Metadata.get m b!"csl" = none) :
    citing o m = o := by
  simp [citing, h.1, h.2]

theorem citing_flag (o : Options) (m : Meta) {f : Flag} (h : f ≠ .citations) : (citing o m).flag f = o.flag f := by
  unfold citing
  split
  · simp [Options.Options.set, h]
  · rfl

theorem citing_on {o : Options} (m : Meta) (h : o.flag .citations = true) (f : Flag) : (citing o m).flag f = o.flag f := by
  by_cases hf : f = .citations
  · subst hf
    unfold citing
    split
    · simp [Options.Options.set, h]
    · rfl
  · exact citing_flag o m hf

theorem get_nil (k : Bytes) : Metadata.get [] k = none := by
  simp [Metadata.get, Metadata.getCi, Metadata.getNorm]

/-! ## Switches -/

theorem wanted_on {p : Pre} {o : Options} {n : Notes} (h : wanted p o n = true) (hp : p ≠ .plugins) : On o (needs p) := by
  intro f hf
  cases p <;> simp [wanted, needs] at h hf hp ⊢ <;> (first | (subst hf; first | exact h | exact h.1 | exact h.2) |
    (rcases hf with rfl | rfl <;> (first | exact h.1 | exact h.2)) | skip)

theorem wantedPost_on {p : Post} {o : Options} {n : Notes} (h : wantedPost p o n = true) (hp : p ≠ .plugins) : On o (needsPost p) := by
  intro f hf
  cases p <;> simp [wantedPost, needsPost] at h hf hp ⊢ <;> (first | (subst hf; first | exact h | exact h.1 | exact h.2 | exact h.1.1 | exact h.1.1.1) |
    (rcases hf with rfl | rfl <;> (first | exact h.1 | exact h.2)) | skip)

theorem take_plugins (n : Notes) (p : Pre) (l : List Bytes) : (n.take p l).plugins = n.plugins := by
  cases p <;> rfl

theorem take_md (n : Notes) (p : Pre) (l : List Bytes) : (n.take p l).md = n.md := by
  cases p <;> rfl

theorem step_plugins {c : Code T} {o : Options} {p : Pre} {s r : Notes × Bytes} (h : step c o p s = .val r) : r.1.plugins = s.1.plugins := by
  unfold step at h
  split at h
  · rcases hr : c.pre p o s.1 (given p s.2) with x | _
    · rw [hr] at h
      simp only [C.val_bind, C.val.injEq] at h
      subst h
      exact take_plugins _ _ _
    · rw [hr] at h
      cases h
  · cases h
    rfl

theorem steps_plugins {c : Code T} {o : Options} {ps : List Pre} {s r : Notes × Bytes} (h : steps c o ps s = .val r) :
    r.1.plugins = s.1.plugins := by
  induction ps generalizing s with
  | nil => cases h; rfl
  | cons p ps ih =>
    unfold steps at h
    rcases hs : step c o p s with x | _
    · rw [hs] at h
      rw [ih h, step_plugins hs]
    · rw [hs] at h
      cases h

/-- `o'` has no option on that `o` has not. -/
def Below (o' o : Options) : Prop := ∀ f, o'.flag f = true → o.flag f = true

theorem step_same {o o' : Options} {c c' : Code T} (h : Same o c c') (hb : Below o' o) {p : Pre} (hp : p ≠ .plugins) (s : Notes × Bytes) :
    step c o' p s = step c' o' p s := by
  unfold step
  split
  · rename_i hw
    rw [h.pre p (fun f hf => hb f (wanted_on hw hp f hf))]
  · rfl

theorem steps_same {o o' : Options} {c c' : Code T} (h : Same o c c') (hb : Below o' o) {ps : List Pre} (hp : .plugins ∉ ps) (s : Notes × Bytes) :
    steps c o' ps s = steps c' o' ps s := by
  induction ps generalizing s with
  | nil => rfl
  | cons p ps ih =>
    simp only [List.mem_cons, not_or] at hp
    unfold steps
    rw [step_same h hb (Ne.symm hp.1)]
    rcases step c' o' p s with x | _
    · exact ih hp.2 x
    · rfl

theorem stepsPost_same {o o' : Options} {c c' : Code T} (h : Same o c c') (hb : Below o' o) {n : Notes}
    (hn : n.plugins = true → o.flag .plugins = true) (d : T) (ps : List Post) (t : Bytes) :
    stepsPost c o' n d ps t = stepsPost c' o' n d ps t := by
  induction ps generalizing t with
  | nil => rfl
  | cons p ps ih =>
    unfold stepsPost
    have : (if wantedPost p o' n then c.post p o' n d t >>= fun r => .val (r.getD t) else .val t) =
        (if wantedPost p o' n then c'.post p o' n d t >>= fun r => .val (r.getD t) else (.val t : C Bytes)) := by
      split
      · rename_i hw
        rw [h.post p]
        by_cases hp : p = .plugins
        · subst hp
          intro f hf
          simp [needsPost] at hf
          subst hf
          exact hn hw
        · exact fun f hf => hb f (wantedPost_on hw hp f hf)
      · rfl
    rw [this]
    rcases (if wantedPost p o' n then c'.post p o' n d t >>= fun r => .val (r.getD t) else (.val t : C Bytes)) with x | _
    · exact ih x
    · rfl

theorem tree_same {o o' : Options} {c c' : Code T} (h : Same o c c') (hb : Below o' o) {p : Tree} {f : Flag} (hp : needsTree p = [f])
    (l : List Bytes) (d : T) :
    (if o'.flag f then c.tree p o' l d else .val d) = (if o'.flag f then c'.tree p o' l d else .val d) := by
  split
  · rename_i hf
    rw [h.tree p (by rw [hp]; intro g hg; simp at hg; subst hg; exact hb _ hf)]
  · rfl

theorem bind_congr_val {α β : Type} {x : C α} {f g : α → C β} (h : ∀ a, x = .val a → f a = g a) : (x >>= f) = (x >>= g) := by
  rcases x with a | _
  · exact h a rfl
  · rfl

theorem grow_same {o o' : Options} {c c' : Code T} (h : Same o c c') (hb : Below o' o) (n : Notes) (t : Bytes) (d : T) :
    grow c o' n t d = grow c' o' n t d := by
  have hw : ∀ d, wiki c o' t d = wiki c' o' t d := by
    intro d
    unfold wiki
    split
    · rename_i hf
      rw [h.tree .wiki (by intro g hg; simp [needsTree] at hg; subst hg; exact hb _ hf)]
    · rfl
  have ha : ∀ d, attributes c o' n t d = attributes c' o' n t d := by
    intro d
    unfold attributes
    rw [h.tree .ial (by intro g hg; simp [needsTree] at hg)]
  unfold grow
  rw [hw]
  refine bind_congr_val fun d _ => ?_
  rw [tree_same h hb (p := .callouts) rfl]
  refine bind_congr_val fun d _ => ?_
  rw [tree_same h hb (p := .ids) rfl]
  refine bind_congr_val fun d _ => ?_
  rw [ha]
  refine bind_congr_val fun d _ => ?_
  rw [h.tree .images (by intro g hg; simp [needsTree] at hg)]
  refine bind_congr_val fun d _ => ?_
  exact tree_same h hb (p := .lists) rfl _ _

theorem output_same {o o' : Options} {c c' : Code T} (h : Same o c c') (hb : Below o' o) {n : Notes}
    (hn : n.plugins = true → o.flag .plugins = true) (t : Bytes) : output c o' n t = output c' o' n t := by
  unfold output filtered page
  rw [h.parse, h.write, h.filters, h.render, h.wrap]
  split
  · rfl
  · split
    · rfl
    · rw [grow_same h hb]
      refine bind_congr_val fun d _ => ?_
      rw [stepsPost_same h hb hn]

theorem extract_same {o : Options} {c c' : Code T} (h : Same o c c') (s : Notes × Bytes) : extract c o s = extract c' o s := by
  unfold extract
  rw [h.metadata, h.alds, h.abbrs]

theorem extract_md {o : Options} {c : Code T} {s r : Notes × Bytes} (h : extract c o s = .val r) :
    r.1.plugins = s.1.plugins ∧ ((rich o = false ∧ r = s) ∨ ∃ t m, c.metadata t = .val m ∧ r.1.md = m.1) := by
  unfold extract at h
  split at h
  · rcases hm : c.metadata s.2 with m | _
    · rw [hm, C.val_bind] at h
      rcases ha : (if lists o then c.alds m.2 else .val ([], m.2)) with a | _
      · rw [ha, C.val_bind] at h
        rcases hb : c.abbrs a.2 with b | _
        · rw [hb, C.val_bind] at h
          cases h
          exact ⟨rfl, .inr ⟨_, m, hm, rfl⟩⟩
        · rw [hb] at h
          cases h
      · rw [ha] at h
        cases h
    · rw [hm] at h
      cases h
  · cases h
    rename_i hr
    exact ⟨rfl, .inl ⟨by simpa using hr, rfl⟩⟩

theorem bind_assoc' {α β γ : Type} (x : C α) (f : α → C β) (g : β → C γ) : (x >>= f) >>= g = x >>= fun a => f a >>= g := by
  rcases x with a | _ <;> rfl

theorem first_md {c : Code T} {o : Options} {b : Bool} {text : Bytes} {r : Notes × Bytes}
    (hs : step c o .plugins ({ plugins := b }, text) = .val r) : r.1.md = [] := by
  unfold step at hs
  split at hs
  · rcases hx : c.pre .plugins o { plugins := b } (given .plugins text) with x | _
    · rw [hx] at hs
      cases hs
      rfl
    · rw [hx] at hs
      cases hs
  · cases hs
    rfl

theorem convert_same {o : Options} {c c' : Code T} (h : Same o c c')
    (hc : o.flag .citations = true ∨ (o.mode = .commonmark ∨ o.mode = .gfm) ∨ Unnamed c) (mem : Option Bytes) (len : Nat) :
    convert c o mem len = convert c' o mem len := by
  unfold convert
  split
  · rfl
  split
  · rfl
  split
  · unfold prepare
    have h1 : ∀ text, step c o .plugins ({ plugins := o.flag .plugins && c.load o }, text) =
        step c' o .plugins ({ plugins := o.flag .plugins && c'.load o }, text) := by
      intro text
      rw [← h.load]
      unfold step
      split
      · rename_i hw
        simp [wanted] at hw
        rw [h.pre .plugins (by intro f hf; simp [needs] at hf; subst hf; exact hw.1)]
      · rfl
    rw [h1]
    simp only [bind_assoc']
    refine bind_congr_val fun s hs => ?_
    rw [extract_same h]
    refine bind_congr_val fun r hr => ?_
    have hpl := extract_md hr
    rw [step_plugins hs] at hpl
    have hb : Below (citing o r.1.md) o := by
      rcases hc with hc | hc | hc
      · intro f hf
        rwa [citing_on _ hc] at hf
      · rcases hpl.2 with ⟨_, rfl⟩ | ⟨t, m, hm, hmd⟩
        · have : r.1.md = [] := first_md hs
          rw [this, citing_none ⟨get_nil _, get_nil _⟩]
          exact fun f hf => hf
        · unfold extract at hr
          have : rich o = false := by rcases hc with hc | hc <;> simp [rich, hc]
          rw [this] at hr
          simp only [Bool.false_eq_true, if_false] at hr
          have e : s = r := by cases hr; rfl
          have : r.1.md = [] := by rw [← e]; exact first_md hs
          rw [this, citing_none ⟨get_nil _, get_nil _⟩]
          exact fun f hf => hf
      · rcases hpl.2 with ⟨_, rfl⟩ | ⟨t, m, hm, hmd⟩
        · have : r.1.md = [] := first_md hs
          rw [this, citing_none ⟨get_nil _, get_nil _⟩]
          exact fun f hf => hf
        · rw [hmd, citing_none (hc t m (by rw [h.metadata]; exact hm))]
          exact fun f hf => hf
    have hl : library c (citing o r.1.md) r.1.md = library c' (citing o r.1.md) r.1.md := by
      unfold library
      rw [h.loadFiles, h.loadFile]
    rw [hl]
    refine bind_congr_val fun b _ => ?_
    rw [steps_same h hb (by decide)]
    refine bind_congr_val fun x hx => ?_
    simp only [C.val_bind]
    refine output_same h hb ?_ _
    rw [steps_plugins hx]
    intro hp
    have : (o.flag .plugins && c'.load o) = true := hpl.1.symm.trans hp
    simp at this
    exact this.1
  · rfl

/-! ## CommonMark mode -/

/-- The options of CommonMark mode, with or without wiki links. -/
def Bare (o : Options) : Prop := o.mode = .commonmark ∧ ∀ f, f ≠ .wikiLinks → o.flag f = (Options.forMode .commonmark).flag f

theorem bare {o : Options} (h : CommonMark o) : Bare o := ⟨h.1, fun f _ => by rw [h.2]⟩

theorem wanted_cm {o : Options} (h : Bare o) {n : Notes} (hp : n.plugins = false) (hm : n.md = []) (p : Pre) :
    wanted p o n = decide (p ∈ [.inlineTables, .highlights, .inserts, .liquid]) := by
  have hf := h.2
  cases p <;> simp [wanted, h.1, hf, hp, hm, rich, lists] <;> first | decide | (intro hx; exact absurd hx (by decide))

theorem step_off {c : Code T} {o : Options} {p : Pre} {s : Notes × Bytes} (h : wanted p o s.1 = false) : step c o p s = .val s := by
  unfold step
  rw [h]
  rfl

theorem steps_cons (c : Code T) (o : Options) (p : Pre) (ps : List Pre) (s : Notes × Bytes) :
    steps c o (p :: ps) s = step c o p s >>= steps c o ps := rfl

theorem steps_skip {c : Code T} {o : Options} {p : Pre} {ps : List Pre} {s : Notes × Bytes} (h : wanted p o s.1 = false) :
    steps c o (p :: ps) s = steps c o ps s := by
  rw [steps_cons, step_off h]
  rfl

theorem step_plain {c : Code T} {o : Options} {p : Pre} {n : Notes} {t : Bytes} {f : Bytes → C Bytes} (h : wanted p o n = true)
    (hf : ∀ o n t, c.pre p o n t = f t >>= fun r => .val ⟨some r, []⟩) (hg : given p t = t) (hn : n.take p [] = n) :
    step c o p (n, t) = f t >>= fun r => .val (n, r) := by
  unfold step
  rw [if_pos h, hf, hg, bind_assoc']
  refine bind_congr_val fun r _ => ?_
  simp only [C.val_bind, hn]
  rfl

/-- What is done to a text in CommonMark mode. -/
def four (mem : Bytes) (attrs : Bytes → Option Bytes) (t : Bytes) : C Bytes :=
  InlineTables.process t >>= Highlight.process Highlight.highlightRule mem >>= Highlight.process (Highlight.insertRule attrs) mem

/-- The tags are taken out at last. -/
def tagged (n : Notes) (t : Bytes) : Option (Bytes × List Bytes) → Notes × Bytes
  | none => ({ n with tags := [] }, t)
  | some (u, tags) => ({ n with tags := tags }, u)

theorem steps_cm {c : Code T} {mem : Bytes} {attrs : Bytes → Option Bytes} (hr : Real c mem attrs) {o : Options} (h : Bare o) {n : Notes}
    (hp : n.plugins = false) (hm : n.md = []) (t : Bytes) :
    steps c o order (n, t) = four mem attrs t >>= fun t => Liquid.protect t >>= fun r => .val (tagged n t r) := by
  have w := fun p => wanted_cm h hp hm p
  unfold order four
  iterate 9 rw [steps_skip (by rw [w]; decide)]
  rw [steps_cons, step_plain (by rw [w]; decide) hr.inlineTables rfl rfl]
  simp only [bind_assoc']
  refine bind_congr_val fun t _ => ?_
  rw [C.val_bind]
  iterate 3 rw [steps_skip (by rw [w]; decide)]
  rw [steps_cons, step_plain (by rw [w]; decide) hr.highlights rfl rfl]
  simp only [bind_assoc']
  refine bind_congr_val fun t _ => ?_
  rw [C.val_bind, steps_cons, step_plain (by rw [w]; decide) hr.inserts rfl rfl]
  simp only [bind_assoc']
  refine bind_congr_val fun t _ => ?_
  rw [C.val_bind]
  iterate 11 rw [steps_skip (by rw [w]; decide)]
  rw [steps_cons]
  unfold step
  rw [if_pos (by rw [w]; decide), hr.liquid]
  simp only [bind_assoc']
  refine bind_congr_val fun r _ => ?_
  cases r <;> rfl

theorem setup_cm {o : Options} (h : CommonMark o) : setup o = plain := by
  unfold setup cmarkOptions extensions
  rw [h.2, h.1]
  decide

theorem cmark_cm {o : Options} (h : CommonMark o) : cmarkOptions o = plain.opts := congrArg Setup.opts (setup_cm h)

theorem extract_cm {c : Code T} {o : Options} (h : o.mode = .commonmark) (s : Notes × Bytes) : extract c o s = .val s := by
  unfold extract
  have : rich o = false := by simp [rich, h]
  rw [this]
  rfl

/-- The bibliography of the options. -/
def files (c : Code T) (o : Options) : Bool :=
  match o.bibliography with
  | some l => c.loadFiles l o.baseDirectory
  | none => false

theorem library_nil (c : Code T) (o : Options) : library c o [] = .val (files c o) := by
  unfold library files
  rw [get_nil]
  rfl

theorem prepare_cm {c : Code T} {mem : Bytes} {attrs : Bytes → Option Bytes} (hr : Real c mem attrs) {o : Options} (h : Bare o) (t : Bytes) :
    prepare c o t = four mem attrs t >>= fun t => Liquid.protect t >>= fun r =>
      .val (o, tagged { bib := files c o } t r) := by
  have hpl : o.flag .plugins = false := by rw [h.2 _ (by decide)]; decide
  unfold prepare
  rw [hpl, Bool.false_and, step_off (by rfl), C.val_bind, extract_cm h.1, C.val_bind]
  simp only
  rw [citing_none ⟨get_nil _, get_nil _⟩, library_nil, C.val_bind, steps_cm hr h rfl rfl]
  simp only [bind_assoc', C.val_bind]

theorem protect_plain {t : Bytes} (h0 : 0 ∉ t) (h : ¬ b!"{%" <:+: t) : Liquid.protect t = .val none := by
  have := Liquid.C133_protect.2 ⟨[], t⟩ ⟨by simp, .inl h⟩ h0
  simpa [Liquid.Spec.Doc.source] using this

theorem four_plain {mem : Bytes} {attrs : Bytes → Option Bytes} {t : Bytes} (hm : mem ≠ []) (hne : t ≠ []) (h1 : ¬ b!"==" <:+: t)
    (h2 : ¬ b!"++" <:+: t) (h3 : ¬ b!"```" <:+: t) (h4 : ¬ b!"<!--TABLE-->" <:+: t) : four mem attrs t = .val t := by
  unfold four
  have := Highlight.C43_unmarked_partial attrs mem t hm hne
  rw [InlineTables.C123_untouched t h3 h4, C.val_bind, this.1 h1, C.val_bind, this.2 h2]

theorem grow_cm {c : Code T} {o : Options} (h : CommonMark o) {n : Notes} (ha : n.alds = []) (hi : n.images = []) (t : Bytes) (d : T) :
    grow c o n t d = c.tree .ids o [] d := by
  have f1 : o.flag .wikiLinks = false := by rw [h.2]; decide
  have f2 : o.flag .callouts = false := by rw [h.2]; decide
  have f3 : o.flag .headerIds = true := by rw [h.2]; decide
  have f4 : o.flag .mixedLists = false := by rw [h.2]; decide
  have f5 : lists o = false := by simp [lists, h.1]
  unfold grow wiki attributes
  rw [f1, f2, f3, f4, f5, ha, hi]
  simp only [Bool.false_eq_true, if_false, if_true, C.val_bind, List.isEmpty_nil, Bool.not_true, Bool.or_self]
  rcases c.tree .ids o [] d with x | _ <;> rfl

theorem wantedPost_cm {o : Options} (h : CommonMark o) {n : Notes} (hp : n.plugins = false) (hm : n.md = []) (ha : n.abbrs = [])
    (ht : n.tags = []) (hh : o.highlighter = none) (p : Post) :
    wantedPost p o n = decide (p ∈ [.autoMedia, .imgCaptions, .figureP, .blockP, .headerIds, .tagSpacing, .collapse]) := by
  have hf := h.2
  cases p <;> simp [wantedPost, h.1, hf, hp, hm, ha, ht, hh] <;> first | decide | (intro hx; exact absurd hx (by decide))

theorem through_ub (c : Code T) (o : Options) (n : Notes) (d : T) (ps : List Post) :
    ps.foldl (fun (h : C Bytes) p => h >>= fun h => c.post p o n d h >>= fun r => .val (r.getD h)) .ub = .ub := by
  induction ps with
  | nil => rfl
  | cons p ps ih => exact ih

theorem stepsPost_eq (c : Code T) (o : Options) (n : Notes) (d : T) (ps : List Post) (h : Bytes) :
    stepsPost c o n d ps h = through c o n d (ps.filter (wantedPost · o n)) h := by
  induction ps generalizing h with
  | nil => rfl
  | cons p ps ih =>
    unfold stepsPost
    rcases hw : wantedPost p o n with _ | _
    · rw [List.filter_cons_of_neg (by simp [hw])]
      exact ih h
    · rw [List.filter_cons_of_pos (by simpa using hw), if_pos rfl]
      unfold through
      rw [List.foldl_cons, C.val_bind]
      rcases c.post p o n d h with r | _
      · exact ih _
      · exact (through_ub c o n d _).symm

/-- The list behind the first function on the page. -/
def tailPost : List Post :=
  [.divs, .tables, .hr, .widont, .poetry, .footIds, .footBreak, .levels, .quotes, .autoMedia, .imgCaptions, .figureP,
   .blockP, .headerIds, .obfuscate, .embed, .variables, .toc, .aria, .colour, .abbrs, .emoji, .cites, .bibliography, .indexMarks,
   .index, .tagSpacing, .collapse, .relaxedHeads, .alpha, .emptyP, .plugins]

theorem stepsPost_liquid {c : Code T} {o : Options} {n : Notes} {d : T} {h : Bytes}
    (hl : c.post .liquid o n d h = Liquid.restore h n.tags >>= fun r => .val (some r)) (ht : n.tags ≠ []) :
    stepsPost c o n d orderPost h = Liquid.restore h n.tags >>= fun r => stepsPost c o n d tailPost r := by
  have hw : wantedPost .liquid o n = true := by simp [wantedPost, ht]
  show (if wantedPost .liquid o n then c.post .liquid o n d h >>= fun r => .val (r.getD h) else .val h) >>= stepsPost c o n d tailPost = _
  rw [if_pos hw, hl]
  generalize Liquid.restore h n.tags = x
  cases x <;> rfl

/-! ## Memory -/

theorem looked_released {t w : Bytes} (h : ¬ EndsLine t) : looked t w = .ub := by
  unfold looked
  rw [if_pos ((released_iff t).2 h)]

theorem looked_kept {t w : Bytes} (h : EndsLine t) : looked t w = .val (Embed.find w t).isSome := by
  unfold looked
  rw [if_neg (fun x => (released_iff t).1 x h), fed_same h]

theorem bind_ne_ub {α β : Type} {x : C α} {f : α → C β} (hx : x ≠ .ub) (hf : ∀ a, f a ≠ .ub) : (x >>= f) ≠ .ub := by
  rcases x with a | _
  · exact hf a
  · exact absurd rfl hx

theorem ite_ne_ub {α : Type} {b : Prop} [Decidable b] {x y : C α} (hx : x ≠ .ub) (hy : y ≠ .ub) : (if b then x else y) ≠ .ub := by
  split <;> assumption

theorem val_ne {α : Type} (a : α) : (C.val a) ≠ .ub := by rintro ⟨⟩

theorem wiki_ub {c : Code T} {o : Options} {t : Bytes} {d : T} (h : ¬ EndsLine t) (hw : o.flag .wikiLinks = true) : wiki c o t d = .ub := by
  unfold wiki
  rw [if_pos hw, looked_released h]
  rfl

theorem attributes_ub {c : Code T} {o : Options} {n : Notes} {t : Bytes} {d : T} (h : ¬ EndsLine t)
    (hw : n.alds ≠ [] ∨ o.mode = .kramdown ∨ o.mode = .unified) : attributes c o n t d = .ub := by
  unfold attributes
  have : (!n.alds.isEmpty || lists o) = true := by
    rcases hw with h | h | h
    · simp [h]
    · simp [lists, h]
    · simp [lists, h]
  rw [if_pos this, looked_released h]
  rfl

theorem bind_ub' {α β : Type} (x : C α) : (x >>= fun _ => (.ub : C β)) = .ub := by cases x <;> rfl

theorem grow_ub {c : Code T} {o : Options} {n : Notes} {t : Bytes} (h : ¬ EndsLine t)
    (hw : o.flag .wikiLinks = true ∨ n.alds ≠ [] ∨ o.mode = .kramdown ∨ o.mode = .unified) (d : T) : grow c o n t d = .ub := by
  unfold grow
  rcases hw with hw | hw
  · rw [wiki_ub h hw]
    rfl
  · simp only [attributes_ub h hw, C.ub_bind, bind_ub']

theorem grow_safe {c : Code T} (hs : Safe c) {o : Options} {n : Notes} {t : Bytes}
    (h : EndsLine t ∨ (o.flag .wikiLinks = false ∧ n.alds = [] ∧ o.mode ≠ .kramdown ∧ o.mode ≠ .unified)) (d : T) : grow c o n t d ≠ .ub := by
  have hw : ∀ d, wiki c o t d ≠ .ub := by
    intro d
    unfold wiki
    rcases h with h | h
    · rw [looked_kept h]
      exact ite_ne_ub (bind_ne_ub (val_ne _) fun b => ite_ne_ub (hs.tree _ _ _ _) (val_ne _)) (val_ne _)
    · rw [h.1]
      exact val_ne _
  have ha : ∀ d, attributes c o n t d ≠ .ub := by
    intro d
    unfold attributes
    rcases h with h | h
    · simp only [looked_kept h, C.val_bind]
      exact ite_ne_ub (ite_ne_ub (hs.tree _ _ _ _) (val_ne _)) (val_ne _)
    · have : (!n.alds.isEmpty || lists o) = false := by simp [lists, h.2.1, h.2.2.1, h.2.2.2]
      rw [this]
      exact val_ne _
  exact bind_ne_ub (hw d) fun d => bind_ne_ub (ite_ne_ub (hs.tree _ _ _ _) (val_ne _)) fun d =>
    bind_ne_ub (ite_ne_ub (hs.tree _ _ _ _) (val_ne _)) fun d => bind_ne_ub (ha d) fun d =>
    bind_ne_ub (ite_ne_ub (hs.tree _ _ _ _) (val_ne _)) fun d => ite_ne_ub (hs.tree _ _ _ _) (val_ne _)

theorem page_safe {c : Code T} (hs : Safe c) (o : Options) (n : Notes) (d : T) : page c o n d ≠ .ub := by
  have : ∀ ps h, stepsPost c o n d ps h ≠ .ub := by
    intro ps
    induction ps with
    | nil => exact fun h => val_ne h
    | cons p ps ih => exact fun h => bind_ne_ub (ite_ne_ub (bind_ne_ub (hs.post _ _ _ _ _) fun r => val_ne _) (val_ne _)) ih
  exact bind_ne_ub (this _ _) (hs.wrap _ _)

theorem output_safe {c : Code T} (hs : Safe c) {o : Options} {n : Notes} {t : Bytes}
    (h : EndsLine t ∨ (o.flag .wikiLinks = false ∧ n.alds = [] ∧ o.mode ≠ .kramdown ∧ o.mode ≠ .unified)) : output c o n t ≠ .ub := by
  unfold output
  split
  · exact val_ne _
  · split
    · exact val_ne _
    · exact bind_ne_ub (grow_safe hs h _) fun d => ite_ne_ub (bind_ne_ub (page_safe hs _ _ _) fun h => val_ne _) (val_ne _)

theorem output_ub {c : Code T} {o : Options} {n : Notes} {t : Bytes} (h : ¬ EndsLine t) (hj : o.outputFormat ≠ 1)
    (hf : filtered c o (c.parse (setup o) (fed t)) ≠ none)
    (hw : o.flag .wikiLinks = true ∨ n.alds ≠ [] ∨ o.mode = .kramdown ∨ o.mode = .unified) : output c o n t = .ub := by
  unfold output
  rw [if_neg hj]
  split
  · rename_i e
    exact absurd e hf
  · rw [grow_ub h hw]
    rfl

theorem step_safe {c : Code T} (hs : Safe c) (o : Options) (p : Pre) (s : Notes × Bytes) : step c o p s ≠ .ub :=
  ite_ne_ub (bind_ne_ub (hs.pre _ _ _ _) fun r => val_ne _) (val_ne _)

theorem steps_safe {c : Code T} (hs : Safe c) (o : Options) (ps : List Pre) (s : Notes × Bytes) : steps c o ps s ≠ .ub := by
  induction ps generalizing s with
  | nil => exact val_ne _
  | cons p ps ih => exact bind_ne_ub (step_safe hs o p s) ih

theorem extract_safe {c : Code T} (hs : Safe c) (o : Options) (s : Notes × Bytes) : extract c o s ≠ .ub :=
  ite_ne_ub (bind_ne_ub (hs.metadata _) fun m => bind_ne_ub (ite_ne_ub (hs.alds _) (val_ne _)) fun a =>
    bind_ne_ub (hs.abbrs _) fun b => val_ne _) (val_ne _)

theorem citing_base (o : Options) (m : Meta) : (citing o m).baseDirectory = o.baseDirectory := by
  unfold citing
  split <;> rfl

theorem bibPath_safe {o : Options} (h : o.baseDirectory ≠ some []) (b : Bytes) : bibPath o b ≠ .ub := by
  unfold bibPath
  split
  · exact val_ne _
  · split
    · rename_i d e _ e'
      rw [List.getLast?_eq_none_iff] at e'
      subst e'
      exact absurd e h
    · exact val_ne _

theorem library_safe {c : Code T} {o : Options} {m : Meta} (h : o.baseDirectory ≠ some [] ∨ Metadata.get m b!"bibliography" = none) :
    library c o m ≠ .ub := by
  unfold library
  rcases h with h | h
  · simp only
    split
    · exact val_ne _
    · exact bind_ne_ub (bibPath_safe h _) fun p => val_ne _
  · simp only [h]
    exact val_ne _

theorem prepare_safe {c : Code T} (hs : Safe c) {o : Options} (h : o.baseDirectory ≠ some []) (t : Bytes) : prepare c o t ≠ .ub :=
  bind_ne_ub (step_safe hs _ _ _) fun s => bind_ne_ub (extract_safe hs _ _) fun r =>
    bind_ne_ub (library_safe (.inl (by rw [citing_base]; exact h))) fun b => bind_ne_ub (steps_safe hs _ _ _) fun x => val_ne _

theorem step_alds {c : Code T} {o : Options} {p : Pre} {s r : Notes × Bytes} (h : step c o p s = .val r) : r.1.alds = s.1.alds := by
  unfold step at h
  split at h
  · rcases hr : c.pre p o s.1 (given p s.2) with x | _
    · rw [hr] at h
      simp only [C.val_bind, C.val.injEq] at h
      subst h
      cases p <;> rfl
    · rw [hr] at h
      cases h
  · cases h
    rfl

theorem steps_alds {c : Code T} {o : Options} {ps : List Pre} {s r : Notes × Bytes} (h : steps c o ps s = .val r) : r.1.alds = s.1.alds := by
  induction ps generalizing s with
  | nil => cases h; rfl
  | cons p ps ih =>
    unfold steps at h
    rcases hs : step c o p s with x | _
    · rw [hs] at h
      rw [ih h, step_alds hs]
    · rw [hs] at h
      cases h

theorem prepare_out {c : Code T} {o : Options} {t : Bytes} {r : Options × Notes × Bytes} (h : prepare c o t = .val r) :
    (∃ m, r.1 = citing o m) ∧ (o.mode ≠ .kramdown → o.mode ≠ .unified → r.2.1.alds = []) := by
  unfold prepare at h
  rcases h1 : step c o .plugins ({ plugins := o.flag .plugins && c.load o }, t) with s | _
  · rw [h1, C.val_bind] at h
    rcases h2 : extract c o s with x | _
    · rw [h2, C.val_bind] at h
      rcases h3 : library c (citing o x.1.md) x.1.md with b | _
      · rw [h3, C.val_bind] at h
        rcases h4 : steps c (citing o x.1.md) order ({ x.1 with bib := b }, x.2) with y | _
        · rw [h4, C.val_bind] at h
          cases h
          refine ⟨⟨_, rfl⟩, fun hk hu => ?_⟩
          show y.1.alds = []
          rw [steps_alds h4]
          show x.1.alds = []
          have hs := step_alds h1
          unfold extract at h2
          split at h2
          · have hl : lists o = false := by simp [lists, hk, hu]
            rw [hl] at h2
            simp only [Bool.false_eq_true, if_false] at h2
            rcases hm : c.metadata s.2 with m | _
            · rw [hm, C.val_bind, C.val_bind] at h2
              rcases hb : c.abbrs m.2 with bb | _
              · simp only [hb, C.val_bind, C.val.injEq] at h2
                subst h2
                rfl
              · simp only [hb] at h2
                cases h2
            · rw [hm] at h2
              cases h2
          · cases h2
            exact hs
        · rw [h4] at h
          cases h
      · rw [h3] at h
        cases h
    · rw [h2] at h
      cases h
  · rw [h1] at h
    cases h

end Verif.Pipeline
