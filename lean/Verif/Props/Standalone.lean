/- Properties of standalone pages. -/
import Verif.Proof.StandaloneDocs

namespace Verif.Standalone
open Spec

theorem small_title {x : Option Bytes} (h : Small (x.getD [])) : Small (x.getD b!"Document") := by
  cases x with
  | none => show _ < _; decide
  | some x => exact h

theorem small_language {x : Option Bytes} (h : Small (x.getD [])) : Small (x.getD b!"en") := by
  cases x with
  | none => show _ < _; decide
  | some x => exact h

/-- C143: with stylesheets, the page is the whole page: the language, the title, the links in order, the header, the whole
content and the footer, each in its place.  It never falls back to the bare content, whatever the sizes. -/
theorem C143_links (p : Parts) (mem : List (Option Bytes)) (l : List Bytes) (content : Bytes) (hs : p.sheets = some mem) (hc : 0 < p.count)
    (hl : Lists mem p.count l) (h : Sized [p.title, p.language, p.header, p.footer]) (hp : ∀ q ∈ l, Small q) :
    wrap p content = .val (page p.language p.title p.highlighter (l.flatMap linked) p.header p.footer content) := by
  refine wrap_ok p (some l) content ?_ (small_title (h _ (by simp))) (small_language (h _ (by simp))) (h _ (by simp)) (h _ (by simp)) ?_
  · simp only [Parts.list, hs]
    rw [if_pos hc, paths_lists hl]; rfl
  · intro l' e; cases e; exact hp

/-- C143: without stylesheets it has the default styles. -/
theorem C143_default (p : Parts) (content : Bytes) (hs : p.sheets = none ∨ p.count = 0) (h : Sized [p.title, p.language, p.header, p.footer]) :
    wrap p content = .val (page p.language p.title p.highlighter styles p.header p.footer content) := by
  refine wrap_ok p none content ?_ (small_title (h _ (by simp))) (small_language (h _ (by simp))) (h _ (by simp)) (h _ (by simp)) ?_
  · rcases hs with hs | hs
    · simp [Parts.list, hs]
    · cases he : p.sheets <;> simp [Parts.list, hs, he]
  · intro l e; cases e

/-- Both with a concrete page. -/
theorem sample : wrap { title := some b!"T", sheets := some [some b!"a.css", none], count := 1, highlighter := true, header := some b!"<x>", footer := some b!"<y>", language := some b!"de" } b!"<p>A</p>\n" =
    .val (page (some b!"de") (some b!"T") true (linked b!"a.css") (some b!"<x>") (some b!"<y>") b!"<p>A</p>\n") := by
  have := C143_links { title := some b!"T", sheets := some [some b!"a.css", none], count := 1, highlighter := true, header := some b!"<x>", footer := some b!"<y>", language := some b!"de" }
    [some b!"a.css", none] [b!"a.css"] b!"<p>A</p>\n" rfl (by decide) ⟨[none], rfl, .inl rfl⟩
    (by intro x hx; simp only [List.mem_cons, List.not_mem_nil, or_false] at hx; rcases hx with rfl | rfl | rfl | rfl <;> (show _ < _; decide))
    (by intro q hq; simp only [List.mem_singleton] at hq; subst hq; show _ < _; decide)
  simpa using this

theorem wrap_page (p : Parts) (content : Bytes) (hs : Given p.sheets p.count) (h : Sized [p.title, p.language, p.header, p.footer]) :
    ∃ sheets, wrap p content = .val (page p.language p.title p.highlighter sheets p.header p.footer content) := by
  rcases hs with hs | hs | ⟨mem, l, hs, hl, hp⟩
  · exact ⟨_, C143_default p content (.inl hs) h⟩
  · exact ⟨_, C143_default p content (.inr hs) h⟩
  · rcases Nat.eq_zero_or_pos p.count with hc | hc
    · exact ⟨_, C143_default p content (.inr hc) h⟩
    · exact ⟨_, C143_links p mem l content hs hc hl h hp⟩

/-- C144, the part that holds: a browser shows the title, if it is plain text, and takes the language.  (The full claim has no
condition on the texts.) -/
theorem C144_title_partial (p : Parts) (content : Bytes) (hs : Given p.sheets p.count) (h : Sized [p.title, p.language, p.header, p.footer])
    (hl : c!"<" ∉ p.language.getD []) (ht : c!"<" ∉ p.title.getD [] ∧ c!"&" ∉ p.title.getD []) :
    ∃ out, wrap p content = .val out ∧ titleOf out = some (p.title.getD b!"Document") := by
  obtain ⟨sheets, hw⟩ := wrap_page p content hs h
  refine ⟨_, hw, ?_⟩
  have h1 : c!"<" ∉ p.language.getD b!"en" := by cases hx : p.language with | none => decide | some x => simpa [hx] using hl
  have h2 : c!"<" ∉ p.title.getD b!"Document" ∧ c!"&" ∉ p.title.getD b!"Document" := by cases hx : p.title with | none => decide | some x => simpa [hx] using ht
  rw [page, List.append_assoc, title_find _ _ h1, decode_none h2.2]
  rintro ⟨a, b, e⟩
  exact h2.1 (by rw [← e]; simp)

theorem C144_language_partial (p : Parts) (content : Bytes) (hs : Given p.sheets p.count) (h : Sized [p.title, p.language, p.header, p.footer])
    (hl : c!"\"" ∉ p.language.getD [] ∧ c!"&" ∉ p.language.getD []) :
    ∃ out, wrap p content = .val out ∧ languageOf out = some (p.language.getD b!"en") := by
  obtain ⟨sheets, hw⟩ := wrap_page p content hs h
  refine ⟨_, hw, ?_⟩
  have h1 : c!"\"" ∉ p.language.getD b!"en" ∧ c!"&" ∉ p.language.getD b!"en" := by cases hx : p.language with | none => decide | some x => simpa [hx] using hl
  rw [page, List.append_assoc, language_find _ _ h1.1, decode_none h1.2]

/-- A page with only a title. -/
def titled (t : Bytes) : Parts := { title := some t, sheets := none, count := 0, highlighter := false, header := none, footer := none, language := none }

/-- What comes out, `[]` for undefined behaviour. -/
def text : C Bytes → Bytes
  | .val x => x
  | .ub => []

/-- C144 is false of titles that look like markup: this one ends the title and begins a script. -/
theorem C144_title_refuted : titleOf (text (wrap (titled b!"a</title><script>f()</script>") [])) = some b!"a" ∧
    b!"<title>a</title><script>f()</script>" <:+: text (wrap (titled b!"a</title><script>f()</script>") []) := by
  refine ⟨by decide +kernel, Decidable.byContradiction fun h => ?_⟩
  have : Embed.find b!"<title>a</title><script>f()</script>" (text (wrap (titled b!"a</title><script>f()</script>") [])) = none := (Embed.find_none (by decide)).2 h
  revert this; decide +kernel

/-- C144 is false of titles with references: `&lt;` is shown as `<`. -/
theorem C144_reference_refuted : titleOf (text (wrap (titled b!"Use &lt; here") [])) = some b!"Use < here" := by decide +kernel

/-- C144: content that is a whole page already keeps its closing tags, so the page is closed twice.  It is so for every content. -/
theorem C144_closing_refuted (p : Parts) (content : Bytes) (hs : Given p.sheets p.count) (h : Sized [p.title, p.language, p.header, p.footer]) (hf : p.footer = none) :
    ∃ out, wrap p (content ++ b!"</body>\n</html>\n") = .val out ∧ content ++ b!"</body>\n</html>\n" ++ b!"\n</body>\n</html>\n" <:+ out := by
  obtain ⟨sheets, hw⟩ := wrap_page p (content ++ b!"</body>\n</html>\n") hs h
  refine ⟨_, hw, ?_⟩
  rw [page, bottom, hf, Option.elim_none]
  refine ⟨top (p.language.getD b!"en") (p.title.getD b!"Document") p.highlighter ++ sheets ++ ((p.header.elim [] fun h => b!"  " ++ h ++ b!"\n") ++
    (if p.highlighter then b!"</head>\n<body class=\"code-highlighted\">\n\n" else b!"</head>\n<body>\n\n")), ?_⟩
  simp only [List.append_assoc, List.append_nil, List.nil_append]

/-- C144: the default styles give a table the width `100%%`, which no browser understands. -/
theorem C144_width_refuted : ∃ a b, styles = a ++ b!"table { border-collapse: collapse; width: 100%%; }" ++ b := by
  cases h : Embed.find b!"table { border-collapse: collapse; width: 100%%; }" styles with
  | none => exact absurd h (by decide +kernel)
  | some r => exact ⟨r.1, r.2, Embed.find_some h⟩

theorem foot_eq (m : Meta) (tags : Option (List Bytes)) : footer m (scripts tags) = foot m.footer tags := by
  have hs : (scripts tags).getD [] = scriptLines tags ∧ (scripts tags = none ↔ scriptLines tags = []) := by
    cases tags with
    | none => simp [scripts, scriptLines]
    | some l =>
      simp only [scripts, scriptLines, Option.getD_some]
      generalize hl : l.filter (· ≠ []) = k
      by_cases hk : k = []
      · simp [hk]
      · rw [if_neg hk]
        refine ⟨rfl, ?_⟩
        cases k with
        | nil => exact absurd rfl hk
        | cons a k => simp
  obtain ⟨h1, h2⟩ := hs
  cases hf : m.footer with
  | none =>
    cases he : scripts tags with
    | none => simp [footer, foot, hf, h2.1 he]
    | some s =>
      rw [he] at h1 h2
      have : scriptLines tags ≠ [] := fun e => by simpa using h2.2 e
      simp only [footer, hf, foot, this, if_false, Option.getD_none, Option.getD_some] at h1 ⊢
      simp [h1]
  | some f =>
    simp only [footer, hf, foot, Option.getD_some, h1]
    by_cases hf0 : f = []
    · simp [hf0]
    · by_cases h0 : scriptLines tags = []
      · simp [h0]
      · simp [hf0, h0]

/-- C145: the stylesheets of the caller are linked, in order, whatever stylesheet the document names. -/
theorem C145_callers (files : Bytes → Option Bytes) (o : Options) (m : Meta) (html : Bytes) (mem : List (Option Bytes)) (l : List Bytes) (hst : o.standalone = true)
    (hh : o.titleFromH1 = false) (he : o.embed = false) (hs : o.sheets = some mem) (hl : Lists mem o.count l) (hne : l ≠ []) 
    (h : Sized [o.title, m.language, m.header, foot m.footer o.scripts]) (hp : ∀ q ∈ l, Small q) :
    finish files o m html =
      .val { page := page m.language o.title o.highlighter (l.flatMap linked) m.header (foot m.footer o.scripts) html, freed := false } := by
  have hc : 0 < o.count := by
    obtain ⟨rest, _, h | h⟩ := hl
    · rw [h]; exact List.length_pos_iff.2 hne
    · omega
  have hsh : sheets o m = some ⟨false, mem, o.count⟩ := by
    cases hm : m.css with
    | none => simp [sheets, hm, hs]
    | some c => simp only [sheets, hm, hs]; rw [if_neg (by simp; omega)]; rfl
  rw [finish, if_pos hst]
  simp only [hsh, title, hh, Bool.false_and, foot_eq]
  rw [C143_links _ mem l html rfl hc hl h hp]
  obtain ⟨rest, rfl, _⟩ := hl
  cases l with
  | nil => exact absurd rfl hne
  | cons p l => simp [he, C.bind, freed]

/-- C145: without them the stylesheet that the document names is linked. -/
theorem C145_documents (files : Bytes → Option Bytes) (o : Options) (m : Meta) (html css : Bytes) (hst : o.standalone = true)
    (hh : o.titleFromH1 = false) (he : o.embed = false) (hs : o.sheets = none ∨ o.count = 0) (hc : m.css = some css)
    (h : Sized [o.title, m.language, m.header, foot m.footer o.scripts]) (hp : Small css) :
    finish files o m html =
      .val { page := page m.language o.title o.highlighter (linked css) m.header (foot m.footer o.scripts) html, freed := false } := by
  have hsh : sheets o m = some ⟨true, [some css, none], 1⟩ := by simp only [sheets, hc]; rw [if_pos hs]
  rw [finish, if_pos hst]
  simp only [hsh, title, hh, Bool.false_and, foot_eq]
  rw [C143_links _ [some css, none] [css] html rfl Nat.one_pos ⟨[none], rfl, .inl rfl⟩ h (by simpa using hp)]
  simp [he, C.bind, freed]

/-- C145: with neither the page has the default styles. -/
theorem C145_default (files : Bytes → Option Bytes) (o : Options) (m : Meta) (html : Bytes) (hst : o.standalone = true)
    (hh : o.titleFromH1 = false) (hs : o.sheets = none) (hc : m.css = none)
    (h : Sized [o.title, m.language, m.header, foot m.footer o.scripts]) :
    finish files o m html =
      .val { page := page m.language o.title o.highlighter styles m.header (foot m.footer o.scripts) html, freed := false } := by
  have hsh : sheets o m = none := by simp [sheets, hc, hs]
  rw [finish, if_pos hst]
  simp only [hsh, title, hh, Bool.false_and, foot_eq]
  rw [C143_default _ html (.inl rfl) h]
  rfl

/-- C145, the part that holds of embedding: with the caller's stylesheets, the content of each one that is there stands in the page in its place; the
others stay linked.  (The full claim is about the stylesheet of the document too, and has no conditions on titles, paths and files.) -/
theorem C145_embedded_partial (files css : Bytes → Option Bytes) (o : Options) (m : Meta) (html : Bytes) (more : List (Option Bytes)) (l : List Bytes) (hst : o.standalone = true)
    (hh : o.titleFromH1 = false) (he : o.embed = true) (hs : o.sheets = some (l.map some ++ more)) (hl : o.count = l.length) (hne : l ≠ []) (hnd : l.Nodup)
    (h : Sized [o.title, m.language, m.header, foot m.footer o.scripts]) (hp : ∀ q ∈ l, Small q ∧ Plain q)
    (hf : Files files o.base css l) (ht : c!"<" ∉ o.title.getD []) (hg : c!"<" ∉ m.language.getD [])
    (h0 : ∀ x ∈ [o.title, m.language, m.header, foot m.footer o.scripts, some html] ++ l.map some, 0 ∉ x.getD []) :
    finish files o m html =
      .val { page := page m.language o.title o.highlighter (embedded css l) m.header (foot m.footer o.scripts) html, freed := false } := by
  have hc : 0 < o.count := by rw [hl]; exact List.length_pos_iff.2 hne
  have hsh : sheets o m = some ⟨false, l.map some ++ more, o.count⟩ := by
    cases hm : m.css with
    | none => simp [sheets, hm, hs]
    | some c => simp only [sheets, hm, hs]; rw [if_neg (by simp; omega)]; rfl
  rw [finish, if_pos hst]
  simp only [hsh, title, hh, Bool.false_and, foot_eq]
  rw [C143_links _ (l.map some ++ more) l html rfl hc ⟨more, rfl, .inl hl⟩ h (fun q hq => (hp q hq).1)]
  have hfr : freed ⟨false, l.map some ++ more, o.count⟩ m = .val false := by
    cases l with
    | nil => exact absurd rfl hne
    | cons p l => simp [freed]
  simp only [C.bind, Option.map_some, hfr, he, hc, decide_true, Bool.and_self, if_true, Bool.false_eq_true, if_false]
  have hall := embed_all (files := files) (base := o.base) (css := css) (g := m.language.getD b!"en") (t := o.title.getD b!"Document") (hi := o.highlighter)
    (by cases hx : m.language with | none => decide | some x => simpa [hx] using hg)
    (by cases hx : o.title with | none => decide | some x => simpa [hx] using ht)
    (by cases hx : m.language with | none => decide | some x => simpa using h0 (some x) (by simp [hx]))
    (by cases hx : o.title with | none => decide | some x => simpa using h0 (some x) (by simp [hx]))
    more (bottom o.highlighter m.header (foot m.footer o.scripts) html)
    (clean_bottom (fun x hx => by have hx : m.header = some x := hx; simpa using h0 (some x) (by simp [hx]))
      (fun x hx => by have hx : foot m.footer o.scripts = some x := hx; simpa using h0 (some x) (by simp [hx]))
      (by simpa using h0 (some html) (by simp)))
    l [] hnd (fun p hpl => ⟨(hp p hpl).2, by simpa using h0 (some p) (by simp [hpl])⟩) (by simpa using hf) (by simp)
  simp only [embedded, List.flatMap_nil, List.append_nil] at hall
  rw [page, hl, hall]
  rfl

/-- C145 is false of the document's own stylesheet: embedding reads the array of paths after it was freed, always. -/
theorem C145_metadata_refuted (files : Bytes → Option Bytes) (o : Options) (m : Meta) (html css : Bytes) (hst : o.standalone = true) (he : o.embed = true)
    (hs : o.sheets = none ∨ o.count = 0) (hc : m.css = some css) : finish files o m html = .ub := by
  have hsh : sheets o m = some ⟨true, [some css, none], 1⟩ := by simp only [sheets, hc]; rw [if_pos hs]
  rw [finish, if_pos hst]
  simp only [hsh]
  generalize hw : wrap _ html = w
  cases w <;> simp [C.bind, freed, he]

/-- C145: an empty list of stylesheets is taken for the temporary one and freed, although it belongs to the caller. -/
theorem C145_freed_refuted (files : Bytes → Option Bytes) (o : Options) (m : Meta) (html : Bytes) (hst : o.standalone = true) (hs : o.sheets = some [none])
    (hn : o.count = 0) (hc : m.css = none) (hh : o.titleFromH1 = false)
    (h : Sized [o.title, m.language, m.header, foot m.footer o.scripts]) :
    ∃ p, finish files o m html = .val { page := p, freed := true } := by
  have hsh : sheets o m = some ⟨false, [none], 0⟩ := by simp [sheets, hc, hs, hn]
  rw [finish, if_pos hst]
  simp only [hsh, title, hh, Bool.false_and, foot_eq]
  rw [C143_default _ html (.inr rfl) h]
  exact ⟨_, by simp [C.bind, freed, hc]; rfl⟩

/-- C145: a stylesheet with a NUL in it ends the page there: the body is lost. -/
theorem C145_nul_refuted : ∃ (files : Bytes → Option Bytes) (o : Options) (m : Meta),
    o.sheets = some [some b!"a.css", none] ∧ o.count = 1 ∧ o.standalone = true ∧ o.embed = true ∧
    (match finish files o m b!"<p>A</p>\n" with | .val r => r.page.reverse.take 12 | .ub => []) = (b!"  <style>\np{}").reverse.take 12 := by
  refine ⟨fun _ => some [c!"p", c!"{", c!"}", 0, c!"x"], { standalone := true, titleFromH1 := false, title := none, sheets := some [some b!"a.css", none], count := 1, highlighter := false, embed := true, base := none, scripts := none }, { css := none, header := none, footer := none, language := none }, rfl, rfl, rfl, rfl, ?_⟩
  decide +kernel

/-- C146: the title of a page without one is the text of its first heading, without tags and the blanks around it; the references in it are what a
browser shows there, too.  Without text in the heading the title stays what it is. -/
theorem C146_heading (files : Bytes → Option Bytes) (o : Options) (m : Meta) (a attrs z : Bytes) (ps : List Piece) (hst : o.standalone = true)
    (hh : o.titleFromH1 = true) (ht : o.title = none ∨ o.title = some []) (hs : o.sheets = none) (hc : m.css = none)
    (ha : ¬ b!"<h1" <:+: a) (hat : c!">" ∉ attrs) (hp : ∀ p ∈ ps, p.Ok) (hps : ¬ b!"</h1>" <:+: ps.flatMap Piece.src)
    (hsz : Small (ps.flatMap Piece.shown)) (h : Sized [m.language, m.header, foot m.footer o.scripts]) (hl : c!"<" ∉ m.language.getD []) :
    ∃ t out, Trimmed (ps.flatMap Piece.shown) t ∧
      finish files o m (a ++ b!"<h1" ++ attrs ++ b!">" ++ ps.flatMap Piece.src ++ b!"</h1>" ++ z) = .val out ∧
      (t ≠ [] → titleOf out.page = some (Html.decode t)) ∧ (t = [] → titleOf out.page = some (o.title.getD b!"Document")) := by
  obtain ⟨t, h1, h2⟩ := first_h1 (z := z) ps ha hat hp hps
  generalize a ++ b!"<h1" ++ attrs ++ b!">" ++ ps.flatMap Piece.src ++ b!"</h1>" ++ z = html at *
  have hsub : ∀ c ∈ t, c ∈ ps.flatMap Piece.shown := by
    obtain ⟨x, y, e, _⟩ := h1
    intro c hc; rw [e]; simp [hc]
  have hlen : t.length ≤ (ps.flatMap Piece.shown).length := by
    obtain ⟨x, y, e, _⟩ := h1
    rw [e]; simp; omega
  have hlt : c!"<" ∉ t := by
    intro hc
    obtain ⟨p, hp1, hp2⟩ := List.mem_flatMap.1 (hsub _ hc)
    have := hp p hp1
    cases p with
    | text x => exact this.1 hp2
    | tag x => simp [Piece.shown] at hp2
  have hg : c!"<" ∉ m.language.getD b!"en" := by cases hx : m.language with | none => decide | some x => simpa [hx] using hl
  have htitle : title o html = if t = [] then o.title else some t := by
    have : (o.title = none || o.title = some []) = true := by rcases ht with ht | ht <;> simp [ht]
    by_cases h0 : t = [] <;> simp [title, hh, hst, this, h2, h0]
  have hot : Small (o.title.getD []) := by rcases ht with ht | ht <;> rw [ht] <;> (show _ < _; decide)
  have hfin : ∃ out, finish files o m html = .val out ∧ out.page = page m.language (title o html) o.highlighter styles m.header (foot m.footer o.scripts) html := by
    have hsh : sheets o m = none := by simp [sheets, hc, hs]
    rw [finish, if_pos hst]
    simp only [hsh, foot_eq]
    rw [C143_default _ html (.inl rfl) (by
      intro x hx
      simp only [List.mem_cons, List.not_mem_nil, or_false] at hx
      rcases hx with rfl | hx
      · rw [htitle]; split
        · exact hot
        · show t.length < _; exact Nat.lt_of_le_of_lt hlen hsz
      · exact h x (by simpa using hx))]
    exact ⟨_, rfl, rfl⟩
  obtain ⟨out, e1, e2⟩ := hfin
  refine ⟨t, out, h1, e1, fun h0 => ?_, fun h0 => ?_⟩
  · rw [e2, htitle, if_neg h0, page, List.append_assoc, Option.getD_some, title_find _ _ hg]
    rintro ⟨x, y, e⟩
    exact hlt (by rw [← e]; simp)
  · rw [e2, htitle, if_pos h0, page, List.append_assoc, title_find _ _ hg]
    · rcases ht with ht | ht <;> rw [ht] <;> decide
    · rcases ht with ht | ht <;> rw [ht] <;> (rw [← Embed.find_none (by decide)]; decide)

/-- There is only one such text. -/
theorem C146_text_unique {s t t' : Bytes} (h : Trimmed s t) (h' : Trimmed s t') : t = t' := trimmed_unique h h'

/-- A heading with an emphasised word: the hypotheses hold and the title is the text. -/
theorem heading_sample : firstH1 b!"<p>x</p>\n<h1 id=\"a\"> The <em>big</em> &amp; small </h1>\n" = some b!"The big &amp; small" ∧
    (b!"<h1 id=\"a\"> The <em>big</em> &amp; small </h1>" : Bytes) = b!"<h1" ++ b!" id=\"a\"" ++ b!">" ++
      [Piece.text b!" The ", .tag b!"em", .text b!"big", .tag b!"/em", .text b!" &amp; small "].flatMap Piece.src ++ b!"</h1>" := by decide +kernel

/-- C146 is false of a `>` in an attribute: the rest of the tag gets into the title. -/
theorem C146_attribute_refuted : firstH1 b!"<h1><img alt=\"a > b\">Title</h1>" = some b!"b\"Title" := by decide +kernel

/-- C146 is false of headings in comments: the title is one that nobody sees. -/
theorem C146_comment_refuted : firstH1 b!"<!-- <h1>Old</h1> -->\n<h1>New</h1>" = some b!"Old" := by decide +kernel

/-- C147: in a snippet the scripts stand behind the content, one in each line, and nothing else is changed. -/
theorem C147_snippet (files : Bytes → Option Bytes) (o : Options) (m : Meta) (html : Bytes) (hst : o.standalone = false) :
    ∃ gap, finish files o m html = .val { page := html ++ gap ++ scriptLines o.scripts, freed := false } ∧
      (gap = [] ∨ gap = b!"\n" ∧ scriptLines o.scripts ≠ [] ∧ ∃ c, html.getLast? = some c ∧ c ≠ c!"\n") ∧
      (scriptLines o.scripts ≠ [] → ∀ c, (html ++ gap).getLast? = some c → c = c!"\n") := by
  rw [finish, hst]
  simp only [Bool.false_eq_true, if_false]
  cases hsc : scripts o.scripts with
  | none =>
    have : scriptLines o.scripts = [] := by
      cases ho : o.scripts with
      | none => rfl
      | some l =>
        rw [ho] at hsc
        simp only [scripts] at hsc
        split at hsc
        · rename_i h
          show (l.filter (· ≠ [])).flatMap _ = []
          rw [h]; rfl
        · simp at hsc
    exact ⟨[], by simp [this], .inl rfl, by simp [this]⟩
  | some s =>
    have hs : s = scriptLines o.scripts ∧ s ≠ [] := by
      cases ho : o.scripts with
      | none => rw [ho] at hsc; simp [scripts] at hsc
      | some l =>
        rw [ho] at hsc
        simp only [scripts] at hsc
        split at hsc
        · simp at hsc
        · rename_i h
          simp only [Option.some.injEq] at hsc
          refine ⟨by rw [← hsc]; rfl, ?_⟩
          rw [← hsc]
          generalize l.filter (· ≠ []) = k at *
          cases k with
          | nil => exact absurd rfl h
          | cons a k => simp
    simp only
    rw [← hs.1]
    refine ⟨_, rfl, ?_, fun _ c hc => ?_⟩
    · by_cases h : html ≠ [] ∧ html.getLast? ≠ some c!"\n"
      · rw [if_pos h]
        refine .inr ⟨rfl, hs.2, ?_⟩
        cases hg : html.getLast? with
        | none => simp [List.getLast?_eq_none_iff] at hg; exact absurd hg h.1
        | some c => exact ⟨c, rfl, fun e => h.2 (by rw [hg, e])⟩
      · rw [if_neg h]; exact .inl rfl
    · by_cases h : html ≠ [] ∧ html.getLast? ≠ some c!"\n"
      · rw [if_pos h] at hc; simp at hc; exact hc.symm
      · rw [if_neg h, List.append_nil] at hc
        by_cases h0 : html = []
        · simp [h0] at hc
        · have : html.getLast? = some c!"\n" := Decidable.byContradiction fun e => h ⟨h0, e⟩
          rw [this] at hc; simpa using hc.symm

/-- C147: in a page they stand at the end of the body, behind the footer. -/
theorem C147_page (files : Bytes → Option Bytes) (o : Options) (m : Meta) (html : Bytes) (hst : o.standalone = true)
    (hh : o.titleFromH1 = false) (hs : o.sheets = none) (hc : m.css = none)
    (h : Sized [o.title, m.language, m.header, foot m.footer o.scripts]) (hne : scriptLines o.scripts ≠ []) :
    ∃ head foot out, finish files o m html = .val { page := out, freed := false } ∧
      out = head ++ html ++ b!"\n" ++ foot ++ scriptLines o.scripts ++ b!"\n</body>\n</html>\n" ∧
      (m.footer = none → foot = []) ∧ ∀ f, m.footer = some f → f ≠ [] → foot = f ++ b!"\n" := by
  refine ⟨top (m.language.getD b!"en") (o.title.getD b!"Document") o.highlighter ++ styles ++ ((m.header.elim [] fun h => b!"  " ++ h ++ b!"\n") ++
    (if o.highlighter then b!"</head>\n<body class=\"code-highlighted\">\n\n" else b!"</head>\n<body>\n\n")), match m.footer with | none => [] | some f => if f = [] then [] else f ++ b!"\n", _, C145_default files o m html hst hh hs hc h, ?_, ?_, ?_⟩
  rotate_left
  · intro e; rw [e]
  · intro f e h0; rw [e]; simp [h0]
  · rw [page, bottom]
    have : (foot m.footer o.scripts).elim [] (fun f => b!"\n" ++ f) =
        b!"\n" ++ (match m.footer with | none => [] | some f => if f = [] then [] else f ++ b!"\n") ++ scriptLines o.scripts := by
      cases m.footer with
      | none => simp [foot, hne]
      | some f => by_cases h0 : f = [] <;> simp [foot, hne, h0]
    rw [this]
    simp only [← List.append_assoc]

/-- Scripts with a footer: the hypotheses hold. -/
theorem scripts_sample : scriptLines (some [b!"<script>a()</script>", [], b!"<script>b()</script>"]) = b!"<script>a()</script>\n<script>b()</script>\n" := by decide

/-- Embedding two stylesheets, one of which is missing: the hypotheses hold. -/
theorem embedded_sample : ∃ (files css : Bytes → Option Bytes) (o : Options) (m : Meta), finish files o m b!"<p>A</p>\n" =
    .val { page := page none none false (inlined b!"p{}" ++ linked b!"b.css") none none b!"<p>A</p>\n", freed := false } ∧ m.css = some b!"other.css" ∧ css b!"a.css" = some b!"p{}" := by
  refine ⟨fun p => if p = b!"/s/a.css" then some b!"p{}" else none, fun p => if p = b!"a.css" then some b!"p{}" else none,
    { standalone := true, titleFromH1 := false, title := none, sheets := some [some b!"a.css", some b!"b.css", none], count := 2, highlighter := false, embed := true, base := some b!"/s", scripts := none },
    { css := some b!"other.css", header := none, footer := none, language := none }, ?_, rfl, by decide⟩
  refine (C145_embedded_partial _ (fun p => if p = b!"a.css" then some b!"p{}" else none) _ _ _ [none] [b!"a.css", b!"b.css"] rfl rfl rfl rfl rfl (by decide) (by decide) ?_ ?_ ?_ (by decide) (by decide) ?_).trans ?_
  · intro x hx; simp only [List.mem_cons, List.not_mem_nil, or_false] at hx; rcases hx with rfl | rfl | rfl | rfl <;> (show _ < _; decide)
  · intro x hx; simp only [List.mem_cons, List.not_mem_nil, or_false] at hx; rcases hx with rfl | rfl <;> exact ⟨by show _ < _; decide, by decide, by decide⟩
  · intro x hx; simp only [List.mem_cons, List.not_mem_nil, or_false] at hx
    rcases hx with rfl | rfl
    · refine ⟨fun c hc => ?_, fun h => by simp at h⟩
      have : c = b!"p{}" := by simpa using hc.symm
      subst this
      exact ⟨.inr ⟨by decide, b!"/s", rfl, by decide, by decide⟩, by decide, by decide, by decide, by decide⟩
    · refine ⟨fun c hc => by simp at hc, fun _ => ⟨by decide, fun d hd _ => ?_⟩⟩
      have : d = b!"/s" := by simpa using hd.symm
      subst this; decide
  · decide
  · decide +kernel

end Verif.Standalone
