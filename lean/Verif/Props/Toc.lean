/-
C101 (entries of a table of contents), C102 (its outline), C103 (the levels it is about), C104 (its place),
C105 (its links).
-/
import Verif.Proof.Toc

namespace Verif.Toc

open Spec
open HeaderIds (Format generate headingId)
open Transforms.Spec (FirstOcc)
open Man (decimal)

/-! ### C101 -/

/-- **C101**, partial: a table that fits 4096 bytes, with entries of at most 1000 bytes, has a link for every heading between
the two levels, in order, with its id and text, and no other links. What is missing: larger tables, see `C101_long_table` and
`C101_long_entry`. -/
theorem C101_entries_partial (min max : Int) (es : List Entry) (hsize : size (shown min max es) ≤ 4096)
    (hlong : ∀ e ∈ shown min max es, e.id.length + e.text.length ≤ 1000) :
    ∃ body, table min max es = .val (b!"<nav class=\"toc\">\n" ++ body ++ b!"</nav>\n") ∧ Table (shown min max es) body := by
  have hb : Table [] (List.replicate (entries min max 0 0 es).2 b!"</li>\n</ul>\n").flatten := by
    have := table_append (es := []) (s := []) (List.replicate (entries min max 0 0 es).2 b!"</li>\n</ul>\n")
      (fun t ht => by rw [(List.mem_replicate.1 ht).2]; decide) .nil
    simpa using this
  have ht := entries_table (min := min) (max := max) (fun e he => shown_mem he) hlong _ hb 0 0
  rw [← entries_shown] at ht
  refine ⟨_, ?_, ht⟩
  rw [table_fits hsize]
  unfold pieces
  simp

/-- **C101**: the table is always within its buffer. -/
theorem C101_safe (min max : Int) (es : List Entry) : ∃ t, table min max es = .val t := table_safe min max es

/-- **C101**: the headings are those of the document, without those marked `no_toc`; each keeps its level and text. -/
theorem C101_headings {tab : List Emoji.Entry} {fmt : Format} {doc : List Heading} {es : List Entry}
    (h : withIds tab fmt (collect doc) = .val es) :
    es.map (fun e => (e.level, e.text)) = (collect doc).map (fun h => (h.level, h.text)) ∧
    (∀ h, h ∈ collect doc ↔ h ∈ doc ∧ ∀ a, h.attrs = some a → ¬ b!"no_toc" <:+: a) ∧ (collect doc).Sublist doc := by
  refine ⟨(withIds_map h).1, ?_, List.filter_sublist⟩
  intro h
  unfold collect
  rw [List.mem_filter]
  unfold wanted
  cases h.attrs with
  | none => simp
  | some a =>
    simp only [Option.some.injEq, forall_eq']
    constructor
    · rintro ⟨h1, h2⟩
      refine ⟨h1, ?_⟩
      cases hs : Transforms.strstr a b!"no_toc" with
      | none => exact Transforms.strstr_none hs
      | some i => rw [hs] at h2; cases h2
    · rintro ⟨h1, h2⟩
      exact ⟨h1, by rw [Transforms.strstr_of_not_infix h2]; rfl⟩

/-- **C101 is false as stated**: links that do not fit are left out. Here the last heading is lost although the
document has nothing unusual but 120 headings before it. -/
theorem C101_long_table : ∃ es : List Entry, es.length = 121 ∧ (∀ e ∈ es, e.level = 1 ∧ e.id.length + e.text.length ≤ 40) ∧
    ∃ t, table 1 6 es = .val t ∧ ¬ b!"<a href=\"#the-last-heading\">" <:+: t := by
  refine ⟨List.replicate 120 ⟨1, b!"heading", b!"Heading"⟩ ++ [⟨1, b!"the-last-heading", b!"The last heading"⟩], by simp, ?_, ?_⟩
  · intro e he
    rcases List.mem_append.1 he with h | h
    · rw [(List.mem_replicate.1 h).2]; decide
    · simp at h; subst h; decide
  · have h : ∀ r : C Bytes, (match r with | .val t => decide (¬ b!"<a href=\"#the-last-heading\">" <:+: t) | .ub => false) = true →
        ∃ t, r = .val t ∧ ¬ b!"<a href=\"#the-last-heading\">" <:+: t := by
      intro r hr
      cases r with
      | ub => cases hr
      | val t => exact ⟨t, rfl, by simpa using hr⟩
    apply h
    decide +kernel

/-- **C101 is false as stated**: a long link is cut, and has no end. -/
theorem C101_long_entry (level : Nat) (id text : Bytes) (h : 1009 ≤ id.length) :
    item ⟨level, id, text⟩ = b!"<li><a href=\"#" ++ id.take 1009 := by
  unfold item
  simp only [List.append_assoc]
  rw [List.take_append, List.take_append]
  simp
  omega

/-- **C101 is false as stated**: text is not escaped, so that text from a code span becomes a tag, and a class that only contains
`no_toc` hides a heading. -/
theorem C101_unescaped :
    table 1 6 [⟨1, b!"a", b!"The <b> tag"⟩] =
      .val b!"<nav class=\"toc\">\n<ul>\n<li><a href=\"#a\">The <b> tag</a></li>\n</ul>\n</nav>\n" ∧
    collect [⟨1, b!"A", some b!"class=\"no_tocsin\""⟩] = [] := by
  refine ⟨?_, ?_⟩ <;> decide +kernel

example : size (shown 1 6 [⟨1, b!"a", b!"A"⟩, ⟨2, b!"b", b!"B"⟩]) ≤ 4096 := by decide
example : table 1 6 [⟨1, b!"a", b!"A"⟩, ⟨2, b!"b", b!"B"⟩] =
    .val b!"<nav class=\"toc\">\n<ul>\n<li><a href=\"#a\">A</a><ul>\n<li><a href=\"#b\">B</a></li>\n</ul>\n</li>\n</ul>\n</nav>\n" := by
  decide +kernel
example : Table [⟨1, b!"a", b!"A"⟩] b!"<ul>\n<li><a href=\"#a\">A</a></li>\n</ul>\n" :=
  .tag (t := b!"<ul>\n") (by decide) (.link (e := ⟨1, b!"a", b!"A"⟩) (.tag (t := b!"</li>\n") (by decide) (.tag (t := b!"</ul>\n") (by decide) .nil)))

/-! ### C102 -/

/-- **C102**, partial: when the levels start at one and go down in steps of one, a browser shows every link at the depth of
its level. What is missing: other levels, see `C102_skipped`. -/
theorem C102_outline_partial (min max : Int) (es : List Entry) (hsize : size (shown min max es) ≤ 4096)
    (hlong : ∀ e ∈ shown min max es, e.id.length + e.text.length ≤ 1000) (hp : ∀ e ∈ shown min max es, Plain e)
    (hs : Steps 0 (shown min max es)) :
    ∃ t, table min max es = .val t ∧ outline t = (shown min max es).map Entry.level := by
  refine ⟨_, table_fits hsize, ?_⟩
  have h1 := depths_entries (min := min) (max := max) _ (fun e he => shown_mem he) hp hlong 0 hs
  unfold outline pieces
  simp only []
  rw [entries_shown]
  generalize hr : entries min max 0 0 (shown min max es) = r at *
  have e1 : ([b!"<nav class=\"toc\">\n"] ++ r.1 ++ List.replicate r.2 b!"</li>\n</ul>\n" ++ [b!"</nav>\n"]).flatten =
      b!"<nav class=\"toc\">\n" ++ (r.1.flatten ++ ((List.replicate r.2 b!"</li>\n</ul>\n").flatten ++ b!"</nav>\n")) := by simp
  have e2 : ∀ s, tags (b!"<nav class=\"toc\">\n" ++ s) = tags s := by
    intro s
    show (tagAt (b!"nav class=\"toc\">\n" ++ s)).toList ++ tags (b!"nav class=\"toc\">\n" ++ s) = _
    rw [tags_plain (by decide)]
    have : tagAt (b!"nav class=\"toc\">\n" ++ s) = none := by
      unfold tagAt
      rw [if_neg (by rintro ⟨x, h⟩; cases h), if_neg (by rintro ⟨x, h⟩; cases h), if_neg (by rintro ⟨x, h⟩; cases h),
        if_neg (by rintro ⟨x, h⟩; cases h), if_neg (by rintro ⟨x, h⟩; cases h)]
    rw [this]
    rfl
  rw [e1, e2, show ([] : List Elem) = nest 0 from rfl, h1]
  obtain ⟨st, h2⟩ := depths_close r.2 (nest r.2) b!"</nav>\n"
  rw [h2, show tags b!"</nav>\n" = [] by decide]
  simp [depths]

/-- **C102**, partial: when moreover the levels never go up, the table is well nested. -/
theorem C102_strict_partial (min max : Int) (es : List Entry) (hsize : size (shown min max es) ≤ 4096)
    (hlong : ∀ e ∈ shown min max es, e.id.length + e.text.length ≤ 1000) (hp : ∀ e ∈ shown min max es, Plain e)
    (hs : Descends 0 (shown min max es)) :
    ∃ t, table min max es = .val t ∧ strict [] (tags t) = true := by
  refine ⟨_, table_fits hsize, ?_⟩
  have h1 := strict_entries (min := min) (max := max) _ (fun e he => shown_mem he) hp hlong 0 hs
  unfold pieces
  simp only []
  rw [entries_shown]
  generalize hr : entries min max 0 0 (shown min max es) = r at *
  have e1 : ([b!"<nav class=\"toc\">\n"] ++ r.1 ++ List.replicate r.2 b!"</li>\n</ul>\n" ++ [b!"</nav>\n"]).flatten =
      b!"<nav class=\"toc\">\n" ++ (r.1.flatten ++ ((List.replicate r.2 b!"</li>\n</ul>\n").flatten ++ b!"</nav>\n")) := by simp
  have e2 : ∀ s, tags (b!"<nav class=\"toc\">\n" ++ s) = tags s := by
    intro s
    show (tagAt (b!"nav class=\"toc\">\n" ++ s)).toList ++ tags (b!"nav class=\"toc\">\n" ++ s) = _
    rw [tags_plain (by decide)]
    have : tagAt (b!"nav class=\"toc\">\n" ++ s) = none := by
      unfold tagAt
      rw [if_neg (by rintro ⟨x, h⟩; cases h), if_neg (by rintro ⟨x, h⟩; cases h), if_neg (by rintro ⟨x, h⟩; cases h),
        if_neg (by rintro ⟨x, h⟩; cases h), if_neg (by rintro ⟨x, h⟩; cases h)]
    rw [this]
    rfl
  rw [e1, e2, show ([] : List Elem) = nest 0 from rfl, h1, strict_close]
  decide

/-- **C102 is false as stated**: a document whose headings all have level two has its second heading below its first; after a
skipped level siblings are nested; and going up leaves an item open. -/
theorem C102_skipped :
    ∃ t u v, table 1 6 [⟨2, b!"a", b!"A"⟩, ⟨2, b!"b", b!"B"⟩] = .val t ∧ outline t = [1, 2] ∧ strict [] (tags t) = false ∧
      table 1 6 [⟨1, b!"a", b!"A"⟩, ⟨3, b!"b", b!"B"⟩, ⟨3, b!"c", b!"C"⟩] = .val u ∧ outline u = [1, 2, 3] ∧
      table 1 6 [⟨1, b!"a", b!"A"⟩, ⟨2, b!"b", b!"B"⟩, ⟨1, b!"c", b!"C"⟩] = .val v ∧ outline v = [1, 2, 1] ∧
      strict [] (tags v) = false := by
  have h : ∀ (r : C Bytes) (l : List Nat) (k : Bool), (match r with | .val t => outline t == l && strict [] (tags t) == k | .ub => false) = true →
      ∃ t, r = .val t ∧ outline t = l ∧ strict [] (tags t) = k := by
    intro r l k hr
    cases r with
    | ub => cases hr
    | val t => exact ⟨t, rfl, by simpa using hr⟩
  obtain ⟨t, t1, t2, t3⟩ := h (table 1 6 [⟨2, b!"a", b!"A"⟩, ⟨2, b!"b", b!"B"⟩]) [1, 2] false (by decide +kernel)
  obtain ⟨u, u1, u2, -⟩ := h (table 1 6 [⟨1, b!"a", b!"A"⟩, ⟨3, b!"b", b!"B"⟩, ⟨3, b!"c", b!"C"⟩]) [1, 2, 3] false (by decide +kernel)
  obtain ⟨v, v1, v2, v3⟩ := h (table 1 6 [⟨1, b!"a", b!"A"⟩, ⟨2, b!"b", b!"B"⟩, ⟨1, b!"c", b!"C"⟩]) [1, 2, 1] false (by decide +kernel)
  exact ⟨t, u, v, t1, t2, t3, u1, u2, v1, v2, v3⟩

example : Steps 0 (shown 1 6 [⟨1, b!"a", b!"A"⟩, ⟨2, b!"b", b!"B"⟩, ⟨1, b!"c", b!"C"⟩]) ∧
    Plain ⟨1, b!"a", b!"A"⟩ := by
  refine ⟨?_, ?_⟩
  · simp [shown, Steps]
  · unfold Plain; decide
example : Descends 0 (shown 1 6 [⟨1, b!"a", b!"A"⟩, ⟨2, b!"b", b!"B"⟩, ⟨2, b!"c", b!"C"⟩]) := by simp [shown, Descends]

/-! ### C103 -/

/-- **C103**: a marker with two levels is about these levels, whatever follows it. -/
theorem C103_range (a b : Nat) (rest : Bytes) :
    levels (b!"{{TOC:" ++ decimal a ++ b!"-" ++ decimal b ++ b!"}}" ++ rest) = ((a : Int), (b : Int)) := levels_range a b rest

/-- **C103**, partial: a comment with `max` and `min` is about these levels when no colon follows it on the page. -/
theorem C103_words_partial (a b : Nat) (rest : Bytes) (h : c!":" ∉ rest) :
    levels (b!"<!--TOC max" ++ decimal a ++ b!" min" ++ decimal b ++ b!"-->" ++ rest) = ((b : Int), (a : Int)) := levels_words a b h

/-- **C103**, partial: a marker without levels is about all of them, when neither a colon nor `max` nor `min` follows on the
page. -/
theorem C103_bare_partial (m rest : Bytes) (hm : m = b!"<!--TOC-->" ∨ m = b!"{{TOC}}") (h : c!":" ∉ rest)
    (h1 : ¬ b!"max" <:+: rest) (h2 : ¬ b!"min" <:+: rest) : levels (m ++ rest) = (1, 6) := levels_bare hm h h1 h2

/-- **C103 is false as stated**: the text behind the marker is read as well: a time of day leaves the table empty, the word
"maximum" limits it, and so does a date. -/
theorem C103_rest_of_page :
    levels b!"{{TOC}}<p>at 12:30</p>" = (30, 6) ∧
    levels b!"<!--TOC--><p>a maximum of 2</p>" = (1, 2) ∧
    levels b!"{{TOC:2}}<p>in 2020-01</p>" = (2, 1) ∧
    (∀ es : List Entry, (∀ e ∈ es, e.level ≤ 6) → table 30 6 es = .val b!"<nav class=\"toc\">\n</nav>\n") := by
  refine ⟨by decide +kernel, by decide +kernel, by decide +kernel, ?_⟩
  intro es h
  have hs : shown 30 6 es = [] := by
    unfold shown
    rw [List.filter_eq_nil_iff]
    intro e he
    have := h e he
    simp
    omega
  rw [table_fits (by rw [hs]; decide)]
  unfold pieces
  rw [entries_shown, hs]
  decide

example : levels b!"{{TOC:2-5}}<p>at 12:30</p>" = (2, 5) := by decide +kernel

/-! ### C104 -/

/-- **C104**: nothing changes but the first marker outside code, from its start up to its end, and it is replaced by the table. -/
theorem C104_only_marker {tab : List Emoji.Entry} {fmt : Format} {doc : List Heading} {html out : Bytes}
    (h : process tab fmt doc html = .val out) :
    out = html ∨ ∃ a m y r es toc, MarkerAt html a m y r ∧ ¬ InCode a ∧ out = a ++ toc ++ r ∧
      withIds tab fmt (collect doc) = .val es ∧
      table (levels (html.drop a.length)).1 (levels (html.drop a.length)).2 es = .val toc := by
  unfold process at h
  cases hf : find html 0 with
  | none => rw [hf] at h; cases h; exact .inl rfl
  | some p =>
    obtain ⟨i, k⟩ := p
    rw [hf] at h
    simp only [] at h
    split at h
    · cases h; exact .inl rfl
    · cases hw : withIds tab fmt (collect doc) with
      | ub => rw [hw] at h; cases h
      | val es =>
        rw [hw, C.val_bind] at h
        obtain ⟨toc, ht⟩ := table_safe (levels (html.drop i)).1 (levels (html.drop i)).2 es
        rw [ht, C.val_bind] at h
        obtain ⟨h1, hi, m, hm, hk, r', he⟩ := find_some html 0 hf
        have hlen : (html.take i).length = i := by rw [List.length_take]; omega
        have hd : html.drop i = m ++ r' := by
          conv => lhs; rw [he, List.append_assoc]
          rw [List.drop_left' hlen]
        rcases replace_eq html toc i k with ⟨_, hr⟩ | ⟨x, r, hx, hr⟩
        · rw [hr] at h; cases h; exact .inl rfl
        · rw [hr] at h
          cases h
          right
          subst hk
          obtain ⟨y, rfl⟩ := closer_behind hm (hd.symm.trans hx.1)
          refine ⟨html.take i, m, y, r, es, toc, ⟨closer (decide (m = b!"<!--TOC")), ?_, ?_, ?_⟩, ?_, rfl, rfl, by rw [hlen]; exact ht⟩
          · unfold marks at hm
            simp only [List.mem_cons, List.not_mem_nil, or_false] at hm
            rcases hm with rfl | rfl <;> decide
          · have : html = html.take i ++ html.drop i := (List.take_append_drop i html).symm
            rw [hx.1] at this
            conv => lhs; rw [this]
            simp
          · intro p q e
            have e1 : html.drop i = (m ++ p) ++ closer (decide (m = b!"<!--TOC")) ++ q := by
              rw [hx.1, List.append_assoc, List.append_assoc, ← List.append_assoc y, e]
              simp
            have := hx.2 _ _ e1
            simp at this
            omega
          · intro hc
            rw [inside_code hc] at h1
            cases h1

/-- **C104**: markers in code are left alone. -/
theorem C104_code {html : Bytes} (h : ∀ a m r, m ∈ marks → html = a ++ m ++ r → InCode a) (tab : List Emoji.Entry) (fmt : Format)
    (doc : List Heading) : process tab fmt doc html = .val html := by
  unfold process
  cases hf : find html 0 with
  | none => rfl
  | some p =>
    obtain ⟨i, k⟩ := p
    obtain ⟨h1, _, m, hm, -, r, he⟩ := find_some html 0 hf
    rw [inside_code (h _ _ _ hm he)] at h1
    cases h1

/-- **C104**: a marker that is the first on the page, with no code before it, is replaced, when the document has headings. -/
theorem C104_replaced_partial {tab : List Emoji.Entry} {fmt : Format} {doc : List Heading} {html a m y r : Bytes} {es : List Entry}
    (hm : MarkerAt html a m y r) (hfirst : ∀ m' ∈ marks, ∀ a' r', html = a' ++ m' ++ r' → a.length ≤ a'.length) (hc : NoCode a)
    (hd : collect doc ≠ []) (hes : withIds tab fmt (collect doc) = .val es) :
    ∃ toc, table (levels (html.drop a.length)).1 (levels (html.drop a.length)).2 es = .val toc ∧
      process tab fmt doc html = .val (a ++ toc ++ r) := by
  obtain ⟨toc, ht⟩ := table_safe (levels (html.drop a.length)).1 (levels (html.drop a.length)).2 es
  refine ⟨toc, ht, ?_⟩
  obtain ⟨z, hz, he, hf⟩ := hm
  have hmm : m ∈ marks ∧ z = closer (decide (m = b!"<!--TOC")) := by
    unfold kinds at hz
    simp only [List.mem_cons, List.not_mem_nil, or_false, Prod.mk.injEq] at hz
    rcases hz with ⟨rfl, rfl⟩ | ⟨rfl, rfl⟩ <;> decide
  have hfind := find_first hmm.1 (r := y ++ z ++ r) (by rw [he]; simp) hfirst hc
  unfold process
  rw [hfind]
  simp only []
  rw [if_neg hd, hes, C.val_bind, ht, C.val_bind]
  have e1 : html.drop a.length = m ++ y ++ z ++ r := by rw [he]; simp
  rcases replace_eq html toc a.length (decide (m = b!"<!--TOC")) with ⟨hn, _⟩ | ⟨x, r', hx, hr⟩
  · rw [← hmm.2, e1] at hn
    exact absurd ⟨m ++ y, r, rfl⟩ hn
  · rw [hr]
    rw [← hmm.2, e1] at hx
    have e2 : html.take a.length = a := by rw [he]; simp
    have h1 : x.length ≤ (m ++ y).length := hx.2 (m ++ y) r rfl
    have e3 : m ++ (y ++ z ++ r) = x ++ closer (decide (m = b!"<!--TOC")) ++ r' := by rw [← hmm.2, ← hx.1]; simp
    obtain ⟨w, hw⟩ := closer_behind hmm.1 e3
    rw [hw, ← hmm.2, List.append_assoc, List.append_assoc, List.append_assoc] at e3
    have e4 := List.append_cancel_left e3
    have h2 := hf w r' (by rw [List.append_assoc, List.append_assoc]; exact e4)
    rw [hw] at h1
    simp only [List.length_append] at h1
    have h3 : y.length = w.length := by omega
    have h4 := List.append_inj e4 h3
    rw [e2, List.append_cancel_left h4.2]

/-- **C104 is false as stated**: only the first marker is replaced, one in an attribute is, words that only start like a marker
are, and a comment that mentions code keeps the marker from being found. -/
theorem C104_places :
    process [] .gfm [⟨1, b!"A", none⟩] b!"{{TOC}}{{TOC}}" =
      .val b!"<nav class=\"toc\">\n<ul>\n<li><a href=\"#a\">A</a></li>\n</ul>\n</nav>\n{{TOC}}" ∧
    process [] .gfm [⟨1, b!"A", none⟩] b!"<i title=\"{{TOC}}\">" =
      .val b!"<i title=\"<nav class=\"toc\">\n<ul>\n<li><a href=\"#a\">A</a></li>\n</ul>\n</nav>\n\">" ∧
    process [] .gfm [⟨1, b!"A", none⟩] b!"<!--TOCATTA -->" =
      .val b!"<nav class=\"toc\">\n<ul>\n<li><a href=\"#a\">A</a></li>\n</ul>\n</nav>\n" ∧
    process [] .gfm [⟨1, b!"A", none⟩] b!"<!-- <code> -->{{TOC}}" = .val b!"<!-- <code> -->{{TOC}}" := by
  refine ⟨?_, ?_, ?_, ?_⟩ <;> decide +kernel

example : InCode b!"<pre><code class=\"c\">a " := ⟨b!"<pre>", b!"<code class=\"c\">a ", rfl, ⟨b!"code", 32, b!"class=\"c\">a ", rfl, by decide, by decide⟩,
  by decide⟩
example : MarkerAt b!"<p>{{TOC:1-2}}</p>" b!"<p>" b!"{{TOC" b!":1-2" b!"</p>" := by
  refine ⟨b!"}}", by decide, rfl, ?_⟩
  intro p q h
  rcases p with _ | ⟨x1, _ | ⟨x2, _ | ⟨x3, _ | ⟨x4, p⟩⟩⟩⟩ <;> simp at h ⊢

/-! ### C105 -/

/-- **C105**, partial: the link to a heading without a stored id is the id the heading has. What is missing: headings with an id
of their own, and headings with the same text; see `C105_other_ids`. -/
theorem C105_links_partial {tab : List Emoji.Entry} {fmt : Format} : ∀ {hs : List Heading} {es : List Entry},
    withIds tab fmt hs = .val es → ∀ h e, (h, e) ∈ hs.zip es → (∀ a, h.attrs = some a → ¬ b!"id=\"" <:+: a) →
    headingId tab fmt h.text h.attrs = .val e.id := by
  intro hs
  induction hs with
  | nil => intro es _ h e hm; simp at hm
  | cons g hs ih =>
    intro es hes h e hm ha
    unfold withIds at hes
    cases hg : generate tab fmt g.text with
    | ub => rw [hg] at hes; cases hes
    | val id =>
      rw [hg, C.val_bind] at hes
      cases hw : withIds tab fmt hs with
      | ub => rw [hw] at hes; cases hes
      | val es' =>
        rw [hw, C.val_bind] at hes
        cases hes
        rw [List.zip_cons_cons] at hm
        rcases List.mem_cons.1 hm with h1 | h1
        · cases h1
          rw [← hg]
          unfold headingId
          cases hattrs : g.attrs with
          | none => rfl
          | some a =>
            have : Transforms.strstr a b!"id=\"" = none := Transforms.strstr_of_not_infix (ha a hattrs)
            simp [HeaderIds.storedId, this]
        · exact ih hw h e h1 ha

/-- **C105 is false as stated**: a heading with an id of its own is linked by another one, and two headings with the same text by
the same. -/
theorem C105_other_ids :
    (withIds [] .gfm [⟨1, b!"Setup", some b!"id=\"start\""⟩] = .val [⟨1, b!"setup", b!"Setup"⟩] ∧
      headingId [] .gfm b!"Setup" (some b!"id=\"start\"") = .val b!"start") ∧
    withIds [] .gfm [⟨1, b!"Notes", none⟩, ⟨1, b!"Notes", none⟩] = .val [⟨1, b!"notes", b!"Notes"⟩, ⟨1, b!"notes", b!"Notes"⟩] := by
  refine ⟨⟨?_, ?_⟩, ?_⟩ <;> decide +kernel

example : withIds [] .gfm [⟨1, b!"Set up", some b!"class=\"x\""⟩] = .val [⟨1, b!"set-up", b!"Set up"⟩] := by decide +kernel

end Verif.Toc
