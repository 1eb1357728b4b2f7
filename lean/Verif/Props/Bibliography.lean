/-
C163, C164: bibliographies in BibTeX, and the list of references of a page.
-/
import Verif.Proof.Bibliography

namespace Verif.Bibliography
open Spec (File Item Fields Field Says Braces Solid Blank Listed Placed First entryHtml refsHtml)
open Citations (Entry Citation)
open Citations.Spec (White)
open Embed (find)

/-- C163, for every file whose fields are in braces or bare, with braces in pairs, and without `@` in them: the entries are read, with
the last value of each field, and their strings can be freed.  The last entry of the file is the first one of the registry.
Missing: other files. -/
theorem C163_file_partial {s : Bytes} {es : List (Bytes × List (Bytes × Bytes))} (h : File s es) :
    ∃ rs, bibtex s = .val rs ∧ rs.map seen = (es.map fun e => Spec.entry e.1 e.2).reverse ∧ freeAll rs = .val () := by
  refine ⟨(es.map fun p => puts' p.2 { id := p.1 }).reverse, ?_, ?_, ?_⟩
  · have := entries_file h [] (s.length + 1) [] (by simp) (by simp)
    rw [List.nil_append, List.append_nil] at this
    exact this
  · rw [List.map_reverse, List.map_map]
    congr 1
    exact List.map_congr_left fun e _ => seen_puts' e.1 e.2
  · apply freeAll_whole
    intro r hr
    rw [List.mem_reverse] at hr
    obtain ⟨e, _, rfl⟩ := List.mem_map.1 hr
    exact whole_puts' e.1 e.2

/-- Several files: an identifier means the entry of the first file that has it. -/
theorem C163_merge (m f : List Entry) (k : Bytes) :
    (merge m f).find? (fun e => e.id == k) = (m.find? fun e => e.id == k).or (f.find? fun e => e.id == k) := merge_find m f k

/-- And no identifier is there twice. -/
theorem C163_merge_once {m : List Entry} (h : (m.map (·.id)).Nodup) (f : List Entry) : ((merge m f).map (·.id)).Nodup := merge_nodup h f

/-- A file with a comment and two entries. -/
theorem C163_example : (bibtex b!"% a comment\n@book{doe99,\n  author = {Jane Doe},\n  title = {The {TeX} Book},\n  year = 1999,\n}\n\n@article{s, author={John Smith}, journal={J}, volume=3, pages={1--7}, note={x}}\n").bind
      (fun rs => .val (rs.map seen)) =
    .val [{ id := b!"s", title := none, author := some b!"John Smith", year := none, container := some b!"J", publisher := none, volume := some b!"3", page := some b!"1--7" },
      { id := b!"doe99", title := some b!"The TeX Book", author := some b!"Jane Doe", year := some b!"1999", container := none, publisher := none, volume := none, page := none }] := by
  decide +kernel

/-- The hypothesis of `C163_file_partial` holds for a file with an entry. -/
theorem C163_example_hypotheses : File b!"% x\n@book{doe99, title = {The {TeX} Book}, year = 1999}\n" [(b!"doe99", [(b!"title", b!"The TeX Book"), (b!"year", b!"1999")])] := by
  have solid : ∀ (c d : Byte) (t : Bytes), ¬ White c → ¬ White d → Solid (c :: t ++ [d]) := by
    intro c d t hc hd
    exact ⟨⟨c, t ++ [d], rfl, hc⟩, c :: t, d, rfl, hd⟩
  have plain : ∀ a : Bytes, (∀ c ∈ a, c ≠ c!"{" ∧ c ≠ c!"}") → Braces a := by
    intro a
    induction a with
    | nil => intro _; exact .nil
    | cons c a ih => intro h; exact .char (h c (by simp)).1 (h c (by simp)).2 (ih fun x hx => h x (by simp [hx]))
  have br : ∀ a b : Bytes, Braces a → Braces b → Braces (a ++ b) := by
    intro a b ha hb
    induction ha with
    | nil => exact hb
    | char h1 h2 _ ih => exact .char h1 h2 ih
    | @group a s h1 _ _ ih => exact (show b!"{" ++ a ++ b!"}" ++ s ++ b = b!"{" ++ a ++ b!"}" ++ (s ++ b) by simp) ▸ Braces.group h1 ih
  have hbr : Braces b!"The {TeX} Book" := br b!"The " b!"{TeX} Book" (plain _ (by decide)) (Braces.group (a := b!"TeX") (plain _ (by decide)) (plain b!" Book" (by decide)))
  have w0 : Blank [] := by intro c hc; simp at hc
  have w1 : Blank b!" " := by intro c hc; simp only [List.mem_singleton] at hc; rw [hc]; unfold White; decide
  have f1 : Field b!"title = {The {TeX} Book}" b!"title" b!"The TeX Book" :=
    ⟨b!" ", b!" ", b!"{The {TeX} Book}", rfl, w1, w1, solid c!"t" c!"e" b!"itl" (by unfold White; decide) (by unfold White; decide), by decide, by decide, by decide,
      Or.inl ⟨b!"The {TeX} Book", [], rfl, hbr, by decide, w0, Or.inr (solid c!"T" c!"k" b!"he TeX Boo" (by unfold White; decide) (by unfold White; decide))⟩⟩
  have f2 : Field b!"year = 1999" b!"year" b!"1999" :=
    ⟨b!" ", b!" ", b!"1999", rfl, w1, w1, solid c!"y" c!"r" b!"ea" (by unfold White; decide) (by unfold White; decide), by decide, by decide, by decide,
      Or.inr ⟨[], rfl, w0, solid c!"1" c!"9" b!"99" (by unfold White; decide) (by unfold White; decide), by decide, by decide⟩⟩
  have hf : Fields b!", title = {The {TeX} Book}, year = 1999" [(b!"title", b!"The TeX Book"), (b!"year", b!"1999")] :=
    Fields.cons (w := b!" ") (f := b!"title = {The {TeX} Book}") (w' := []) (s := b!", year = 1999") w1 f1 w0
      (Fields.cons (w := b!" ") (f := b!"year = 1999") (w' := []) (s := []) w1 f2 w0 .nil)
  have hi : Item b!"@book{doe99, title = {The {TeX} Book}, year = 1999}" b!"doe99" [(b!"title", b!"The TeX Book"), (b!"year", b!"1999")] :=
    ⟨b!"book", [], [], b!", title = {The {TeX} Book}, year = 1999", rfl, by decide, by unfold White; decide, w0, w0,
      solid c!"d" c!"9" b!"oe9" (by unfold White; decide) (by unfold White; decide), by decide, hf, by decide⟩
  exact File.cons (t := b!"% x\n") (s := b!"@book{doe99, title = {The {TeX} Book}, year = 1999}") (r := b!"\n") (by decide) hi (.nil (by decide))

/-- White space at the front of a value in braces: the string is freed although it does not begin with its block. -/
theorem C163_blank_refuted : (bibtex b!"@book{doe99, title = { The Book}, year = 1999}").bind freeAll = .ub ∧
    bibtex b!"@book{doe99, note = { The Book}, year = 1999}" = .ub := by
  constructor <;> decide +kernel

/-- An entry without closing brace: a null pointer is read. -/
theorem C163_open_refuted : bibtex b!"@book{doe99, title = \"The Book\"" = .ub := by decide +kernel

/-- A value in quotation marks keeps them, and ends at its first comma; the next field is lost. -/
theorem C163_quotes_refuted : (bibtex b!"@book{doe99, author = \"Doe, Jane\", title = {The Book}}").bind (fun rs => .val (rs.map seen)) =
    .val [{ id := b!"doe99", title := none, author := some b!"\"Doe", year := none, container := none, publisher := none, volume := none, page := none }] := by
  decide +kernel

/-- A blank before the brace: there is no entry. -/
theorem C163_space_refuted : bibtex b!"@book {doe99, title = {The Book}}" = .val [] := by decide +kernel

/-- A field without value takes what comes next, also of other entries. -/
theorem C163_crossref_refuted : (bibtex b!"@misc{x, crossref}\n@book{y, title = {The Book}, author = {Jane Doe}}").bind
      (fun rs => .val (rs.map fun r => (r.id, r.author.map (·.text)))) =
    .val [(b!"y", some b!"Jane Doe"), (b!"x", some b!"Jane Doe")] := by decide +kernel

/-- Names for texts are entries, and are not replaced. -/
theorem C163_string_refuted : (bibtex b!"@string{acm = {ACM Press}}\n@book{x, publisher = acm}").bind
      (fun rs => .val (rs.map fun r => (r.id, r.publisher.map (·.text)))) =
    .val [(b!"x", some b!"acm"), (b!"acm = {ACM Press", none)] := by decide +kernel

/-- `@` in a value: the text behind it is an entry. -/
theorem C163_at_refuted : (bibtex b!"@book{x, title = {Mail}, note = {jane@site{y}}}").bind (fun rs => .val (rs.map (·.id))) = .val [b!"y", b!"x"] := by
  decide +kernel

/-- C164, for all entries and citations: the entries that are cited have one order without repetition, and the bibliography is made of them,
one after the other, in its element; the closing tag may be cut.  Without entries there is no bibliography. -/
theorem C164_listed (bib : List Entry) (cs : List Citation) : ∃ es, Listed bib cs es ∧ (∀ es', Listed bib cs es' → es' = es) ∧
    (es = [] → generate bib cs = none) ∧
    (es ≠ [] → ∃ hs z, generate bib cs = some (b!"<div id=\"refs\" class=\"references csl-bib-body\">\n" ++ hs ++ z) ∧ z <+: b!"</div>\n" ∧ hs = (es.filterMap format).flatten) := by
  obtain ⟨h1, h2⟩ := cited_listed bib cs
  refine ⟨_, h1, fun es' h => listed_unique h h1, ?_, ?_⟩
  · intro h
    unfold generate
    simp only []
    rw [if_pos (h2.2 h)]
  · intro h
    unfold generate
    simp only []
    rw [if_neg fun e => h (h2.1 e)]
    obtain ⟨cap, e, _, _⟩ := body_val ((cited bib [] cs).filterMap fun i => bib[i]?) 4096 b!"<div id=\"refs\" class=\"references csl-bib-body\">\n" (by decide)
    rw [e]
    exact ⟨_, _, rfl, List.take_prefix _ _, rfl⟩

/-- If no entry has more than 2047 bytes and the bibliography has less than 4096 bytes, it is complete.  Missing: longer ones. -/
theorem C164_bibliography_partial {bib : List Entry} {cs : List Citation} {es : List Entry} (h : Listed bib cs es) (h0 : es ≠ [])
    (he : ∀ e ∈ es, (entryHtml e).length < 2048) (hl : (refsHtml es).length < 4096) : generate bib cs = some (refsHtml es) := by
  obtain ⟨h1, h2⟩ := cited_listed bib cs
  have := listed_unique h h1
  subst this
  unfold generate
  simp only []
  rw [if_neg fun e => h0 (h2.1 e)]
  obtain ⟨cap, e, h3, h4⟩ := body_val ((cited bib [] cs).filterMap fun i => bib[i]?) 4096 b!"<div id=\"refs\" class=\"references csl-bib-body\">\n" (by decide)
  rw [formats_val he] at e h4
  rw [e]
  simp only [] at h4 ⊢
  have : (b!"<div id=\"refs\" class=\"references csl-bib-body\">\n" ++ ((cited bib [] cs).filterMap fun i => bib[i]?).flatMap entryHtml).length + 7 < 4096 := by
    unfold refsHtml at hl
    rw [List.length_append] at hl
    exact hl
  simp only [] at this
  rw [List.take_of_length_le (by
    simp only [List.length_cons, List.length_nil]
    omega)]
  rfl

/-- Each entry is complete if it has at most 2047 bytes; never more are written. -/
theorem C164_entry (e : Entry) : ((entryHtml e).length < 2048 → format e = some (entryHtml e)) ∧ ∀ o, format e = some o → o.length < 2048 :=
  ⟨format_val e, fun _ h => format_len h⟩

/-- For every page: the bibliography takes the place of the mark, or goes to the end of the element for it, or of the page; all other
bytes of the page stay. -/
theorem C164_placed {bib : List Entry} {cs : List Citation} (page : Bytes) {h : Bytes} (hg : generate bib cs = some h) : Placed page h (insert bib cs page) := by
  have none_iff : ∀ {w : Bytes}, w ≠ [] → find w page = none → ¬ w <:+: page := fun hw h => (Embed.find_none hw).1 h
  unfold insert
  rw [hg]
  simp only []
  cases h1 : find b!"<!-- REFERENCES -->" page with
  | some p => exact Or.inl ⟨p.1, p.2, find_first (by decide) h1, rfl⟩
  | none =>
    refine Or.inr ⟨none_iff (by decide) h1, ?_⟩
    simp only []
    cases h2 : find b!"{backmatter}" page with
    | some p => exact Or.inl ⟨p.1, p.2, find_first (by decide) h2, rfl⟩
    | none =>
      refine Or.inr ⟨none_iff (by decide) h2, ?_⟩
      simp only []
      cases h3 : find b!"<div id=\"refs\">" page with
      | none =>
        refine Or.inr ⟨?_, rfl⟩
        intro x y hf
        rw [first_find (by decide) hf] at h3
        simp at h3
      | some p =>
        obtain ⟨a, b⟩ := p
        simp only []
        rw [find_div]
        cases h4 : find b!"</div>" b with
        | none =>
          refine Or.inr ⟨?_, rfl⟩
          intro x y hf
          rw [first_find (by decide) hf] at h3
          simp only [Option.some.injEq, Prod.mk.injEq] at h3
          rw [h3.2]
          exact (Embed.find_none (by decide)).1 h4
        | some q =>
          refine Or.inl ⟨a, b, q.1, q.2, find_first (by decide) h3, find_first (by decide) h4, ?_⟩
          simp only [Option.map_some, List.append_assoc]

/-- Without bibliography the page stays. -/
theorem C164_none {bib : List Entry} {cs : List Citation} (page : Bytes) (hg : generate bib cs = none) : insert bib cs page = page := by
  unfold insert
  rw [hg]

/-- Two entries, the second one cited first. -/
theorem C164_example : insert
      [{ id := b!"a", title := some b!"The Book", author := some b!"Jane Doe", year := some b!"1999", container := none, publisher := some b!"Press", volume := none, page := none },
        { id := b!"b", title := none, author := some b!"John Smith", year := none, container := some b!"J", publisher := none, volume := some b!"3", page := some b!"1--7" }]
      [{ key := b!"b" }, { key := b!"none" }, { key := b!"a" }, { key := b!"b" }]
      b!"<p>Text</p>\n<!-- REFERENCES -->\n<p>End</p>\n" =
    b!"<p>Text</p>\n<div id=\"refs\" class=\"references csl-bib-body\">\n<div id=\"ref-b\" class=\"csl-entry\">John Smith. <em>J</em> 3: 1--7</div>\n<div id=\"ref-a\" class=\"csl-entry\">Jane Doe 1999. <em>The Book</em>. Press</div>\n</div>\n\n<p>End</p>\n" := by
  decide +kernel

/-- The hypotheses of `C164_bibliography_partial` hold for an entry that is cited. -/
theorem C164_example_hypotheses :
    let e : Entry := { id := b!"a", title := some b!"The Book", author := some b!"Jane Doe", year := some b!"1999", container := none, publisher := some b!"Press", volume := none, page := none }
    Listed [e] [{ key := b!"a" }] [e] ∧ (entryHtml e).length < 2048 ∧ (refsHtml [e]).length < 4096 := by
  intro e
  refine ⟨?_, by decide +kernel, by decide +kernel⟩
  exact (cited_listed [e] [{ key := b!"a" }]).1

/-- A long entry loses its author, and the rest is kept. -/
theorem C164_long_refuted :
    let e : Entry := { id := b!"a", title := some b!"The Book", author := some (List.replicate 2100 c!"x"), year := some b!"1999", container := none, publisher := none, volume := none, page := none }
    format e = some b!"<div id=\"ref-a\" class=\"csl-entry\">1999. <em>The Book</em></div>\n" := by
  decide +kernel

/-- The bibliography of entries that leave no room in the block of 4096 bytes loses the end of its closing tag. -/
theorem C164_closing_refuted :
    let e (id : Bytes) (n : Nat) : Entry := { id := id, title := none, author := some (List.replicate n c!"x"), year := none, container := none, publisher := none, volume := none, page := none }
    (generate [e b!"a" 1963, e b!"b" 2000] [{ key := b!"a" }, { key := b!"b" }]).map (fun h => h.drop (h.length - 12)) = some b!"xxx</div>\n</" := by
  decide +kernel

/-- Texts are not escaped. -/
theorem C164_escape_refuted :
    format { id := b!"a", title := some b!"R & D <x>", author := none, year := none, container := none, publisher := none, volume := none, page := none } =
      some b!"<div id=\"ref-a\" class=\"csl-entry\"><em>R & D <x></em></div>\n" := by
  decide +kernel

/-- The mark is also replaced in code. -/
theorem C164_code_refuted :
    insert [{ id := b!"a", title := some b!"T", author := none, year := none, container := none, publisher := none, volume := none, page := none }] [{ key := b!"a" }]
      b!"<p>Write <code>{backmatter}</code>.</p>\n" =
    b!"<p>Write <code><div id=\"refs\" class=\"references csl-bib-body\">\n<div id=\"ref-a\" class=\"csl-entry\"><em>T</em></div>\n</div>\n</code>.</p>\n" := by
  decide +kernel

end Verif.Bibliography
