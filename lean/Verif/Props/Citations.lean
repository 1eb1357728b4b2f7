/-
C161, C162: citations in the text, and in the page.
-/
import Verif.Proof.Citations

namespace Verif.Citations
open Spec (Cited Cite Detected Shown Shows Text comment)

/-- C161, for every text: there is one way to read its citations. -/
theorem C161_read (u : Bool) (text : Bytes) : ∃ xs out, Cited u false false [] text xs out ∧
    ∀ xs' out', Cited u false false [] text xs' out' → xs' = xs ∧ out' = out := by
  obtain ⟨xs, out, h⟩ := cited_exists u text.length text false false [] (Nat.le_refl _)
  exact ⟨xs, out, h, fun _ _ h' => cited_unique h h'⟩

/-- If a start of a citation is detected, the keys have at most 243 bytes and the result has less than twice the bytes of the
text, then the citations are registered, comments take their place, and all other bytes stay.  Missing: other texts. -/
theorem C161_cited_partial {u : Bool} {text out : Bytes} {xs : List Citation} (h : Cited u false false [] text xs out) (hd : Detected text)
    (hk : ∀ x ∈ xs, x.key.length ≤ 243) (hl : out.length < 2 * text.length) : process u text = .val (some out, xs.reverse) := by
  rw [process, if_pos (detected_iff.2 hd)]
  simp only []
  have := loop_cited h (text.length + 1) [] (text.length * 2) [] (by omega) hk (by rw [List.length_nil]; omega)
  rw [List.reverse_nil] at this
  rw [this]
  simp only [List.nil_append, List.append_nil]
  rw [finish_val (by omega)]
  rfl

/-- Otherwise nothing is read, and the text is kept. -/
theorem C161_undetected {u : Bool} {text : Bytes} (hd : ¬ Detected text) : process u text = .val (none, []) := by
  rw [process, if_neg (by rw [detected_iff]; exact hd)]

/-- A text without `@` and `[#` is kept. -/
theorem C161_other_text (u : Bool) {text : Bytes} (h1 : c!"@" ∉ text) (h2 : ¬ b!"[#" <:+: text) : process u text = .val (none, []) := by
  refine C161_undetected ?_
  rintro (⟨a, z, rfl⟩ | h | ⟨a, z, rfl, _⟩)
  · simp at h1
  · exact h2 h
  · simp at h1

/-- In MultiMarkdown mode, `@` begins no citation. -/
theorem C161_multimarkdown {pre s r : Bytes} {x : Citation} (h : Cite false pre s x r) : ∃ t, s = b!"[#" ++ t := by
  rcases h with h | h
  · exact mmd_start h
  · simp at h

theorem citations_comments {u b i : Bool} {pre text out : Bytes} {xs : List Citation} (h : Cited u b i pre text xs out) :
    ∃ t : List Bytes, t.length = xs.length + 1 ∧ out = (t.zip (xs.map (fun x => comment x.key) ++ [[]])).flatMap fun p => p.1 ++ p.2 := by
  have push : ∀ (c : Byte) (t : List Bytes) (l : List Bytes), t ≠ [] → l ≠ [] →
      ∃ t' : List Bytes, t'.length = t.length ∧ c :: (t.zip l).flatMap (fun p => p.1 ++ p.2) = (t'.zip l).flatMap fun p => p.1 ++ p.2 := by
    intro c t l ht hl
    cases t with
    | nil => exact absurd rfl ht
    | cons a t =>
      cases l with
      | nil => exact absurd rfl hl
      | cons y l => exact ⟨(c :: a) :: t, rfl, by simp⟩
  have ne : ∀ (t : List Bytes) (n : Nat), t.length = n + 1 → t ≠ [] := by
    rintro t n h rfl
    simp at h
  induction h with
  | nil => exact ⟨[[]], rfl, rfl⟩
  | @code b i b' i' pre c s xs out _ _ _ ih =>
    obtain ⟨t, ht, rfl⟩ := ih
    obtain ⟨t', h1, h2⟩ := push c t (xs.map (fun x => comment x.key) ++ [[]]) (ne t _ ht) (by simp)
    exact ⟨t', h1.trans ht, h2⟩
  | @cite b i pre src r x xs out _ _ _ ih =>
    obtain ⟨t, ht, rfl⟩ := ih
    exact ⟨[] :: t, by simp [ht], by simp⟩
  | @copy b i pre c s xs out _ _ _ ih =>
    obtain ⟨t, ht, rfl⟩ := ih
    obtain ⟨t', h1, h2⟩ := push c t (xs.map (fun x => comment x.key) ++ [[]]) (ne t _ ht) (by simp)
    exact ⟨t', h1.trans ht, h2⟩

/-- The result has the comments of the citations in their order. -/
theorem C161_comments {u : Bool} {text out : Bytes} {xs : List Citation} (h : Cited u false false [] text xs out) :
    ∃ t : List Bytes, t.length = xs.length + 1 ∧ out = (t.zip (xs.map (fun x => comment x.key) ++ [[]])).flatMap fun p => p.1 ++ p.2 :=
  citations_comments h

/-- Citations of the syntaxes; code is kept. -/
theorem C161_example : process true b!"A long introduction to what [@doe99, pp. 33-35] and @smith [p. 7] wrote, see [#knuth] and [@RFC2535], `@code`." =
    .val (some b!"A long introduction to what <!--CITE:doe99--> and <!--CITE:smith--> wrote, see <!--CITE:knuth--> and <!--CITE:RFC2535-->, `@code`.",
      [{ key := b!"RFC2535" }, { key := b!"knuth" }, { key := b!"smith", locator := some b!"p. 7", inText := true },
        { key := b!"doe99", locator := some b!"pp. 33-35" }]) := by
  decide +kernel

/-- A text that meets the hypotheses of `C161_cited_partial`. -/
theorem C161_example_hypotheses : ∃ xs out, Cited true false false [] b!"What is in this old book, [@doe99]?" xs out ∧
    Detected b!"What is in this old book, [@doe99]?" ∧ xs = [{ key := b!"doe99" }] ∧ out = b!"What is in this old book, <!--CITE:doe99-->?" ∧
    (∀ x ∈ xs, x.key.length ≤ 243) ∧ out.length < 2 * (b!"What is in this old book, [@doe99]?").length := by
  refine ⟨[{ key := b!"doe99" }], b!"What is in this old book, <!--CITE:doe99-->?", ?_, Or.inl ⟨b!"What is in this old book, ", b!"doe99]?", rfl⟩, rfl, rfl, by simp, by decide⟩
  have stop : ∀ (pre s : Bytes), parse true pre.reverse s = none → ∀ x r, ¬ Cite true pre s x r := fun pre s h => by
    have := parse_none.1 h
    rwa [List.reverse_reverse] at this
  have skip : ∀ (c : Byte) (pre s out : Bytes) (xs : List Citation), (c == c!"`") = false → parse true pre.reverse (c :: s) = none →
      Cited true false false (pre ++ [c]) s xs out → Cited true false false pre (c :: s) xs (c :: out) :=
    fun c pre s out xs h1 h2 h3 => .copy (.other (by simpa using h1)) (stop _ _ h2) h3
  iterate 26 refine skip _ _ _ _ _ (by decide +kernel) (by decide +kernel) ?_
  refine Cited.cite (src := b!"[@doe99]") (r := b!"?") (x := { key := b!"doe99" }) (.other (by decide)) ?_ (skip _ _ _ _ _ (by decide +kernel) (by decide +kernel) .nil)
  exact parse_iff (back := (b!"What is in this old book, ").reverse) |>.1 (by decide +kernel)

/-- White space behind a citation without brackets is lost. -/
theorem C161_blank_refuted : process true b!"As shown by @smith and others, this is true." =
    .val (some b!"As shown by <!--CITE:smith-->and others, this is true.", [{ key := b!"smith", inText := true }]) := by
  decide +kernel

/-- Full stops behind a key belong to it, and a short text loses its citation: there is no room for the comment. -/
theorem C161_short_refuted : process true b!"See @doe99." = .val (some b!"See ", [{ key := b!"doe99.", inText := true }]) := by
  decide +kernel

/-- The terminator is written behind the block. -/
theorem C161_overflow_refuted : process true b!"@smith, yes" = .ub := by
  decide +kernel

/-- An address of an email becomes a citation, but only if there is a citation elsewhere. -/
theorem C161_email_refuted : process true b!"Write to me@example.com about this." = .val (none, []) ∧
    process true b!"Write to me@example.com about [@doe99] please, it is fine." =
      .val (some b!"Write to me<!--CITE:example.com-->about <!--CITE:doe99--> please, it is fine.", [{ key := b!"doe99" }, { key := b!"example.com", inText := true }]) := by
  decide +kernel

/-- Of two citations in brackets, the second one becomes a part of the text, and the closing bracket stays. -/
theorem C161_two_refuted : process true b!"This is shown in [@doe99; @smith], as everybody knows." =
    .val (some b!"This is shown in <!--CITE:doe99-->; <!--CITE:smith-->], as everybody knows.", [{ key := b!"smith", inText := true }, { key := b!"doe99" }]) := by
  decide +kernel

/-- A bracket that is not closed takes all the rest of the text. -/
theorem C161_open_refuted : process true b!"This is shown in [@doe99 and in the rest of the text.\n\nMore text.\n" =
    .val (some b!"This is shown in <!--CITE:doe99-->", [{ key := b!"doe99" }]) := by
  decide +kernel

/-- A citation without its author is not detected if it is the only one. -/
theorem C161_suppressed_refuted : process true b!"This is shown in a paper of theirs [-@doe99], as everybody knows." = .val (none, []) := by
  decide +kernel

/-- Blocks of code with four backticks or with tildes are changed. -/
theorem C161_code_refuted : process true b!"A text with code:\n\n````\n[@doe99]\n````\n\nMore text, and the end of it.\n" =
      .val (some b!"A text with code:\n\n````\n<!--CITE:doe99-->\n````\n\nMore text, and the end of it.\n", [{ key := b!"doe99" }]) ∧
    process true b!"A text with code:\n\n~~~\n[@doe99]\n~~~\n\nMore text, and the end of it.\n" =
      .val (some b!"A text with code:\n\n~~~\n<!--CITE:doe99-->\n~~~\n\nMore text, and the end of it.\n", [{ key := b!"doe99" }]) := by
  decide +kernel

/-- A backtick alone turns the citations behind it off. -/
theorem C161_backtick_refuted : process true b!"A ` alone, then [@doe99]." = .val (some b!"A ` alone, then [@doe99].", []) := by
  decide +kernel

/-- C162, for every page: there is one page with the citations in the place of the comments. -/
theorem C162_shown (f : Bytes → Bytes) (page : Bytes) : ∃ out, Shown f page out ∧ ∀ out', Shown f page out' → out' = out := by
  obtain ⟨out, h⟩ := shown_exists f page.length page (Nat.le_refl _)
  exact ⟨out, h, fun _ h' => shown_unique h h'⟩

/-- If each text has at most 255 bytes, each citation at most 511, and the result at most three times the bytes of the page, then
the citations take the place of the comments, and all other bytes stay.  Missing: other pages. -/
theorem C162_rendered_partial {link : Bool} {bib : List Entry} {cs : List Citation} {f : Bytes → Bytes} {page out : Bytes}
    (hf : ∀ k, Shows link bib cs k (f k))
    (hs : ∀ x ∈ cs, ∀ t, Text (bib.find? fun e => e.id == x.key) x t → t.length ≤ 255 ∧ (Spec.html link x.key t).length ≤ 511)
    (h : Shown f page out) (hl : out.length ≤ 3 * page.length) : render link bib cs page = .val out := by
  rw [render]
  rw [renderLoop_shown hf hs h (page.length + 1) _ _ (by omega) (by rw [List.length_nil]; omega)]
  rw [List.nil_append, finish_val (by simp only []; omega)]

/-- Each citation has one text. -/
theorem C162_text (e : Option Entry) (x : Citation) : ∃ t, Text e x t ∧ ∀ t', Text e x t' → t' = t :=
  ⟨text e x, text_iff.2 rfl, fun _ h => text_iff.1 h⟩

/-- What is shown for a key exists. -/
theorem C162_shows (link : Bool) (bib : List Entry) (cs : List Citation) : ∃ f : Bytes → Bytes, ∀ k, Shows link bib cs k (f k) := by
  refine ⟨fun k => match cs.find? fun x => x.key == k with
    | some x => Spec.html link k (text (bib.find? fun e => e.id == k) x)
    | none => [], fun k => ?_⟩
  cases h : cs.find? fun x => x.key == k with
  | none =>
    exact Or.inl ⟨fun x hx => by simpa using List.find?_eq_none.1 h x hx, by simp only [h]⟩
  | some x =>
    obtain ⟨h1, a, b, rfl, h2⟩ := List.find?_eq_some_iff_append.1 h
    refine Or.inr ⟨a, x, b, _, rfl, by simpa using h1, fun y hy => by simpa using h2 y hy, text_iff.2 rfl, ?_⟩
    simp only [h]

/-- No block overflows, for every page, registry and bibliography. -/
theorem C162_safe (link : Bool) (bib : List Entry) (cs : List Citation) (page : Bytes) : ∃ out, render link bib cs page = .val out ∧ out.length ≤ 3 * page.length := by
  have h := renderLoop_room link bib cs (page.length + 1) page (page.length * 3 + 1) [] (by simp)
  rw [render]
  rw [finish_val (by rw [h.1]; exact h.2)]
  exact ⟨_, rfl, by omega⟩

/-- Citations with an entry, and without one. -/
theorem C162_example : render false [{ id := b!"doe99", author := some b!"Jane Doe", year := some b!"1999" }]
      [{ key := b!"smith", inText := true }, { key := b!"doe99", locator := some b!"p. 7" }]
      b!"<p>This is known from the literature <!--CITE:doe99-->, and <!--CITE:smith--> says <!-- nothing --> new.</p>\n" =
    .val b!"<p>This is known from the literature <span class=\"citation\" data-cites=\"doe99\">(Jane Doe 1999)</span>, and <span class=\"citation\" data-cites=\"smith\">smith</span> says <!-- nothing --> new.</p>\n" := by
  decide +kernel

/-- The second of two citations is lost: there is no room. -/
theorem C162_lost_refuted : render true [] [{ key := b!"b" }, { key := b!"a" }] b!"<p><!--CITE:a--> <!--CITE:b--></p>\n" =
    .val b!"<p><a href=\"#ref-a\" class=\"citation\" data-cites=\"a\">(a)</a> </p>\n" := by
  decide +kernel

/-- All citations of a key look like its last one: the first one here has brackets. -/
theorem C162_last_refuted : render false [{ id := b!"doe99", author := some b!"Jane Doe", year := some b!"1999" }]
      [{ key := b!"doe99", inText := true }, { key := b!"doe99" }]
      b!"<p>This is known from the literature <!--CITE:doe99-->, and in a book <!--CITE:doe99--> has said so.</p>\n" =
    .val b!"<p>This is known from the literature <span class=\"citation\" data-cites=\"doe99\">Jane Doe (1999)</span>, and in a book <span class=\"citation\" data-cites=\"doe99\">Jane Doe (1999)</span> has said so.</p>\n" := by
  decide +kernel

/-- Prefixes, locators and suffixes are not shown. -/
theorem C162_locator_refuted (link : Bool) (bib : List Entry) (x : Citation) (p l s : Option Bytes) (page : Bytes) :
    render link bib [{ x with «prefix» := p, locator := l, suffix := s }] page = render link bib [x] page := by
  have key : ∀ n z b, renderLoop link bib [{ x with «prefix» := p, locator := l, suffix := s }] n z b = renderLoop link bib [x] n z b := by
    intro n
    induction n with
    | zero => intro z b; cases z <;> rfl
    | succ n ih =>
      intro z b
      cases z with
      | nil => rfl
      | cons c z =>
        rw [renderLoop, renderLoop]
        simp only [ih, List.find?_cons, List.find?_nil]
        split
        · cases x.key == _ <;> rfl
        · rfl
  rw [render, render, key]

/-- Names are not escaped. -/
theorem C162_escape_refuted : render false [{ id := b!"a", author := some b!"Doe & Sons <x>", year := some b!"1999" }] [{ key := b!"a" }]
      b!"<p>In a book that is old and known <!--CITE:a-->, and so on</p>\n" =
    .val b!"<p>In a book that is old and known <span class=\"citation\" data-cites=\"a\">(Doe & Sons <x> 1999)</span>, and so on</p>\n" := by
  decide +kernel

end Verif.Citations
