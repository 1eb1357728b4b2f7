/-
C35 (header ids are well formed), C71 (case), C72 (headings with explicit ids), C73 (explicit ids are used),
C74 (text of a heading).
-/
import Verif.Proof.HeaderIds

namespace Verif.HeaderIds

open Spec Slug Utf8.Spec
open Transforms.Spec (White)

/-! ### C35 -/

/-- **C35**, partial: whatever bytes the heading consists of, a GFM id that is produced is not empty, consists
of lower-case letters, digits, hyphens and underscores, and has no hyphen at either end or next to another.
What is missing from C35: the id may not be produced at all, see `C35_overflow`. -/
theorem C35_gfm_partial (text : Bytes) :
    generate Emoji.table .gfm text = .ub ∨
    ∃ id, generate Emoji.table .gfm text = .val id ∧ id ≠ [] ∧ (∀ c ∈ id, IdByte c) ∧ Tidy c!"-" id := by
  rcases generate_gfm names_table text with ⟨h, _⟩ | h
  · exact .inl h
  · right
    refine ⟨_, h, ?_, ?_, ?_⟩
    · unfold orHeader; split <;> simp_all
    · have hk := pieces_keep names_table text.length text (Nat.le_refl _)
      unfold orHeader
      split
      · unfold IdByte; decide
      · intro c hc
        rcases joined_mem hc with h | ⟨w, h1, h2⟩
        · simp at h; exact .inr (.inr (.inl h.symm))
        · exact (hk w h1).2.2 c h2
    · have hk := pieces_keep names_table text.length text (Nat.le_refl _)
      unfold orHeader
      split
      · exact tidy_absent (by decide)
      · exact joined_tidy fun w hw => (hk w hw).2.1

/-- **C35**, GFM: the id of a heading in UTF-8 is its words joined by single hyphens, with characters replaced
as `gfmPiece` says, or `header` when nothing is left, provided this is shorter than three times the heading. -/
theorem C35_gfm_words_partial (name : Bytes → Option Bytes)
    (hname : ∀ u x, name u = some x ↔ NameOf Emoji.table u x) (ns : List Nat) (hs : ∀ n ∈ ns, Scalar n)
    (hroom : (joined (some c!"-") (ns.map (gfmPiece name))).length < 3 * (ns.map encode).flatten.length ∨ ns = []) :
    generate Emoji.table .gfm (ns.map encode).flatten =
      .val (orHeader (joined (some c!"-") (ns.map (gfmPiece name)))) := by
  have hn : name = findName Emoji.table := by
    funext u
    cases h : name u with
    | some x => exact ((findName_iff ..).2 ((hname u x).1 h)).symm
    | none =>
      cases h' : findName Emoji.table u with
      | none => rfl
      | some x => rw [(hname u x).2 ((findName_iff ..).1 h')] at h; simp at h
  rcases generate_gfm names_table (ns.map encode).flatten with ⟨_, h⟩ | h
  · exfalso
    have hk := pieces_keep names_table _ (ns.map encode).flatten (Nat.le_refl _)
    have hf : Fine c!"-" (pieces Emoji.table (ns.map encode).flatten) :=
      fun w hw => ⟨(hk w hw).1, (hk w hw).2.1.1, (hk w hw).2.1.2.1⟩
    have := run_join hf
    rw [pieces_text _ ns hs, ← hn] at this h
    rcases hroom with hroom | rfl
    · rw [← this] at hroom
      unfold Slug.trimEnd at hroom
      split at hroom
      · rw [List.length_dropLast] at hroom; omega
      · omega
    · simp [run] at h
  · rw [h, pieces_text _ ns hs, ← hn]

/-- **C35**: no id is too long for its buffer unless an emoji has a name more than three times as long as its
bytes. -/
theorem C35_gfm_safe_partial (ns : List Nat) (hs : ∀ n ∈ ns, Scalar n)
    (hname : ∀ n ∈ ns, ∀ x, NameOf Emoji.table (encode n) x → x.length ≤ 3 * (encode n).length) :
    generate Emoji.table .gfm (ns.map encode).flatten ≠ .ub := by
  rcases generate_gfm names_table (ns.map encode).flatten with ⟨_, h⟩ | h
  · exfalso
    rw [pieces_text _ ns hs] at h
    have : ∀ (ns : List Nat), (∀ n ∈ ns, ∀ x, NameOf Emoji.table (encode n) x → x.length ≤ 3 * (encode n).length) →
        ∀ b, (run (some c!"-") b (ns.map (gfmPiece (findName Emoji.table)))).length ≤ 3 * (ns.map encode).flatten.length := by
      intro ns
      induction ns with
      | nil => intro _ b; simp [run]
      | cons n ns ih =>
        intro hh b
        rw [List.map_cons, List.map_cons, run, List.flatten_cons, List.length_append, List.length_append]
        have h1 := ih (fun m hm => hh m (by simp [hm])) (next (some c!"-") b (gfmPiece (findName Emoji.table) n))
        have h2 : 1 ≤ (encode n).length := by
          cases h : encode n with
          | nil => exact absurd h (Utf8.encode_ne_nil n)
          | cons => simp
        have h3 : (emit (some c!"-") b (gfmPiece (findName Emoji.table) n)).length ≤ 3 * (encode n).length := by
          unfold gfmPiece
          repeat' split
          all_goals simp only [emit, List.length_nil, List.length_singleton]
          all_goals first | omega | skip
          · split <;> simp <;> omega
          · rename_i x hx
            exact hh n (by simp) x ((findName_iff ..).1 hx)
        omega
    have := this ns hname true
    omega
  · rw [h]; simp

/-- **C35 is false as stated**: the name of an emoji can be longer than the room that is left for the text
behind it, which is written without a check. The heading is `📈 rise`. -/
theorem C35_overflow :
    generate Emoji.table .gfm ([0xF0, 0x9F, 0x93, 0x88] ++ b!" rise") = .ub := by decide +kernel

/-- **C35**, MMD format, complete for headings in UTF-8. -/
theorem C35_mmd_partial (tab : List Emoji.Entry) (ns : List Nat) (hs : ∀ n ∈ ns, Scalar n) :
    generate tab .mmd (ns.map encode).flatten = .val (orHeader (ns.flatMap mmdChar)) :=
  generate_mmd tab ns hs

/-- **C35**, Kramdown format, complete for headings in UTF-8. -/
theorem C35_kramdown_partial (tab : List Emoji.Entry) (ns : List Nat) (hs : ∀ n ∈ ns, Scalar n) :
    ∃ id, generate tab .kramdown (ns.map encode).flatten = .val id ∧
      id = orHeader ((kramdown ns).dropWhile (· == c!"-")) ∧ id ≠ [] ∧ id.head? ≠ some c!"-" ∧
      ∀ c ∈ id, isLower c = true ∨ isDigit c = true ∨ c = c!"-" := by
  refine ⟨_, generate_kram tab ns hs, rfl, ?_, ?_, ?_⟩
  · unfold orHeader; split <;> simp_all
  · unfold orHeader
    split
    · decide
    · obtain ⟨_, _, _, h⟩ := Transforms.dropWhile_split (· == c!"-") (kramdown ns)
      intro hh
      simpa using h _ hh
  · unfold orHeader
    split
    · decide
    · intro c hc
      exact kramdown_bytes _ ns (Nat.le_refl _) c ((List.dropWhile_suffix _).subset hc)

/-- **C35 is false as stated**: a heading that ends in the first byte of a sequence is read past its end. -/
theorem C35_read_past_end :
    generate Emoji.table .mmd [c!"a", 0xC3] = .ub ∧ generate Emoji.table .kramdown [c!"a", 0xC3] = .ub := by
  decide +kernel

example : generate Emoji.table .gfm b!"Getting  Started - v2.0!" = .val b!"getting-started-v20" := by decide +kernel
example : (joined (some c!"-") ((b!"A (b) c".map (·.toNat)).map (gfmPiece fun _ => none))) = b!"a-b-c" := by decide +kernel
example : generate Emoji.table .kramdown b!"Q&A: what?" = .val b!"q-a-what" := by decide +kernel
example : generate Emoji.table .mmd (b!"Caf" ++ [0xC3, 0xA9] ++ b!" & Bar") = .val (b!"caf" ++ [0xC3, 0xA9] ++ b!"bar") := by
  decide +kernel
example : generate Emoji.table .gfm ([0xF0, 0x9F, 0x91, 0x8D] ++ b!" yes") = .val b!"thumbsup-yes" := by decide +kernel

/-! ### C71 -/

/-- **C71**, partial: headings that differ only in the case of ASCII letters get the same id, in every format
(`hs`: the heading is UTF-8).  What is missing: other letters, see `C71_accents`. -/
theorem C71_case_partial (tab : List Emoji.Entry) (fmt : Format) (a b : Bytes) (ha : WellFormed a) (hb : WellFormed b)
    (h : a.map toLower = b.map toLower) : generate tab fmt a = generate tab fmt b := by
  rw [← generate_case tab fmt a ha, ← generate_case tab fmt b hb, h]

example : b!"Same HEADING".map toLower = b!"same Heading".map toLower := by decide +kernel

/-- **C71 is false as stated**: `É` becomes `e`, but `é` goes. -/
theorem C71_accents :
    generate Emoji.table .gfm (encode 0xC9 ++ b!"tude") = .val b!"etude" ∧
    generate Emoji.table .gfm (encode 0xE9 ++ b!"tude") = .val b!"tude" := by decide +kernel

/-! ### C72 -/

/-- **C72**: an id is taken from a heading exactly when the heading ends in `[id]` or `{#id}` (white space may
follow); the text that stays is what stands in front, without white space at its end. -/
theorem C72_manual (text head id : Bytes) : manualId text = some (head, id) ↔ Marked text head id :=
  manualId_iff text head id

/-- … so there is never a choice. -/
theorem C72_unique {text h h' id id' : Bytes} (m : Marked text h id) (m' : Marked text h' id') :
    h = h' ∧ id = id' := by
  have e := (manualId_iff ..).2 m
  rw [(manualId_iff ..).2 m'] at e
  simp at e
  exact ⟨e.1.symm, e.2.symm⟩

example : Marked b!"Intro {#start} " b!"Intro" b!"start" := by
  refine .kramdown (pre := b!"Intro") (ws := b!" ") (id := b!"start") (after := b!" ") (by decide) (by decide)
    (by decide) ?_ ?_
  · intro c hc; simp at hc; subst hc; exact .inl rfl
  · intro c hc; simp at hc; subst hc; unfold White; decide

/-! ### C73 -/

/-- **C73**, partial: an explicit id without double quotes becomes the id of the heading, unless the attributes
the heading already has contain an `id="` somewhere.  What is missing: ids with a quote, and attributes whose
name only ends in `id`; see `C73_quote` and `C73_other_attribute`. -/
theorem C73_used_partial (tab : List Emoji.Entry) (fmt : Format) (text id : Bytes) (existing : Option Bytes)
    (hi : id ≠ []) (hq : c!"\"" ∉ id) (he : ∀ e, existing = some e → ¬ b!"id=\"" <:+: e) :
    headingId tab fmt text (some (storeId existing id)) = .val id := by
  have hs : storedId (storeId existing id) = some id := by
    cases existing with
    | none =>
      have : Transforms.strstr (b!"id=\"" ++ id ++ b!"\"") b!"id=\"" = some 0 := by
        rw [Transforms.strstr.eq_def]; simp [List.isPrefixOf]
      simp only [storedId, storeId, this]
      have hd : (b!"id=\"" ++ id ++ b!"\"").drop (0 + 4) = id ++ c!"\"" :: [] := by simp
      rw [hd, (splitFirst_iff c!"\"" (id ++ c!"\"" :: []) id []).2 ⟨rfl, hq⟩]
      simp [hi]
    | some e =>
      have h := he e rfl
      have e1 : storeId (some e) id = e ++ b!" id=\"" ++ (id ++ b!"\"") := by simp [storeId]
      rw [e1]
      simp only [storedId, strstr_store (tail := id ++ b!"\"") h]
      have hd : (e ++ b!" id=\"" ++ (id ++ b!"\"")).drop (e.length + 1 + 4) = id ++ c!"\"" :: [] := by
        rw [List.append_assoc, List.drop_append, List.drop_of_length_le (by omega)]
        rw [show e.length + 1 + 4 - e.length = 5 by omega]
        simp
      rw [hd, (splitFirst_iff c!"\"" (id ++ c!"\"" :: []) id []).2 ⟨rfl, hq⟩]
      simp [hi]
  simp [headingId, hs]

/-- **C73**: without stored attributes, or when they contain no `id="`, the id comes from the text. -/
theorem C73_generated (tab : List Emoji.Entry) (fmt : Format) (text : Bytes) (attrs : Option Bytes)
    (h : ∀ a, attrs = some a → ¬ b!"id=\"" <:+: a) : headingId tab fmt text attrs = generate tab fmt text := by
  unfold headingId
  cases attrs with
  | none => rfl
  | some a =>
    have : Transforms.strstr a b!"id=\"" = none := Transforms.strstr_of_not_infix (h a rfl)
    simp [storedId, this]

/-- **C73 is false as stated**: an id is cut at a quote, and what follows becomes attributes of the heading. -/
theorem C73_quote :
    manualId b!"Title [x\" onclick=\"f()]" = some (b!"Title", b!"x\" onclick=\"f()") ∧
    storeId none b!"x\" onclick=\"f()" = b!"id=\"x\" onclick=\"f()\"" ∧
    headingId Emoji.table .gfm b!"Title" (some (storeId none b!"x\" onclick=\"f()")) = .val b!"x" := by
  refine ⟨?_, ?_, ?_⟩ <;> decide +kernel

/-- **C73 is false as stated**: an attribute whose name ends in `id` is taken for the id. -/
theorem C73_other_attribute :
    headingId Emoji.table .gfm b!"Title" (some b!"data-id=\"7\"") = .val b!"7" ∧
    headingId Emoji.table .gfm b!"Title" (some (storeId (some b!"data-id=\"7\"") b!"mine")) = .val b!"7" := by
  refine ⟨?_, ?_⟩ <;> decide +kernel

example : ¬ b!"id=\"" <:+: b!"class=\"big\"" := by decide

/-! ### C74 -/

/-- **C74**, partial: the text of a heading is its text and code put together, when it is shorter than 512
bytes.  What is missing: longer headings are written past the end of the buffer, without exception. -/
theorem C74_heading_text_partial (literals : List Bytes) :
    headingText literals = if literals.flatten.length < 512 then .val literals.flatten else .ub := by
  have := textLoop_spec literals 256 [] (.inl ⟨rfl, by simp⟩)
  simpa [headingText] using this

/-- **C74 is false as stated.** -/
theorem C74_long_headings (text : Bytes) (h : 512 ≤ text.length) : headingText [text] = .ub := by
  rw [C74_heading_text_partial, if_neg]
  simp; omega

example : headingText [b!"Use ", b!"make", b!" now"] = .val b!"Use make now" := by decide +kernel

end Verif.HeaderIds
