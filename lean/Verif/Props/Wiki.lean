/- C33 (wiki link URLs), C34 (wiki links in a text). -/
import Verif.Proof.Wiki

namespace Verif.Wiki

open Spec Slug

/-- With sanitising on, the page name is read in exactly one way, and the URL is the base path, the words
joined, the extension and the section. The path between base and extension has only lower-case letters,
digits, slashes, dots and the separator, which is nowhere doubled and at neither end. -/
theorem C33_sanitised (cfg : Config) (hs : cfg.sanitize = true) (page : Bytes) (sec : Option Bytes) :
    ∃ ps, Reads page ps ∧ (∀ ps', Reads page ps' → ps' = ps) ∧
      pageToUrl cfg page sec =
        .val (cfg.base ++ joined (Spec.sep cfg.mode) ps ++ extension cfg.ext ++ marked c!"#" sec) ∧
      (∀ c ∈ joined (Spec.sep cfg.mode) ps,
        isLower c = true ∨ isDigit c = true ∨ c = c!"/" ∨ c = c!"." ∨ Spec.sep cfg.mode = some c) ∧
      ∀ c, Spec.sep cfg.mode = some c → Tidy c (joined (Spec.sep cfg.mode) ps) := by
  have hu := pageToUrl_spec cfg page sec
  rw [hs] at hu
  refine ⟨pieces page, pieces_reads _ page (Nat.le_refl _), fun ps' h => reads_pieces h, hu, ?_, ?_⟩
  · intro c hc
    rcases joined_mem hc with h | ⟨w, h1, h2⟩
    · exact .inr (.inr (.inr (.inr h)))
    · rcases (pieces_fine page w h1).2 c h2 with h | h | h | h
      · exact .inl h
      · exact .inr (.inl h)
      · exact .inr (.inr (.inl h))
      · exact .inr (.inr (.inr (.inl h)))
  · intro c hc
    rw [hc]
    refine joined_tidy fun w hw => tidy_absent fun hm => ?_
    exact sep_not_word cfg.mode ((pieces_fine page w hw).2 c hm) hc

/-- Without it only the spaces of the page name change. -/
theorem C33_basic (cfg : Config) (hs : cfg.sanitize = false) (page : Bytes) (sec : Option Bytes) :
    pageToUrl cfg page sec = .val (cfg.base ++ spaced cfg.mode page ++ extension cfg.ext ++ marked c!"#" sec) := by
  have hu := pageToUrl_spec cfg page sec
  rw [hs] at hu
  exact hu

-- "Ça n'est pas — l'été" is read as words with accents and quotes removed
example : pageToUrl ⟨b!"/wiki/", b!"html", .dash, true⟩ b!"Ça n'est pas — l’Œuvre!" (some b!"s") =
    .val b!"/wiki/ca-nest-pas-l-uvre.html#s" := by decide +kernel
example : pageToUrl ⟨b!"", b!".md", .none, true⟩ b!"Straße / Übung 2" none = .val b!"strasse/ubung2.md" := by
  decide +kernel
example : Reads b!"A 1" [.keep b!"a", .brk, .keep b!"1"] :=
  .plain (by decide) (.other (by decide)
    (fun n h hp => by
      have h1 := removed_shape h
      obtain ⟨r, hr⟩ := hp
      have h2 := goneLen_of_shape h1 r
      rw [hr] at h2
      simp [goneLen] at h2)
    (by decide) (.plain (by decide) .nil))
example : pageToUrl ⟨b!"/w/", b!"", .underscore, false⟩ b!"Home Page" none = .val b!"/w/Home_Page" := by
  decide +kernel

/-- A text is split in exactly one way; the parts put together are the text; every link part is `[[...]]`
around something without a `]]`; and the text becomes one node for each part: the text itself, or a link with
the URL of its page and its label. -/
theorem C34_split (cfg : Config) (s : Bytes) :
    ∃ ps ns, scan cfg s = .val ns ∧ Splits s ps ∧ (∀ ps', Splits s ps' → ps' = ps) ∧
      ps.flatMap Part.source = s ∧ (∀ c, .link c ∈ ps → c ≠ [] ∧ ¬ b!"]]" <:+: c) ∧ All cfg ps ns := by
  obtain ⟨ps, ns, h1, h2, h3⟩ := scan_spec cfg s.length s (Nat.le_refl _)
  exact ⟨ps, ns, h1, h2, fun ps' h => splits_unique h2 h, splits_source h2, splits_link h2, h3⟩

/-- So a link spans lines only if the text itself does. -/
theorem C34_one_line (s : Bytes) (h : (10 : Byte) ∉ s) :
    ∀ ps, Splits s ps → ∀ c, .link c ∈ ps → (10 : Byte) ∉ c := by
  intro ps hp c hc hn
  apply h
  rw [← splits_source hp]
  exact List.mem_flatMap.2 ⟨_, hc, by simp [Part.source, hn]⟩

/-- What stands between the brackets has exactly one page, section and display text. -/
theorem C34_content (c : Bytes) : ∃ page display sec, Content c page display sec ∧
    ∀ page' display' sec', Content c page' display' sec' → page' = page ∧ display' = display ∧ sec' = sec := by
  refine ⟨_, _, _, parse_spec c, fun p d s h => ?_⟩
  rw [content_unique h]
  exact ⟨rfl, rfl, rfl⟩

/-- In a document every text is treated so, and all else stays in its place. -/
theorem C34_tree (cfg : Config) (t : Tree) : ∃ ts, processTree cfg t = .val ts ∧ Linked cfg t ts :=
  processTree_spec cfg t

example : scan ⟨b!"", b!"", .dash, false⟩ b!"see [[My Page#top|it]], [[]] and [[open" =
    .val [.text b!"see ", .link b!"My-Page#top" b!"it", .text b!", ", .text b!"[[]]", .text b!" and ",
      .text b!"[[open"] := by decide +kernel
example : Content b!"My Page#top|it" b!"My Page" (some b!"it") (some b!"top") :=
  ⟨rfl, by decide, by decide, by rintro s ⟨⟩; decide⟩
example : Splits b!"a[[b]]" [.text b!"a", .link b!"b"] := by
  obtain ⟨ps, ns, _, h2, h3, _⟩ := C34_split ⟨b!"", b!"", .dash, false⟩ b!"a[[b]]"
  have h : Transforms.Spec.FirstOcc b!"[[" b!"a[[b]]" b!"a" b!"b]]" :=
    Transforms.strstr_some (i := 1) (pat := b!"[[") (s := b!"a[[b]]") (by decide +kernel)
  have h' : Transforms.Spec.FirstOcc b!"]]" b!"b]]" b!"b" [] :=
    Transforms.strstr_some (i := 1) (pat := b!"]]") (s := b!"b]]") (by decide +kernel)
  exact .link h h' (by decide) (.none (s := []) (by intro h; have := h.length_le; simp at this))

end Verif.Wiki
