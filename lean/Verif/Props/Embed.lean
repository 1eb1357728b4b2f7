/-
C126, C127: images put into the page.
-/
import Verif.Proof.Embed

namespace Verif.Embed

/-- Every page has the form the theorems speak about. -/
theorem C126_pages (html : Bytes) : ∃ p : Page, p.Ok ∧ p.html = html := page_exists html

/-- C126. Full statement: every image whose source is a file is put into the page as a data URL of its content and media type; all other text and tags
stay as they are.  This part: so it is if the result takes less than three times the page and 1024 bytes, with one or two zero bytes behind contents
whose length is above three and no multiple of three (see C14).  Missing: larger results, for which text is lost (`C126_lost_fails`) or the buffer
overflows (`C126_overflow`); names with blanks (`C126_blank_fails`); tags with other attributes that end in `src` (`C126_other_fails`) or contain
`>` (`C126_alt_fails`). -/
theorem C126_partial (file : Bytes → Option Bytes) (base : Option Bytes) (p : Page) (hp : p.Ok) :
    ∃ outs, Shows file base p.imgs outs ∧ ((shown p outs).length < 3 * p.html.length + 1024 → embed file base p.html = .val (shown p outs)) := by
  obtain ⟨outs, ks, hT, hs⟩ := embed_page file base p hp
  obtain ⟨h1, h2, h3⟩ := toks_out hT
  refine ⟨outs, h3, fun hl => ?_⟩
  have hout : (p.text.map Tok.byte ++ ks ++ p.tail.map Tok.byte).flatMap Tok.out = shown p outs := by
    rw [List.flatMap_append, List.flatMap_append, bytes_out, bytes_out, h1]; rfl
  have hfair : ∀ k ∈ p.text.map Tok.byte ++ ks ++ p.tail.map Tok.byte, k.Fair := by
    intro k hk
    simp only [List.mem_append, List.mem_map] at hk
    rcases hk with (⟨c, -, rfl⟩ | hk) | ⟨c, -, rfl⟩
    · trivial
    · exact h2 k hk
    · trivial
  unfold embed
  rw [hs]
  simp only []
  rw [writeAll_fits _ _ hfair (by rw [hout]; simp only [List.length_nil]; omega), hout]
  simp only [List.nil_append]
  exact finish_val (by omega)

/-- If no image is a file, the page stays as it is. -/
theorem C126_untouched (file : Bytes → Option Bytes) (base : Option Bytes) (p : Page) (hp : p.Ok)
    (h : ∀ i ∈ p.imgs, ¬ ∃ before after content path, Holds file base i.1 before after content path) : embed file base p.html = .val p.html := by
  obtain ⟨outs, h1, h2⟩ := C126_partial file base p hp
  have key : ∀ (ps : List (Bytes × Bytes)) (outs : List Bytes), Shows file base ps outs →
      (∀ i ∈ ps, ¬ ∃ before after content path, Holds file base i.1 before after content path) →
      ((ps.zip outs).flatMap fun i => b!"<img" ++ i.2 ++ b!">" ++ i.1.2) = ps.flatMap fun i => b!"<img" ++ i.1 ++ b!">" ++ i.2 := by
    intro ps outs hS
    induction hS with
    | nil => intro _; rfl
    | cons a1 a2 ih =>
      intro hn
      rw [List.zip_cons_cons, List.flatMap_cons, List.flatMap_cons, ih (fun i hi => hn i (by simp [hi]))]
      cases a1 with
      | embedded b1 => exact absurd ⟨_, _, _, _, b1⟩ (hn _ List.mem_cons_self)
      | kept _ => rfl
  have e : shown p outs = p.html := by rw [shown, key _ _ h1 h]; rfl
  rw [e] at h2
  exact h2 (by omega)

/-- In particular a page without images. -/
theorem C126_none (file : Bytes → Option Bytes) (base : Option Bytes) (html : Bytes) (h : ¬ b!"<img" <:+: html) : embed file base html = .val html := by
  have := C126_untouched file base ⟨html, [], []⟩ ⟨h, by simp, .inl rfl⟩ (by simp)
  simpa [Page.html] using this

theorem writeAll_append (s : St) (xs ys : List Tok) : writeAll s (xs ++ ys) = (writeAll s xs).bind fun s' => writeAll s' ys := by
  induction xs generalizing s with
  | nil => rfl
  | cons x xs ih =>
    rw [List.cons_append, writeAll, writeAll]
    cases s.write x with
    | ub => rfl
    | val s' => exact ih s'

theorem writeAll_bytes (s : St) (t : Bytes) (h : s.out.length ≤ s.cap) : writeAll s (t.map Tok.byte) = .val { s with out := s.out ++ t.take (s.cap - s.out.length) } := by
  induction t generalizing s with
  | nil => simp [writeAll]
  | cons c t ih =>
    rw [List.map_cons, writeAll, St.write]
    by_cases hc : 0 < s.cap - s.out.length
    · rw [if_pos hc]
      simp only []
      rw [ih _ (by simp; omega), List.take_cons hc]
      simp [Nat.sub_add_eq]
    · rw [if_neg hc]
      simp only []
      rw [ih _ h]
      simp [show s.cap - s.out.length = 0 by omega]

/-- C126 for a page with one image that is a file: exactly when the text up to the image fits in the buffer and the rest does not, the buffer overflows. -/
theorem C126_one (file : Bytes → Option Bytes) (base : Option Bytes) (text body t : Bytes) (hp : (Page.mk text [(body, t)] []).Ok)
    {before after content path : Bytes} (hh : Holds file base body before after content path) :
    ∃ out, Shown file base body out ∧ embed file base (text ++ b!"<img" ++ body ++ b!">" ++ t) =
      if text.length + out.length + 6 ≤ 3 * (text ++ b!"<img" ++ body ++ b!">" ++ t).length + 1024 ∧
        3 * (text ++ b!"<img" ++ body ++ b!">" ++ t).length + 1024 ≤ (text ++ b!"<img" ++ out ++ b!">" ++ t).length then .ub
      else .val (text ++ b!"<img" ++ out ++ b!">" ++ t) := by
  obtain ⟨outs, ks, hT, hs⟩ := embed_page file base ⟨text, [(body, t)], []⟩ hp
  cases hT with
  | @cons body t out need ps outs ks a1 a2 a3 =>
    cases a3
    refine ⟨out, a1, ?_⟩
    have hneed : need = out.length + 6 := by
      rcases a2 with ⟨-, -, h⟩ | ⟨h, -⟩
      · exact absurd ⟨_, _, _, _, hh⟩ h
      · exact h
    have hh : (Page.mk text [(body, t)] []).html = text ++ b!"<img" ++ body ++ b!">" ++ t := by simp [Page.html]
    rw [hh] at hs
    unfold embed
    rw [hs]
    simp only [List.map_nil, List.append_nil]
    generalize hN : (text ++ b!"<img" ++ body ++ b!">" ++ t).length = N
    have hN2 : N = text.length + body.length + t.length + 5 := by rw [← hN]; simp; omega
    rw [writeAll_append, writeAll_fits _ (text.map Tok.byte) (by simp [Tok.Fair]) (by rw [bytes_out]; simp; omega), bytes_out]
    simp only [C.bind, List.nil_append]
    rw [writeAll, St.write]
    simp only []
    have hw : (b!"<img" ++ out ++ b!">").length = out.length + 5 := by simp
    by_cases hg : need > N * 3 + 1024 - text.length
    · rw [if_pos hg, if_neg (by omega), puts_val (by rw [hw]; omega)]
      simp only []
      rw [writeAll_bytes _ _ (by simp; omega)]
      simp only []
      rw [List.take_of_length_le (by simp; omega)]
      rw [finish_val (by simp; omega)]
      simp
    · rw [if_neg hg, puts_val (by rw [hw]; omega)]
      simp only []
      rw [writeAll_bytes _ _ (by simp; omega)]
      simp only []
      split
      · rename_i hc
        have : (text ++ b!"<img" ++ out ++ b!">" ++ t).length = text.length + out.length + t.length + 5 := by simp; omega
        unfold finish
        rw [if_neg]
        simp
        omega
      · rename_i hc
        have : (text ++ b!"<img" ++ out ++ b!">" ++ t).length = text.length + out.length + t.length + 5 := by simp; omega
        rw [List.take_of_length_le (by simp; omega), finish_val (by simp; omega)]
        simp

/-- A file of 780 bytes overflows the buffer of this page. -/
theorem C126_overflow : embed (fun p => if p = b!"a" then some (List.replicate 780 c!"x") else none) none b!"<img src=\"a\">text" = .ub := by
  decide +kernel

/-- A page with two images of 816 bytes loses half of the text between them. -/
theorem C126_lost_fails : let tag := b!"<img src=\"data:image/png;base64," ++ (List.replicate 272 b!"eHh4").flatten ++ b!"\">"
    embed (fun _ => some (List.replicate 816 c!"x")) none b!"<img src=\"a\">ABCDEFGH<img src=\"b\">" = .val (tag ++ b!"ABCD" ++ tag) := by
  decide +kernel

/-- A file with a blank in its name is not found: in the page the blank is `%20`. -/
theorem C126_blank_fails : embed (fun p => if p = b!"my image.png" then some b!"abc" else none) none b!"<img src=\"my%20image.png\">" =
    .val b!"<img src=\"my%20image.png\">" := by decide +kernel

/-- The image named in another attribute is put there, and the source is left out. -/
theorem C126_other_fails : embed (fun p => if p = b!"a.png" ∨ p = b!"b.png" then some b!"abc" else none) none b!"<img data-src=\"a.png\" src=\"b.png\">" =
    .val b!"<img data-src=\"data:image/png;base64,YWJj\" src=\"b.png\">" := by decide +kernel

/-- A `>` in the description ends the tag for the code, so the image is not put in. -/
theorem C126_alt_fails : embed (fun _ => some b!"abc") none b!"<img alt=\"a > b\" src=\"b.png\">" = .val b!"<img alt=\"a > b\" src=\"b.png\">" := by
  decide +kernel

example : embed (fun p => if p = b!"pics/a.svg" then some b!"abc" else none) (some b!"pics") b!"<p><img alt=\"x\" src='a.svg' /></p>" =
    .val b!"<p><img alt=\"x\" src=\"data:image/svg+xml;base64,YWJj\" /></p>" := by decide +kernel
example : (Page.mk b!"<p>" [(b!" alt=\"x\" src='a.svg' /", b!"</p>")] []).Ok := by
  refine ⟨?_, ?_, .inl rfl⟩
  · decide
  · intro i hi; simp at hi; subst hi; decide
example : Holds (fun p => if p = b!"pics/a.svg" then some b!"abc" else none) (some b!"pics") b!" alt=\"x\" src='a.svg' /" b!" alt=\"x\" " b!" /" b!"abc" b!"pics/a.svg" :=
  ⟨b!"a.svg", (source_iff _ _ _ _).1 (by decide +kernel), by unfold Local; decide, .relative (by decide) (by decide), by decide, by decide, by decide⟩

/-- C127. Full statement: an embedded image has the media type of its format as named by the extension of the file, in any case.  This part: for the
eight extensions of the table; every other file is called PNG (`C127_fails`). -/
theorem C127_partial (path m : Bytes) : mime path = m ↔ Media path m :=
  ⟨fun h => h ▸ mime_media path, fun h => media_unique (mime_media path) h⟩

/-- The plain case: a name, a dot and a known extension. -/
theorem C127_known (front ext m : Bytes) (h : (ext.map toLower, m) ∈ types) : mime (front ++ b!"." ++ ext) = m := by
  refine (C127_partial _ _).2 (.known ⟨front, [], by simp, ?_, ?_, by simp⟩ h)
  · intro hd
    have : toLower c!"." ∈ ext.map toLower := List.mem_map_of_mem (by simpa using hd)
    have key : ∀ x ∈ types, c!"." ∉ x.1 := by decide +kernel
    exact key _ h this
  · intro c hc hd
    have : toLower c ∈ ext.map toLower := List.mem_map_of_mem hc
    have key : ∀ x ∈ types, ∀ d ∈ b!"?#/ ", toLower d ∉ x.1 := by decide +kernel
    exact key _ h c hd this

/-- Images in other formats are called PNG. -/
theorem C127_fails : mime b!"photo.avif" = b!"image/png" ∧ mime b!"scan.tiff" = b!"image/png" ∧ mime b!"drawing.svgz" = b!"image/png" := by decide +kernel

example : mime b!"pics.d/Photo.JPG" = b!"image/jpeg" := C127_known b!"pics.d/Photo" b!"JPG" _ (by decide)

end Verif.Embed
