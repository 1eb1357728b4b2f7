/- C210 - C212: manual pages as HTML (src/ast_man.c). -/
import Verif.Proof.ManHtml
import Verif.Proof.ManHtmlPage

namespace Verif.ManHtml
open Man (Node Kind plainText plainTexts decimal)
open Spec

/-! ### C210: manual pages as HTML are well-formed and complete -/

/-- Part of a page is well-formed HTML, whatever the tree, if it has no block of HTML. -/
theorem C210_wellformed (doc : List Node) (h : noHtmls doc = true) : ∃ t as, Html (blocks false doc) t as := by
  obtain ⟨t, as, h, _⟩ := blocks_html false doc h
  exact ⟨t, as, h⟩

/-- A page of its own is well-formed too; it has the style sheets asked for, in order, and in front of all links. -/
theorem C210_page (title : Bytes) (sheets : List Bytes) (doc : List Node) (h : noHtmls doc = true) :
    ∃ s t as, page title sheets doc = b!"<!DOCTYPE html>\n" ++ s ∧ Html s t as ∧ sheets <+: valuesOf b!"href" as ∧ (plainTrees doc = true → targetss doc <:+ valuesOf b!"href" as) :=
  page_html title sheets doc h

/-- Of headings, paragraphs, lists, quotes, code and rules all that is written is shown, and nothing else, but for white space; and each link leads where it should.  Missing: tables, terms of
lists of definitions, and blocks of HTML (`C210_table`, `C210_raw`). -/
theorem C210_reads_partial (doc : List Node) (h : plainTrees doc = true) :
    ∃ t as, Html (blocks false doc) t as ∧ ink t = ink (proses doc) ∧ valuesOf b!"href" as = targetss doc := by
  obtain ⟨t, as, h1, h2⟩ := blocks_html false doc (plains_noHtml doc h)
  exact ⟨t, as, h1, h2 h⟩

/-- A table: rows and cells with text in them. -/
def table : List Node := [.mk .other [.mk .other [.mk .other [.mk (.text b!"lost") []]]]]

/-- The text of a table is not shown. -/
theorem C210_table : proses table = b!"lost" ∧ blocks false table = [] := by decide +kernel

/-- A block of HTML which begins like a list of definitions is passed on as it is. -/
theorem C210_raw : blocks false [.mk (.htmlBlock b!"<dl><script>") []] = b!"<dl><script>" := by decide +kernel

/-- A list with a link, and code. -/
def sample : List Node :=
  [.mk (.heading 1) [.mk (.text b!"NAME") []], .mk .paragraph [.mk (.text b!"x & y - does <it>") []],
   .mk (.list true) [.mk (.item 1) [.mk .paragraph [.mk (.link b!"a\"b") [.mk .emph [.mk (.code b!"-f") []]]], .mk (.codeBlock b!"a<b\n") []]]]

example : plainTrees sample = true ∧ noHtmls sample = true ∧ targetss sample = [b!"a\"b"] ∧ proses sample = b!"NAMEx & y - does <it>-fa<b\n" := by decide +kernel
example : blocks false sample =
    b!"\n<div class=\"man-section\"><h2 id=\"NAME\">NAME</h2></div>\n<p>x &amp; y - does &lt;it&gt;</p>\n\n<ul>\n<li><a href=\"a&quot;b\"><em><code>-f</code></em></a>\n\n<pre><code>a&lt;b\n</code></pre>\n</li>\n</ul>\n" := by
  decide +kernel

/-! ### C211: each entry of the navigation leads to its section -/

/-- Each section has its entry, in order, with its text, which leads to the heading of the section.  Missing: more than 48 sections, headings of more than 71 bytes, and headings which
do not start with a text with a letter or digit (`C211_many`, `C211_long`, `C211_foreign`); and of sections with the same anchor all entries lead to the first (`C211_same`). -/
theorem C211_nav_partial (title : Bytes) (sheets : List Bytes) (doc : List Node) (hd : plainTrees doc = true) (hne : sectionsOf doc ≠ []) (h48 : (sectionsOf doc).length ≤ 48)
    (hk : ∀ k ∈ sectionsOf doc, (proses k).length ≤ 71 ∧ ∃ c ∈ firstText k, isAlnum c = true) :
    ∃ (raw : List Node → Bytes) (x main : Bytes),
      page title sheets doc = x ++ b!"<nav class=\"man-nav\"><ul>\n" ++
        (sectionsOf doc).flatMap (fun k => b!"<li><a href=\"#" ++ anchor (firstText k) ++ b!"\">" ++ raw k ++ b!"</a></li>\n") ++ b!"</ul></nav>\n" ++ main ∧
      (∀ k ∈ sectionsOf doc, Html (raw k) (proses k) []) ∧
      ∀ k ∈ sectionsOf doc, ∃ p i q t as, main = p ++ b!"<h2 id=\"" ++ anchor (firstText k) ++ b!"\">" ++ i ++ b!"</h2>" ++ q ∧ Html i t as ∧ ink t = ink (proses k) := by
  have hin : ∀ n ∈ doc.filter isH1, inlineTrees (kidsOf n) = true := by
    intro n hn
    rw [List.mem_filter] at hn
    have := plain_heading hd hn.1
    rw [h1_shape hn.2] at this
    exact this
  have hmem : ∀ n ∈ doc.filter isH1, kidsOf n ∈ sectionsOf doc := by
    intro n hn
    rw [← sections_kids]
    exact List.mem_map_of_mem hn
  have hid : ∀ k : List Node, (∃ c ∈ firstText k, isAlnum c = true) → sectionIds k = anchor (firstText k) ∧ anchor (firstText k) ≠ [] := by
    intro k ⟨c, hc, ha⟩
    match k with
    | [] => simp [firstText] at hc
    | .mk (.text s) r :: ns =>
      refine ⟨?_, ?_⟩
      · rw [sectionIds]; exact slug_anchor s
      · intro h
        have hm : c ∈ anchor s := by
          unfold anchor
          rw [List.mem_filterMap]
          refine ⟨c, hc, ?_⟩
          have hn : ¬(c = c!" " ∨ c = c!"\t") := by
            rintro (rfl | rfl) <;> revert ha <;> decide
          rw [if_neg hn, if_pos (.inl ha)]
        have h' : anchor s = [] := h
        rw [h'] at hm
        simp at hm
    | .mk .document _ :: _ | .mk (.heading _) _ :: _ | .mk .paragraph _ :: _ | .mk (.list _) _ :: _ | .mk (.item _) _ :: _ | .mk (.codeBlock _) _ :: _ | .mk .blockQuote _ :: _
    | .mk .thematicBreak _ :: _ | .mk (.htmlBlock _) _ :: _ | .mk .defList _ :: _ | .mk .defTerm _ :: _ | .mk .defData _ :: _ | .mk (.code _) _ :: _ | .mk .lineBreak _ :: _
    | .mk .softBreak _ :: _ | .mk .strong _ :: _ | .mk .emph _ :: _ | .mk (.link _) _ :: _ | .mk .htmlInline _ :: _ | .mk .other _ :: _ => simp [firstText] at hc
  have hlen : (doc.filter isH1).length ≤ 48 := by
    have := congrArg List.length (sections_kids doc)
    rw [List.length_map] at this
    omega
  have hs : sections doc = (doc.filter isH1).map fun n => (anchor (firstText (kidsOf n)), proses (kidsOf n)) := by
    unfold sections
    rw [List.take_of_length_le hlen]
    apply List.map_congr_left
    intro n hn
    have h1 := hk _ (hmem n hn)
    have h2 := hid _ h1.2
    have h3 := ids_length _ (hin n hn)
    have h4 : plainText n = proses (kidsOf n) := by
      have : plainText n = plainTexts (kidsOf n) := by
        have := (List.mem_filter.mp hn).2
        rw [h1_shape this]; rfl
      rw [this, plains_proses _ (hin n hn)]
    rw [h4, List.take_of_length_le (by omega), List.take_of_length_le h1.1, h2.1]
  have hnav : nav doc = b!"<nav class=\"man-nav\"><ul>\n" ++ (sectionsOf doc).flatMap (fun k => b!"<li><a href=\"#" ++ anchor (firstText k) ++ b!"\">" ++ esc (proses k) ++ b!"</a></li>\n") ++
      b!"</ul></nav>\n" := by
    unfold nav
    rw [if_neg]
    · congr 2
      rw [hs, ← sections_kids, List.flatMap_map, List.flatMap_map]
      apply flatMap_same
      intro n hn
      have h1 := hid _ (hk _ (hmem n hn)).2
      rw [if_pos h1.2, esc_id]
      rw [← h1.1]
      exact ids_word _
    · rw [hs]
      intro h
      rw [List.map_eq_nil_iff] at h
      apply hne
      rw [← sections_kids, h]; rfl
  refine ⟨fun k => esc (proses k), b!"<!DOCTYPE html>\n<html lang=\"en\">\n<head>\n<meta charset=\"utf-8\">\n<title>" ++ esc (headline title doc).1 ++ b!" — " ++ esc (headline title doc).2 ++
    b!"</title>\n<style>\n" ++ css ++ b!"</style>\n" ++ sheets.flatMap (fun s => b!"<link rel=\"stylesheet\" href=\"" ++ esc s ++ b!"\">\n") ++ b!"</head>\n<body class=\"man-standalone\">\n", b!"<main class=\"man-main\">\n<h1 class=\"man-headline\">" ++ esc (headline title doc).1 ++ b!" — " ++ esc (headline title doc).2 ++ b!"</h1>\n" ++ blocks false doc ++
    b!"\n</main>\n</body>\n</html>", ?_, fun k _ => html_esc _, ?_⟩
  · unfold page
    simp only
    rw [hnav]
    simp only [List.append_assoc]
  · intro k hkm
    rw [← sections_kids, List.mem_map] at hkm
    obtain ⟨n, hn, rfl⟩ := hkm
    rw [List.mem_filter] at hn
    obtain ⟨p, q, hq⟩ := block_found hn.2 false doc hn.1
    have hn' : n ∈ doc.filter isH1 := List.mem_filter.mpr hn
    obtain ⟨t, as, h, hp, _⟩ := inlines_html (kidsOf n)
    have hb : block false n = b!"\n<div class=\"man-section\">" ++ b!"<h2 id=\"" ++ anchor (firstText (kidsOf n)) ++ b!"\">" ++ inlines (kidsOf n) ++ b!"</h2>" ++ b!"</div>\n" := by
      rw [← (hid _ (hk _ (hmem n hn')).2).1, h1_shape hn.2]
      have hm : decimal (min (1 + 1) 4) = b!"2" := by decide +kernel
      rw [block, hm]
      simp [kidsOf]
    refine ⟨b!"<main class=\"man-main\">\n<h1 class=\"man-headline\">" ++ esc (headline title doc).1 ++ b!" — " ++ esc (headline title doc).2 ++ b!"</h1>\n" ++ p ++ b!"\n<div class=\"man-section\">",
      inlines (kidsOf n), b!"</div>\n" ++ q ++ b!"\n</main>\n</body>\n</html>", t, as, ?_, h, (hp (hin n hn')).1⟩
    rw [hq, hb]
    simp only [List.append_assoc]

example : plainTrees sample = true ∧ (sectionsOf sample).length = 1 ∧ ∀ k ∈ sectionsOf sample, (proses k).length ≤ 71 ∧ ∃ c ∈ firstText k, isAlnum c = true := by
  refine ⟨by decide +kernel, by decide +kernel, fun k hk => ?_⟩
  have : k = [.mk (.text b!"NAME") []] := by simpa [sectionsOf, sample] using hk
  subst this
  exact ⟨by decide, c!"N", by decide, by decide⟩

/-- A heading of one text. -/
def head (s : Bytes) : Node := .mk (.heading 1) [.mk (.text s) []]

/-- A heading of 72 bytes: the entry leads to an anchor which is not there. -/
theorem C211_long : let a := List.replicate 71 c!"a"
    (Embed.find (b!"<a href=\"#" ++ a ++ b!"\">") (nav [head (a ++ b!"a")])).isSome = true ∧ Embed.find (b!"id=\"" ++ a ++ b!"\"") (blocks false [head (a ++ b!"a")]) = none := by
  decide +kernel

/-- Two sections with one anchor: what follows the first text does not count. -/
theorem C211_same : let h := fun s => Node.mk (.heading 1) [.mk (.text b!"Options of ") [], .mk .emph [.mk (.text s) []]]
    nav [h b!"get", h b!"set"] = b!"<nav class=\"man-nav\"><ul>\n<li><a href=\"#Options-of-\">Options of get</a></li>\n<li><a href=\"#Options-of-\">Options of set</a></li>\n</ul></nav>\n" ∧
    blocks false [h b!"get", h b!"set"] =
      b!"\n<div class=\"man-section\"><h2 id=\"Options-of-\">Options of <em>get</em></h2></div>\n\n<div class=\"man-section\"><h2 id=\"Options-of-\">Options of <em>set</em></h2></div>\n" := by
  decide +kernel

/-- The 49th section has no entry. -/
theorem C211_many : let doc := (List.replicate 48 (head b!"A")) ++ [head b!"Last"]
    Embed.find b!"Last" (nav doc) = none ∧ (Embed.find b!"<h2 id=\"Last\">Last</h2>" (blocks false doc)).isSome = true := by
  decide +kernel

/-- A heading without a Latin letter has no entry. -/
theorem C211_foreign : nav [head b!"Имя"] = b!"<nav class=\"man-nav\"><ul>\n</ul></nav>\n" := by decide +kernel

/-! ### C212: a page is headed by its name -/

/-- Title and headline of a page. -/
def Headed (out name does : Bytes) : Prop :=
  ∃ raw x y z, Html raw (name ++ b!" — " ++ does) [] ∧ out = x ++ b!"<title>" ++ raw ++ b!"</title>" ++ y ++ b!"<h1 class=\"man-headline\">" ++ raw ++ b!"</h1>" ++ z

theorem page_headed (title : Bytes) (sheets : List Bytes) (doc : List Node) : Headed (page title sheets doc) (headline title doc).1 (headline title doc).2 := by
  refine ⟨_, b!"<!DOCTYPE html>\n<html lang=\"en\">\n<head>\n<meta charset=\"utf-8\">\n",
    b!"\n<style>\n" ++ css ++ b!"</style>\n" ++ sheets.flatMap (fun s => b!"<link rel=\"stylesheet\" href=\"" ++ esc s ++ b!"\">\n") ++ b!"</head>\n<body class=\"man-standalone\">\n" ++ nav doc ++
      b!"<main class=\"man-main\">\n", b!"\n" ++ blocks false doc ++ b!"\n</main>\n</body>\n</html>", heads_html _ _, ?_⟩
  unfold page
  simp only [List.append_assoc]
  rfl

/-- The paragraph of the section NAME gives the name in front of ` - ` and what it does behind it, with one space between words.  The title given replaces the name if it has parentheses.  Missing: a
paragraph of several lines (`C212_lines`). -/
theorem C212_headline_partial (title : Bytes) (sheets : List Bytes) (a b c kids p : List Node) (l r : Bytes) (ws vs : List Bytes)
    (ha : ∀ k ∈ sectionsOf a, plainTexts k ≠ b!"NAME") (hk : inlineTrees kids = true) (hname : proses kids = b!"NAME")
    (hb : ∀ n ∈ b, ∀ ks, n ≠ .mk .paragraph ks ∧ ∀ i, n ≠ .mk (.heading i) ks) (hp : inlineTrees p = true) (hline : proses p = l ++ b!" - " ++ r) (hfirst : ¬b!" - " <:+: l ++ b!" -")
    (hl : Spaced ws l) (hr : Spaced vs r) :
    Headed (page title sheets (a ++ .mk (.heading 1) kids :: (b ++ .mk .paragraph p :: c))) (if c!"(" ∈ title ∧ c!")" ∈ title then title else join ws) (join vs) := by
  have h := page_headed title sheets (a ++ .mk (.heading 1) kids :: (b ++ .mk .paragraph p :: c))
  have ha' : ∀ m ∈ a, isH1 m = true → plainText m ≠ b!"NAME" := by
    intro m hm h1
    have := ha (kidsOf m) (by rw [← sections_kids]; exact List.mem_map_of_mem (List.mem_filter.mpr ⟨hm, h1⟩))
    rw [h1_shape h1]; exact this
  have hn : nameLine (a ++ .mk (.heading 1) kids :: (b ++ .mk .paragraph p :: c)) = some (l ++ b!" - " ++ r) := by
    rw [nameLine_skip (n := .mk (.heading 1) kids) rfl (by show plainTexts kids = _; rw [plains_proses kids hk, hname]) ha']
    rw [firstPara_skip _ hb, plains_proses p hp, hline]
    rw [plains_proses p hp, hline]; simp
  have hf : Embed.find b!" - " (l ++ b!" - " ++ r) = some (l, r) := find_first (by simp) hfirst
  have he : headline title (a ++ .mk (.heading 1) kids :: (b ++ .mk .paragraph p :: c)) = (if c!"(" ∈ title ∧ c!")" ∈ title then title else join ws, join vs) := by
    unfold headline
    simp only [hn, hf, normalise_spaced hl, normalise_spaced hr]
    by_cases ht : c!"(" ∈ title ∧ c!")" ∈ title
    · rw [if_pos ⟨by intro h0; rw [h0] at ht; simp at ht, ht⟩, if_pos ht]
    · rw [if_neg (fun h => ht h.2), if_neg ht]
  rw [he] at h
  exact h

/-- Without a section NAME the page is a document, and without ` - ` a manual page. -/
theorem C212_default (sheets : List Bytes) (doc : List Node) (h : ∀ k ∈ sectionsOf doc, plainTexts k ≠ b!"NAME") : Headed (page [] sheets doc) b!"Document" b!"manual page" := by
  have hh := page_headed [] sheets doc
  have hn : nameLine doc = none := by
    apply nameLine_none
    intro m hm h1
    have := h (kidsOf m) (by rw [← sections_kids]; exact List.mem_map_of_mem (List.mem_filter.mpr ⟨hm, h1⟩))
    rw [h1_shape h1]; exact this
  have he : headline [] doc = (b!"Document", b!"manual page") := by
    unfold headline
    simp [hn]
  rw [he] at hh
  exact hh

example : Spaced [b!"x", b!"&", b!"y"] b!"x &  y" ∧ ¬b!" - " <:+: b!"x &  y" ++ b!" -" := by
  refine ⟨?_, by decide +kernel⟩
  have h1 : Spaced [b!"y"] b!"  y" := .cons (g := b!"  ") (w := b!"y") (s := []) (by decide) (by decide) (by decide) (.inl rfl) (.nil (g := []) (by simp))
  have h2 : Spaced [b!"&", b!"y"] b!" &  y" := .cons (g := b!" ") (w := b!"&") (s := b!"  y") (by decide) (by decide) (by decide) (.inr ⟨c!" ", b!" y", rfl, .inl rfl⟩) h1
  exact .cons (g := []) (w := b!"x") (s := b!" &  y") (by simp) (by decide) (by decide) (.inr ⟨c!" ", b!"&  y", rfl, .inl rfl⟩) h2
example : headline [] sample = (b!"x & y", b!"does <it>") ∧ headline b!"x(1)" sample = (b!"x(1)", b!"does <it>") := by decide +kernel

/-- Words at the end of a line and the start of the next are run together, and ` -` at the end of a line parts nothing. -/
theorem C212_lines : let doc := fun a b => [head b!"NAME", Node.mk .paragraph [.mk (.text a) [], .mk .softBreak [], .mk (.text b) []]]
    headline [] (doc b!"apex - convert" b!"Markdown") = (b!"apex", b!"convertMarkdown") ∧ headline [] (doc b!"apex -" b!"convert Markdown") = (b!"apex -convert Markdown", b!"manual page") := by
  decide +kernel

end Verif.ManHtml
