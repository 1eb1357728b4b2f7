/-
C139 (emoji in a page), C140 (the name of an emoji).
-/
import Verif.Proof.EmojiHtml

namespace Verif.EmojiHtml

open Emoji (Entry pattern)
open Emoji.Spec (folded)
open Spec

/-- **C139** (partial): every page has exactly one reading in which the names are replaced by their emoji, values of attributes
and marks of the index kept, and everything else copied.  It is what `apex_replace_emoji` returns without leaving its block,
if colons in images are in attributes, no tag is written like `<1h>`, and the result is shorter than three times the page. -/
theorem C139_page_partial (tab : List Entry) (html : Bytes) :
    ∃ out, Html tab [] html out ∧ (∀ out', Html tab [] html out' → out' = out) ∧
      (Images html → Headings html → out.length < 3 * html.length → replace tab html = .val out) := by
  obtain ⟨o, ho⟩ := exists_html tab html []
  exact ⟨o, ho, fun _ h => html_unique ho h, fun h1 h2 h3 => replace_html ho h1 h2 h3⟩

/-- … with the real table the result is short enough if the page is not empty and has no name of an emoji that is an image. -/
theorem C139_fits_partial (html out : Bytes) (h : html ≠ [])
    (hn : ∀ name, pattern name <:+: html → ∀ e ∈ Emoji.table, e.name = folded name → e.unicode ≠ none) (hh : Html Emoji.table [] html out)
    (h1 : Images html) (h2 : Headings html) : replace Emoji.table html = .val out := by
  refine replace_html hh h1 h2 (html_length ?_ hh hn h)
  have key : (Emoji.table.all fun e => match e.unicode with | some u => decide (u.length < 3 * (e.name.length + 2)) | none => true) = true := by
    decide +kernel
  intro e he u hu
  have := List.all_eq_true.1 key e he
  rw [hu] at this
  simpa using this

/-- A page with emoji, an image, a mark of the index and attributes. -/
def sample : Bytes :=
  b!"<p>At 10:30 :Smile: <img src=\"http://a.b/:tada:.png\" alt=\":x:\"> :|--: <!--IDX:a:tada:b--> <a href='x:smile:'>:octocat:</a> :no_such: and</p>"

theorem sample_ok : Images sample ∧ Headings sample ∧
    replace Emoji.table sample = .val (b!"<p>At 10:30 " ++ [0xF0, 0x9F, 0x98, 0x84] ++ b!" <img src=\"http://a.b/:tada:.png\" alt=\":x:\"> :|--: <!--IDX:a:tada:b--> " ++
      b!"<a href='x:smile:'><img class=\"emoji\" src=\"https://github.githubassets.com/images/icons/emoji/octocat.png\" alt=\":octocat:\" height=\"20\" width=\"20\" align=\"absmiddle\"></a> :no_such: and</p>") :=
  ⟨images_of (by decide +kernel), headings_of (by decide +kernel), by decide +kernel⟩

/-- … not for the empty page: the block has no byte for the terminator. -/
theorem C139_empty_refuted : replace Emoji.table [] = .ub := by decide +kernel

/-- … nor when an image is large: the terminator is behind the block. -/
theorem C139_image_refuted : replace Emoji.table b!"<p>:octocat: and 40 more bytes are needed here to be sure</p>" = .ub := by decide +kernel

/-- … nor for a colon in an image that is not in an attribute for the test: it reads behind the end of the page. -/
theorem C139_colon_refuted : replace Emoji.table b!"<p><img alt=\"1=2 3:4\"></p>" = .ub := by decide +kernel

/-- Names in code are replaced as well. -/
theorem C139_code_refuted : replace Emoji.table b!"<p><code>:smile:</code></p>" = .val (b!"<p><code>" ++ [0xF0, 0x9F, 0x98, 0x84] ++ b!"</code></p>") := by decide +kernel

/-- The second colon of an unknown name does not start a name. -/
theorem C139_second_refuted : replace Emoji.table b!"<p>3:4:smile:</p>" = .val b!"<p>3:4:smile:</p>" := by decide +kernel

/-- The size for headings is used for no heading. -/
theorem C139_heading_refuted :
    replace Emoji.table b!"<h1>:octocat:</h1><p>and more text behind the name so that it fits</p>" =
      .val b!"<h1><img class=\"emoji\" src=\"https://github.githubassets.com/images/icons/emoji/octocat.png\" alt=\":octocat:\" height=\"20\" width=\"20\" align=\"absmiddle\"></h1><p>and more text behind the name so that it fits</p>" := by
  decide +kernel

/-- **C140**: `apex_find_emoji_name` gives the longest name of the emoji, the first one of the longest, and no name exactly
if the table does not have the emoji. -/
theorem C140_name (tab : List Entry) (u : Bytes) (h : u ≠ []) :
    (∀ name, findName tab u = some name ↔ Longest tab u name) ∧ (findName tab u = none ↔ ∀ e ∈ tab, e.unicode ≠ some u) := by
  have key := nameLoop_spec u tab [] none (by simp [Good])
  rw [List.nil_append] at key
  have he : findName tab u = nameLoop u none tab := by rw [findName, if_neg h]
  rw [he]
  cases hn : nameLoop u none tab with
  | none =>
    rw [hn] at key
    simp only [Good] at key
    refine ⟨fun name => ⟨fun h => (by cases h), fun hl => ?_⟩, by simpa using key⟩
    obtain ⟨p, e, q, rfl, h1, _⟩ := hl
    exact absurd h1 (key e (by simp))
  | some m =>
    rw [hn] at key
    simp only [Good] at key
    refine ⟨fun name => ⟨fun h => (by cases h; exact key), fun hl => by rw [longest_unique key hl]⟩, ?_⟩
    obtain ⟨p, e, q, rfl, h1, _⟩ := key
    exact ⟨fun h => (by cases h), fun h => absurd h1 (h e (by simp))⟩

/-- … and the page with that name between colons gets the emoji back, if no two entries have the same name and the name is written as in a page. -/
theorem C140_back (tab : List Entry) (hd : (tab.map (·.name)).Nodup) (u name : Bytes) (hl : Longest tab u name) (hf : folded name = name)
    (ha : ¬ Emoji.Spec.Align name) : Picture tab name u := by
  obtain ⟨p, e, q, rfl, h1, h2, _⟩ := hl
  refine .emoji (e := e) (pre := p) (post := q) ha rfl (by rw [hf, h2]) ?_ h1
  intro e' he' hn
  rw [List.map_append, List.nodup_append] at hd
  exact hd.2.2 e'.name (List.mem_map.2 ⟨e', he', rfl⟩) e.name (by simp) (by rw [hn, hf, h2])

example : findName Emoji.table [0xF0, 0x9F, 0x91, 0x8D] = some b!"thumbsup" := by decide +kernel

end Verif.EmojiHtml
