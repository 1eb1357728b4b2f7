/- C133: Liquid tags come through the conversion as they were written. -/
import Verif.Proof.Liquid
import Verif.Proof.HeaderIds

namespace Verif.Liquid

open Spec

/-- C133: every text is a row of tags and the texts between them, and that row decides what happens to it: without a tag
it is left alone, otherwise the first tag is replaced by placeholder 0, the second by placeholder 1, and so on, the texts
between them stay, and the tags are kept in their order.  No write leaves its block. -/
theorem C133_protect :
    (∀ text, ∃ d : Doc, d.Ok ∧ text = d.source) ∧
    ∀ d : Doc, d.Ok → 0 ∉ d.source →
      protect d.source = .val (if d.tags = [] then none else some (marked 0 d.tags d.rest, d.tagTexts)) :=
  ⟨exists_doc, protect_doc⟩

/-- A text with two tags, a lone `{%` and a `%}` without its beginning. -/
def sample : Doc := ⟨[(b!"a %} b ", b!" if x "), ([], b!"y{% z")], b!" end {% no"⟩

/-- `sample` is such a text. -/
theorem sample_ok : sample.Ok := by
  refine ⟨by decide, Or.inr ⟨b!" end ", b!" no", by decide, by decide, by decide⟩⟩

example : sample.source = b!"a %} b {% if x %}{%y{% z%} end {% no" ∧
    protect sample.source = .val (some (b!"a %} b APEX_LIQUID_TAG_0APEX_LIQUID_TAG_1 end {% no", [b!"{% if x %}", b!"{%y{% z%}"])) := by
  refine ⟨by decide, ?_⟩
  rw [C133_protect.2 sample sample_ok (by decide)]
  decide +kernel

/-- C133: whatever page was made, the tags are put back without a write outside of the block. -/
theorem C133_restore_total (html : Bytes) (tags : List Bytes) : ∃ page, restore html tags = .val page :=
  ⟨_, restore_eq html tags⟩

/-- C133: whatever the conversion has done with the text — moved, dropped or repeated placeholders, put marks of its own
around them —, every placeholder that is not followed by a digit is replaced by its tag, byte for byte, and the rest of the
page stays. -/
theorem C133_page (p : Page) (tags : List Bytes) (h : p.Ok tags) (ht : tags.length ≤ 2 ^ 64) (h0 : 0 ∉ p.filled tags) :
    restore p.html tags = .val (p.filled tags) := restore_page p tags h ht h0

/-- A page with three placeholders, one of them twice, and something that only looks like one. -/
def page : Page := ⟨[(b!"<p>", 1), (b!"</p>\n<p>", 0), (b!" ", 1)], b!" APEX_LIQUID_TA_0</p>"⟩

example : page.Ok [b!"{% a %}", b!"{% b %}"] ∧ page.html = b!"<p>APEX_LIQUID_TAG_1</p>\n<p>APEX_LIQUID_TAG_0 APEX_LIQUID_TAG_1 APEX_LIQUID_TA_0</p>" ∧
    page.filled [b!"{% a %}", b!"{% b %}"] = b!"<p>{% b %}</p>\n<p>{% a %} {% b %} APEX_LIQUID_TA_0</p>" := by
  refine ⟨⟨by decide, by decide, ?_, ?_⟩, by decide +kernel, by decide +kernel⟩
  · intro i hi
    simp [page] at hi
    rcases hi with rfl | rfl <;> intro c hc <;> simp at hc <;> subst hc <;> decide
  · intro _ c hc
    simp [page] at hc
    subst hc
    decide

/-- C133: putting the tags back undoes the placeholders, for a text without the beginning of a placeholder and without a
digit directly behind a `%}`. -/
theorem C133_partial (text : Bytes) (h0 : 0 ∉ text) (hl : text.length < 2 ^ 64) (hm : ¬ mark <:+: text)
    (hd : ∀ c, isDigit c = true → ¬ b!"%}" ++ [c] <:+: text) (t : Bytes) (tags : List Bytes)
    (hp : protect text = .val (some (t, tags))) : restore t tags = .val text := round_trip text h0 hl hm hd t tags hp

example : ¬ mark <:+: sample.source ∧ ∀ c, isDigit c = true → ¬ b!"%}" ++ [c] <:+: sample.source := by
  refine ⟨by decide +kernel, forall_byte ?_⟩
  decide +kernel

/-- C133 does not hold without the condition on digits: the 5 becomes part of the number, and the placeholder of a tag that
does not exist stays in the page. -/
theorem C133_digit_fails : protect b!"{% a %}5" = .val (some (b!"APEX_LIQUID_TAG_05", [b!"{% a %}"])) ∧
    restore b!"APEX_LIQUID_TAG_05" [b!"{% a %}"] = .val b!"APEX_LIQUID_TAG_05" := by decide +kernel

/-- C133: with enough tags the digit selects another tag; the digit itself is lost. -/
theorem C133_other_fails : restore b!"APEX_LIQUID_TAG_01" [b!"{% a %}", b!"{% b %}"] = .val b!"{% b %}" := by decide +kernel

/-- C133: words of the text that look like a placeholder are replaced by a tag. -/
theorem C133_literal_fails : protect b!"{% a %} APEX_LIQUID_TAG_0" = .val (some (b!"APEX_LIQUID_TAG_0 APEX_LIQUID_TAG_0", [b!"{% a %}"])) ∧
    restore b!"APEX_LIQUID_TAG_0 APEX_LIQUID_TAG_0" [b!"{% a %}"] = .val b!"{% a %} {% a %}" := by decide +kernel

/-- C133: the number is taken modulo the size of a word. -/
theorem C133_wrap_fails : restore b!"APEX_LIQUID_TAG_18446744073709551616" [b!"{% a %}"] = .val b!"{% a %}" := by decide +kernel

/-- C133: a placeholder that the conversion turns into something else, as the identifier of a heading, is not recognised. -/
theorem C133_id_fails : HeaderIds.generate [] .gfm (placeholder 0) = .val b!"apexliquidtag0" ∧
    restore b!"<h1 id=\"apexliquidtag0\">APEX_LIQUID_TAG_0</h1>" [b!"{% a %}"] = .val b!"<h1 id=\"apexliquidtag0\">{% a %}</h1>" := by
  decide +kernel

/-- C133: a tag in code comes back without its escapes, as an element of the page. -/
theorem C133_code_fails : protect b!"`{% a <b> %}`" = .val (some (b!"`APEX_LIQUID_TAG_0`", [b!"{% a <b> %}"])) ∧
    restore b!"<code>APEX_LIQUID_TAG_0</code>" [b!"{% a <b> %}"] = .val b!"<code>{% a <b> %}</code>" := by decide +kernel

end Verif.Liquid
