/-
C152: quotation marks in the language of the document.
-/
import Verif.Proof.QuoteLang

namespace Verif.QuoteLang
open Spec

/-- C152: without a language, or with one that has no marks of its own, the page stays as it is. -/
theorem C152_same (html : Bytes) {lang : Option Bytes} (h : ∀ l n q, lang = some l → Writes l n → ¬ Style n q) :
    adjust html lang = .val html := by
  cases lang with
  | none => rfl
  | some l =>
    unfold adjust
    simp only
    split
    · rfl
    cases hm : marks (normalized l) with
    | none => rfl
    | some m =>
      obtain ⟨q, hq⟩ := marks_style hm
      have h1 := style_short hq
      have h2 : normalized l = (l.filter fun c => !isSpace c).map toLower := by
        unfold normalized at h1 ⊢
        rw [List.length_take] at h1
        exact List.take_of_length_le (by omega)
      exact absurd hq (h l _ q rfl ((writes_iff l _).2 h2.symm))

/-- C152: the marks of a page are determined: every page has exactly one result. -/
theorem C152_unique (q : Mark → Bytes) (html : Bytes) : ∃ o, Replaced q html o ∧ ∀ o', Replaced q html o' → o' = o := by
  obtain ⟨o, h⟩ := replaced_exists q _ html (Nat.le_refl _)
  exact ⟨o, h, fun o' h' => replaced_unique h' h⟩

/-- C152 for pages whose result is shorter than the page twice over: all marks are replaced, and nothing else. However
the name of the language is written, case and white space do not count. -/
theorem C152_replaced_partial {html l n o : Bytes} {q : Mark → Bytes} (hw : Writes l n) (hs : Style n q) (h : Replaced q html o)
    (hl : o.length < html.length * 2) : adjust html (some l) = .val o := by
  obtain ⟨m, rfl, h2⟩ := adjust_style html hw hs
  rw [h2, loop_replaced m h _ _ _ (Nat.le_refl _) (by simpa using hl)]
  rfl

/-- C152 for pages with entities instead of characters: all marks are replaced, and nothing else. -/
theorem C152_entities_partial {html l n : Bytes} {q : Mark → Bytes} (hw : Writes l n) (hs : Style n q) (hn : html ≠ [])
    (hc : ∀ k, ¬ character k <:+: html) : ∃ o, adjust html (some l) = .val o ∧ Replaced q html o := by
  obtain ⟨o, h⟩ := replaced_exists q _ html (Nat.le_refl _)
  have h1 := entities_short (style_len hs) h hc
  have h2 := List.length_pos_iff.2 hn
  exact ⟨o, C152_replaced_partial hw hs h (by omega), h⟩

/-- C152: whatever the page, a result is the page with some of its marks replaced. -/
theorem C152_partly {html l n o : Bytes} {q : Mark → Bytes} (hw : Writes l n) (hs : Style n q) (h : adjust html (some l) = .val o) :
    Partly q html o := by
  obtain ⟨m, rfl, h2⟩ := adjust_style html hw hs
  rw [h2] at h
  obtain ⟨o', rfl, h3⟩ := loop_partly m _ _ _ _ _ h
  exact h3

/-- An example: a name with white space and capitals, and a page with both ways to write marks. -/
theorem C152_example : (∃ q, Style b!"germanguillemets" q) ∧ Writes b!"German Guillemets" b!"germanguillemets" ∧
    adjust (b!"<p>A long sentence, &ldquo;so to speak" ++ [0xE2, 0x80, 0x9D] ++ b!", ends.</p>") (some b!"German Guillemets") =
      .val b!"<p>A long sentence, &raquo;so to speak&laquo;, ends.</p>" :=
  ⟨⟨_, .guillemets rfl⟩, (writes_iff _ _).2 (by decide +kernel), by decide +kernel⟩

/-- Other languages. -/
theorem C152_other_example : ∀ n q, Writes b!"Klingon" n → ¬ Style n q := by
  intro n q hw hs
  have := (writes_iff _ _).1 hw
  have h2 := style_short hs
  obtain ⟨m, h3, _⟩ := style_marks hs
  rw [← this] at h3
  have h4 : marks ((b!"Klingon".filter fun c => !isSpace c).map toLower) = none := rfl
  rw [h4] at h3
  cases h3

/-- C152 is false for characters in short pages: in French, the closing mark stays English. -/
theorem C152_closing_refuted : adjust (b!"<p>" ++ [0xE2, 0x80, 0x9C] ++ b!"A" ++ [0xE2, 0x80, 0x9D] ++ b!"</p>\n") (some b!"fr") =
    .val (b!"<p>&laquo;&nbsp;A" ++ [0xE2, 0x80, 0x9D] ++ b!"</p>\n") := by decide +kernel

/-- A quoted word of six letters in French: the terminator is written behind the block. -/
theorem C152_overflow_refuted : adjust (b!"<p>" ++ [0xE2, 0x80, 0x9C] ++ b!"merci!" ++ [0xE2, 0x80, 0x9D] ++ b!"</p>\n") (some b!"fr") = .ub := by
  decide +kernel

/-- The same for the empty page. -/
theorem C152_empty_refuted : adjust [] (some b!"de") = .ub := rfl

end Verif.QuoteLang
