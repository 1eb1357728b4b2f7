/- C276: blocks of HTML on a terminal. -/
import Verif.Proof.TermHtml

namespace Verif.Term
open Html (Piece ink Other)

/-- C276, up to white space: of a block of HTML without lists of definitions and callouts all text outside of tags is shown behind what was there, in its order, and nothing of the tags.
Missing: the white space between words. -/
theorem C276_partial (o : Opt) (ind : Nat) (out : Bytes) (ps : List Piece) (h : ∀ p ∈ ps, p.Ok) (ho : Other (ps.flatMap Piece.src)) :
    ∃ x, htmlBlock o ind out (ps.flatMap Piece.src) = .val (out ++ x) ∧ ink x = ink (ps.flatMap Piece.seen) := by
  obtain ⟨e, h1, h2⟩ := Html.padded_ends (out ++ plainHtml false true (ps.flatMap Piece.src))
  refine ⟨plainHtml false true (ps.flatMap Piece.src) ++ e, ?_, ?_⟩
  · rw [Html.block_other o ind out ho, h1, List.append_assoc]
  · rw [Html.ink_append, h2, List.append_nil, Html.plain_pieces ps h]

/-- C276, refuted: words stay apart.  A blank behind any tag is lost, so that the word in front of the tag and the one behind it become one. -/
theorem C276_joined_fails (o : Opt) (ind : Nat) (out a b t : Bytes) (ha : a ≠ []) (hb : b ≠ []) (ia : ink a = a) (ib : ink b = b) (la : c!"<" ∉ a) (lb : c!"<" ∉ b) (ht : c!">" ∉ t)
    (ho : Other (b!"<p>" ++ a ++ b!"<" ++ t ++ b!"> " ++ b ++ b!"</p>")) :
    htmlBlock o ind out (b!"<p>" ++ a ++ b!"<" ++ t ++ b!"> " ++ b ++ b!"</p>") = .val (out ++ (a ++ b) ++ b!"\n\n") := by
  have e : plainHtml false true (b!"<p>" ++ a ++ b!"<" ++ t ++ b!"> " ++ b ++ b!"</p>") = a ++ b := by
    rw [show b!"<p>" ++ a ++ b!"<" ++ t ++ b!"> " ++ b ++ b!"</p>" = c!"<" :: (b!"p" ++ c!">" :: (a ++ (c!"<" :: (t ++ c!">" :: (c!" " :: (b ++ b!"</p>")))))) by simp]
    rw [plainHtml, if_pos rfl, Html.plain_tag _ _ _ (by decide), Html.plain_word a _ true ha ia la, plainHtml, if_pos rfl, Html.plain_tag _ _ _ ht,
      show plainHtml false true (c!" " :: (b ++ b!"</p>")) = plainHtml false true (b ++ b!"</p>") by rw [plainHtml, if_neg (by decide), if_neg (by decide), if_pos (by decide)],
      Html.plain_word b _ true hb ib lb, show plainHtml false false b!"</p>" = [] by decide, List.append_nil]
  rw [Html.block_other o ind out ho, e]
  unfold padded
  have hl : ∃ c r, (out ++ (a ++ b)).reverse = c :: r ∧ c ≠ c!"\n" := by
    rcases List.eq_nil_or_concat b with h | ⟨b', c, h⟩
    · exact absurd h hb
    · refine ⟨c, b'.reverse ++ a.reverse ++ out.reverse, by rw [h]; simp, ?_⟩
      intro hc
      rw [h, List.concat_eq_append, hc, Html.ink_append] at ib
      have hz : ink b!"\n" = [] := rfl
      rw [hz, List.append_nil] at ib
      have := congrArg List.length ib
      have hle : (ink b').length ≤ b'.length := List.length_filter_le ..
      rw [List.length_append, List.length_singleton] at this
      omega
  obtain ⟨c, r, hr, hc⟩ := hl
  rw [hr]
  simp only
  rw [if_pos hc]

/-- C276: a case. -/
theorem C276_case : htmlBlock {} 0 b!"x\n\n" b!"<p>\nSome <b>bold</b> text</p>\n" = .val b!"x\n\nSome boldtext\n\n" ∧ Other b!"<p>\nSome <b>bold</b> text</p>\n" ∧
    [Piece.tag b!"p", .text b!"\nSome ", .tag b!"b", .text b!"bold", .tag b!"/b", .text b!" text", .tag b!"/p", .text b!"\n"].flatMap Piece.src = b!"<p>\nSome <b>bold</b> text</p>\n" :=
  ⟨by decide +kernel, by unfold Other; decide +kernel, rfl⟩

end Verif.Term
