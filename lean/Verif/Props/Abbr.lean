/-
Abbreviations: definitions (C50), inline abbreviations (C90), marking (C91) and termination (C92).
-/
import Verif.Proof.Abbr

namespace Verif.Abbr
open Spec Transforms.Spec
open Ial.Spec (Free Gap)
open Text.Spec (ended)
open Address.Spec (File)

/-! ### C50, C90 extraction -/

/-- C90 and C50, for texts whose lines are shorter than 1024 bytes and whose inline abbreviations do not end in white
space: what is left is the text with the inline abbreviations replaced by their short form (`o`), without its
definitions; what is found are the inline abbreviations, the last first, followed by the definitions in order. -/
theorem C90_extract_partial {text o : Bytes} {inl : List Pair} {ls kept kl : List Bytes} {last : Bytes}
    {defs dl : List Pair} (hne : text ≠ []) (h0 : (0 : Byte) ∉ text)
    (hr : Reads (fun a => EndsInk a ∨ Gap a) text o inl) (h : File o ls last) (hs : Sorted ls kept defs)
    (hs' : Sorted (if last = [] then [] else [last]) kl dl) (hl : ∀ l ∈ last :: ls, l.length < 1024) :
    extract text = .val (ended kept ++ kl.flatten, inl.reverse ++ (defs ++ dl)) := by
  obtain ⟨h1, h2, rfl⟩ := h
  unfold extract
  rw [processInline_reads hr hne h0]
  simp only [C.val_bind]
  rw [keep_sorted h2 (hl last (by simp)) hs' ls hs h1 (fun l h => hl l (by simp [h])) 0]
  simp

/-- Every text reads in some way; the hypothesis on the abbreviations is the only restriction. -/
theorem C90_reads (text : Bytes) : ∃ o l, Reads (fun _ => True) text o l := reads_exists text

/-- C50 for abbreviations, in texts without inline abbreviations. -/
theorem C50_abbr_partial {text : Bytes} {ls kept kl : List Bytes} {last : Bytes} {defs dl : List Pair}
    (hne : text ≠ []) (h0 : (0 : Byte) ∉ text) (hi : ¬ b!"[>(" <:+: text) (h : File text ls last)
    (hs : Sorted ls kept defs) (hs' : Sorted (if last = [] then [] else [last]) kl dl)
    (hl : ∀ l ∈ last :: ls, l.length < 1024) :
    extract text = .val (ended kept ++ kl.flatten, defs ++ dl) := by
  have : ∀ t : Bytes, ¬ b!"[>(" <:+: t → Reads (fun a => EndsInk a ∨ Gap a) t t [] := by
    intro t
    induction t with
    | nil => intro _; exact .nil
    | cons c t ih =>
      intro hi
      refine .byte (fun a sp e r _ he => hi ?_) (ih fun hx => hi (hx.trans ⟨[c], [], by simp⟩))
      rw [he]
      exact ⟨[], a ++ b!")" ++ sp ++ e ++ b!"]" ++ r, by simp [inlineText]⟩
  simpa using C90_extract_partial hne h0 (this text hi) h hs hs' hl

/-- A text with both kinds. -/
example : extract b!"The [>(W3C) World Wide Web Consortium] made it.\n*[HTML]: Hyper Text\n" =
    .val (b!"The W3C made it.\n", [(b!"W3C", b!"World Wide Web Consortium"), (b!"HTML", b!"Hyper Text")]) := by
  decide +kernel

/-- C50 fails for long lines: a paragraph written on one line loses everything after 1023 bytes. -/
theorem C50_abbr_cut {line : Bytes} (hn : c!"\n" ∉ line) (h0 : (0 : Byte) ∉ line) (hb : c!"[" ∉ line)
    (hl : 1024 ≤ line.length) : extract line = .val (line.take 1023, []) := by
  have hne : line ≠ [] := by rintro rfl; simp at hl
  have hp : processInline line = .val (line, []) := by
    have h1 := inlines_plain (pre := line) (fun c hc hm => hb (by simp at hm; subst hm; exact hc)) 0 [] []
    simp only [Nat.add_zero, List.append_nil] at h1
    unfold processInline
    rw [h1]
    simp only [inlines, List.append_nil]
    rw [finish_val (by omega)]
    have := cstr_free h0 [] (by simp)
    rw [List.append_nil] at this
    simp [this]
  unfold extract
  rw [hp]
  simp only [C.val_bind]
  rw [Ial.keepLines_last hn hne, defLine_none]
  · rfl
  · rintro a e ⟨mark, hm, he, -⟩
    have : c!"[" ∈ line.take 1023 := by rw [he]; rcases hm with rfl | rfl <;> simp
    exact hb (List.mem_of_mem_take this)

/-- C50 fails for code. -/
theorem C50_abbr_code : extract b!"```\n*[HTML]: Hyper Text\n```\n" =
    .val (b!"```\n```\n", [(b!"HTML", b!"Hyper Text")]) := by decide +kernel

/-- C90 fails for abbreviations with white space at the end: the document ends there. Whatever follows (`r`), the
text left is that of the document cut off behind the abbreviation. -/
theorem C90_lost {pre a ws sp e r : Bytes} (h0 : (0 : Byte) ∉ pre ++ a) (hp : Free b!"[" pre) (ha : EndsInk a)
    (hane : a ≠ []) (hw : Gap ws) (hwne : ws ≠ []) (hi : Inline (a ++ ws) sp e) :
    ∃ o l l', extract (pre ++ (inlineText (a ++ ws) sp e ++ r)) = .val (o, l) ∧ extract (pre ++ a) = .val (o, l') := by
  obtain ⟨l, h1⟩ := processInline_lost (r := r) h0 hp ha hane hw hwne hi
  have h2 := processInline_plain h0 hp (fun c hc hm => hi.abbr c (by simp [hc]) hm) hane
  obtain ⟨o, l', h3⟩ := keepLines_total (pre ++ a) [] 0
  refine ⟨o, l ++ l', l', ?_, ?_⟩
  · unfold extract; rw [h1]; simp only [C.val_bind]; rw [h3]; rfl
  · unfold extract; rw [h2]; simp only [C.val_bind]; rw [h3]; rfl

/-- Such a text. -/
example : extract b!"See [>(W3C ) World Wide Web Consortium] for more.\n\nSecond paragraph.\n" =
    .val (b!"See W3C", [(b!"W3C", b!"World Wide Web Consortium")]) := by decide +kernel

/-- C90: the empty document is a write past the end of an allocation of size zero. -/
theorem C90_empty : extract [] = .ub := by decide +kernel

/-! ### C91 marking -/

/-- C91, where the result is shorter than five times the HTML, the elements are shorter than 2048 bytes and the
bracketed texts shorter than 256 bytes: the abbreviations are marked as they should be. -/
theorem C91_marks_partial {l : List Pair} {html o : Bytes} (hne : l ≠ []) (h : Marks l none html o)
    (ho : o.length < html.length * 5) (hl : ∀ p ∈ l, (element p).length < 2048)
    (hb : ∀ x, Body x → bracket x <:+: html → x.length < 256) {n : Nat} (hn : html.length ≤ n) :
    replace l n html = some (.val o) := by
  obtain ⟨ts, h1, h2, h3⟩ := toks_marks h hl hb n hn
  unfold replace
  rw [if_neg hne, h1]
  simp only []
  rw [DropBuf.run_fits h2 (by rw [h3]; exact ho), h3]

/-- There is such a marking, unless an abbreviation is empty. -/
theorem C91_marks_exist {l : List Pair} (hl : ∀ p ∈ l, p.1 ≠ []) (html : Bytes) : ∃ o, Marks l none html o :=
  marks_exists hl none html

/-- Without abbreviations nothing changes. -/
theorem C91_none (n : Nat) (html : Bytes) : replace [] n html = some (.val html) := rfl

/-- Whole words are marked, others not. -/
example : replace [(b!"HTML", b!"Hyper")] 40 b!"<p>HTML and XHTML, HTML5 and HTML.</p>" =
    some (.val b!"<p><abbr title=\"Hyper\">HTML</abbr> and XHTML, HTML5 and <abbr title=\"Hyper\">HTML</abbr>.</p>") := by
  decide +kernel

/-- C91 fails in short documents with long expansions: the word disappears. -/
theorem C91_lost : replace [(b!"HTML", b!"the Hyper Text Markup Language of the web")] 20 b!"<p>HTML</p>\n" =
    some (.val b!"<p></p>\n") := by decide +kernel

/-- C91 fails: where the elements fill the buffer, the terminator is written behind its end. -/
theorem C91_overrun : replace [(b!"A", b!"fourteen bytes")] 20 b!"<p>A</p>\n" = some .ub := by decide +kernel

/-- C91 fails: attributes of other elements are damaged. -/
theorem C91_attribute : replace [(b!"me", b!"x")] 40 b!"<a href=\"/me\">see me</a> and more" =
    some (.val b!"<a href=\"/<abbr title=\"x\">me</abbr>\">see <abbr title=\"x\">me</abbr></a> and more") := by
  decide +kernel

/-- C91 fails: a bracketed abbreviation of 256 bytes or more overruns an array, whatever the other abbreviations. -/
theorem C91_array {l : List Pair} (hne : l ≠ []) {a e t : Bytes} (ha : Free b!")]\n<" a) (hl : 256 ≤ a.length)
    (he : Free b!"]\n<" e) (hene : e ≠ []) (n : Nat) :
    replace l (n + 1) (b!"[&gt;(" ++ a ++ b!")" ++ e ++ b!"]" ++ t) = some .ub := by
  have hb : Body (b!"(" ++ a ++ b!")" ++ e) := by
    intro c hc hm
    simp only [List.mem_append] at hc
    rcases hc with ((h | h) | h) | h
    · simp at h; subst h; simp at hm
    · exact ha c h (by simp at hm ⊢; grind)
    · simp at h; subst h; simp at hm
    · exact he c h hm
  have e1 : b!"[&gt;(" ++ a ++ b!")" ++ e ++ b!"]" ++ t = bracket (b!"(" ++ a ++ b!")" ++ e) ++ t := by simp [bracket]
  have h3 := Ial.span_free (bad := b!")") (p := fun c => decide (c ≠ c!")")) (by simp)
    (fun c hc hm => ha c hc (by simp at hm ⊢; exact .inl hm)) (d := c!")") (r := e) (by simp)
  have ed : (b!"(" ++ a ++ b!")" ++ e).drop 1 = a ++ c!")" :: e := by simp
  have hane : a ≠ [] := by rintro rfl; simp at hl
  have hm : marked l (bracket (b!"(" ++ a ++ b!")" ++ e) ++ t) = .ub := by
    rw [marked_body hb, if_pos (by simp), ed, if_pos (by simp), h3.1, h3.2]
    simp only [List.drop_succ_cons, List.drop_zero]
    rw [if_pos ⟨hane, hene⟩, if_neg (by omega)]
  have ec : bracket (b!"(" ++ a ++ b!")" ++ e) ++ t = c!"[" :: (b!"&gt;" ++ (b!"(" ++ a ++ b!")" ++ e) ++ b!"]" ++ t) := by
    simp [bracket]
  unfold replace
  rw [if_neg hne, e1, ec, toks, ← ec, hm]

/-! ### C92 termination -/

/-- C92, when no abbreviation is empty: one turn for every byte is enough. -/
theorem C92_terminates_partial {l : List Pair} (hl : ∀ p ∈ l, p.1 ≠ []) (html : Bytes) :
    replace l html.length html ≠ none := by
  have := toks_some hl html.length none html (Nat.le_refl _)
  unfold replace
  split
  · simp
  · split
    · simp
    · simp
    · rename_i h; exact absurd h this

/-- C92 fails when the newest abbreviation is empty: at the first byte that is not a letter or digit and follows none,
marking never ends. -/
theorem C92_loops {e : Bytes} {l : List Pair} {c : Byte} {t : Bytes} (hc : ¬ Word c) (hb : c ≠ c!"[") (n : Nat) :
    replace (([], e) :: l) n (c :: t) = none := by
  have hm : marked (([], e) :: l) (c :: t) = .val none := by
    refine marked_none fun x q r _ he => hb ?_
    simp [bracket] at he; exact he.1
  have hh : here (([], e) :: l) none (c :: t) = some ([], e) :=
    here_some.2 ⟨[], l, rfl, ⟨c :: t, rfl, by simp, by simpa using hc⟩, by simp⟩
  have : ∀ n, toks (([], e) :: l) n none (c :: t) = none := by
    intro n
    induction n with
    | zero => rfl
    | succ n ih =>
      rw [toks]
      simp only [hm, hh]
      simp [ih]
  unfold replace
  rw [if_neg (by simp), this]

/-- Seven bytes of Markdown are enough: they define an empty abbreviation, and no HTML page can be marked. -/
theorem C92_loops_text : extract b!"[>( )x]" = .val (b!" ", [([], b!"x")]) ∧
    ∀ n t, replace [([], b!"x")] n (b!"<p>" ++ t) = none :=
  ⟨by decide +kernel, fun n t => C92_loops (t := b!"p>" ++ t) (by unfold Word; decide) (by decide) n⟩

end Verif.Abbr
