/-
Pretty printing: C52, C94 and C95.
-/
import Verif.Proof.Pretty

namespace Verif.Pretty
open Spec

/-- C52: whatever the HTML, the pretty-printed text has no three newlines in a row. -/
theorem C52_no_gap {html o : Bytes} (h : pretty html = .val o) : NoGap o := by
  unfold pretty at h
  simp only [] at h
  cases hf : finish ((groups html.length start html).foldl writeGroup ⟨html.length * 2, []⟩).cap
      ((groups html.length start html).foldl writeGroup ⟨html.length * 2, []⟩).out with
  | ub => rw [hf, C.ub_bind] at h; cases h
  | val x =>
    rw [hf, C.val_bind] at h
    injection h with h
    rw [← h]
    exact few_noGap (Nat.le_refl 2) (collapse_few x 0)

/-- C52: the collapsing step drops newlines and nothing else. -/
theorem C52_only_newlines (s : Bytes) : (collapse 0 s).filter (fun c => decide (c ≠ c!"\n")) =
    s.filter fun c => decide (c ≠ c!"\n") := collapse_other s 0

/-- C52: a text without three newlines in a row is left as it is by the collapsing step. -/
theorem C52_keeps {s : Bytes} (h : NoGap s) : collapse 0 s = s :=
  collapse_id (noGap_few h 0 (by simpa using h) (by omega))

/-- C52: collapsing twice is collapsing once. -/
theorem C52_idempotent (s : Bytes) : collapse 0 (collapse 0 s) = collapse 0 s :=
  C52_keeps (few_noGap (Nat.le_refl 2) (collapse_few s 0))

example : pretty b!"<p>a</p>\n\n\n\n<p>b</p>" = .val b!"<p>\n  a\n</p>\n\n<p>\n  b\n</p>\n" := by decide +kernel

/-- C94, as long as no turn of the loop writes a hundred bytes or more: only white space is added or removed, and no
store is out of bounds. -/
theorem C94_partial {html : Bytes} (hne : html ≠ []) (h : ∀ g ∈ groups html.length start html, size g < 100) :
    ∃ o, pretty html = .val o ∧ ink o = ink html :=
  ⟨_, pretty_fits hne h, by rw [ink_collapse]; exact turns_ink start html⟩

/-- C94, in terms of the HTML: at most twenty tags, each shorter than 57 bytes. The text may be of any length. -/
theorem C94_small_partial {html : Bytes} (hne : html ≠ []) (ht : TagsBelow 57 html) (hc : html.count c!"<" ≤ 20) :
    ∃ o, pretty html = .val o ∧ ink o = ink html := by
  refine C94_partial hne fun g hg => ?_
  have := groups_small _ start html (tagsBelow_text ht) g hg
  have h0 : start.level = 0 := rfl
  omega

/-- C94 is false without the bound: inside thirty `<div>`s, a tag of more than the capacity left is lost. -/
theorem C94_lost_tag : ∃ o, pretty ((List.replicate 30 b!"<div>").flatten ++ b!"<img alt=\"" ++ List.replicate 500 c!"a" ++ b!"\">") =
    .val o ∧ c!"a" ∉ o := by
  have h : (match pretty ((List.replicate 30 b!"<div>").flatten ++ b!"<img alt=\"" ++ List.replicate 500 c!"a" ++ b!"\">") with
      | .val o => decide (c!"a" ∉ o) | .ub => false) = true := by decide +kernel
  revert h
  cases pretty ((List.replicate 30 b!"<div>").flatten ++ b!"<img alt=\"" ++ List.replicate 500 c!"a" ++ b!"\">") with
  | val o => intro h; exact ⟨o, rfl, by simpa using h⟩
  | ub => intro h; simp at h

/-- C94 is false for the empty text: the terminator is written behind a buffer of no bytes. -/
theorem C94_empty : pretty [] = .ub := by decide +kernel

/-- C95, for a code block without an element or two blank lines in a row in it, behind HTML whose tags are closed, and
as long as no turn of the loop writes a hundred bytes: the code is in the output byte for byte, between the same
tags, and around it only white space is changed. -/
theorem C95_partial {a code b : Bytes} (ha : Closed a) (hc : c!"<" ∉ code) (hg : NoGap code)
    (h : ∀ g ∈ groups (a ++ (b!"<pre><code>" ++ code ++ b!"</code>" ++ b)).length start
      (a ++ (b!"<pre><code>" ++ code ++ b!"</code>" ++ b)), size g < 100) :
    ∃ A B, pretty (a ++ (b!"<pre><code>" ++ code ++ b!"</code>" ++ b)) =
        .val (A ++ (b!"<pre><code>" ++ code ++ b!"</code>") ++ B) ∧ ink A = ink a ∧ ink B = ink b := by
  rw [pretty_fits (by simp) h]
  have hx : Sharp (b!"<pre><code>" ++ code ++ b!"</code>" ++ b) := by
    refine ⟨?_, ?_, _, rfl⟩ <;>
    · rintro ⟨z, hz⟩
      simp at hz
  obtain ⟨st', e⟩ := turns_append _ a _ start (Nat.le_refl _) ha hx
  obtain ⟨st'', e2⟩ := turns_block code b hc st'
  show ∃ A B, C.val (collapse 0 ((turns start (a ++ (b!"<pre><code>" ++ code ++ b!"</code>" ++ b))).flatten.flatMap
    DropBuf.Tok.out)) = _ ∧ _
  rw [e, List.flatten_append, List.flatMap_append, e2]
  have hng : NoGap (b!"<pre><code>" ++ code ++ b!"</code>") := by
    rintro ⟨u, v, huv⟩
    apply hg
    have hf : Few 2 (b!"<pre><code>" ++ code ++ b!"</code>") := by
      have h1 : Few 2 code := noGap_few hg 0 (by simpa using hg) (by omega)
      have app : ∀ (x : Bytes) k, Few k x → Few k (x ++ b!"</code>") := by
        intro x
        induction x with
        | nil => intro k _; simp [Few]
        | cons c x ih =>
          intro k hk
          rw [List.cons_append, Few]
          rw [Few] at hk
          split
          · rename_i hc; rw [if_pos hc] at hk; exact ⟨hk.1, ih _ hk.2⟩
          · rename_i hc; rw [if_neg hc] at hk; exact ih _ hk
      have h2 := app code 2 h1
      simpa [Few] using h2
    exact absurd ⟨u, v, huv⟩ (few_noGap (Nat.le_refl 2) hf)
  obtain ⟨A, B, h1, h2, h3⟩ := collapse_keep hng (by simp)
    (by rw [List.getLast?_append]; simp) (by simp)
    ((turns start a).flatten.flatMap DropBuf.Tok.out) ((turns st'' b).flatten.flatMap DropBuf.Tok.out) 0
  exact ⟨A, B, by rw [h1], by rw [h2, turns_ink], by rw [h3, turns_ink]⟩

/-- A case with a blank line in the code. -/
example : pretty b!"<p>x</p><pre><code>a\n\n  b\n</code></pre>" =
    .val b!"<p>\n  x\n</p>\n<pre><code>a\n\n  b\n</code></pre>\n" := by decide +kernel

/-- C95 is false for code with two blank lines in a row: one of them is lost. -/
theorem C95_blank_lines : pretty b!"<pre><code>a\n\n\nb\n</code></pre>" = .val b!"<pre><code>a\n\nb\n</code></pre>\n" := by
  decide +kernel

/-- C95 is false for highlighted code: behind a `</code>` in a `<pre>` the text counts as ordinary and is indented. -/
theorem C95_indented : pretty b!"<div><pre><code>a</code>\nb\n</pre></div>" =
    .val b!"<div>\n<pre><code>a</code>\n  b\n</pre>\n</div>\n" := by decide +kernel

/-- Pretty printing twice is not the same as once. -/
theorem C94_not_idempotent : ∃ html o o', pretty html = .val o ∧ pretty o = .val o' ∧ o ≠ o' :=
  ⟨b!"<div>a</div>", b!"<div>\n  a\n</div>\n", b!"<div>\n\n    a\n</div>\n\n", by decide +kernel, by decide +kernel, by decide⟩

/-! ### C110: text and its elements -/

/-- C110, for a line that begins with a character, as long as no turn of the loop writes a hundred bytes: the line is in the
output byte for byte, behind the tag of its paragraph; around it only white space is changed. -/
theorem C110_partial {a n x b : Bytes} (ha : Closed a) (hn : n ∈ holders) (hx : Phrase x) {c : Byte} (hc : x.head? = some c)
    (hw : c ≠ c!"<" ∧ ¬ Transforms.Spec.White c)
    (h : ∀ g ∈ groups (a ++ (c!"<" :: n ++ c!">" :: (x ++ b))).length start (a ++ (c!"<" :: n ++ c!">" :: (x ++ b))), size g < 100) :
    ∃ A B, pretty (a ++ (c!"<" :: n ++ c!">" :: (x ++ b))) = .val (A ++ x ++ B) ∧
      ink A = ink a ++ (c!"<" :: n ++ b!">") ∧ ink B = ink b := by
  rw [pretty_fits (by simp) h]
  have hs : Sharp (c!"<" :: n ++ c!">" :: (x ++ b)) := by
    have hno : ∀ n ∈ holders, ¬ b!"<tr" <+: c!"<" :: n ++ b!">" ∧ ¬ b!"</tbody>" <+: c!"<" :: n ++ b!">" := by decide +kernel
    have e : c!"<" :: n ++ c!">" :: (x ++ b) = (c!"<" :: n ++ b!">") ++ (x ++ b) := by simp
    rw [e]
    refine ⟨fun h => (hno n hn).1 ((prefix_cut (by simp) (by decide)).1 h),
      fun h => (hno n hn).2 ((prefix_cut (by simp) (by decide)).1 h), _, rfl⟩
  obtain ⟨st1, e1⟩ := turns_append _ a _ start (Nat.le_refl _) ha hs
  obtain ⟨w, st2, hink, e2⟩ := turns_holder hn st1 (x ++ b)
  obtain ⟨x', rfl⟩ : ∃ x', x = c :: x' := by
    cases x with
    | nil => simp at hc
    | cons d x' => simp at hc; exact ⟨x', by rw [hc]⟩
  obtain ⟨w2, st3, hw2, hst, e3⟩ := turns_first hw st2 (x' ++ b)
  obtain ⟨st4, e4⟩ := turns_phrase b _ x' (Nat.le_refl _) (phrase_suffix (u := [c]) hx) st3 hst
  show ∃ A B, C.val (collapse 0 ((turns start (a ++ (c!"<" :: n ++ c!">" :: (c :: x' ++ b)))).flatten.flatMap
    DropBuf.Tok.out)) = _ ∧ _
  rw [e1, List.flatten_append, List.flatMap_append, e2]
  have e5 : c :: x' ++ b = c :: (x' ++ b) := rfl
  rw [e5, e3, e4]
  have hg := noGap_of_not_mem hx.1
  obtain ⟨A, B, h1, h2, h3⟩ := collapse_keep hg (by rintro h; exact hx.1 (List.mem_of_mem_head? h))
    (by intro h; exact hx.1 (List.mem_of_mem_getLast? h)) (by simp)
    ((turns start a).flatten.flatMap DropBuf.Tok.out ++ w ++ w2) ((turns st4 b).flatten.flatMap DropBuf.Tok.out) 0
  refine ⟨A, B, ?_, ?_, ?_⟩
  · rw [← h1]; simp
  · rw [h2, ink_append, ink_append, turns_ink, hink, hw2, List.append_nil]
  · rw [h3, turns_ink]

/-- A case. -/
example : pretty b!"<p>H<sub>2</sub>O and <a href=\"x\">y</a>.</p>" =
    .val b!"<p>\n  H<sub>2</sub>O and <a href=\"x\">y</a>.\n</p>\n" := by decide +kernel

/-- C110 is false for a paragraph that begins with an image: blanks are put between the image and the text behind it. -/
theorem C110_image : pretty b!"<p><img src=\"a.png\">s</p>" = .val b!"<p>\n<img src=\"a.png\">  s\n</p>\n" := by
  decide +kernel

/-- C110 is false for a paragraph that begins with an element: blanks are put into it. -/
theorem C110_strong : pretty b!"<p><strong>a</strong>b</p>" = .val b!"<p>\n<strong>  a</strong>b\n</p>\n" := by
  decide +kernel

end Verif.Pretty
