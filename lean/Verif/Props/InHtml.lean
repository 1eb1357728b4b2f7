/-
C159, C160: Markdown in HTML elements, and their opening tags.
-/
import Verif.Proof.InHtml

namespace Verif.InHtml
open StripWrap.Spec (Tags html White Named Balanced Good)
open Spec (Mentions Other Attribute attributes Marked Plain Kind Trimmed Closed Converted)

/-- C159, for texts of tags, each with a `markdown` attribute or without one, if there is room: with the elements in them
converted, the contents are less than twice as long as before, so is the text, and opening tags have less than 2048 bytes.
Then the elements are converted, inner ones first, and everything else stays. -/
theorem C159_converted_partial (conv : Bytes → Bytes) {t : Bytes} {l : Tags} (ht : c!"<" ∉ t) (hg : Good l)
    (hl : ∀ x ∈ l, Plain x.1 ∨ ∃ n v w, Marked x.1 n v w) :
    (∃ sizes out, Converted conv l sizes out) ∧ ∀ sizes out, Converted conv l sizes out → (∀ x ∈ sizes, x.2.1 < 2 * x.1 ∧ x.2.2 < 2048) →
      (t ++ out).length < 2 * (t ++ html l).length → process conv (t ++ html l) = .val (t ++ out) := by
  refine ⟨converted_exists conv l.length l (Nat.le_refl _) hl, fun sizes out h hs hr => ?_⟩
  rw [process, loop_converted h t _ _ [] hg (passed_text ht) hs (Nat.lt_succ_self _) (by rw [List.length_append] at hr; simp only [List.length_nil]; omega)]
  simp only [C.bind]
  rw [List.nil_append, finish_val (by omega)]

/-- A text of any bytes without `markdown=` behind white space stays as it is, unless it is empty. -/
theorem C159_other_text (conv : Bytes → Bytes) {text : Bytes} (h : ¬ Mentions text) (hne : text ≠ []) : process conv text = .val text := by
  have := List.length_pos_iff.2 hne
  rw [process, loop, findTag_none h]
  simp only []
  rw [copy_val (by simp only [List.length_nil]; omega)]
  simp only [C.bind]
  rw [List.nil_append, finish_val (by omega)]

/-- A text with an element that is converted. -/
theorem process_one {conv : Bytes → Bytes} {text before content close rest tag : Bytes} {t : Tag} {inline : Bool} (h1 : findTag text = some (before, t))
    (h2 : closeTag t.name t.rest = some rest) (h3 : splitClose (t.rest.take (t.rest.length - rest.length)) = (content, close)) (h4 : mode t.value = some inline)
    (h5 : findTag content = none) (h6 : content ≠ []) (h7 : opening t = .val tag) (h8 : findTag rest = none) (k : Nat) (hk : text.length + 1 = k + 2) :
    process conv text = (fun b : Buf => finish b.cap b.out) (copy rest (newline (copy close (copy (trim inline (conv content)) (copy tag (copy before ⟨text.length * 2, []⟩)))))) := by
  have hp := List.length_pos_iff.2 h6
  rw [process, hk, loop, h1]
  simp only [h2, h3, h4]
  rw [if_neg h6, loop, h5]
  simp only []
  rw [copy_val (by simp only [List.length_nil]; omega)]
  simp only [C.bind]
  rw [List.nil_append, finish_val (by omega), h7]
  simp only []
  rw [loop, h8]

/-- Nine items of a list in a `div`: the terminator is written behind the block. -/
theorem C159_overflow_refuted {conv : Bytes → Bytes}
    (h : conv b!"\n- a\n- b\n- c\n- d\n- e\n- f\n- g\n- h\n- i\n" = List.flatten [b!"<ul>\n<li>a</li>\n<li>b</li>\n<li>c</li>\n<li>d</li>\n",
      b!"<li>e</li>\n<li>f</li>\n<li>g</li>\n<li>h</li>\n<li>i</li>\n</ul>\n"]) :
    process conv b!"<div markdown=\"1\">\n- a\n- b\n- c\n- d\n- e\n- f\n- g\n- h\n- i\n</div>" = .ub := by
  rw [process_one (t := ⟨b!"div", b!" markdown=\"1\"", b!"1", b!"\n- a\n- b\n- c\n- d\n- e\n- f\n- g\n- h\n- i\n</div>"⟩) (before := []) (rest := [])
    (content := b!"\n- a\n- b\n- c\n- d\n- e\n- f\n- g\n- h\n- i\n") (close := b!"</div>") (tag := b!"<div>") (inline := false) (by decide +kernel) (by decide +kernel) (by decide +kernel) (by decide +kernel)
    (by decide +kernel) (by decide +kernel) (by decide +kernel) (by decide +kernel) 60 (by decide +kernel), h]
  decide +kernel

/-- Twelve items: the list is lost. -/
theorem C159_lost_refuted {conv : Bytes → Bytes}
    (h : conv b!"\n- a\n- b\n- c\n- d\n- e\n- f\n- g\n- h\n- i\n- j\n- k\n- l\n" = List.flatten [b!"<ul>\n<li>a</li>\n<li>b</li>\n<li>c</li>\n<li>d</li>\n",
      b!"<li>e</li>\n<li>f</li>\n<li>g</li>\n<li>h</li>\n<li>i</li>\n<li>j</li>\n<li>k</li>\n<li>l</li>\n</ul>\n"]) :
    process conv b!"<div markdown=\"1\">\n- a\n- b\n- c\n- d\n- e\n- f\n- g\n- h\n- i\n- j\n- k\n- l\n</div>" = .val b!"<div></div>\n" := by
  rw [process_one (t := ⟨b!"div", b!" markdown=\"1\"", b!"1", b!"\n- a\n- b\n- c\n- d\n- e\n- f\n- g\n- h\n- i\n- j\n- k\n- l\n</div>"⟩) (before := []) (rest := [])
    (content := b!"\n- a\n- b\n- c\n- d\n- e\n- f\n- g\n- h\n- i\n- j\n- k\n- l\n") (close := b!"</div>") (tag := b!"<div>") (inline := false) (by decide +kernel) (by decide +kernel) (by decide +kernel) (by decide +kernel)
    (by decide +kernel) (by decide +kernel) (by decide +kernel) (by decide +kernel) 72 (by decide +kernel), h]
  decide +kernel

/-- Code is changed, too. -/
theorem C159_code_refuted {conv : Bytes → Bytes} (h : conv b!"*x*" = b!"<p><em>x</em></p>\n") :
    process conv b!"```html\n<b markdown=\"1\">*x*</b>\n```\n" = .val b!"```html\n<b><p><em>x</em></p>\n</b>\n\n```\n" := by
  rw [process_one (t := ⟨b!"b", b!" markdown=\"1\"", b!"1", b!"*x*</b>\n```\n"⟩) (before := b!"```html\n") (rest := b!"\n```\n")
    (content := b!"*x*") (close := b!"</b>") (tag := b!"<b>") (inline := false) (by decide +kernel) (by decide +kernel) (by decide +kernel) (by decide +kernel)
    (by decide +kernel) (by decide +kernel) (by decide +kernel) (by decide +kernel) 35 (by decide +kernel), h]
  decide +kernel

/-- Two paragraphs in a line of text: the first `<p>` and the last `</p>` are removed, which do not belong together. -/
theorem C159_span_refuted : trim true b!"<p>a</p>\n<p>b</p>\n" = b!"a</p>\n<p>b" := by
  decide +kernel

/-- The empty text: the terminator is written to a block of no bytes. -/
theorem C159_empty_refuted (conv : Bytes → Bytes) : process conv [] = .ub := rfl

/-- An element in an element. -/
theorem C159_example : process (fun s => b!"[" ++ s ++ b!"]") b!"a <i>b</i> <div class=\"c\" markdown=\"1\" id=\"d\">\n*e* <div>f</div> <p markdown=span>g</p>\n</div> h" =
    .val b!"a <i>b</i> <div class=\"c\" id=\"d\">[\n*e* <div>f</div> <p>[g]</p>\n\n]</div>\n h" := by
  decide +kernel

/-- C160, for tags whose attributes have a blank before them, and if the rest of the tag has less than 2048 bytes: the tag is
recognised, and it is written with all attributes but `markdown`, in their order. -/
theorem C160_opening_partial {w n v w' : Bytes} (h : Marked w n v w') (hw : c!">" ∉ w) (s : Bytes) (hl : w'.length + 2 < 2048) :
    ∃ t, tagAt (w ++ c!">" :: s) = some t ∧ t.name = n ∧ t.value = v ∧ t.rest = s ∧ t.src = b!"<" ++ w ++ b!">" ∧ opening t = .val (b!"<" ++ w' ++ b!">") := by
  obtain ⟨attrs, h1, h2, h3⟩ := tagAt_marked h hw s
  exact ⟨_, h2, rfl, rfl, rfl, by rw [h1]; simp [Tag.src], h3 hl⟩

/-- A tag without `markdown=` behind white space is not recognised. -/
theorem C160_plain {w : Bytes} (h : Plain w) (hw : c!">" ∉ w) (s : Bytes) : tagAt (w ++ c!">" :: s) = none :=
  tagAt_plain h hw s

/-- A line end instead of the first blank: the attribute behind it is lost. -/
theorem C160_lines_refuted : ∃ t, tagAt b!"div\nclass=\"c\" markdown=\"1\">" = some t ∧ opening t = .val b!"<div>" :=
  ⟨⟨b!"div", b!"\nclass=\"c\" markdown=\"1\"", b!"1", []⟩, by decide +kernel, by decide +kernel⟩

/-- The word in the value of another attribute counts, and tears this value apart. -/
theorem C160_mention_refuted : ∃ t, tagAt b!"b title=\"with markdown=1 here\">" = some t ∧ t.value = b!"1" ∧ opening t = .val b!"<b title=\"with here\">" :=
  ⟨⟨b!"b", b!" title=\"with markdown=1 here\"", b!"1", []⟩, by decide +kernel, by decide +kernel, by decide +kernel⟩

/-- With a tag of 2048 bytes, the terminator is written behind the array on the stack. -/
theorem C160_overflow_refuted {x v s : Bytes} (h : ∀ c ∈ x, isSpace c = false) (hx : x.length = 2042) (hm : ¬ b!"markdown=" <+: x) :
    opening ⟨b!"div", b!" markdown=1 " ++ x, v, s⟩ = .ub := by
  have hsp : ∀ c ∈ x, ¬ White c := fun c hc => by rw [← StripWrap.white_iff, h c hc]; simp
  have hm2 : ¬ Mentions x := by
    rintro ⟨a, c, y, rfl, hc⟩
    exact hsp c (by simp) hc
  obtain ⟨c, y, rfl⟩ : ∃ c y, x = c :: y := by
    cases x with
    | nil => simp at hx
    | cons c y => exact ⟨c, y, rfl⟩
  have hc := h c (by simp)
  have h1 : (b!" markdown=1 " ++ c :: y).dropWhile (· != c!" ") = b!" markdown=1 " ++ c :: y := rfl
  have h2 : ∀ k, copyAttrs (k + 3) (b!" markdown=1 " ++ c :: y) b!"<div" = b!"<div " ++ c :: y := by
    intro k
    rw [copyAttrs]
    have e1 : (b!" markdown=1 " ++ c :: y).dropWhile isSpace = b!"markdown=" ++ (b!"1 " ++ c :: y) := rfl
    simp only [e1]
    rw [if_neg (by simp), if_pos (List.prefix_append _ _), drop_word]
    have e2 : skipValue (b!"1 " ++ c :: y) = c!" " :: c :: y := rfl
    rw [e2, copyAttrs]
    have e3 : (c!" " :: c :: y).dropWhile isSpace = c :: y := by
      rw [List.dropWhile_cons, if_pos (by decide), List.dropWhile_cons, hc]; rfl
    simp only [e3]
    rw [if_neg (by simp), if_neg hm, others_end hm2]
    simp only []
    rw [hx, if_pos (by decide), copyAttrs]
    simp
  unfold opening
  simp only [h1]
  have h3 : (b!" markdown=1 " ++ c :: y).length + 1 = 2052 + 3 := by
    simp only [List.length_append, List.length_cons, List.length_nil] at hx ⊢
    omega
  rw [h3, show b!"<" ++ b!"div" = b!"<div" from rfl, h2, if_neg]
  rw [List.length_append, hx]
  decide

/-- An attribute that meets the hypotheses. -/
example : ∃ x : Bytes, (∀ c ∈ x, isSpace c = false) ∧ x.length = 2042 ∧ ¬ b!"markdown=" <+: x :=
  ⟨List.replicate 2042 c!"x", fun c hc => by rw [(List.mem_replicate.1 hc).2]; rfl, List.length_replicate, by
    rw [show 2042 = 2041 + 1 from rfl, List.replicate_succ]
    rintro ⟨y, hy⟩
    exact absurd (List.cons.inj hy).1 (by decide)⟩

/-- A tag that meets the hypotheses of `C160_opening_partial`. -/
example : Marked b!"div class=\"c\" markdown='block' id=d" b!"div" b!"block" b!"div class=\"c\" id=d" := by
  refine ⟨[b!"class=\"c\""], b!"markdown='block'", [b!"id=d"], rfl, rfl, ⟨by simp, by simp, by decide⟩, ?_, Or.inl ⟨c!"'", Or.inr rfl, by decide, by decide, rfl⟩, by simp⟩
  have key : ∀ w : Bytes, (∀ c ∈ w, isSpace c = false) → ¬ Mentions w := by
    rintro w h ⟨x, c, y, rfl, hc⟩
    have := h c (by simp)
    rw [(StripWrap.white_iff c).2 hc] at this
    cases this
  intro x hx
  simp only [List.cons_append, List.nil_append, List.mem_cons, List.not_mem_nil, or_false] at hx
  rcases hx with rfl | rfl
  · exact ⟨⟨_, _, rfl, by simp [White]⟩, ⟨b!"class=\"c", c!"\"", rfl, by simp [White]⟩, by decide, key _ (by decide)⟩
  · exact ⟨⟨_, _, rfl, by simp [White]⟩, ⟨b!"id=", c!"d", rfl, by simp [White]⟩, by decide, key _ (by decide)⟩

end Verif.InHtml
