/-
C153: paragraphs around the images of figures.
C154: paragraphs around figures, videos and pictures.
-/
import Verif.Proof.StripWrap

namespace Verif.StripWrap
open Spec

/-- C153 for pages of tags without `<` and `>` in them, whose figures are closed: in figures, each paragraph of nothing but
an image becomes that image, and everything else stays as it is. -/
theorem C153_freed_partial {text : Bytes} {l : Tags} (ht : c!"<" ∉ text) (hg : Good l) (hb : Balanced b!"figure" l) :
    ∃ o, Freed 0 l o ∧ stripFigures (text ++ html l) = .val (text ++ o) := by
  have hd := balanced_deep hb 0 [] .nil
  rw [List.append_nil] at hd
  obtain ⟨o, ho⟩ := freed_exists _ 0 l (Nat.le_refl _) hd
  exact ⟨o, ho, stripFigures_run (figureRun_text ht (freed_run ho hg))⟩

/-- C153: there is only one such page. -/
theorem C153_unique {l : Tags} {o o' : Bytes} (hg : Good l) (h : Freed 0 l o) (h' : Freed 0 l o') : o = o' := by
  have h1 := stripFigures_run (freed_run h hg)
  have h2 := stripFigures_run (freed_run h' hg)
  rw [h1] at h2
  cases h2
  rfl

/-- C153: whatever the page, there is a result, not longer than the page, and only tags of paragraphs are removed, with the
white space and the character `<` behind an opening tag, and the white space before a closing tag. -/
theorem C153_every_page (page : Bytes) : ∃ o, stripFigures page = .val o ∧ Less LeadOpener LastCloser page o := by
  obtain ⟨o, ho⟩ := figureRun_exists _ 0 page (Nat.le_refl _)
  exact ⟨o, stripFigures_run ho, figureRun_less ho⟩

/-- An example. -/
theorem C153_example :
    stripFigures b!"A<figure class=\"x\"><p>&lt; <img src=\"a>b\"/>\n</p><p>c</p></figure><p><img/></p>" =
      .val b!"A<figure class=\"x\"><img src=\"a>b\"/><p>c</p></figure><p><img/></p>" := by decide +kernel

/-- An example of the tags of a page. -/
theorem C153_page_example :
    Good [(b!"figure", []), (b!"p", b!"&lt; "), (b!"img src=\"a\"", []), (b!"/p", []), (b!"/figure", b!"B")] ∧
    Balanced b!"figure" [(b!"figure", []), (b!"p", b!"&lt; "), (b!"img src=\"a\"", []), (b!"/p", []), (b!"/figure", b!"B")] ∧
    Freed 0 [(b!"figure", []), (b!"p", b!"&lt; "), (b!"img src=\"a\"", []), (b!"/p", []), (b!"/figure", b!"B")]
      b!"<figure><img src=\"a\"></figure>B" := by
  have hq : ∀ w : Bytes, c!"\"" ∉ w → c!"'" ∉ w → Quoted w := by
    intro w h1 h2
    induction w with
    | nil => exact .nil
    | cons c w ih =>
      exact .char (by rintro rfl; simp at h1) (by rintro rfl; simp at h2) (ih (fun h => h1 (by simp [h])) fun h => h2 (by simp [h]))
  have hn : ∀ {w : Bytes}, w.head?.map toLower ≠ some c!"f" → ¬ Named b!"figure" w := by
    intro w h h'
    obtain ⟨c, t, rfl, hc, -⟩ := named_head h'
    exact h (by simp [hc])
  have hs : ∀ {w : Bytes}, w.head? ≠ some c!"/" → ¬ Named b!"/figure" w := by
    intro w h h'
    obtain ⟨t, rfl, -⟩ := named_slash.1 h'
    exact h rfl
  have ho : Named b!"figure" b!"figure" := ⟨b!"figure", [], rfl, rfl, .inl rfl⟩
  have hc : Named b!"/figure" b!"/figure" := ⟨b!"/figure", [], rfl, rfl, .inl rfl⟩
  have hp : Named b!"p" b!"p" := ⟨b!"p", [], rfl, rfl, .inl rfl⟩
  have hpc : Named b!"/p" b!"/p" := ⟨b!"/p", [], rfl, rfl, .inl rfl⟩
  have hpf : ¬ Named b!"/figure" b!"/p" := by
    intro h
    obtain ⟨t, ht, h⟩ := named_slash.1 h
    cases ht
    exact hn (by decide) h
  refine ⟨?_, ?_, ?_⟩
  · intro x hx
    simp only [List.mem_cons, List.not_mem_nil, or_false] at hx
    rcases hx with rfl | rfl | rfl | rfl | rfl
    · exact ⟨by decide, by decide, hq _ (by decide) (by decide), by decide⟩
    · exact ⟨by decide, by decide, hq _ (by decide) (by decide), by decide⟩
    · refine ⟨by decide, by decide, ?_, by decide⟩
      refine .char (by decide) (by decide) (.char (by decide) (by decide) (.char (by decide) (by decide) (.char (by decide) (by decide)
        (.char (by decide) (by decide) (.char (by decide) (by decide) (.char (by decide) (by decide) (.char (by decide) (by decide) ?_)))))))
      exact .value (v := b!"a") (.inl rfl) (by decide) .nil
    · exact ⟨by decide, by decide, hq _ (by decide) (by decide), by decide⟩
    · exact ⟨by decide, by decide, hq _ (by decide) (by decide), by decide⟩
  · exact .nested (a := [(b!"p", b!"&lt; "), (b!"img src=\"a\"", []), (b!"/p", [])]) ho
      (.other (hn (by decide)) (hs (by decide)) (.other (hn (by decide)) (hs (by decide)) (.other (hn (by decide)) hpf .nil))) hc .nil
  · refine .figure (o := b!"<img src=\"a\"></figure>B") ho (.free (image := b!"<img src=\"a\">") (t := []) (o := b!"</figure>B") ?_
      (.closed (x := (b!"/figure", b!"B")) (o := []) hc .nil))
    exact ⟨b!"p", b!"&lt; ", b!"img src=\"a\"", [], b!"/p", rfl, hp, .inr ⟨[], b!" ", rfl, by simp [Blank], by simp [Blank]⟩,
      ⟨b!"img", b!" src=\"a\"", rfl, rfl, .inr ⟨_, _, rfl, .inl rfl⟩⟩, by simp [Blank], hpc, rfl⟩

/-- C153 is false for all pages: behind the end of a figure that never began, the images of the next figure stay in their
paragraphs; so do images with a line end behind `img`, and those at the end of a page. -/
theorem C153_not_freed :
    stripFigures b!"</figure><figure><p><img></p></figure>" = .val b!"</figure><figure><p><img></p></figure>" ∧
    stripFigures b!"<figure><p><img\nsrc=\"a\"></p></figure>" = .val b!"<figure><p><img\nsrc=\"a\"></p></figure>" ∧
    stripFigures b!"<figure><p><img></p>" = .val b!"<figure><p><img></p>" := by decide +kernel

/-- C153 is false for all pages: behind a closing tag without `>`, the text is lost. -/
theorem C153_text_lost :
    stripFigures b!"<figure><p><img></p and the rest" = .val b!"<figure><img>" := by decide +kernel

/-- C154 for pages of tags without `<` and `>` in them: each paragraph of nothing but a figure, a video or a picture becomes
that block, and everything else stays as it is. -/
theorem C154_unwrapped_partial {text : Bytes} {l : Tags} (ht : c!"<" ∉ text) (hg : Good l) :
    ∃ o, Unwrapped l o ∧ stripBlocks (text ++ html l) = .val (text ++ o) := by
  obtain ⟨o, ho⟩ := unwrapped_exists _ l (Nat.le_refl _)
  exact ⟨o, ho, stripBlocks_run (blockRun_text ht (unwrapped_run ho hg))⟩

/-- C154: there is only one such page. -/
theorem C154_unique {l : Tags} {o o' : Bytes} (hg : Good l) (h : Unwrapped l o) (h' : Unwrapped l o') : o = o' := by
  have h1 := stripBlocks_run (unwrapped_run h hg)
  have h2 := stripBlocks_run (unwrapped_run h' hg)
  rw [h1] at h2
  cases h2
  rfl

/-- C154: whatever the page, there is a result, not longer than the page, and only tags of paragraphs are removed, with the
white space between them and the block. -/
theorem C154_every_page (page : Bytes) : ∃ o, stripBlocks page = .val o ∧ Less Opener (fun e _ => Closer e) page o := by
  obtain ⟨o, ho⟩ := blockRun_exists _ page (Nat.le_refl _)
  exact ⟨o, stripBlocks_run ho, blockRun_less ho⟩

/-- An example: an element in an element of its name. -/
theorem C154_example :
    stripBlocks b!"A<P class=\"x\">\n<Figure id=\"a>b\">c<figure >d</figure>e</FIGURE >\t</p\n>f<p>g<video></video></p>" =
      .val b!"A<Figure id=\"a>b\">c<figure >d</figure>e</FIGURE >f<p>g<video></video></p>" := by decide +kernel

/-- An example of a paragraph of nothing but a video. -/
theorem C154_page_example :
    Wraps [(b!"p", b!"\n"), (b!"video", b!"a"), (b!"br", []), (b!"/video", []), (b!"/p", b!"b")] b!"<video>a<br></video>" b!"b" [] := by
  refine ⟨b!"video", b!"p", b!"\n", (b!"video", b!"a"), [(b!"br", [])], b!"/video", [], b!"/p", .inr (.inl rfl), rfl,
    ⟨b!"p", [], rfl, rfl, .inl rfl⟩, by simp [Blank], ⟨⟨b!"video", [], rfl, rfl, .inl rfl⟩, .other ?_ ?_ .nil, ⟨b!"/video", [], rfl, rfl, .inl rfl⟩⟩,
    by simp [Blank], ⟨b!"/p", [], rfl, rfl, .inl rfl⟩, rfl⟩
  · intro h
    obtain ⟨c, t, hc, hl, -⟩ := named_head h
    cases hc
    exact absurd hl (by decide)
  · intro h
    obtain ⟨t, ht, -⟩ := named_slash.1 h
    cases ht

/-- C154 is false for all pages: a `>` in an attribute of the paragraph keeps it, and tags in comments count. -/
theorem C154_not_unwrapped :
    stripBlocks b!"<p title=\"a>b\"><figure></figure></p>" = .val b!"<p title=\"a>b\"><figure></figure></p>" ∧
    stripBlocks b!"<p><figure><!-- </figure></p> --></figure></p>" = .val b!"<figure><!-- </figure> --></figure></p>" := by
  decide +kernel

end Verif.StripWrap
