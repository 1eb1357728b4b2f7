/-
C180, C181: images that look for their own variants.
-/
import Verif.Proof.AutoMedia

namespace Verif.AutoMedia
open Spec (Tag Opens Attr NoAttr Page Plain Value Used Turned Closed)

/-! ### C180 pages -/

/-- C180: outside the tags of images nothing changes, and a tag changes only when the mark is in it or behind it; this holds of every page that is written. -/
theorem C180_rest {ex : Bytes → Bool} {base html o : Bytes} (h : expand ex base html = .val o) :
    ∃ o', Page (fun tag rest new => new = tag ∨ Spec.mark <:+: tag ++ rest) html o' ∧ (o = o' ∨ o = o'.takeWhile (· != 0)) := by
  unfold expand at h
  split at h
  · simp only [C.val.injEq] at h
    subst h
    refine ⟨html, ?_, Or.inl rfl⟩
    have : ∀ n (s : Bytes), s.length ≤ n → Page (fun tag rest new => new = tag ∨ Spec.mark <:+: tag ++ rest) s s := by
      intro n
      induction n with
      | zero => intro s hs; rw [List.eq_nil_of_length_eq_zero (by omega : s.length = 0)]; exact .nil
      | succ n ih =>
        intro s hs
        cases s with
        | nil => exact .nil
        | cons c s =>
          simp only [List.length_cons] at hs
          by_cases ho : Opens (c :: s)
          · by_cases ht : ∃ t r, c :: s = t ++ r ∧ Tag t
            · obtain ⟨t, r, e, ht⟩ := ht
              rw [e] at ho ⊢
              refine .tag ho ht (Or.inl rfl) (ih r ?_)
              have := congrArg List.length e
              have := List.length_pos_iff.2 (tag_ne ht)
              simp only [List.length_cons, List.length_append] at *
              omega
            · exact .cut ho (fun t r e h => ht ⟨t, r, e, h⟩) (ih s (by omega))
          · exact .text ho (ih s (by omega))
    exact this _ _ (Nat.le_refl _)
  · cases hg : go ex base html.length html.length (html.length * 2 + 2048) html with
    | ub => rw [hg] at h; cases h
    | val o' =>
      rw [hg, C.val_bind] at h
      simp only [C.val.injEq] at h
      refine ⟨o', page_mono ?_ (go_sound ex base _ _ _ _ _ hg), Or.inr h.symm⟩
      rintro t r n (⟨_, rfl⟩ | ⟨h, _⟩)
      · exact Or.inl rfl
      · exact Or.inr h

/-- C180: a page without the mark stays as it is. -/
theorem C180_unmarked {ex : Bytes → Bool} {base html : Bytes} (hz : (0 : Byte) ∉ html) (h : ¬ Spec.mark <:+: html) : expand ex base html = .val html := by
  unfold expand
  split
  · rfl
  · rw [go_unmarked ex base _ _ _ _ (Nat.le_refl _) (Or.inl (by omega)) h, C.val_bind, takeWhile_zero hz]

/-- C180 and C181, for pages whose tags of images have an end: every image becomes the video or the picture for the files that are there, everything else stays. -/
theorem C180_page_partial {ex : Bytes → Bool} {base html o : Bytes} (hb : base ≠ []) (hc : Closed html) (hz : (0 : Byte) ∉ o)
    (h : Page (Turned fun u => ex (base ++ b!"/" ++ u)) html o) : expand ex base html = .val o := by
  unfold expand
  rw [if_neg hb, go_complete ex base _ (page_mono (fun _ _ _ => turned) h) hc _ _ (Nat.le_refl _), C.val_bind, takeWhile_zero hz]

/-- The files of the examples. -/
def disk (p : Bytes) : Bool := decide (p ∈ [b!"d/img/a.png", b!"d/img/a@2x.png", b!"d/img/a.webp", b!"d/clip.mp4", b!"d/clip.webm", b!"d/b.jpg"])

example : expand disk b!"d" b!"<p><img src=\"img/a.png\" alt=\"An > a\" data-apex-replace-auto=1> and <b>text</b></p>" =
    .val b!"<p><picture><source type=\"image/webp\" srcset=\"img/a.webp 1x\"><img src=\"img/a.png\" alt=\"An > a\" srcset=\"img/a.png 1x, img/a@2x.png 2x\"></picture> and <b>text</b></p>" := by
  decide +kernel

example : Spec.Closed b!"<img/>." ∧ Page (Turned fun u => disk (b!"d/" ++ u)) b!"<img/>." b!"<img/>." := by
  refine ⟨?_, ?_⟩
  · intro a b e ho
    match a with
    | [] => exact ⟨b!"<img/>", b!".", by simpa using e.symm, b!"<img/", rfl,
        .plain (by decide) (.plain (by decide) (.plain (by decide) (.plain (by decide) (.plain (by decide) .nil))))⟩
    | c :: a =>
      exfalso
      have h1 : c!"<" ∉ b := by
        intro hm
        have : c!"<" ∈ a ++ b := List.mem_append_right _ hm
        simp only [List.cons_append, List.cons.injEq] at e
        rw [← e.2] at this
        exact absurd this (by decide)
      obtain ⟨n, d, t, rfl, hn, _⟩ := ho
      match n, hn with
      | x :: n, hn =>
        simp only [List.map_cons, List.cons.injEq] at hn
        have : ∀ x : Byte, toLower x = c!"<" → x = c!"<" := forall_byte (p := fun x => toLower x = c!"<" → x = c!"<") (by decide +kernel)
        exact h1 (by rw [this x hn.1]; simp)
  · have hn : ¬ Spec.mark <:+: b!"<img/>" ++ b!"." := by decide +kernel
    have := Page.tag (R := Turned fun u => disk (b!"d/" ++ u)) (t := b!"<img/>") (r := b!".") (o := b!".") ⟨b!"<img", c!"/", b!">.", rfl, by decide, by decide⟩
      ⟨b!"<img/", rfl, .plain (by decide) (.plain (by decide) (.plain (by decide) (.plain (by decide) (.plain (by decide) .nil))))⟩ (.unmarked hn)
      (.text (fun h => by
        obtain ⟨n, d, t, e, h1, _⟩ := h
        have := congrArg List.length h1
        have h2 := congrArg List.length e
        simp at this h2
        omega) .nil)
    exact this

/-- C180 fails: an image without the mark in front of one with it is replaced too. -/
theorem C180_earlier : expand disk b!"d" b!"<img src=\"img/a.png\" alt=\"\" width=\"20\"> <img src=\"b.jpg\" alt=\"\" data-apex-replace-auto=1>" =
    .val b!"<picture><source type=\"image/webp\" srcset=\"img/a.webp 1x\"><img src=\"img/a.png\" alt=\"\" srcset=\"img/a.png 1x, img/a@2x.png 2x\"></picture> <img src=\"b.jpg\" alt=\"\" data-apex-replace-auto=1>" := by
  decide +kernel

/-- C180 fails: a backslash at the end of a value hides the end of the tag, and the image stays. -/
theorem C180_backslash : expand disk b!"d" b!"<img src=\"img/a.png\" alt=\"C:\\\" data-apex-replace-auto=1>" = .val b!"<img src=\"img/a.png\" alt=\"C:\\\" data-apex-replace-auto=1>" := by
  decide +kernel

/-! ### C181 replacements -/

/-- C181: an image alone on its page, below the base, with the mark. -/
theorem C181_image_partial {ex : Bytes → Bool} {base tag new : Bytes} (hb : base ≠ []) (ho : Opens tag) (ht : Tag tag) (hc : Closed tag) (hz : (0 : Byte) ∉ new)
    (h : Turned (fun u => ex (base ++ b!"/" ++ u)) tag [] new) : expand ex base tag = .val new := by
  have := C180_page_partial (ex := ex) (html := tag ++ []) (o := new ++ []) hb (by rw [List.append_nil]; exact hc) (by rw [List.append_nil]; exact hz)
    (.tag (by rw [List.append_nil]; exact ho) ht h .nil)
  simpa using this

example : expand disk b!"d" b!"<img src=\"clip.mp4\" alt=\"A clip\" data-apex-replace-auto=1>" =
    .val b!"<video title=\"A clip\"><source src=\"clip.webm\" type=\"video/webm\"><source src=\"clip.mp4\" type=\"video/mp4\"><source src=\"clip.mp4\" type=\"video/mp4\"></video>" ∧
    expand disk b!"d" b!"<img src=\"img/a.*\" alt=\"\" data-apex-replace-auto=1>" =
    .val b!"<picture><source type=\"image/webp\" srcset=\"img/a.webp 1x\"><img src=\"img/a.png\" alt=\"\" srcset=\"img/a.png 1x, img/a@2x.png 2x\"></picture>" := by decide +kernel

/-- The attributes are what the first `name=` with a quoted value gives. -/
theorem C181_attribute {name tag v : Bytes} : attr name true tag = some v ↔ Attr name tag v := attr_iff

/-- C181 fails for long texts of a video: the block is copied beyond its end. -/
theorem C181_long_video {ex : Bytes → Bool} {base tag rest src alt stem ext type : Bytes} (hb : base ≠ []) (ho : Opens (tag ++ rest)) (ht : Tag tag) (hm : Spec.mark <:+: tag ++ rest)
    (hs : Value b!"src" tag src) (ha : Value b!"alt" tag alt) (hu : Used (fun u => ex (base ++ b!"/" ++ u)) src stem ext) (hv : (ext.map toLower, type) ∈ Spec.own)
    (hl : 512 + 6 * (stem ++ b!"." ++ ext).length ≤ alt.length) : expand ex base (tag ++ rest) = .ub :=
  expand_ub hb ho ht hm (replace_video_ub hs ha hu hv hl)

/-- C181 fails for long texts of a picture. -/
theorem C181_long_picture {ex : Bytes → Bool} {base tag rest src alt stem ext : Bytes} (hb : base ≠ []) (ho : Opens (tag ++ rest)) (ht : Tag tag) (hm : Spec.mark <:+: tag ++ rest)
    (hs : Value b!"src" tag src) (ha : Value b!"alt" tag alt) (hu : Used (fun u => ex (base ++ b!"/" ++ u)) src stem ext) (hn : ∀ type, (ext.map toLower, type) ∉ Spec.own)
    (hv : (Spec.offers (fun u => ex (base ++ b!"/" ++ u)) stem b!"avif" || Spec.offers (fun u => ex (base ++ b!"/" ++ u)) stem b!"webp" ||
      ex (base ++ b!"/" ++ (stem ++ b!"@2x." ++ ext)) || ex (base ++ b!"/" ++ (stem ++ b!"@3x." ++ ext))) = true)
    (hl : 1024 + 8 * (stem ++ b!"." ++ ext).length ≤ alt.length) : expand ex base (tag ++ rest) = .ub :=
  expand_ub hb ho ht hm (replace_picture_ub hs ha hu hn hv hl)

/-- C181 fails for addresses of 247 bytes with a variant for dense screens: the quote goes behind the end of an array. -/
theorem C181_long_address {ex : Bytes → Bool} {base tag rest src stem ext : Bytes} (hb : base ≠ []) (ho : Opens (tag ++ rest)) (ht : Tag tag) (hm : Spec.mark <:+: tag ++ rest)
    (hs : Value b!"src" tag src) (hu : Used (fun u => ex (base ++ b!"/" ++ u)) src stem ext) (hn : ∀ type, (ext.map toLower, type) ∉ Spec.own)
    (h2 : ex (base ++ b!"/" ++ (stem ++ b!"@2x." ++ ext)) = true) (hl : 247 ≤ (stem ++ b!"." ++ ext).length) : expand ex base (tag ++ rest) = .ub :=
  expand_ub hb ho ht hm (replace_srcset_ub hs hu hn h2 hl)

/-- Such pages exist. -/
example : expand (fun _ => true) b!"d" (b!"<img src=\"clip.mp4\" alt=\"" ++ List.replicate 900 c!"x" ++ b!"\" data-apex-replace-auto=1>") = .ub ∧
    expand (fun _ => true) b!"d" (b!"<img src=\"a.png\" alt=\"" ++ List.replicate 1200 c!"x" ++ b!"\" data-apex-replace-auto=1>") = .ub ∧
    expand (fun _ => true) b!"d" (b!"<img src=\"" ++ List.replicate 243 c!"x" ++ b!".png\" data-apex-replace-auto=1>") = .ub := by decide +kernel

/-- C181 fails: other attributes are lost. -/
theorem C181_class : expand disk b!"d" b!"<img src=\"clip.mp4\" alt=\"\" class=\"wide\" id=\"i\" data-apex-replace-auto=1>" =
    .val b!"<video><source src=\"clip.webm\" type=\"video/webm\"><source src=\"clip.mp4\" type=\"video/mp4\"><source src=\"clip.mp4\" type=\"video/mp4\"></video>" := by decide +kernel

/-- C181 fails: without a variant the mark stays in the page. -/
theorem C181_mark : expand disk b!"d" b!"<img src=\"b.jpg\" data-apex-replace-auto=1>" = .val b!"<img src=\"b.jpg\" data-apex-replace-auto=1>" ∧
    expand disk b!"d" b!"<img src=\"https://example.com/a.png\" data-apex-replace-auto=1>" = .val b!"<img src=\"https://example.com/a.png\" data-apex-replace-auto=1>" := by decide +kernel

/-- C181 fails: a file that is not there is named when only its denser variant is. -/
theorem C181_only_dense : expand (fun p => decide (p ∈ [b!"d/a.png", b!"d/a@2x.webp"])) b!"d" b!"<img src=\"a.png\" alt=\"\" data-apex-replace-auto=1>" =
    .val b!"<picture><source type=\"image/webp\" srcset=\"a.webp 1x, a@2x.webp 2x\"><img src=\"a.png\" alt=\"\"></picture>" := by decide +kernel

/-- C181 fails: names are looked up as they are encoded in the page. -/
theorem C181_encoded : expand (fun p => decide (p ∈ [b!"d/a b.png", b!"d/a b@2x.png"])) b!"d" b!"<img src=\"a%20b.png\" data-apex-replace-auto=1>" =
    .val b!"<img src=\"a%20b.png\" data-apex-replace-auto=1>" := by decide +kernel

/-- C181 fails: `title=` in the text of an image is taken for its title, and quotes in the text are not escaped. -/
theorem C181_title : expand disk b!"d" b!"<img src=\"img/a.png\" alt='use title=\"x\" here' title=\"T\" data-apex-replace-auto=1>" =
    .val b!"<picture><source type=\"image/webp\" srcset=\"img/a.webp 1x\"><img src=\"img/a.png\" alt=\"use title=\"x\" here\" title=\"x\" srcset=\"img/a.png 1x, img/a@2x.png 2x\"></picture>" := by
  decide +kernel

end Verif.AutoMedia
