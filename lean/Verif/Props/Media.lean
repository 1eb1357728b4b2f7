/-
C176–C179: variants of an image's address, videos, the attributes written for an image, and how they are read.
-/
import Verif.Proof.Media

namespace Verif.Media
open Spec (Start Query InPath Dot Video Item Written Marked Pad)
open Ial (Attrs toHtml marker)
open Index (span_stop span_all)
open Ial.Spec (Gap Free blanks words)

/-! ### C176 addresses of variants -/

/-- C176: exactly the addresses with a dot in the path have a variant for dense screens: the mark goes in front of the last dot, everything else stays. -/
theorem C176_dense {mark url r : Bytes} : dense mark url = some r ↔ ∃ front ext tail, Dot url front ext tail ∧ r = front ++ mark ++ b!"." ++ ext ++ tail := dense_iff

/-- C176: for another format, what follows the last dot of the path is replaced. -/
theorem C176_format {url new r : Bytes} : withExt url new = some r ↔ ∃ front ext tail, Dot url front ext tail ∧ r = front ++ b!"." ++ new ++ tail := withExt_iff

/-- The parts of an address are unique. -/
theorem C176_parts {url f e t f' e' t' : Bytes} (h : Dot url f e t) (h' : Dot url f' e' t') : f = f' ∧ e = e' ∧ t = t' := dot_unique h h'

/-- C176, for ordinary absolute addresses: scheme, host and directories stay, the mark goes before the extension of the file. -/
theorem C176_host_partial {s h dir name ext tail : Bytes} (hs : ¬ b!"://" <:+: s ++ b!":/") (hh : c!"/" ∉ h) (hd : InPath dir) (hn : InPath name) (he : InPath ext)
    (hx : c!"." ∉ ext) (ht : Query tail) (mark new : Bytes) :
    dense mark (s ++ b!"://" ++ h ++ b!"/" ++ dir ++ name ++ b!"." ++ ext ++ tail) = some (s ++ b!"://" ++ h ++ b!"/" ++ dir ++ name ++ mark ++ b!"." ++ ext ++ tail) ∧
    withExt (s ++ b!"://" ++ h ++ b!"/" ++ dir ++ name ++ b!"." ++ ext ++ tail) new = some (s ++ b!"://" ++ h ++ b!"/" ++ dir ++ name ++ b!"." ++ new ++ tail) := by
  have hd : Dot (s ++ b!"://" ++ h ++ b!"/" ++ dir ++ name ++ b!"." ++ ext ++ tail) (s ++ b!"://" ++ h ++ b!"/" ++ dir ++ name) ext tail := by
    refine ⟨s ++ b!"://" ++ h, b!"/" ++ (dir ++ name ++ b!"." ++ ext ++ tail), b!"/" ++ dir ++ name, ?_, by simp,
      inPath_append.2 ⟨inPath_append.2 ⟨⟨by decide, by decide⟩, hd⟩, hn⟩, he, hx, ht, by simp⟩
    have := Start.host (s := s) (h := h) (r := dir ++ name ++ b!"." ++ ext ++ tail) hs hh
    simpa using this
  exact ⟨dense_iff.2 ⟨_, _, _, hd, rfl⟩, withExt_iff.2 ⟨_, _, _, hd, rfl⟩⟩

example : dense b!"@2x" b!"https://example.com/img/icon.png?v=1.2" = some b!"https://example.com/img/icon@2x.png?v=1.2" ∧
    withExt b!"/img/icon.png#top" b!"webp" = some b!"/img/icon.webp#top" ∧ ¬ b!"://" <:+: b!"https" ++ b!":/" := by decide +kernel

/-- C176 fails for an address without a path: the host is changed. -/
theorem C176_domain : dense b!"@2x" b!"https://example.com" = some b!"https://example@2x.com" := by decide +kernel

/-- C176 fails for files without an extension: the name of the directory is changed. -/
theorem C176_directory : dense b!"@2x" b!"./img.v2/icon" = some b!"./img@2x.v2/icon" ∧ dense b!"@2x" b!"https://example.com/v1.2/icon" = some b!"https://example.com/v1@2x.2/icon" := by decide +kernel

/-- C176 fails for a query with a slash in it: the variant is missing, or the query is changed. -/
theorem C176_query : dense b!"@2x" b!"icon.png?u=/a" = none ∧ dense b!"@2x" b!"icon.png?next=/a.b" = some b!"icon.png?next=/a@2x.b" := by decide +kernel

/-! ### C177 addresses of videos -/

/-- C177, for addresses without a section in front of a query. -/
theorem C177_video_partial {url : Bytes} (h : ∀ a b, url = a ++ b!"?" ++ b → c!"#" ∉ a) : isVideo url = true ↔ Video url := isVideo_iff h

example : isVideo b!"/media/Clip.MP4?start=1#t" = true ∧ isVideo b!"/media/clip.mp4.png" = false ∧ isVideo b!".mp4" = false := by decide +kernel

/-- C177 fails for a question mark in a section, and for hosts. -/
theorem C177_section : isVideo b!"clip.mp4#t=10?x" = false ∧ Video b!"clip.mp4#t=10?x" ∧ isVideo b!"https://example.mov" = true := by
  refine ⟨by decide +kernel, ⟨b!"clip", b!"mp4", b!"#t=10?x", rfl, by decide, ⟨by decide, by decide⟩, ⟨by decide, by decide⟩, .inr (.inr rfl), by decide⟩, by decide +kernel⟩

/-! ### C178 what is written -/

/-- C178: with `auto`, a mark for the renderer. -/
theorem C178_auto {url base : Bytes} {a : Attrs} (ha : Marked a b!"data-apex-auto") (hb : toHtml a = .val base) :
    forImage url a = .val (base ++ b!" data-apex-replace-auto=1") := by
  unfold forImage
  simp only [has_marked.2 ha, if_true, hb, C.val_bind]
  rw [fits, if_pos (by simp)]

/-- C178: for a video, a mark for each of the other formats, unless all five are asked for. -/
theorem C178_video_partial {url base : Bytes} {a : Attrs} (ha : ¬ Marked a b!"data-apex-auto") (hv : isVideo url = true) (hb : toHtml a = .val base)
    (h : ∃ f ∈ Spec.formats, ¬ Marked a (b!"data-video-" ++ f)) :
    forImage url a = .val (base ++ b!" data-apex-replace-video=1" ++ (Spec.formats.filter fun f => Marked a (b!"data-video-" ++ f)).flatMap fun f => b!" data-apex-video-" ++ f ++ b!"=1") := by
  have := (marks_len a).2 h
  unfold forImage
  simp only [has_not ha, hv, if_true, hb, C.val_bind, Bool.false_eq_true, if_false]
  rw [fits, if_pos (by rw [List.length_append]; omega), marks_eq, List.append_assoc]

/-- C178 fails for a video with all five formats: 138 bytes are written into 128. -/
theorem C178_overflow {url base : Bytes} {a : Attrs} (ha : ¬ Marked a b!"data-apex-auto") (hv : isVideo url = true) (hb : toHtml a = .val base)
    (h : ∀ f ∈ Spec.formats, Marked a (b!"data-video-" ++ f)) : forImage url a = .ub := by
  have : ¬ (videoMarks a).length < 128 := fun hl => by
    obtain ⟨f, hf, hn⟩ := (marks_len a).1 hl
    exact hn (h f hf)
  unfold forImage
  simp only [has_not ha, hv, if_true, hb, C.val_bind, Bool.false_eq_true, if_false]
  rw [fits, if_neg (by rw [List.length_append]; omega)]

/-- `![](clip.mp4 webm ogg mp4 mov m4v)` does it. -/
theorem C178_five (after : Bytes) : (do let a ← parse b!"webm ogg mp4 mov m4v" after; forImage b!"clip.mp4" a) = .ub := by
  have : parse b!"webm ogg mp4 mov m4v" after = .val ⟨none, [], [(b!"data-video-webm", b!"1"), (b!"data-video-ogg", b!"1"), (b!"data-video-mp4", b!"1"),
      (b!"data-video-mov", b!"1"), (b!"data-video-m4v", b!"1")]⟩ := by
    have gap1 : Gap b!" " := fun c h => by simp at h; subst h; exact .inl rfl
    have gap0 : Gap [] := fun c h => by simp at h
    have h5 : Written b!"m4v" [.word b!"m4v"] := .one (sep := []) (i := .word b!"m4v") gap0 ⟨b!"data-video-m4v", by decide⟩
    have h4 : Written b!"mov m4v" [.word b!"mov", .word b!"m4v"] := .cons (sep := []) (i := .word b!"mov") gap0 ⟨b!"data-video-mov", by decide⟩ gap1 h5
    have h3 : Written b!"mp4 mov m4v" [.word b!"mp4", .word b!"mov", .word b!"m4v"] := .cons (sep := []) (i := .word b!"mp4") gap0 ⟨b!"data-video-mp4", by decide⟩ gap1 h4
    have h2 : Written b!"ogg mp4 mov m4v" [.word b!"ogg", .word b!"mp4", .word b!"mov", .word b!"m4v"] := .cons (sep := []) (i := .word b!"ogg") gap0 ⟨b!"data-video-ogg", by decide⟩ gap1 h3
    have h1 : Written b!"webm ogg mp4 mov m4v" [.word b!"webm", .word b!"ogg", .word b!"mp4", .word b!"mov", .word b!"m4v"] :=
      .cons (sep := []) (i := .word b!"webm") gap0 ⟨b!"data-video-webm", by decide⟩ gap1 h2
    rw [parse_written h1 (by decide)]
    congr 1
  rw [this, C.val_bind]
  refine C178_overflow (base := []) ?_ (by decide +kernel) (by decide +kernel) ?_ <;> decide +kernel

/-- C178: for WebP and AVIF, the list of the pictures in each format asked for. -/
theorem C178_picture {url base front ext tail : Bytes} {a : Attrs} (ha : ¬ Marked a b!"data-apex-auto") (hv : isVideo url = false) (hb : toHtml a = .val base)
    (hd : Dot url front ext tail) (two three webp avif : Bool) (h3 : three = decide (Marked a b!"data-srcset-3x")) (h2 : two = (decide (Marked a b!"data-srcset-2x") || three))
    (hw : webp = decide (Marked a b!"data-srcset-webp")) (hf : avif = decide (Marked a b!"data-srcset-avif")) (h : webp = true ∨ avif = true) :
    forImage url a = .val (base ++ (if webp then b!" data-apex-replace-picture=1 data-apex-picture-webp=\"" ++ Spec.pictures front b!"webp" tail two three ++ b!"\"" else []) ++
      (if avif then b!" data-apex-picture-avif=\"" ++ Spec.pictures front b!"avif" tail two three ++ b!"\"" else []) ++ (if webp then [] else b!" data-apex-replace-picture=1")) := by
  have e : ∀ k, has a k = decide (Marked a k) := fun k => by
    by_cases h : Marked a k
    · rw [has_marked.2 h]; simp [h]
    · rw [has_not h]; simp [h]
  unfold forImage
  simp only [has_not ha, hv, e, ← h3, ← h2, ← hw, ← hf, Bool.false_eq_true, if_false, hb, C.val_bind, pictureSet_some hd]
  generalize Spec.pictures front b!"webp" tail two three = w
  generalize Spec.pictures front b!"avif" tail two three = v
  clear hw hf
  cases webp <;> cases avif
  · simp at h
  all_goals
    simp only [Bool.or_true, Bool.or_false, Bool.or_self, if_true, if_false, Bool.false_eq_true, fits, pictureMarks, room, Option.isNone_some, Option.isNone_none, Option.isSome_some, Option.isSome_none,
      Bool.and_self, Bool.and_true, Bool.true_and, Bool.false_and, Bool.and_false, List.append_nil, List.nil_append]
    rw [if_pos (by simp only [List.length_append, List.length_cons, List.length_nil]; omega)]
    try simp only [List.append_assoc]

/-- C178: otherwise, with `@2x` or `@3x`, the list of the denser pictures comes first; blanks at the end of the other attributes are left out. -/
theorem C178_srcset {url core pad front ext tail : Bytes} {a : Attrs} (ha : ¬ Marked a b!"data-apex-auto") (hv : isVideo url = false) (hb : toHtml a = .val (core ++ pad))
    (hw : ¬ Marked a b!"data-srcset-webp") (hf : ¬ Marked a b!"data-srcset-avif") (hd : Dot url front ext tail) (hp : Pad pad) (hc : ∀ c ∈ core.getLast?, ¬ Pad [c])
    (three : Bool) (h3 : three = decide (Marked a b!"data-srcset-3x")) (h2 : Marked a b!"data-srcset-2x" ∨ three = true) :
    forImage url a = .val (b!" srcset=\"" ++ url ++ b!" 1x, " ++ (front ++ b!"@2x" ++ b!"." ++ ext ++ tail) ++ b!" 2x" ++
      (if three then b!", " ++ (front ++ b!"@3x" ++ b!"." ++ ext ++ tail) ++ b!" 3x" else []) ++ b!"\"" ++ (if core = [] then [] else b!" " ++ core)) := by
  have e : ∀ k, has a k = decide (Marked a k) := fun k => by
    by_cases h : Marked a k
    · rw [has_marked.2 h]; simp [h]
    · rw [has_not h]; simp [h]
  have ht : trimEnd (core ++ pad) = core := by
    unfold trimEnd
    rw [List.reverse_append]
    have h1 : ∀ c ∈ pad.reverse, (c == c!" " || c == c!"\t") = true := fun c hc => by simpa using hp c (by simpa using hc)
    rcases List.eq_nil_or_concat core with rfl | ⟨x, l, rfl⟩
    · rw [List.reverse_nil, List.append_nil, (span_all (p := fun c => c == c!" " || c == c!"\t") h1).2]; rfl
    · rw [List.concat_eq_append] at hc ⊢
      have hl : (l == c!" " || l == c!"\t") = false := by
        have := hc l (by simp)
        simpa [Pad] using this
      rw [List.reverse_append, List.reverse_singleton, List.singleton_append, (span_stop (p := fun c => c == c!" " || c == c!"\t") h1 hl).2]
      simp
  have k2 := (dense_iff (mark := b!"@2x")).2 ⟨front, ext, tail, hd, rfl⟩
  have k3 := (dense_iff (mark := b!"@3x")).2 ⟨front, ext, tail, hd, rfl⟩
  have htwo : (decide (Marked a b!"data-srcset-2x") || three) = true := by
    rcases h2 with h | h <;> simp [h]
  unfold forImage
  simp only [has_not ha, has_not hw, has_not hf, hv, e, ← h3, htwo, Bool.or_self, Bool.false_eq_true, if_false, if_true, hb, C.val_bind, k2, k3, ht]
  clear h3 htwo h2
  cases three <;> simp only [Bool.false_eq_true, if_false, if_true, room, List.append_nil] <;>
    rw [clip_fits (by simp only [List.length_append, List.length_cons, List.length_nil]; omega)]

/-- C178: otherwise, the attributes alone. -/
theorem C178_plain {url : Bytes} {a : Attrs} (ha : ¬ Marked a b!"data-apex-auto") (hv : isVideo url = false)
    (hw : ¬ Marked a b!"data-srcset-webp") (hf : ¬ Marked a b!"data-srcset-avif")
    (h : (¬ Marked a b!"data-srcset-2x" ∧ ¬ Marked a b!"data-srcset-3x") ∨ ∀ f e t, ¬ Dot url f e t) : forImage url a = toHtml a := by
  unfold forImage
  simp only [has_not ha, has_not hw, has_not hf, hv, Bool.or_self, Bool.false_eq_true, if_false]
  rcases h with ⟨h2, h3⟩ | h
  · simp only [has_not h2, has_not h3, Bool.or_self, Bool.false_eq_true, if_false]
  · have : dense b!"@2x" url = none := by
      cases hd : dense b!"@2x" url with
      | none => rfl
      | some r =>
        obtain ⟨f, e, t, hd, _⟩ := dense_iff.1 hd
        exact absurd hd (h f e t)
    rw [this, ite_self]

/-- C178: the memory written to is that of the result, except when all five formats are asked for (or the attributes themselves do not fit, C89). -/
theorem C178_memory_partial (url : Bytes) (a : Attrs) : forImage url a = .ub ↔ toHtml a = .ub ∨
    (¬ Marked a b!"data-apex-auto" ∧ isVideo url = true ∧ ∀ f ∈ Spec.formats, Marked a (b!"data-video-" ++ f)) := by
  cases hb : toHtml a with
  | ub =>
    simp only [true_or, iff_true]
    unfold forImage
    simp only [hb, C.ub_bind]
    repeat' split
    all_goals rfl
  | val base =>
    simp only [reduceCtorEq, false_or]
    constructor
    · intro h
      by_cases ha : Marked a b!"data-apex-auto"
      · rw [C178_auto ha hb] at h; simp at h
      · refine ⟨ha, ?_⟩
        by_cases hv : isVideo url = true
        · refine ⟨hv, fun f hf => ?_⟩
          by_cases hm : Marked a (b!"data-video-" ++ f)
          · exact hm
          · rw [C178_video_partial ha hv hb ⟨f, hf, hm⟩] at h; simp at h
        · exfalso
          have hv : isVideo url = false := by simpa using hv
          unfold forImage at h
          simp only [has_not ha, hv, Bool.false_eq_true, if_false, hb, C.val_bind] at h
          split at h
          · rename_i hp
            by_cases hd : ∃ f e t, Dot url f e t
            · obtain ⟨f, e, t, hd⟩ := hd
              have e : ∀ k, has a k = decide (Marked a k) := fun k => by
                by_cases h : Marked a k
                · rw [has_marked.2 h]; simp [h]
                · rw [has_not h]; simp [h]
              have := C178_picture ha hv hb hd _ _ _ _ rfl rfl rfl rfl (by simpa [e] using hp)
              unfold forImage at this
              simp only [has_not ha, hv, Bool.false_eq_true, if_false, hb, C.val_bind, if_pos hp] at this
              rw [this] at h
              simp at h
            · have hd : ∀ f e t, ¬ Dot url f e t := fun f e t h => hd ⟨f, e, t, h⟩
              simp only [pictureSet_none hd, ite_self, fits, pictureMarks, room, Option.isNone_none, Option.isSome_none, Bool.and_false, Bool.false_eq_true, if_false, List.append_nil] at h
              rw [if_pos (by omega)] at h
              simp at h
          · split at h <;> simp at h
    · rintro ⟨ha, hv, h⟩
      exact C178_overflow ha hv hb h

/-- C178 fails for quotes in the address: they end the attribute. -/
theorem C178_quote : forImage b!"a\" onerror=\"b.png" ⟨none, [], [(b!"data-srcset-2x", b!"1")]⟩ =
    .val b!" srcset=\"a\" onerror=\"b.png 1x, a\" onerror=\"b@2x.png 2x\"" := by decide +kernel

example : forImage b!"/i/a.png" ⟨none, [], [(b!"alt", b!"x"), (b!"data-srcset-3x", b!"1")]⟩ =
      .val b!" srcset=\"/i/a.png 1x, /i/a@2x.png 2x, /i/a@3x.png 3x\" alt=\"x\"" ∧
    forImage b!"a.png?v=1" ⟨none, [], [(b!"data-srcset-webp", b!"1"), (b!"data-srcset-2x", b!"1")]⟩ =
      .val b!" data-apex-replace-picture=1 data-apex-picture-webp=\"a.webp?v=1 1x, a@2x.webp?v=1 2x\"" ∧
    forImage b!"a.mp4" ⟨none, [], [(b!"data-video-webm", b!"1")]⟩ = .val b!" data-apex-replace-video=1 data-apex-video-webm=1" := by decide +kernel

/-! ### C179 attributes of images -/

/-- C179: every list of fewer than 2048 bytes is read as what it says: names with their values, words for formats, a quoted text as the title. -/
theorem C179_meaning_partial {text : Bytes} {is : List Item} (h : Written text is) (hl : text.length < 2048) (after : Bytes) :
    parse text after = .val ⟨none, [], is.flatMap Item.pair⟩ := parse_written h hl after

/-- `width=300 @2x title="a b" 'c'` is such a list. -/
theorem C179_case : Written b!" width=300 @2x alt=\"a b\" 'c'" [.attr b!"width" b!"300" .none, .word b!"@2x", .attr b!"alt" b!"a b" .double, .title b!"c" .single] := by
  have gap1 : Gap b!" " := fun c h => by simp at h; subst h; exact .inl rfl
  have gap0 : Gap [] := fun c h => by simp at h
  have h4 : Written b!"'c'" [.title b!"c" .single] := .one (sep := []) (i := .title b!"c" .single) gap0 ⟨by simp, by unfold Free; decide, by decide⟩
  have h3 : Written b!"alt=\"a b\" 'c'" [.attr b!"alt" b!"a b" .double, .title b!"c" .single] :=
    .cons (sep := []) (i := .attr b!"alt" b!"a b" .double) (c := 32) gap0 ⟨by simp, by unfold Free; decide, by decide, by unfold Free; decide, by decide⟩ gap1 h4
  have h2 : Written b!"@2x alt=\"a b\" 'c'" [.word b!"@2x", .attr b!"alt" b!"a b" .double, .title b!"c" .single] :=
    .cons (sep := []) (i := .word b!"@2x") (c := 32) gap0 ⟨b!"data-srcset-2x", by decide⟩ gap1 h3
  exact .cons (sep := b!" ") (i := .attr b!"width" b!"300" .none) (c := 32) gap1 ⟨by simp, by unfold Free; decide, by decide, by unfold Free; decide, by decide⟩ gap1 h2

/-- C179, for every content: either the memory behind it does not matter, or it ends in a word without a meaning and reading goes on in that memory. -/
theorem C179_exact {content : Bytes} (hl : content.length < 2048) :
    (∃ a, ∀ after, parse content after = .val a) ∨
    ((∃ w, w ≠ [] ∧ w <:+ content ∧ (∀ c ∈ w, c ≠ c!"=" ∧ c ≠ 0 ∧ isSpace c = false) ∧ ∀ m, (w, m) ∉ words) ∧
      ∃ a, ∀ after, parse content after = run (after.length + 1) a after) := by
  rcases parse_local hl with h | ⟨⟨w, h1, h2, h3, h4⟩, h⟩
  · exact .inl h
  · refine .inr ⟨⟨w, h1, h2, fun c hc => ?_, fun m hm => ?_⟩, h⟩
    · have := h3 c hc
      unfold keyStop at this
      simp only [Bool.or_eq_false_iff, beq_eq_false_iff_ne, ne_eq] at this
      exact ⟨this.1.2, this.1.1, this.2⟩
    · rw [Ial.marker_eq, Ial.lookup_mem hm] at h4
      simp at h4

/-- C179 fails: after a word without a meaning at the end, the attributes depend on what is left of earlier contents of the stack. Both memories fill the array exactly. -/
theorem C179_stray {w : Bytes} (hw : Spec.Stray w) (hl : w.length ≤ 2040) :
    ∃ m m', w.length + 1 + m.length = 2048 ∧ w.length + 1 + m'.length = 2048 ∧ parse w m ≠ parse w m' := by
  have hm : marker w = none := by
    rw [Ial.marker_eq]
    cases h : words.lookup w with
    | none => rfl
    | some m =>
      have : ∀ (l : List (Bytes × Bytes)), l.lookup w = some m → (w, m) ∈ l := by
        intro l
        induction l with
        | nil => simp
        | cons p l ih =>
          intro h
          obtain ⟨k, v⟩ := p
          rw [List.lookup] at h
          split at h
          · rename_i hk
            simp at hk h
            subst hk; subst h
            simp
          · exact List.mem_cons_of_mem _ (ih h)
      exact absurd (this _ h) (hw.2.2.2 m)
  have go : ∀ after, parse w after = run (after.length + w.length + 1) Ial.empty after := by
    intro after
    unfold parse
    rw [List.take_of_length_le (by omega)]
    have hs := Ial.scan_stop (d := 0) (r := after) (key_free hw.2.1) (by decide)
    cases w with
    | nil => exact absurd rfl hw.1
    | cons c t =>
      have hc := hw.2.2.1 c (by simp)
      have hb := Ial.not_blank (hw.2.1 c (by simp))
      have s := Ial.scan_stop (stop := fun c => !isSpace c) (x := []) (d := c) (r := t ++ 0 :: after) (by simp) (by simp [hb.2.1])
      simp only [List.nil_append] at s
      have hq : ¬ (c = c!"\"" ∨ c = c!"'") := by simp [hc.1, hc.2]
      simp only [List.cons_append] at hs ⊢
      simp only [run, s, C.val_bind, if_neg hb.1, item, if_neg hq, hs, hm]
      rw [if_neg (by decide)]
      exact run_fuel (c :: (t ++ 0 :: after)).length (after.length + (c :: t).length + 1) Ial.empty after (by simp; omega) (by simp; omega)
  refine ⟨List.replicate (2047 - w.length) 0, b!"@2x" ++ List.replicate (2044 - w.length) 0, ?_, ?_, ?_⟩
  · simp; omega
  · simp; omega
  · rw [go, go]
    obtain ⟨n, hn⟩ : ∃ n, 2047 - w.length = n + 1 := ⟨2046 - w.length, by omega⟩
    obtain ⟨n', hn'⟩ : ∃ n, 2044 - w.length = n + 1 := ⟨2043 - w.length, by omega⟩
    rw [hn, hn', List.replicate_succ, List.replicate_succ]
    have gap0 : Gap [] := fun c h => by simp at h
    have e1 := run_written (Written.nil gap0) Ial.empty (List.replicate n 0) (n := (0 :: List.replicate n (0 : Byte)).length + w.length + 1) (by simp)
    have e2 := run_written (Written.one (sep := []) (i := .word b!"@2x") gap0 ⟨b!"data-srcset-2x", by decide⟩) Ial.empty (List.replicate n' 0)
      (n := (b!"@2x" ++ 0 :: List.replicate n' (0 : Byte)).length + w.length + 1) (by simp [Item.text]; omega)
    simp only [List.nil_append, Item.text] at e1 e2
    rw [e1, e2]
    decide

example : Spec.Stray b!"wide" := ⟨by simp, by unfold Free; decide, by decide, by simp [words]⟩

/-- C179 fails for escapes: the backslash stays in the value. -/
theorem C179_escape : parse b!"\"a\\\"b\"" [] = .val ⟨none, [], [(b!"title", b!"a\\\"b")]⟩ := by decide +kernel

/-- C179 fails for long lists: what comes after 2047 bytes is lost. -/
theorem C179_long {text : Bytes} (h : 2047 ≤ text.length) (more after : Bytes) : parse (text ++ more) after = parse text after := by
  unfold parse; rw [List.take_append_of_le_length h]

end Verif.Media
