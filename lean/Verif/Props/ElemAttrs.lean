/-
C182–C185: attributes of elements put into the tags of the page.
-/
import Verif.Proof.ElemAttrs

namespace Verif.ElemAttrs
open Spec (Piece Ok bare dressed plain page elems Starts nodes attrsOf Simple Shows Only)
open AutoMedia.Spec (Tag Value)

/-! ### C182 each element has its own attributes -/

/-- C182, for trees without thematic breaks, footnotes and tables, attributes without a meaning of their own on at most 511 nodes, and pages that show the text of the tree as it is, where
no two paragraphs or headings with attributes start alike: the `i`th element of each kind has the attributes of the `i`th node of that kind, and nothing else changes. -/
theorem C182_document_partial {tree : Tree} {t0 : Bytes} {ps : List Piece} (ht : c!"<" ∉ t0) (hok : ∀ p ∈ ps, Ok p) (hk : ∀ n ∈ nodes tree, n.kind ∉ Spec.tableLike)
    (hs : ∀ n ∈ nodes tree, ∀ a, n.attrs = some a → Simple a) (hn : ((nodes tree).filter fun n => n.attrs.isSome).length ≤ 511) (hsh : Shows (nodes tree) ps)
    (hz : (0 : Byte) ∉ t0 ++ page (attrsOf (nodes tree)) (fun _ => 0) ps) :
    render tree (t0 ++ plain ps) = .val (t0 ++ page (attrsOf (nodes tree)) (fun _ => 0) ps) := render_page ht hok hk hs hn hsh hz

/-- A text. -/
def txt (s : Bytes) : Tree := .node .text none (some s) []

/-- A document. -/
def doc (kids : List Tree) : Tree := .node .other none none kids

/-- The tree of the example. -/
def sample : Tree := doc [.node .para none none [txt b!"A"], .node .para (some b!"class=\"x\"") none [txt b!"B", .node .emph (some b!"id=\"e\"") none [txt b!"C"]]]

/-- The page of the example. -/
def samplePage : List Piece :=
  [.elem .para b!"p" [] [] [] b!"A", .raw b!"/p>\n", .elem .para b!"p" [] [] [] b!"B", .elem .emph b!"em" [] [] [] b!"C", .raw b!"/em>", .raw b!"/p>\n"]

example : Shows (nodes sample) samplePage := by
  have hp : elems .para samplePage = [.elem .para b!"p" [] [] [] b!"A", .elem .para b!"p" [] [] [] b!"B"] := rfl
  intro k i n f h1 h2 h3
  have hmem := List.mem_of_getElem? h1
  have hn : nodes sample = [⟨.other, none, none⟩, ⟨.para, none, some b!"A"⟩, ⟨.text, none, none⟩, ⟨.para, some b!"class=\"x\"", some b!"B"⟩, ⟨.text, none, none⟩,
    ⟨.emph, some b!"id=\"e\"", none⟩, ⟨.text, none, none⟩] := by rfl
  rw [hn] at h1 hmem
  have hm := (List.mem_filter.1 hmem).1
  have hkk := (List.mem_filter.1 hmem).2
  simp only [List.mem_cons, List.not_mem_nil, or_false] at hm
  rcases hm with rfl | rfl | rfl | rfl | rfl | rfl | rfl <;> simp at h2 h3 hkk
  subst hkk h3
  have hfl : (nodes sample).filter (fun n => n.kind == .para) = [⟨.para, none, some b!"A"⟩, ⟨.para, some b!"class=\"x\"", some b!"B"⟩] := by rfl
  rw [← hn, hfl] at h1
  have hi : i = 1 := by
    match i, h1 with
    | 0, h1 => simp at h1
    | 1, _ => rfl
    | i + 2, h1 => simp at h1
  subst hi
  refine ⟨by simp, fun j p hp' => ?_⟩
  rw [hp] at hp'
  match j, hp' with
  | 0, hp' =>
    simp only [List.getElem?_cons_zero, Option.some.injEq] at hp'
    subst hp'
    simp [Starts]
  | 1, hp' =>
    simp only [List.getElem?_cons_succ, List.getElem?_cons_zero, Option.some.injEq] at hp'
    subst hp'
    simp [Starts]
  | j + 2, hp' => simp at hp'

example : plain samplePage = b!"<p>A</p>\n<p>B<em>C</em></p>\n" ∧ render sample (plain samplePage) = .val b!"<p>A</p>\n<p class=\"x\">B<em id=\"e\">C</em></p>\n" := by decide +kernel

/-- C182 fails for two paragraphs that start alike: the first has the attributes of the second. -/
theorem C182_alike : render (doc [.node .para none none [txt b!"Same"], .node .para (some b!"id=\"two\"") none [txt b!"Same"]]) b!"<p>Same</p>\n<p>Same</p>\n" =
    .val b!"<p id=\"two\">Same</p>\n<p>Same</p>\n" := by decide +kernel

/-- C182 fails for tables: the first one has the attributes of the second. -/
theorem C182_tables : render (doc [.node .table none none [], .node .table (some b!"id=\"two\"") none []]) b!"<table>\n</table>\n<table>\n</table>\n" =
    .val b!"<table id=\"two\">\n</table>\n<table>\n</table>\n" := by decide +kernel

/-- C182 fails for code in a line of text behind a block of code: the block has its attributes. -/
theorem C182_code : render (doc [.node .pre none (some b!"x") [], .node .para none none [.node .code (some b!"class=\"k\"") (some b!"y") []]]) b!"<pre><code>x\n</code></pre>\n<p><code>y</code></p>\n" =
    .val b!"<pre><code class=\"k\">x\n</code></pre>\n<p><code>y</code></p>\n" := by decide +kernel

/-- C182 fails for a heading that starts with emphasis behind a thematic break: the next heading has its attributes. -/
theorem C182_heading : render (doc [.node .rule none none [], .node .heading (some b!"id=\"h\"") none [.node .emph none none [txt b!"A"]], .node .heading none none [.node .emph none none [txt b!"B"]]])
    b!"<hr />\n<h1><em>A</em></h1>\n<h1><em>B</em></h1>\n" = .val b!"<hr />\n<h1><em>A</em></h1>\n<h1 id=\"h\"><em>B</em></h1>\n" := by decide +kernel

/-- C182 fails for a paragraph behind a tight list, whose paragraphs have no tags: the next paragraph has its attributes. -/
theorem C182_tight : render (doc [.node .list none none [.node .item none none [.node .para none none [.node .emph none none [txt b!"A"]]]],
      .node .para (some b!"id=\"p\"") none [.node .emph none none [txt b!"B"]], .node .para none none [.node .emph none none [txt b!"C"]]])
    b!"<ul>\n<li><em>A</em></li>\n</ul>\n<p><em>B</em></p>\n<p><em>C</em></p>\n" = .val b!"<ul>\n<li><em>A</em></li>\n</ul>\n<p><em>B</em></p>\n<p id=\"p\"><em>C</em></p>\n" := by decide +kernel

/-- C182 fails for a paragraph with an ampersand: it has no attributes. -/
theorem C182_ampersand : render (doc [.node .para (some b!"id=\"p\"") none [txt b!"A ", txt b!"&", txt b!" B"]]) b!"<p>A &amp; B</p>\n" = .val b!"<p>A &amp; B</p>\n" := by decide +kernel

/-! ### C183 nothing else changes -/

/-- C183: without attributes the page stays as it is. -/
theorem C183_none {tree : Tree} (h : ∀ n ∈ nodes tree, n.attrs = none) (html : Bytes) : render tree html = .val html := by
  unfold render inject
  rw [collect_eq tree _ fun n hn a ha => by rw [h n hn] at ha; simp at ha]
  simp only []
  rw [marksOf_none _ _ h, if_pos rfl]

example : ∀ n ∈ nodes (doc [.node .para none none [txt b!"A"]]), n.attrs = none := by
  intro n hn
  have : nodes (doc [.node .para none none [txt b!"A"]]) = [⟨.other, none, none⟩, ⟨.para, none, some b!"A"⟩, ⟨.text, none, none⟩] := by rfl
  rw [this] at hn
  simp only [List.mem_cons, List.not_mem_nil, or_false] at hn
  rcases hn with rfl | rfl | rfl <;> rfl

/-- C183 fails for 1024 elements with attributes: the end of the page is written behind the block. -/
theorem C183_room : render (.node .list none none (List.replicate 1024 (.node .item (some b!"a") none []))) (List.replicate 1024 b!"<li>").flatten = .ub := by decide +kernel

/-- C183 fails for an element to be removed in one of its kind: the rest of the outer one and its end are removed as well. -/
theorem C183_removed : render (doc [.node .quote none none [.node .quote (some b!"data-remove=\"true\"") none [.node .para none none [txt b!"A"]], .node .para none none [txt b!"B"]], .node .para none none [txt b!"C"]])
    b!"<blockquote>\n<blockquote>\n<p>A</p>\n</blockquote>\n<p>B</p>\n</blockquote>\n<p>C</p>\n" = .val b!"<blockquote>\n\n<p>C</p>\n" := by decide +kernel

/-- C183 fails for other elements to be removed: they stay. -/
theorem C183_not_removed : render (doc [.node .para (some b!"data-remove=\"true\"") none [txt b!"A"]]) b!"<p>A</p>\n" = .val b!"<p>A</p>\n" := by decide +kernel

/-- C183 fails for lists with a number: there is no blank between the attributes. -/
theorem C183_glued : render (doc [.node .list (some b!"class=\"x\"") none [.node .item none none [.node .para none none [txt b!"A"]]]]) b!"<ol start=\"3\">\n<li>A</li>\n</ol>\n" =
    .val b!"<ol class=\"x\"start=\"3\">\n<li>A</li>\n</ol>\n" := by decide +kernel

/-! ### C184 tables with a caption -/

/-- C184, for attributes none of which is left out: the table has them all, in their order, behind the attributes it has already, and nothing else changes. -/
theorem C184_caption_partial {tree : Tree} {as : List (Bytes × Bytes)} {t0 body s : Bytes} {ps : List Piece} (ho : Only tree .table (Spec.row as)) (hs : Simple (Spec.row as))
    (hc : b!"data-caption" <:+: Spec.row as) (hp : ∀ p ∈ as, Spec.Plain p) (hout : ∀ p ∈ as, p.1 ∉ Spec.leftOut) (ht : c!"<" ∉ t0) (hok : ∀ p ∈ ps, Ok p)
    (hkk : ∀ p ∈ ps, ∀ k, p ∈ elems k ps → k ≠ .table ∧ k ≠ .heading) (hb : c!">" ∉ body) (hbs : ∀ c, body.head? = some c → isSpace c = true)
    (hz : (0 : Byte) ∉ t0 ++ plain ps ++ b!"<table" ++ body ++ Spec.row as ++ b!">" ++ s) :
    render tree (t0 ++ plain ps ++ b!"<table" ++ body ++ b!">" ++ s) = .val (t0 ++ plain ps ++ b!"<table" ++ body ++ Spec.row as ++ b!">" ++ s) :=
  render_table ho hs hc hp hout ht hok hkk hb hbs hz

/-- C184: which attributes are kept, for any attributes whose values need no escapes. -/
theorem C184_kept_partial {as : List (Bytes × Bytes)} (h : ∀ p ∈ as, Spec.Plain p) :
    tableAttrs (Spec.row as) = if as.filter (fun p => decide (p.1 ∉ Spec.leftOut)) = [] then none else some (Spec.row (as.filter fun p => decide (p.1 ∉ Spec.leftOut))) := tableAttrs_row h

example : Only (doc [.node .table (some (Spec.row [(b!"data-caption", b!"x"), (b!"class", b!"y")])) none []]) .table (Spec.row [(b!"data-caption", b!"x"), (b!"class", b!"y")]) ∧
    Spec.Plain (b!"data-caption", b!"x") ∧ render (doc [.node .table (some (Spec.row [(b!"data-caption", b!"x"), (b!"class", b!"y")])) none []]) b!"<table>\n</table>\n" =
      .val b!"<table data-caption=\"x\" class=\"y\">\n</table>\n" := by
  refine ⟨⟨[⟨.other, none, none⟩], none, [], by rfl, by simp, by simp⟩, ⟨by decide, ?_, by decide, by decide⟩, by decide +kernel⟩
  decide +kernel

/-- C184 fails: the caption is one of the attributes apex uses itself, and is passed on. -/
theorem C184_passed_on : b!"data-caption" ∈ Spec.own ∧ render (doc [.node .table (some b!" data-caption=\"x\" class=\"y\"") none []]) b!"<table>\n</table>\n" =
    .val b!"<table data-caption=\"x\" class=\"y\">\n</table>\n" := by decide +kernel

/-- C184 fails for a row: the heading of the same number has its attributes. -/
theorem C184_heading : render (doc [.node .table none none [.node .row (some b!"data-tfoot=\"1\"") none []], .node .heading none none [txt b!"A"], .node .heading none none [txt b!"B"]])
    b!"<table>\n<tr></tr>\n</table>\n<h1>A</h1>\n<h1>B</h1>\n" = .val b!"<table>\n<tr></tr>\n</table>\n<h1>A</h1>\n<h1 data-tfoot=\"1\">B</h1>\n" := by decide +kernel

/-! ### C185 videos and pictures -/

/-- C185, for a video with a name `stem.ext`, when the text fits: it has the formats asked for, and itself, in the place of the image. -/
theorem C185_video_partial {tree : Tree} {a t0 x rest src alt stem ext type : Bytes} {asked : Bytes → Bool} {ps : List Piece} (ho : Only tree .image a) (h1 : ¬ b!"data-remove" <:+: a)
    (h2 : ¬ b!"colspan=" <:+: a) (h3 : ¬ b!"rowspan=" <:+: a) (hv : b!"data-apex-replace-video" <:+: a) (ht : c!"<" ∉ t0) (hok : ∀ p ∈ ps, Ok p)
    (hkk : ∀ p ∈ ps, ∀ k, p ∈ elems k ps → k ≠ .image) (htag : Tag (b!"<img" ++ x)) (hx : ∀ c, x.head? = some c → c ∈ Spec.bounds) (hs : Value b!"src" (b!"<img" ++ x) src)
    (ha : Value b!"alt" (b!"<img" ++ x) alt) (hp : AutoMedia.Spec.Plain src stem ext) (hty : (ext.map toLower, type) ∈ AutoMedia.Spec.own) (has : Spec.Asks a asked)
    (hl : (Spec.video asked stem ext type alt).length < 256 + 4 * src.length) (hl' : (Spec.video asked stem ext type alt).length ≤ 1024)
    (hz : (0 : Byte) ∉ t0 ++ plain ps ++ Spec.video asked stem ext type alt ++ rest) :
    render tree (t0 ++ plain ps ++ (b!"<img" ++ x) ++ rest) = .val (t0 ++ plain ps ++ Spec.video asked stem ext type alt ++ rest) := by
  refine (render_swap ho h1 h2 h3 (Or.inl hv) ht hok hkk htag hx).2 _ ?_ hl' hz
  unfold replaced
  rw [AutoMedia.value_iff hs, AutoMedia.value_iff ha, (has_iff (by decide)).2 hv]
  simp only [if_true]
  rw [swapped_fits, video_text hp hty has]
  rw [video_text hp hty has]
  omega

/-- C185, for a picture, when the text fits: it has the formats of the attributes, and the image. -/
theorem C185_picture_partial {tree : Tree} {a t0 x rest src alt title : Bytes} {avif webp : Option Bytes} {ps : List Piece} (ho : Only tree .image a) (h1 : ¬ b!"data-remove" <:+: a)
    (h2 : ¬ b!"colspan=" <:+: a) (h3 : ¬ b!"rowspan=" <:+: a) (hn : ¬ b!"data-apex-replace-video" <:+: a) (hv : b!"data-apex-replace-picture" <:+: a) (ht : c!"<" ∉ t0) (hok : ∀ p ∈ ps, Ok p)
    (hkk : ∀ p ∈ ps, ∀ k, p ∈ elems k ps → k ≠ .image) (htag : Tag (b!"<img" ++ x)) (hx : ∀ c, x.head? = some c → c ∈ Spec.bounds) (hs : Value b!"src" (b!"<img" ++ x) src)
    (ha : Value b!"alt" (b!"<img" ++ x) alt) (hti : Spec.Title (b!"<img" ++ x) a title) (hw : Spec.Set a b!"webp" webp) (hav : Spec.Set a b!"avif" avif)
    (hl : (Spec.picture avif webp src alt title).length < 512 + 2 * src.length + (webp.getD []).length + (avif.getD []).length) (hl' : (Spec.picture avif webp src alt title).length ≤ 1024)
    (hz : (0 : Byte) ∉ t0 ++ plain ps ++ Spec.picture avif webp src alt title ++ rest) :
    render tree (t0 ++ plain ps ++ (b!"<img" ++ x) ++ rest) = .val (t0 ++ plain ps ++ Spec.picture avif webp src alt title ++ rest) := by
  refine (render_swap ho h1 h2 h3 (Or.inr hv) ht hok hkk htag hx).2 _ ?_ hl' hz
  have et : pictureText a ++ pictureEnd src alt title = Spec.picture avif webp src alt title := by
    unfold pictureText pictureEnd Spec.picture
    rw [pictureSet_iff hw, pictureSet_iff hav]
    cases avif <;> cases webp <;> simp [Spec.source]
  unfold replaced
  rw [AutoMedia.value_iff hs, AutoMedia.value_iff ha, has_not (by decide) hn, title_iff hti, pictureSet_iff hw, pictureSet_iff hav]
  simp only [Bool.false_eq_true, if_false]
  rw [swapped_fits, et]
  rw [et]
  omega

example : render (doc [.node .para none none [.node .image (some b!"data-apex-replace-video=\"1\" data-apex-video-webm=\"1\"") (some b!"a.mp4") []]]) b!"<p><img src=\"a.mp4\" alt=\"A\" /></p>\n" =
    .val b!"<p><video title=\"A\"><source src=\"a.webm\" type=\"video/webm\"><source src=\"a.mp4\" type=\"video/mp4\"></video></p>\n" ∧
    render (doc [.node .para none none [.node .image (some b!"data-apex-replace-picture=\"1\" data-apex-picture-webp=\"a.webp 1x\"") (some b!"a.png") []]]) b!"<p><img src=\"a.png\" alt=\"A\" /></p>\n" =
    .val b!"<p><picture><source type=\"image/webp\" srcset=\"a.webp 1x\"><img src=\"a.png\" alt=\"A\"></picture></p>\n" := by decide +kernel

example : Only (doc [.node .para none none [.node .image (some b!"data-apex-replace-video=\"1\"") (some b!"a.mp4") []]]) .image b!"data-apex-replace-video=\"1\"" ∧
    Spec.Asks b!"data-apex-replace-video=\"1\"" (fun _ => false) ∧ Value b!"src" b!"<img src=\"a.mp4\">" b!"a.mp4" ∧ AutoMedia.Spec.Plain b!"a.mp4" b!"a" b!"mp4" := by
  refine ⟨⟨[⟨.other, none, none⟩, ⟨.para, none, none⟩], none, [], by rfl, ?_, ?_⟩, ?_, Or.inl (AutoMedia.attr_iff.1 (by decide +kernel)), ⟨rfl, by decide, by decide, by decide, by decide, by decide, by decide +kernel⟩⟩
  · intro n hn
    simp only [List.append_nil, List.mem_cons, List.not_mem_nil, or_false] at hn
    rcases hn with rfl | rfl <;> rfl
  · intro n hn
    simp only [List.mem_cons, List.not_mem_nil, or_false] at hn
    rcases hn with rfl | rfl <;> simp
  · intro t ht
    have : ∀ t ∈ AutoMedia.Spec.types, ¬ b!"data-apex-video-" ++ t.1 <:+: b!"data-apex-replace-video=\"1\"" := by decide +kernel
    simpa using this t ht

/-- C185 fails for long texts of a video: the block is written beyond its end. -/
theorem C185_long {tree : Tree} {a t0 x rest src alt : Bytes} {ps : List Piece} (ho : Only tree .image a) (h1 : ¬ b!"data-remove" <:+: a)
    (h2 : ¬ b!"colspan=" <:+: a) (h3 : ¬ b!"rowspan=" <:+: a) (hv : b!"data-apex-replace-video" <:+: a) (ht : c!"<" ∉ t0) (hok : ∀ p ∈ ps, Ok p)
    (hkk : ∀ p ∈ ps, ∀ k, p ∈ elems k ps → k ≠ .image) (htag : Tag (b!"<img" ++ x)) (hx : ∀ c, x.head? = some c → c ∈ Spec.bounds) (hs : Value b!"src" (b!"<img" ++ x) src)
    (ha : Value b!"alt" (b!"<img" ++ x) alt) (hl : 256 + 4 * src.length ≤ alt.length) :
    render tree (t0 ++ plain ps ++ (b!"<img" ++ x) ++ rest) = .ub := by
  refine (render_swap ho h1 h2 h3 (Or.inl hv) ht hok hkk htag hx).1 ?_
  unfold replaced
  rw [AutoMedia.value_iff hs, AutoMedia.value_iff ha, (has_iff (by decide)).2 hv]
  simp only [if_true]
  unfold swapped
  rw [if_pos]
  have hne : alt ≠ [] := by
    rintro rfl
    simp at hl
  unfold videoText
  rw [if_neg hne]
  simp only [List.length_append, List.length_cons, List.length_nil]
  omega

/-- C185 fails for a video with all formats and a name of 30 bytes. -/
theorem C185_formats : render (doc [.node .image (some b!"data-apex-replace-video=\"1\" data-apex-video-webm=\"1\" data-apex-video-ogg=\"1\" data-apex-video-mp4=\"1\" data-apex-video-mov=\"1\" data-apex-video-m4v=\"1\"")
    (some b!"abcdefghijklmnopqrstuvwxyz.mp4") []]) b!"<img src=\"abcdefghijklmnopqrstuvwxyz.mp4\" alt=\"\" />" = .ub := by decide +kernel

/-- C185 fails: the image of the name loses its other attributes. -/
theorem C185_lost : render (doc [.node .image (some b!"class=\"wide\" data-apex-replace-video=\"1\"") (some b!"a.mp4") []]) b!"<img src=\"a.mp4\" alt=\"\" />" =
    .val b!"<video><source src=\"a.mp4\" type=\"video/mp4\"></video>" := by decide +kernel

end Verif.ElemAttrs
