import Verif.Proof.Images

namespace Verif.Images
open Spec

/-! C232: addresses of links and images are encoded, attributes of images are taken out, and the text around them stays. -/

theorem C232_partial {f g : Bytes → Ial.Attrs} {E : Env} (hE : E.imgs = true) {l : List Piece} (h : ∀ p ∈ l, p.Good f g E) :
    ∃ es, preprocess E (l.flatMap Piece.write) = .val (l.flatMap (Piece.want E.urls), es) := ⟨_, preprocess_pieces hE h⟩

/-- An environment with few attributes: a text is the value of one. -/
def toy : Env := ⟨true, true, fun w => .val ⟨none, [], [(b!"x", w)]⟩, fun w => .val ⟨none, [], [(b!"y", w)]⟩⟩

/-- A document with a link, a title and attributes of both kinds. -/
def page : List Piece := [.text b!"See ", .link b!"it" b!"a<b" (some b!"\"t\""), .text b!" and ",
  .image ⟨b!"one", b!"1.png", .attrs b!"width=3", some b!".big"⟩, .text b!", ", .image ⟨b!"two", b!"http://h/<", .title b!"'u v'", some b!"#i"⟩, .text b!"."]

theorem page_good : ∀ p ∈ page, p.Good (fun w => ⟨none, [], [(b!"x", w)]⟩) (fun w => ⟨none, [], [(b!"y", w)]⟩) toy := by
  intro p hp
  simp only [page, List.mem_cons, List.not_mem_nil, or_false] at hp
  rcases hp with rfl | rfl | rfl | rfl | rfl | rfl | rfl
  · exact ⟨by decide, by decide, by decide⟩
  · refine ⟨by decide, by decide, ⟨by decide, ⟨by decide, by decide⟩, by decide, by decide⟩, ?_⟩
    intro x hx
    cases hx
    exact ⟨⟨by decide, by decide⟩, _, _, rfl, by decide⟩
  · exact ⟨by decide, by decide, by decide⟩
  · refine ⟨by decide, ⟨by decide, ⟨by decide, by decide⟩, by decide, by decide⟩, by decide, ⟨⟨by decide, by decide⟩, ⟨_, _, rfl, by decide⟩, rfl⟩, ?_⟩
    intro x hx
    cases hx
    exact ⟨⟨by decide, _, _, rfl, by decide⟩, rfl, by simp⟩
  · exact ⟨by decide, by decide, by decide⟩
  · refine ⟨by decide, ⟨by decide, ⟨by decide, by decide⟩, by decide, by decide⟩, by decide, ⟨⟨by decide, by decide⟩, c!"'", b!"u v", by decide, by decide, rfl⟩, ?_⟩
    intro x hx
    cases hx
    exact ⟨⟨by decide, _, _, rfl, by decide⟩, rfl, by simp⟩
  · exact ⟨by decide, by decide, by decide⟩

theorem C232_case : page.flatMap Piece.write = b!"See [it](a<b \"t\") and ![one](1.png width=3){.big}, ![two](http://h/< 'u v'){#i}." ∧
    page.flatMap (Piece.want true) = b!"See [it](a%3Cb \"t\") and ![one](1.png ), ![two](http://h/< 'u v')." ∧
    ∃ es, preprocess toy (page.flatMap Piece.write) = .val (page.flatMap (Piece.want true), es) :=
  ⟨by decide +kernel, by decide +kernel, C232_partial rfl page_good⟩

/-! C233: each image gets the attributes that are written with it. -/

/-- Missing: images without attributes among those with attributes, where it fails. -/
theorem C233_partial {f g : Bytes → Ial.Attrs} {E : Env} (hE : E.imgs = true) {l : List Piece} (h : ∀ p ∈ l, p.Good f g E)
    (ha : ∀ p ∈ pics l, (p.attrs f g).isSome) :
    ∃ out es, preprocess E (l.flatMap Piece.write) = .val (out, es) ∧
      apply es 0 ((pics l).map fun p => imgAddr E.urls p.url) = (pics l).map (Pic.attrs f g) := by
  refine ⟨_, _, preprocess_pieces hE h, ?_⟩
  rw [apply_entries (fun p hp => .inl (ha p hp))]
  apply List.map_congr_left
  intro p hp
  have := ha p hp
  cases hx : p.attrs f g with
  | none => rw [hx] at this; cases this
  | some a => rfl

theorem C233_case : (pics page).map (fun p => (p.attrs (fun w => ⟨none, [], [(b!"x", w)]⟩) (fun w => ⟨none, [], [(b!"y", w)]⟩)).map (·.attrs)) =
      [some [(b!"x", b!"width=3"), (b!"y", b!".big")], some [(b!"y", b!"#i")]] ∧
    ∀ p ∈ pics page, (p.attrs (fun w => ⟨none, [], [(b!"x", w)]⟩) (fun w => ⟨none, [], [(b!"y", w)]⟩)).isSome :=
  ⟨by decide +kernel, by decide +kernel⟩

/-- When the first image has no attributes, and is no video, no image of the document gets any. -/
theorem C233_fails {f g : Bytes → Ial.Attrs} {E : Env} (hE : E.imgs = true) {l : List Piece} (h : ∀ p ∈ l, p.Good f g E) {p : Pic} {ps : List Pic}
    (hl : pics l = p :: ps) (hp : p.attrs f g = none) (hv : Media.isVideo p.url = false) :
    ∃ out es, preprocess E (l.flatMap Piece.write) = .val (out, es) ∧ ∀ urls, apply es 0 urls = urls.map fun _ => none := by
  refine ⟨_, _, preprocess_pieces hE h, fun urls => apply_later ?_ urls⟩
  intro e he
  rw [hl, entries, hp, hv] at he
  simp only [Option.isSome_none, Bool.false_eq_true, or_self, if_false, List.nil_append, List.mem_reverse] at he
  exact entries_pos e he

theorem C233_fails_case : ∃ out es, preprocess toy b!"![a](1.png) ![b](2.png width=3)" = .val (out, es) ∧
    apply es 0 [b!"1.png", b!"2.png"] = [none, none] ∧ es.map (·.attrs.attrs) = [[(b!"x", b!"width=3")]] :=
  ⟨_, _, rfl, by decide +kernel, by decide +kernel⟩

/-! C234: text without images and links stays, and what is written has room in the output, which has three bytes for each byte read. -/

theorem C234_text {E : Env} {t : Bytes} (h1 : c!"[" ∉ t) (h2 : t.getLast? ≠ some c!"!") : preprocess E t = .val (t, []) := by
  unfold preprocess
  have h6 := text_turns h1 h2 (E := E) (n := 0) (ix := 0) (es := []) (r := []) (show turns E 0 false 0 [] [] = .val ([], []) from rfl) false (fun _ => rfl)
  rw [List.append_nil, Nat.zero_add] at h6
  rw [h6, C.val_bind]
  simp

theorem C234_room {E : Env} {text out : Bytes} {es : List Entry} (h : turns E text.length false 0 [] text = .val (out, es)) :
    out.length ≤ 3 * text.length := turns_room h

theorem C234_case : ∃ out es, turns toy 28 false 0 [] b!"A ![b](<<<<.png width=3) [l](" = .val (out, es) ∧ out = b!"A ![b](%3C%3C%3C%3C.png ) [l](" :=
  ⟨_, _, rfl, by decide +kernel⟩

/-- An image without its `)` loses its `!`. -/
theorem C234_open_fails {E : Env} {alt u : Bytes} (h1 : c!"]" ∉ alt) (h2 : c!"[" ∉ alt) (h3 : Inside u) (h4 : c!"[" ∉ u) (h5 : u.getLast? ≠ some c!"!") :
    preprocess E (b!"![" ++ alt ++ b!"](" ++ u) = .val (b!"[" ++ alt ++ b!"](" ++ u, []) := open_image h1 h2 h3 h4 h5

/-- Code is not left alone, and a footnote with the line break of Windows joins the next line. -/
theorem C234_fails : preprocess toy b!"`[a](<)`" = .val (b!"`[a](%3C)`", []) ∧ preprocess toy b!"[^1]: a\r\nb" = .val (b!"[^1]: ab", []) :=
  ⟨by rfl, by rfl⟩

/-! C235: references to images with attributes become inline images, and the text around them stays. -/

/-- `out` is the text behind the first pass, and `es` what it has found.  Missing: results longer than three times the text, where it
fails. -/
theorem C235_partial {es : List Entry} {l : List Part} (h : ∀ p ∈ l, p.Good es)
    (hr : (l.flatMap Part.want).length ≤ 3 * (l.flatMap Part.write).length) {out : Bytes} (ho : out = l.flatMap Part.write) :
    expand es out.length 0 (out.length * 3) out = (l.flatMap Part.want, l.any Part.isRef) := by
  subst ho
  exact expand_parts h (Nat.le_refl _) (by omega)

theorem C235_case : ∃ l : List Part, (∀ p ∈ l, p.Good [⟨b!"u.png", ⟨none, [], [(b!"width", b!"3")]⟩, none, some b!"r"⟩]) ∧
    l.flatMap Part.write = b!"A ![b][ r ], c" ∧ l.flatMap Part.want = b!"A ![b](u.png width=3), c" := by
  refine ⟨[.text b!"A ", .ref b!"b" b!" r " ⟨b!"u.png", ⟨none, [], [(b!"width", b!"3")]⟩, none, some b!"r"⟩, .text b!", c"], ?_, ?_, ?_⟩
  · intro p hp
    simp only [List.mem_cons, List.not_mem_nil, or_false] at hp
    rcases hp with rfl | rfl | rfl
    · show c!"!" ∉ b!"A "
      decide
    · exact ⟨by decide, by decide, by decide, rfl⟩
    · show c!"!" ∉ b!", c"
      decide
  · decide +kernel
  · decide +kernel

/-- Behind an image that just fits, the text is cut off. -/
theorem C235_fails {es : List Entry} {alt name t : Bytes} {e : Entry} (h : (Part.ref alt name e).Good es) (ht : c!"!" ∉ t) {out : Bytes}
    (ho : out = (Part.ref alt name e).write ++ t) (hfit : (Part.ref alt name e).want.length ≤ 3 * out.length) :
    (expand es out.length 0 (out.length * 3) out).1 = (Part.ref alt name e).want ++ t.take (3 * out.length - (Part.ref alt name e).want.length) := by
  obtain ⟨h1, h2, h3, h4⟩ := h
  have hw : (Part.ref alt name e).write = refText alt name := rfl
  have hl : 1 ≤ (refText alt name).length := by
    unfold refText
    simp only [List.length_append, List.length_cons]
    omega
  rw [hw] at ho
  rw [part_inlined] at hfit ⊢
  have hlen := congrArg List.length ho
  rw [List.length_append] at hlen
  obtain ⟨m, hm⟩ : ∃ m, out.length = m + 1 := ⟨out.length - 1, by omega⟩
  rw [hm] at hlen hfit ⊢
  rw [ho, expand_ref h1 h2 h3 h4 m 0 _, if_neg (by omega), expand_full ht (by omega), Nat.mul_comm 3]

/-- An environment where each text gives a width. -/
def wide : Env := ⟨true, true, fun _ => .val ⟨none, [], [(b!"width", b!"3")]⟩, fun w => .val ⟨none, [], [(b!"y", w)]⟩⟩

theorem C235_fails_case : ∃ es, preprocess wide b!"![b][r] some text\n\n[r]: https://example.com/images/large/logo.png width=3\n" =
    .val (b!"![b](https://example.com/images/large/logo.png) s", es) := ⟨_, rfl⟩

end Verif.Images
