import Verif.Proof.ImageRefs

namespace Verif.ImageRefs
open Spec Images
open Images.Spec (imgAddr Inside Piece)

/-! C232, for the modes of apex. -/

/-- In Unified, MultiMarkdown and GFM mode attributes are taken out, and addresses are encoded except in GFM mode. -/
theorem C232_modes {after : Bytes} {m : Mode} (hm : m = .unified ∨ m = .mmd ∨ m = .gfm) : ∃ E, env after m = some E ∧
    E.image = (Media.parse · after) ∧ E.ial = (Ial.parse · after) ∧
    ∀ {f g : Bytes → Ial.Attrs} {l : List Piece}, (∀ p ∈ l, p.Good f g E) →
      ∃ es, preprocess E (l.flatMap Piece.write) = .val (l.flatMap (Piece.want (m ≠ .gfm)), es) := by
  rcases hm with rfl | rfl | rfl <;> exact ⟨_, rfl, rfl, rfl, fun h => ⟨_, preprocess_pieces rfl h⟩⟩

/-- Addresses of images stay when they have a protocol. -/
theorem C232_protocol (u : Bytes) : (Protocol u → ∀ urls, imgAddr urls u = u) ∧ (¬ Protocol u → imgAddr true u = u.flatMap Escape.ialUrlByte) := by
  rw [← protocol_iff]
  refine ⟨fun h urls => ?_, fun h => ?_⟩
  · simp [imgAddr, Images.Spec.addr, h]
  · simp only [Bool.not_eq_true] at h
    simp [imgAddr, Images.Spec.addr, h]

theorem C232_protocol_case : Protocol b!"x-y+1.A://<" ∧ ¬ Protocol b!"1x://<" ∧ imgAddr true b!"1x://<" = b!"1x://%3C" := by
  refine ⟨⟨c!"x", b!"-y+1.A", b!"<", by decide, by decide, by decide⟩, ?_, by decide +kernel⟩
  rw [← protocol_iff]
  decide +kernel

/-! C234: an image without its `)` in the line loses its `!`. -/

theorem C234_line_fails {E : Env} {alt u t : Bytes} (h1 : c!"]" ∉ alt) (h2 : c!"[" ∉ alt) (h3 : Inside u) (h4 : c!"[" ∉ u) (h5 : c!"[" ∉ t)
    (h6 : t.getLast? ≠ some c!"!") :
    preprocess E (b!"![" ++ alt ++ b!"](" ++ u ++ b!"\n" ++ t) = .val (b!"[" ++ alt ++ b!"](" ++ u ++ b!"\n" ++ t, []) := open_line h1 h2 h3 h4 h5 h6

/-! C235, from the document to its images: definitions are taken out, references are inline images, and each image gets the address and the
attributes of its definition. -/

theorem C235_document_partial {f : Bytes → Ial.Attrs} {E : Env} {l : List Item} (h : ∀ x ∈ l, x.Good f E l) (ha : Agree l)
    (hr : (l.flatMap (Item.long f E.urls l)).length ≤ 3 * (l.flatMap Item.rest).length) :
    ∃ es, preprocess E (l.flatMap Item.write) = .val (l.flatMap (Item.want E.urls l), es) ∧
      apply es 0 ((images f l).map fun x => imgAddr E.urls x.1) = (images f l).map fun x => some x.2 := document h ha hr

/-- The attributes in parentheses. -/
def read (w : Bytes) : Ial.Attrs :=
  match Media.parse w [] with
  | .val a => a
  | .ub => Ial.empty

def page : List Item := [.text b!"A ", .ref b!"b!" b!"r", .text b!" and ", .ref b!"c" b!" s", .text b!".\n", .defn b!"r" b!"<.png" b!"width=30 x_1=3",
  .defn b!"s " b!"http://h/<" b!"height=4"]

theorem C235_document_case : ∃ E, env [] .kramdown = some E ∧ (∀ x ∈ page, x.Good read E page) ∧ Agree page ∧
    page.flatMap Item.write = b!"A ![b!][r] and ![c][ s].\n[r]: <.png width=30 x_1=3\n[s ]: http://h/< height=4\n" ∧
    page.flatMap (Item.want true page) = b!"A ![b!](%3C.png) and ![c](http://h/<).\n" ∧
    (page.flatMap (Item.long read true page)).length ≤ 3 * (page.flatMap Item.rest).length ∧
    (images read page).map (fun x => (x.1, x.2.attrs)) = [(b!"<.png", [(b!"width", b!"30"), (b!"x_1", b!"3")]), (b!"http://h/<", [(b!"height", b!"4")])] := by
  refine ⟨_, rfl, ?_, ?_, by decide +kernel, by decide +kernel, by decide +kernel, by decide +kernel⟩
  · intro x hx
    simp only [page, List.mem_cons, List.not_mem_nil, or_false] at hx
    rcases hx with rfl | rfl | rfl | rfl | rfl | rfl | rfl
    · exact ⟨by decide, by decide, by decide, by decide⟩
    · exact ⟨by decide, by decide, by decide, by decide, by decide +kernel⟩
    · exact ⟨by decide, by decide, by decide, by decide⟩
    · exact ⟨by decide, by decide, by decide, by decide, by decide +kernel⟩
    · exact ⟨by decide, by decide, by decide, by decide⟩
    · refine ⟨by decide, by decide +kernel, ⟨by decide, ⟨by decide, by decide⟩, by decide, by decide⟩, by decide, by decide, by decide, ⟨b!"width", b!"30 x_1=3", rfl, by decide, ?_⟩, ?_, ?_⟩
      · unfold word; decide
      · decide +kernel
      · refine ⟨by decide +kernel, by decide +kernel, by decide +kernel, ⟨by decide +kernel, by decide +kernel⟩, by decide +kernel⟩
    · refine ⟨by decide, by decide +kernel, ⟨by decide, ⟨by decide, by decide⟩, by decide, by decide⟩, by decide, by decide, by decide, ⟨b!"height", b!"4", rfl, by decide, ?_⟩, ?_, ?_⟩
      · unfold word; decide
      · decide +kernel
      · refine ⟨by decide +kernel, by decide +kernel, by decide +kernel, ⟨by decide +kernel, by decide +kernel⟩, by decide +kernel⟩
  · intro n u w n' u' w' h1 h2 h3
    simp only [page, List.mem_cons, List.not_mem_nil, or_false, reduceCtorEq, false_or, Item.defn.injEq] at h1 h2
    rcases h1 with ⟨rfl, rfl, rfl⟩ | ⟨rfl, rfl, rfl⟩ <;> rcases h2 with ⟨rfl, rfl, rfl⟩ | ⟨rfl, rfl, rfl⟩
    · exact ⟨rfl, rfl⟩
    · exact absurd h3 (by decide +kernel)
    · exact absurd h3 (by decide +kernel)
    · exact ⟨rfl, rfl⟩

/-- Of two definitions for a name the last one is used, where Markdown uses the first one. -/
theorem C235_first_fails : ∃ E es, env [] .unified = some E ∧
    preprocess E b!"![a][r] and some text.\n[r]: 1.png width=1\n[r]: 2.png width=2\n" = .val (b!"![a](2.png) and some text.\n", es) :=
  ⟨_, _, rfl, rfl⟩

end Verif.ImageRefs
