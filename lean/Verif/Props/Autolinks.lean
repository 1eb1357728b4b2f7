/- Addresses in a text become links. -/
import Verif.Proof.AutoDocs

namespace Verif.Autolinks

open Spec

/-- **C137.** Whatever the text, the pass reads and writes only its own memory, and it does nothing but put links in: the text
falls into pieces, each a byte that is kept or an address, and the result has the link in the place of each address. An
address has no white space and no angle brackets in it, does not end with punctuation, goes as far as it can, and starts with
a protocol or is a mail address. -/
theorem C137_pieces (text : Bytes) (h0 : 0 ∉ text) :
    ∃ ps, Spec.Ok [] ps ∧ text = Spec.source ps ∧ process text = .val (Spec.result ps) := process_ok text h0

/-- A text without a colon and without an at sign stays as it is. -/
theorem C137_plain (text : Bytes) (h0 : 0 ∉ text) (h1 : c!":" ∉ text) (h2 : c!"@" ∉ text) : process text = .val text := by
  obtain ⟨ps, h, e, r⟩ := process_ok text h0
  rw [r]
  congr 1
  subst e
  clear r h0
  rw [← List.append_nil (Spec.source ps)] at h1 h2
  generalize ([] : Bytes) = rest at h h1 h2
  induction ps with
  | nil => rfl
  | cons p ps ih =>
    obtain ⟨k1, k2, k3⟩ := h
    have e1 : Spec.source (p :: ps) = p.source ++ Spec.source ps := by simp [Spec.source]
    have e2 : Spec.result (p :: ps) = p.result ++ Spec.result ps := by simp [Spec.result]
    rw [e1, List.append_assoc] at h1 h2
    rw [e1, e2, ih k3 (fun hm => h1 (List.mem_append_right _ hm)) (fun hm => h2 (List.mem_append_right _ hm))]
    have hcolon : ∀ s, Protocol s → c!":" ∈ s := by
      rintro s (⟨r, rfl⟩ | ⟨r, rfl⟩ | ⟨r, rfl⟩) <;> simp
    cases p with
    | same c => rfl
    | bare u => exact absurd (hcolon _ k2.2) h1
    | mail u =>
      obtain ⟨-, user, c, dom, d, q, rfl, -⟩ := k1
      exact absurd (by simp [Piece.source]) h2
    | angle u => exact absurd (List.mem_append_left _ (by simp [Piece.source, hcolon _ k1.2.1])) h1

/-- **C138.** Documents of words, addresses in angle brackets, comments, code, links, Liquid tags and HTML tags: words and
addresses in angle brackets become links, all else stays.

Missing: links with an at sign or brackets in them, spans of code with several backticks, blocks of code fenced with tildes,
tags with an address in an attribute behind other text or with a mail address; the pass puts links into these, as the
theorems below show. Addresses with emphasis around them take the marks behind them with them. -/
theorem C138_documents_partial (ds : List (Item × Bytes)) (h : DocOk ds) (h0 : 0 ∉ docSource ds) : process (docSource ds) = .val (docResult ds) := by
  rw [process_run _ h0]
  congr 1
  exact doc_run ds h {} [] ⟨rfl, rfl, rfl, rfl⟩ (by intro x hx; cases hx) (Or.inl rfl) _ (by omega)

/-- A document with one part of each kind. -/
def sample : List (Item × Bytes) :=
  [(.word (.plain b!"See"), b!" "), (.word (.bare b!"at:" b!"http://x.org/a" b!"."), b!"\n"), (.word (.mail b!"me@x.org" b!","), b!" "),
   (.angle b!"https://y.org", b!" "), (.comment b!" http://z ", b!"\n\n"), (.span b!"http://c", b!" "), (.block 3 b!"\nhttp://d\n", b!"\n"),
   (.link b!"text" b!"http://e", b!" "), (.liquid b!" http://f ", b!" "), (.tag b!"b", b!" "), (.attr b!"a href" b!"http://g" b!"", [])]

example : process (docSource sample) = .val b!"See at:[http://x.org/a](http://x.org/a).\n[me@x.org](mailto:me@x.org), [https://y.org](https://y.org) <!-- http://z -->\n\n`http://c` ```\nhttp://d\n```\n[text](http://e) {% http://f %} <b> <a href=\"http://g\">" := by
  decide +kernel

theorem no_protocol (a b : Bytes) (h : ∀ x ∈ a, x ≠ c!"h" ∧ x ≠ c!"m") : NoneIn a b := by
  rintro x c y rfl hp
  have := h c (by simp)
  rcases protocol_head hp with rfl | rfl
  · exact absurd rfl this.1
  · exact absurd rfl this.2

theorem sample_ok : DocOk sample := by
  have sep : ∀ s : Bytes, (∀ c ∈ s, isSpace c = true) → c!" " ∉ s ∨ 10 ∉ s → c!"\t" ∉ s → Sep s := by
    intro s h1 h2 h3
    refine ⟨h1, ?_⟩
    rintro a c b rfl
    constructor
    · rintro rfl
      simp at h2
    · rintro rfl
      simp at h3
  have closed : ∀ s : Bytes, c!"<" ∉ s → Closed s := by
    rintro s h a b rfl
    simp at h
  refine ⟨?_, sep _ (by decide) (by decide) (by decide), by simp, ?_⟩
  · refine ⟨by decide, by decide, ?_, no_protocol _ _ (by decide)⟩
    rintro ⟨user, c, dom, d, rest, h, -⟩
    have : c!"@" ∈ b!"See" := by rw [h]; simp
    exact absurd this (by decide)
  refine ⟨?_, sep _ (by decide) (by decide) (by decide), by simp, ?_⟩
  · refine ⟨by decide, by decide, ⟨by decide, b!"http://x.org/", c!"a", rfl, by decide⟩, by decide, Or.inl ⟨_, rfl⟩, fun _ => ?_, no_protocol _ _ (by decide), by decide⟩
    rintro ⟨user, c, dom, d, rest, h, -⟩
    have : c!"@" ∈ b!"at:" ++ b!"http://x.org/a" ++ b!"." := by rw [h]; simp
    exact absurd this (by decide)
  refine ⟨?_, sep _ (by decide) (by decide) (by decide), by simp, ?_⟩
  · refine ⟨by decide, by decide, ⟨by decide, b!"me@x.or", c!"g", rfl, by decide⟩, by decide, ⟨b!"m", c!"e", b!"x", c!"o", b!"rg,", rfl, by decide, by decide, by decide, by decide⟩, ?_⟩
    rintro (⟨r, h⟩ | ⟨r, h⟩ | ⟨r, h⟩) <;> simp at h
  refine ⟨⟨by decide, Or.inr (Or.inl ⟨_, rfl⟩), by decide⟩, sep _ (by decide) (by decide) (by decide), by simp, ?_⟩
  refine ⟨?_, sep _ (by decide) (by decide) (by decide), by simp, ?_⟩
  · show ¬ _ <:+: _
    decide
  refine ⟨⟨by decide, by decide, closed _ (by decide)⟩, sep _ (by decide) (by decide) (by decide), by simp, ?_⟩
  refine ⟨⟨by decide, by decide, by decide, ⟨b!"\nhttp://d", rfl⟩, closed _ (by decide)⟩, sep _ (by decide) (by decide) (by decide), by simp, ?_⟩
  refine ⟨⟨by decide, by decide, closed _ (by decide)⟩, sep _ (by decide) (by decide) (by decide), by simp, ?_⟩
  refine ⟨⟨by decide, closed _ (by decide)⟩, sep _ (by decide) (by decide) (by decide), by simp, ?_⟩
  refine ⟨⟨by decide, by decide⟩, sep _ (by decide) (by decide) (by decide), by simp, ?_⟩
  refine ⟨⟨by decide, by decide, by decide, ?_, by decide⟩, sep _ (by decide) (by decide) (by decide), by simp, trivial⟩
  intro a b h _ hm
  have : c!"=" ∈ b!"http://g" := by rw [h]; exact List.mem_append_left _ hm
  exact absurd this (by decide)

/-- A link to a mail address is not left alone: it becomes the text of another link. -/
theorem C138_link_refuted : process b!"[me](mailto:me@x.org)" = .val b!"[[me](mailto:me@x.org)](mailto:[me](mailto:me@x.org))" := by decide +kernel

/-- An address in the text of a link takes the rest of the link with it. -/
theorem C138_text_refuted : process b!"[see http://x](http://y)" = .val b!"[see [http://x](http://y)](http://x](http://y))" := by decide +kernel

/-- Mail addresses in attributes become links, and so do addresses without quotes and behind other text. -/
theorem C138_attribute_refuted :
    process b!"<a href=\"mailto:me@x.org\">" = .val b!"<a [href=\"mailto:me@x.org\"](mailto:href=\"mailto:me@x.org\")>" ∧
    process b!"<a href=http://x>" = .val b!"<a href=[http://x](http://x)>" ∧
    process b!"<a href=\"/r?u=http://x\">" = .val b!"<a href=\"/r?u=[http://x\"](http://x\")>" := by decide +kernel

/-- Code in double backticks and code fenced with tildes is not left alone, and one backtick keeps the rest of the text from
being linked. -/
theorem C138_code_refuted :
    process b!"``http://x``" = .val b!"``[http://x``](http://x``)" ∧
    process b!"~~~\nhttp://x\n~~~" = .val b!"~~~\n[http://x](http://x)\n~~~" ∧
    process b!"it`s\n\nhttp://x" = .val b!"it`s\n\nhttp://x" := by decide +kernel

/-- Marks behind an address become part of it, and the word `mailto` becomes a link to nothing. -/
theorem C138_word_refuted :
    process b!"**http://x**" = .val b!"**[http://x**](http://x**)" ∧
    process b!"(at http://x)" = .val b!"(at [http://x)](http://x))" ∧
    process b!"mailto: me" = .val b!"[mailto](mailto): me" := by decide +kernel

end Verif.Autolinks
