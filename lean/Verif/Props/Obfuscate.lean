/-
Hiding e-mail addresses: C111 and C112.
-/
import Verif.Proof.Obfuscate

namespace Verif.Obfuscate
open Spec

/-- C111: a page that does not end in `>` is processed without an access out of bounds. -/
theorem C111_safe {html : Bytes} (h : ∀ q, html ≠ q ++ b!">") : ∃ out, obfuscate html = .val out := by
  obtain ⟨out, ho⟩ := loopP_isSome html.length false html (Nat.le_refl _) h
  exact ⟨out, obfuscate_run.2 ho⟩

example : ∀ q, b!"<p>a</p>\n" ≠ q ++ b!">" := fun q h => by
  have := congrArg List.getLast? h
  simp at this

/-- C111 is false for memory: a page that ends in the `>` of a mail link is read behind its end. -/
theorem C111_ub : obfuscate b!"<a href=\"mailto:a@b\">" = .ub := by decide +kernel

/-- C111 for pages of ASCII text without references: a browser shows the same text and follows the same links. -/
theorem C111_decode_partial {html out : Bytes} (ha : ∀ c ∈ html, c < 128) (hn : c!"&" ∉ html) (h : obfuscate html = .val out) :
    Html.decode out = Html.decode html := by
  have h1 := decode_same html [] hn
  rw [List.append_nil, Escape.decode_nil, List.append_nil] at h1
  rw [h1]
  exact loopP_decode _ _ _ _ ha hn (obfuscate_run.1 h)

example : (∀ c ∈ b!"<a href=\"mailto:a@b\"><em>me</em></a>.", c < 128) ∧ c!"&" ∉ b!"<a href=\"mailto:a@b\"><em>me</em></a>." ∧
    obfuscate b!"<a href=\"mailto:a@b\"><em>me</em></a>." =
      .val b!"<a href=\"&#x6D;&#x61;&#x69;&#x6C;&#x74;&#x6F;&#x3A;&#x61;&#x40;&#x62;\"><em>&#x6D;&#x65;</em></a>." := by decide +kernel

/-- C111: in a page with any number of links to e-mail addresses, exactly their addresses and texts are written as
references, byte by byte; everything else stays. -/
theorem C111_links (l : List (Bytes × Bytes × Bytes)) (tail : Bytes)
    (hl : ∀ x ∈ l, ¬ b!"href=\"mailto:" <:+: x.1 ∧ c!"\"" ∉ x.2.1 ∧ c!"<" ∉ x.2.2) (htl : ¬ b!"href=\"mailto:" <:+: tail) :
    ∃ out, obfuscate (page l tail) = .val out ∧ Hidden l tail out := by
  obtain ⟨out, h1, h2⟩ := run_page l tail hl htl
  exact ⟨out, obfuscate_run.2 h1, h2⟩

example : ∀ x ∈ [(b!"<p>Mail ", b!"a@b.org", b!"me"), (b!" or ", b!"c@d.org", b!"")],
    ¬ b!"href=\"mailto:" <:+: x.1 ∧ c!"\"" ∉ x.2.1 ∧ c!"<" ∉ x.2.2 := by decide +kernel

/-- C111: a page without such links stays as it is. -/
theorem C111_other {html : Bytes} (h : ¬ b!"href=\"mailto:" <:+: html) : obfuscate html = .val html := by
  obtain ⟨out, h1, h2⟩ := C111_links [] html (by simp) h
  have h3 : page [] html = html := rfl
  rw [h3] at h1
  cases h2
  exact h1

example : ¬ b!"href=\"mailto:" <:+: b!"<p>Write to a@b</p>" := by decide +kernel

/-- C111 is false beyond ASCII: `é` in the text of a link is written as two characters. -/
theorem C111_accent : (match obfuscate (page [([], b!"a@b", [0xC3, 0xA9])] b!"\n") with
    | .val out => decide (Html.decode out = page [([], b!"a@b", [0xC3, 0x83, 0xC2, 0xA9])] b!"\n") | .ub => false) = true := by
  decide +kernel

/-- C111 is false for references: the browser shows `A&amp;B` where it showed `A&B`. -/
theorem C111_reference : (match obfuscate (page [([], b!"a@b", b!"A&amp;B")] b!"\n") with
    | .val out => decide (Html.decode out = page [([], b!"a@b", b!"A&amp;B")] b!"\n") | .ub => false) = true ∧
    Html.decode (page [([], b!"a@b", b!"A&amp;B")] b!"\n") = page [([], b!"a@b", b!"A&B")] b!"\n" := by
  decide +kernel

/-- C112 for links as the renderer writes them: if there is no `@` outside them, there is none in the page. -/
theorem C112_partial {l : List (Bytes × Bytes × Bytes)} {tail out : Bytes}
    (hl : ∀ x ∈ l, ¬ b!"href=\"mailto:" <:+: x.1 ∧ c!"\"" ∉ x.2.1 ∧ c!"<" ∉ x.2.2) (htl : ¬ b!"href=\"mailto:" <:+: tail)
    (h : obfuscate (page l tail) = .val out) (ho : ∀ x ∈ l, c!"@" ∉ x.1) (hto : c!"@" ∉ tail) : c!"@" ∉ out := by
  obtain ⟨out', h1, h2⟩ := C111_links l tail hl htl
  rw [h] at h1
  injection h1 with h1
  subst h1
  exact hidden_at h2 ho hto

example : ∀ x ∈ [(b!"<p>Mail ", b!"a@b.org", b!"a@b.org"), (b!" or ", b!"c@d.org", b!"")], c!"@" ∉ x.1 := by decide +kernel

/-- C112 is false for a title in the link. -/
theorem C112_title : (match obfuscate b!"<a href=\"mailto:a@b\" title=\"Mail a@b\">me</a>\n" with
    | .val out => decide (b!"title=\"Mail a@b\"" <:+: out) | .ub => false) = true := by decide +kernel

/-- C112 is false for raw HTML links with single quotes or capital letters. -/
theorem C112_quotes : obfuscate b!"<a href='mailto:a@b'>a@b</a>\n" = .val b!"<a href='mailto:a@b'>a@b</a>\n" ∧
    obfuscate b!"<A HREF=\"mailto:a@b\">a@b</A>\n" = .val b!"<A HREF=\"mailto:a@b\">a@b</A>\n" := by decide +kernel

end Verif.Obfuscate
