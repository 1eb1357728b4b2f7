/- C278 and C279: lists and quotes on a terminal. -/
import Verif.Proof.TermBlocks

namespace Verif.Term
open Term.Spec TermStyle.Spec Blocks

/-! ### C278: ordered lists are numbered from their start -/

/-- C278, for lists of items with a paragraph each that start with 1 or more: one reads each item on lines of its own, behind its number; the first number is the start of the list and each other
is one more than the one before it.  Missing: lists that start with 0, and other blocks in items. -/
theorem C278_partial {o : Opt} (ho : Quiet o) (ind : Nat) (inList : Bool) (out : Bytes) (a : Option Bytes) {start : Nat} (h1 : 1 ≤ start) {l : List (List Node)} (hc : ∀ ks ∈ l, Alls Calm ks)
    (hp : ∀ ks ∈ l, Alls (Plain o.emoji) ks) :
    ∃ x v, block o ind inList out (.mk (.list false start) a (l.map item)) = .val (out ++ x) ∧ text (screen x) = v ++ b!"\n" ∧
      Numbered o.emoji (List.replicate (2 * ind) c!" ") start l v := by
  obtain ⟨x, v, hx, hs, hn⟩ := shows_items ho ind l hc hp start out
  refine ⟨x ++ b!"\n", v, ?_, (hs.append (shows_calm (s := b!"\n") (by decide))).screen.1, hn⟩
  rw [block]
  rw [if_neg (by omega), hx]
  simp

/-- C278, refuted: each list that starts with 0 is shown as if it started with 1. -/
theorem C278_zero_fails (o : Opt) (ind : Nat) (inList : Bool) (out : Bytes) (a : Option Bytes) (kids : List Node) :
    block o ind inList out (.mk (.list false 0) a kids) = block o ind inList out (.mk (.list false 1) a kids) := by
  rw [block, block]
  rfl

/-- C278: a case. -/
theorem C278_case : ∃ x, block {} 0 false [] (.mk (.list false 9) none [item [.mk (.text b!"a") none []], item [.mk .strong none [.mk (.text b!"b") none []]]]) = .val x ∧
    text (screen x) = b!"9.   a\n10.   b\n\n" ∧ Digits 10 b!"10" :=
  ⟨_, rfl, by decide +kernel, by refine ⟨by decide, by decide, by decide, by decide⟩⟩

/-! ### C279: all lines of a quote have its mark -/

/-- C279, for quotes of paragraphs whose lines end outside of other elements: one reads all lines of all paragraphs, each behind the mark.  Missing: other blocks, line breaks within other elements,
and hard breaks. -/
theorem C279_partial {o : Opt} (ho : Quiet o) (ind : Nat) (inList : Bool) (out : Bytes) (a : Option Bytes) {ps : List (List (List Node))} (h0 : ps ≠ []) (hn : ∀ ls ∈ ps, ls ≠ [])
    (hb : ∀ ls ∈ ps, ∀ l ∈ ls, ∀ n ∈ l, NoBreak n) (hc : ∀ ls ∈ ps, ∀ l ∈ ls, Alls Calm l) (hp : ∀ ls ∈ ps, ∀ l ∈ ls, Alls (Plain o.emoji) l) :
    ∃ x, block o ind inList out (.mk .quote a (ps.map fun ls => .mk .para none (joined ls))) = .val (out ++ x) ∧
      text (screen x) = (ps.flatten.flatMap fun l => List.replicate (2 * ind) c!" " ++ o.theme.quoteMarker.getD b!">" ++ b!" " ++ readAll o.emoji l ++ b!"\n") ++ b!"\n" := by
  obtain ⟨x, hx, hs⟩ := shows_quotes ho ind ps h0 hn hb hc hp out
  refine ⟨x, ?_, ?_⟩
  · rw [block]
    exact hx
  · rw [hs.screen.1]
    congr 1
    clear hx hs hn hb hc hp h0
    induction ps with
    | nil => rfl
    | cons ls ps ih => rw [List.flatMap_cons, ih, List.flatten_cons, List.flatMap_append, marked]

/-- C279, refuted: of any code in a quote only the line with the mark of the code is behind the mark of the quote. -/
theorem C279_code_fails {o : Opt} (ho : Quiet o) (inList : Bool) (out : Bytes) (a b : Option Bytes) {s : Bytes} (hs : (27 : Byte) ∉ s) :
    ∃ x, block o 0 inList out (.mk .quote a [.mk (.codeBlock [] s) b []]) = .val (out ++ x) ∧ text (screen x) = o.theme.quoteMarker.getD b!">" ++ b!" ```\n" ++ s ++ b!"\n```\n\n" := by
  refine ⟨quoteMark o 0 ++ codeBlock o 0 [] s, ?_, ?_⟩
  · simp [block, quotes]
  · have h1 := shows_quoteMark ho 0
    have h2 : Shows (TermStyle.style o.wide (o.theme.codeBlock.getD b!"white on_black")) [] := shows_getD ho.codeBlock (shows_style o.wide (by decide) (by decide))
    have h3 := ((h1.append h2).append (shows_calm (s := b!"```\n" ++ s ++ b!"\n```") (by simp [hs]))).append (shows_reset.append (shows_calm (s := b!"\n\n") (by decide)))
    have he : quoteMark o 0 ++ codeBlock o 0 [] s = quoteMark o 0 ++ TermStyle.style o.wide (o.theme.codeBlock.getD b!"white on_black") ++ (b!"```\n" ++ s ++ b!"\n```") ++ (TermStyle.reset ++ b!"\n\n") := by
      simp [codeBlock, ho.colour, spaces]
    rw [he, h3.screen.1]
    simp

/-- C279, refuted: a line that ends within strong text or emphasis has no mark behind it. -/
theorem C279_break_fails {o : Opt} (ho : Quiet o) (inList : Bool) (out : Bytes) {u v : Bytes} (hu : (27 : Byte) ∉ u) (hv : (27 : Byte) ∉ v) (hpu : ¬ b!"APEXLTLT" <:+: o.emoji u)
    (hpv : ¬ b!"APEXLTLT" <:+: o.emoji v) :
    ∃ x, block o 0 inList out (.mk .quote none [.mk .para none [.mk .emph none [.mk (.text u) none [], .mk .soft none [], .mk (.text v) none []]]]) = .val (out ++ x) ∧
      text (screen x) = o.theme.quoteMarker.getD b!">" ++ b!" " ++ o.emoji u ++ b!"\n" ++ o.emoji v ++ b!"\n\n" := by
  have := C279_partial ho 0 inList out none (ps := [[[.mk .emph none [.mk (.text u) none [], .mk .soft none [], .mk (.text v) none []]]]]) (by simp) (by simp) (by simp [NoBreak, Node.kind])
    (by simp [All, Alls, Calm, hu, hv]) (by simp [All, Alls, Plain, hpu, hpv])
  obtain ⟨x, h1, h2⟩ := this
  refine ⟨x, h1, ?_⟩
  rw [h2]
  simp [readAll, reads]

/-- C279: a case. -/
theorem C279_case : ∃ x, block {} 0 false [] (.mk .quote none [.mk .para none [.mk (.text b!"a") none [], .mk .soft none [], .mk (.text b!"b") none []], .mk .para none [.mk (.text b!"c") none []]]) = .val x ∧
    text (screen x) = b!"> a\n> b\n> c\n\n" ∧ joined [[.mk (.text b!"a") none []], [.mk (.text b!"b") none []]] = [.mk (.text b!"a") none [], .mk .soft none [], .mk (.text b!"b") none []] :=
  ⟨_, rfl, by decide +kernel, rfl⟩

end Verif.Term
