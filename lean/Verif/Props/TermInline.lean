/- C281 and C286: tags in text, and code, on a terminal. -/
import Verif.Proof.Term

namespace Verif.Term
open Term.Spec TermStyle.Spec

theorem strip_in (x r : Bytes) (h : c!">" ∉ x) : strip true (x ++ c!">" :: r) = strip false r := by
  induction x with
  | nil => simp [strip]
  | cons c x ih =>
    simp at h
    rw [List.cons_append, strip]
    by_cases h1 : c = c!"<"
    · rw [if_pos h1, ih (by simpa using h.2)]
    · rw [if_neg h1, if_pos rfl]
      have : decide (c ≠ c!">") = true := by simpa using fun hh => h.1 hh.symm
      rw [this, ih (by simpa using h.2)]

theorem strip_out (y : Bytes) (h : c!"<" ∉ y) : strip false y = y := by
  induction y with
  | nil => rfl
  | cons c y ih =>
    simp at h
    rw [strip, if_neg (fun hh => h.1 hh.symm)]
    simp [ih (by simpa using h.2)]

theorem prefix_before (w x y : Bytes) (hw : c!">" ∉ w) (h : w <+: x ++ c!">" :: y) : w <+: x := by
  induction w generalizing x with
  | nil => exact List.nil_prefix
  | cons c w ih =>
    simp only [List.mem_cons, not_or] at hw
    cases x with
    | nil => exact absurd (List.cons_prefix_cons.1 h).1.symm hw.1
    | cons d x =>
      rw [List.cons_append] at h
      have h' := List.cons_prefix_cons.1 h
      exact List.cons_prefix_cons.2 ⟨h'.1, ih x hw.2 h'.2⟩

/-- C281 (part that holds): of a tag in text that ends with its first `>`, one reads nothing, whatever it is
and in all styles; the same for a `span`, which gives a style.  Missing: tags and comments with a `>` in
them. -/
theorem C281_partial {o : Opt} (ho : Quiet o) (a : Option Bytes) (kids : List Node) (x : Bytes)
    (hx : c!">" ∉ x) (he : (27 : Byte) ∉ x) :
    text (screen (inline o (.mk (.html (b!"<" ++ x ++ b!">")) a kids))) = [] ∧
      Event.command ∉ screen (inline o (.mk (.html (b!"<" ++ x ++ b!">")) a kids)) := by
  have hs := shows_html ho (s := b!"<" ++ x ++ b!">") (by simp [he])
  have : seenHtml (b!"<" ++ x ++ b!">") = [] := by
    unfold seenHtml
    split
    · rfl
    split
    · rfl
    rw [List.append_assoc, List.cons_append, List.nil_append, strip, if_pos rfl, strip_in _ _ hx]
    rfl
  rw [this] at hs
  rw [inline]
  exact hs.screen

/-- C281 (refutation): of a tag or a comment with a `>` in it, all that is behind that is shown. -/
theorem C281_greater_fails (o : Opt) (a : Option Bytes) (kids : List Node) (x y : Bytes) (hx : c!">" ∉ x)
    (hy : c!"<" ∉ y) (h1 : ¬ b!"span" <+: x) (h2 : ¬ b!"/span" <+: x) :
    inline o (.mk (.html (b!"<" ++ x ++ b!">" ++ y)) a kids) = y := by
  have hn : ∀ w, c!">" ∉ w → ¬ w <+: x → ∀ v, (c!"<" :: w) <+: v → v.isPrefixOf (b!"<" ++ x ++ b!">" ++ y) = false := by
    intro w hw hnx v hv
    rw [Bool.eq_false_iff]
    intro hh
    have := hv.trans (List.isPrefixOf_iff_prefix.1 hh)
    simp only [List.cons_append, List.nil_append, List.cons_prefix_cons, true_and, List.append_assoc] at this
    exact hnx (prefix_before w x y hw this)
  rw [inline, html, if_neg (by simp), hn b!"span" (by decide) h1 b!"<span " (by decide),
    hn b!"span" (by decide) h1 b!"<span>" (by decide), hn b!"/span" (by decide) h2 b!"</span" (by decide)]
  simp only [Bool.or_self, Bool.false_eq_true, if_false]
  rw [List.append_assoc, List.append_assoc, List.cons_append, List.nil_append, strip, if_pos rfl,
    List.cons_append, List.nil_append, strip_in _ _ hx, strip_out _ hy]

/-- C281: cases that meet the hypotheses: a tag in a theme with a class, the tag of a span; a comment and a
tag of which the rest is shown. -/
theorem C281_case :
    Quiet {} ∧ c!">" ∉ b!"kbd title='<'" ∧
    text (screen (inlines {} [.mk (.html b!"<kbd>") none [], .mk (.text b!"a") none [], .mk (.html b!"</kbd>") none []])) = b!"a" ∧
    inline {} (.mk (.html b!"<!-- a > b -->") none []) = b!" b -->" ∧
    inline {} (.mk (.html b!"<a title=\"x>y\">") none []) = b!"y\">" := by
  refine ⟨⟨?_, ?_, ?_, ?_, ?_, ?_, ?_, ?_, ?_, ?_, ?_, ?_⟩, by decide, by decide +kernel, by decide +kernel, by decide +kernel⟩
  all_goals simp

/-! ### C286: code -/

theorem shows_code {o : Opt} (ho : Quiet o) (ind : Nat) {info s : Bytes} (h1 : (27 : Byte) ∉ info) (h2 : (27 : Byte) ∉ s) :
    Shows (codeBlock o ind info s) (List.replicate (2 * ind) c!" " ++ b!"```" ++ info ++ b!"\n" ++ s ++ b!"\n```\n\n") := by
  unfold codeBlock
  rw [ho.colour]
  have := ((((((((shows_calm (calm_spaces ind)).append (shows_getD ho.codeBlock (shows_style _ (s := b!"white on_black")
    (by decide +kernel) (by decide +kernel)))).append (shows_calm (s := b!"```") (by decide))).append (shows_calm h1)).append
    (shows_calm (s := b!"\n") (by decide))).append (shows_calm h2)).append (shows_calm (s := b!"\n```") (by decide))).append
    shows_reset).append (shows_calm (s := b!"\n\n") (by decide))
  simpa [spaces] using this

/-- C286 (part that holds): a block of code that no tool colours is shown between two fences, the first as far
in as its surroundings and with the language; between them one reads each line of the code as it is, in their
order. The line below the code is empty. Missing: the lines of the code and the last fence are not as far in
as their surroundings. -/
theorem C286_partial {o : Opt} (ho : Quiet o) (ind : Nat) (inList : Bool) (out info : Bytes) (a : Option Bytes)
    (kids : List Node) (ls : List Bytes) (h1 : (27 : Byte) ∉ info) (h2 : ∀ l ∈ ls, (27 : Byte) ∉ l) :
    ∃ x, block o ind inList out (.mk (.codeBlock info (ls.flatMap (· ++ b!"\n"))) a kids) = .val (out ++ x) ∧
      text (screen x) = List.replicate (2 * ind) c!" " ++ b!"```" ++ info ++ b!"\n" ++ ls.flatMap (· ++ b!"\n") ++ b!"\n```\n\n" := by
  refine ⟨_, by rw [block], (shows_code ho ind h1 ?_).screen.1⟩
  rw [List.mem_flatMap]
  rintro ⟨l, hl, h⟩
  rw [List.mem_append] at h
  exact h.elim (h2 l hl) (by decide)

/-- C286 (refutation): within a list, no code whose first line begins with no space has that line as far in as
its surroundings. -/
theorem C286_indent_fails {o : Opt} (ho : Quiet o) (ind : Nat) (inList : Bool) (out info l s : Bytes) (a : Option Bytes)
    (kids : List Node) (hi : 0 < ind) (h1 : (27 : Byte) ∉ info) (h2 : (27 : Byte) ∉ l ++ b!"\n" ++ s) (hl : l.head? ≠ some c!" ") :
    ∃ x, block o ind inList out (.mk (.codeBlock info (l ++ b!"\n" ++ s)) a kids) = .val (out ++ x) ∧
      ¬ ∃ r, text (screen x) = List.replicate (2 * ind) c!" " ++ b!"```" ++ info ++ b!"\n" ++ (List.replicate (2 * ind) c!" " ++ l ++ b!"\n" ++ r) := by
  refine ⟨_, by rw [block], ?_⟩
  rw [(shows_code ho ind h1 h2).screen.1]
  rintro ⟨r, hr⟩
  simp only [List.append_assoc, List.append_cancel_left_eq] at hr
  obtain ⟨k, rfl⟩ : ∃ k, ind = k + 1 := ⟨ind - 1, by omega⟩
  rw [show 2 * (k + 1) = 2 * k + 1 + 1 by omega, List.replicate_succ] at hr
  cases l with
  | nil => simp at hr
  | cons c l =>
    simp only [List.cons_append, List.cons.injEq] at hr
    exact hl (by simp [hr.1])

/-- C286: code in an item of a list. -/
theorem C286_case : ∃ x, block {} 1 true [] (.mk (.codeBlock b!"sh" b!"ls\n cd\n") none []) = .val x ∧
    text (screen x) = b!"  ```sh\nls\n cd\n\n```\n\n" ∧ ([b!"ls", b!" cd"].flatMap (· ++ b!"\n")) = b!"ls\n cd\n" :=
  ⟨_, rfl, by decide +kernel, by decide⟩

end Verif.Term
