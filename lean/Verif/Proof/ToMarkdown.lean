import Verif.Spec.ToMarkdown
import Verif.Proof.Embed
import Verif.Proof.InlineNotes

namespace Verif.ToMarkdown

open Spec
open Escape (Dialect escapeMarkdown mdShouldEscape)

/-! ### Inside a paragraph -/

/-- How each thing is written. -/
def render (d : Dialect) : Ev → Bytes
  | .ch c => if mdShouldEscape d c then [c!"\\", c] else [c]
  | .code s => b!"`" ++ s ++ b!"`"
  | .soft => b!"\n"
  | .hard => b!"  \n"
  | .em => b!"*"
  | .st => b!"**"
  | .link => b!"["
  | .image => b!"!["
  | .to u t => target u t
  | _ => []

theorem escape_render (d : Dialect) (s : Bytes) : escapeMarkdown d s = (s.map Ev.ch).flatMap (render d) := by
  induction s with
  | nil => rfl
  | cons c t ih => simp only [escapeMarkdown, List.map_cons, List.flatMap_cons, ih, render]

theorem text_plain (d : Dialect) (s : Bytes) (h : d = .mmd → ¬ b!"{{TOC" <:+: s) : text d s = escapeMarkdown d s := by
  unfold text
  split
  · rename_i hd
    rw [(Embed.find_none (by simp)).2 (h hd)]
  · rfl

theorem linkKids_eq (d : Dialect) (ns : List Node) (h : ∀ n ∈ ns, n.isLink = false) : linkKids d ns = inlines d ns := by
  induction ns with
  | nil => simp [linkKids, inlines]
  | cons n ns ih => rw [linkKids, inlines, ih fun m hm => h m (by simp [hm]), h n (by simp)]; simp

mutual
theorem inline_render (d : Dialect) (n : Node) (h : Known d n) : inline d n = (says n).flatMap (render d) := by
  match n with
  | .mk k kids =>
    cases k with
    | text s => simp only [inline, says]; rw [text_plain d s (by simpa [Known] using h), escape_render]
    | emph => simp [inline, says, render, inlines_render d kids (by simpa [Known] using h)]
    | strong => simp [inline, says, render, inlines_render d kids (by simpa [Known] using h)]
    | link u t =>
      simp only [Known] at h
      simp [inline, says, render, linkKids_eq d kids h.2, inlines_render d kids h.1]
    | image u t => simp only [Known] at h; subst h; simp [inline, says, saysAll, render]
    | softBreak => simp [inline, says, render]
    | lineBreak => simp [inline, says, render]
    | code s => simp [inline, says, render]
    | _ => simp [Known] at h
theorem inlines_render (d : Dialect) (ns : List Node) (h : KnownAll d ns) :
    inlines d ns = (saysAll ns).flatMap (render d) := by
  match ns with
  | [] => simp [inlines, saysAll]
  | n :: ns =>
    simp only [KnownAll] at h
    rw [inlines, saysAll, inline_render d n h.1, inlines_render d ns h.2, List.flatMap_append]
end

theorem special_punct (d : Dialect) (c : Byte) (h : mdShouldEscape d c = true) : Markdown.isPunct c = true := by
  revert h c; cases d <;> exact forall_byte (by decide +kernel)

/-- Bytes that are always escaped. -/
theorem special (d : Dialect) (c : Byte) (h : mdShouldEscape d c = false) :
    c ≠ c!"\\" ∧ c ≠ c!"`" ∧ c ≠ c!"*" ∧ c ≠ c!"_" ∧ c ≠ c!"!" ∧ c ≠ c!"[" ∧ c ≠ c!"]" := by
  refine ⟨?_, ?_, ?_, ?_, ?_, ?_, ?_⟩ <;> rintro rfl <;> simp [mdShouldEscape] at h

/-- What the first byte of a written text tells. -/
theorem head (d : Dialect) (E : List Ev) (h : Fitting E) (x : Byte) (R : Bytes) (hx : E.flatMap (render d) = x :: R) :
    (∃ E', E = .ch x :: E' ∧ R = E'.flatMap (render d)) ∨
      (x = c!"\\" ∧ ∃ c E', E = .ch c :: E') ∨ (x = c!"`" ∧ ∃ s E', E = .code s :: E') ∨
      (x = 10 ∧ ∃ E', E = .soft :: E') ∨ (x = 32 ∧ (∃ E', E = .hard :: E') ∧ ∃ R', R = 32 :: R') ∨
      (x = c!"*" ∧ (E.head? = some .em ∨ E.head? = some .st)) ∨ x = c!"[" ∨ (x = c!"!" ∧ E.head? = some .image) ∨ x = c!"]" := by
  cases E with
  | nil => simp at hx
  | cons e E =>
    rw [List.flatMap_cons] at hx
    have he := h.1
    cases e with
    | ch c =>
      simp only [render] at hx
      split at hx
      · simp at hx; simp [← hx.1]
      · simp at hx
        left; exact ⟨E, by simp [hx.1], hx.2.symm⟩
    | code s => simp [render] at hx; simp [← hx.1]
    | soft => simp [render] at hx; simp [← hx.1]
    | hard => simp [render] at hx; simp [← hx.1, ← hx.2]
    | em => simp [render] at hx; simp [← hx.1]
    | st => simp [render] at hx; simp [← hx.1]
    | link => simp [render] at hx; simp [← hx.1]
    | image => simp [render] at hx; simp [← hx.1]
    | to u t => simp [render, target] at hx; simp [← hx.1]
    | _ => simp [Fits] at he

/-- The first byte, when it is none of the marks. -/
theorem head_ch (d : Dialect) (E : List Ev) (h : Fitting E) (x : Byte)
    (hx : (E.flatMap (render d)).head? = some x) (hn : x ∉ b!"\\`*[]!\n ") :
    ∃ E', E = .ch x :: E' ∧ E.flatMap (render d) = x :: E'.flatMap (render d) := by
  match hR : E.flatMap (render d) with
  | [] => simp [hR] at hx
  | y :: R =>
    have : y = x := by simpa [hR] using hx
    subst this
    simp only [List.mem_cons, List.not_mem_nil, or_false, not_or] at hn
    rcases head d E h y R hR with ⟨E', h1, h2⟩ | ⟨h1, -⟩ | ⟨h1, -⟩ | ⟨h1, -⟩ | ⟨h1, -⟩ | ⟨h1, -⟩ | h1 | ⟨h1, -⟩ | h1
    · exact ⟨E', h1, by rw [h2]⟩
    all_goals simp_all

theorem word_ch (d : Dialect) (w : Bytes) (hw : ∀ x ∈ w, x ∉ b!"\\`*[]!\n ") (E : List Ev) (h : Fitting E)
    (hp : w <+: E.flatMap (render d)) : w.map Ev.ch <+: E := by
  induction w generalizing E with
  | nil => simp
  | cons x w ih =>
    have h0 : (E.flatMap (render d)).head? = some x := by obtain ⟨u, hu⟩ := hp; simp [← hu]
    obtain ⟨E', rfl, h2⟩ := head_ch d E h x h0 (hw x (by simp))
    rw [h2, List.cons_prefix_cons] at hp
    simpa using ih (fun y hy => hw y (by simp [hy])) E' h.2 hp.2

theorem ref_none {t : Bytes} (h : ∀ r ∈ refs, ¬ r.1 <+: t) : ref t = none := by
  unfold ref
  rw [List.find?_eq_none]
  intro r hr hp
  exact h r hr (List.isPrefixOf_iff_prefix.1 hp)

theorem reading_skip (n : Nat) (m : Mode) (s t : Bytes) (hs : s.length = n) (hn : n ≠ 0) :
    reading (.skip n m) (s ++ t) = reading m t := by
  induction s generalizing n with
  | nil => simp at hs; omega
  | cons c s ih =>
    simp only [List.cons_append, reading, step, List.nil_append]
    simp only [List.length_cons] at hs
    by_cases h1 : n ≤ 1
    · rw [if_pos h1, List.eq_nil_of_length_eq_zero (by omega : s.length = 0), List.nil_append]
    · rw [if_neg h1, ih (n - 1) (by omega) (by omega)]

theorem reading_code (acc s t : Bytes) (hs : ∀ c ∈ s, c ≠ c!"`" ∧ c ≠ 10) (ht : t.head? ≠ some c!"`") :
    reading (.code acc) (s ++ c!"`" :: t) = .code (trim (acc ++ s)) :: reading .text t := by
  induction s generalizing acc with
  | nil => simp [reading, step, ht]
  | cons c s ih =>
    have := hs c (by simp)
    simp only [List.cons_append, reading, step, if_neg this.1, if_neg this.2, List.nil_append]
    rw [ih (acc ++ [c]) fun x hx => hs x (by simp [hx])]; simp

theorem ref_stop {b : Bytes} {x : Byte} {t : Bytes} (h : ∀ r ∈ refs, ¬ r.1 <+: b) (hx : ∀ r ∈ refs, x ∉ r.1) :
    ref (b ++ x :: t) = none :=
  ref_none fun r hr hp => h r hr (InlineNotes.pre_stop hp (hx r hr))

theorem reading_title (u acc s t : Bytes) (hs : PlainTitle s) :
    reading (.title u acc) (s ++ b!"\")" ++ t) = .to u (acc ++ s) :: reading .text t := by
  induction s generalizing acc with
  | nil => simp [reading, step]
  | cons c s ih =>
    have h1 := hs.1 c (by simp)
    rw [not_or] at h1
    have ih' := fun acc => ih acc ⟨fun x hx => hs.1 x (by simp [hx]), fun a b h r hr => hs.2 (c :: a) b (by simp [h]) r hr⟩
    simp only [List.cons_append, reading, step, if_neg h1.1, if_neg h1.2]
    by_cases hc : c = c!"&"
    · have hr : ref (s ++ b!"\")" ++ t) = none := by
        rw [List.append_assoc]
        exact ref_stop (hs.2 [] s (by simp [hc])) (by decide)
      rw [if_pos hc, hr]
      simp only [List.nil_append]
      rw [ih']; simp
    · rw [if_neg hc]; simp only [List.nil_append]; rw [ih']; simp

theorem reading_url (acc s p t : Bytes) (hs : PlainUrl s) (hp : PlainTitle p) :
    reading (.url acc) (s ++ b!" \"" ++ p ++ b!"\")" ++ t) = .to (acc ++ s) p :: reading .text t := by
  induction s generalizing acc with
  | nil =>
    have := reading_title acc [] p t hp
    simp only [List.append_assoc, List.nil_append, List.append_nil] at this ⊢
    simp only [reading, step, List.cons_append, List.head?_cons, List.nil_append]
    simpa using this
  | cons c s ih =>
    have h1 := hs.1 c (by simp)
    simp only [not_or] at h1
    have ih' := fun acc => ih acc ⟨fun x hx => hs.1 x (by simp [hx]), fun a b h r hr => hs.2 (c :: a) b (by simp [h]) r hr⟩
    have h32 : ¬ c = 32 := by intro h; subst h; exact h1.1 (by decide)
    simp only [List.cons_append, reading, step, if_neg h1.2.2.1]
    rw [if_neg (by simp [h32])]
    by_cases hc : c = c!"&"
    · have hr : ref (s ++ b!" \"" ++ p ++ b!"\")" ++ t) = none := by
        simp only [List.append_assoc]
        exact ref_stop (hs.2 [] s (by simp [hc])) (by decide)
      rw [if_pos hc, hr]
      simp only [List.nil_append]
      rw [ih']; simp
    · rw [if_neg hc, if_neg (by simp only [not_or]; exact ⟨h1.1, h1.2.1, h1.2.2.2⟩)]; simp only [List.nil_append]; rw [ih']; simp

/-- One thing is read as it was written. -/
theorem reading_one (d : Dialect) (e : Ev) (E : List Ev) (h : Fitting (e :: E)) :
    reading .text (render d e ++ E.flatMap (render d)) = e :: reading .text (E.flatMap (render d)) := by
  have hE : Fitting E := h.2
  have hf := h.1
  cases e with
  | ch c =>
    simp only [render]
    simp only [Fits] at hf
    obtain ⟨f1, f2, f3, f4, f5⟩ := hf
    split
    · rename_i hc
      simp [reading, step, special_punct d c hc]
    · rename_i hc
      obtain ⟨s1, s2, s3, s4, s5, s6, s7⟩ := special d c (by simpa using hc)
      simp only [List.cons_append, List.nil_append, reading, step, if_neg s1, if_neg s2, s3, s4, s5, s6, s7, false_or, false_and, if_false]
      rw [if_neg, if_neg]
      rotate_left
      · rintro ⟨h1, h2⟩
        match hh : (E.flatMap (render d)).head? with
        | none => simp [hh] at h2
        | some x =>
          simp only [hh, Option.any_some] at h2
          by_cases hx : x ∈ b!"\\`*[]!\n "
          · simp only [List.mem_cons, List.not_mem_nil, or_false] at hx
            rcases hx with rfl | rfl | rfl | rfl | rfl | rfl | rfl | rfl
            all_goals first | (simp [tagStart, isAlpha, isUpper, isLower] at h2; done) | skip
            match hR : E.flatMap (render d) with
            | [] => simp [hR] at hh
            | y :: R =>
              have : y = c!"!" := by simpa [hR] using hh
              subst this
              rcases head d E hE _ R hR with ⟨E', rfl, h4⟩ | ⟨h4, -⟩ | ⟨h4, -⟩ | ⟨h4, -⟩ | ⟨h4, -⟩ | ⟨h4, -⟩ | h4 | ⟨-, h4⟩ | h4
              · rw [List.flatMap_cons] at hR
                simp [render, mdShouldEscape] at hR
              case inr.inr.inr.inr.inr.inr.inr.inl => exact (f4 h1).2 h4
              all_goals simp at h4
          · obtain ⟨E', rfl, -⟩ := head_ch d E hE x hh hx
            exact (f4 h1).1 x h2 rfl
      · rintro ⟨h1, h2⟩
        obtain ⟨E', rfl, -⟩ := head_ch d E hE _ h2 (by decide)
        exact f5 h1 rfl
      by_cases h6 : c = c!"&"
      · rw [if_pos h6, ref_none]
        · rfl
        · intro r hr hp
          exact f3 h6 r hr (word_ch d r.1 ((by decide : ∀ r ∈ refs, ∀ x ∈ r.1, x ∉ b!"\\`*[]!\n ") r hr) E hE hp)
      · rw [if_neg h6, if_neg, if_neg f1]
        · rfl
        · rintro ⟨h1, h2⟩
          rw [List.isPrefixOf_iff_prefix] at h2
          obtain ⟨R, hR⟩ := h2
          simp at hR
          rcases head d E hE 32 _ hR.symm with ⟨E', rfl, h4⟩ | ⟨h4, -⟩ | ⟨h4, -⟩ | ⟨h4, -⟩ | ⟨-, -, R', h4⟩ | ⟨h4, -⟩ | h4 | ⟨h4, -⟩ | h4
          · rcases head d E' hE.2 10 R h4.symm with ⟨E'', rfl, -⟩ | ⟨h5, -⟩ | ⟨h5, -⟩ | ⟨-, E'', rfl⟩ | ⟨h5, -⟩ | ⟨h5, -⟩ | h5 | ⟨h5, -⟩ | h5
            · exact (by simpa using hE.2.1.1 : False)
            · simp at h5
            · simp at h5
            · exact f2 h1 (by simp)
            all_goals simp at h5
          all_goals simp at h4
  | code s =>
    obtain ⟨f1, f2, f3, f4⟩ := hf
    have ht : (E.flatMap (render d)).head? ≠ some c!"`" := by
      intro hh
      match hR : E.flatMap (render d) with
      | [] => simp [hR] at hh
      | y :: R =>
        have : y = c!"`" := by simpa [hR] using hh
        subst this
        rcases head d E hE _ R hR with ⟨E', rfl, h4⟩ | ⟨h4, -⟩ | ⟨-, s', E', rfl⟩ | ⟨h4, -⟩ | ⟨h4, -⟩ | ⟨h4, -⟩ | h4 | ⟨h4, -⟩ | h4
        · rw [List.flatMap_cons] at hR
          simp [render, mdShouldEscape] at hR
        · simp at h4
        · exact f4 s' rfl
        all_goals simp at h4
    obtain ⟨c, s', rfl⟩ : ∃ c s', s = c :: s' := by cases s with
      | nil => simp at f1
      | cons c s' => exact ⟨c, s', rfl⟩
    have := reading_code [] (c :: s') (E.flatMap (render d)) f2 ht
    simp only [render, List.append_assoc, List.cons_append, List.nil_append] at this ⊢
    rw [reading]
    simp only [step, List.head?_cons]
    simp only [Option.some.injEq, (f2 c (by simp)).1, if_false]
    simpa [f3] using this
  | soft => simp [render, reading, step]
  | hard => simp [render, reading, step]
  | em =>
    simp only [Fits] at hf
    have ht : (E.flatMap (render d)).head? ≠ some c!"*" := by
      intro hh
      match hR : E.flatMap (render d) with
      | [] => simp [hR] at hh
      | y :: R =>
        have : y = c!"*" := by simpa [hR] using hh
        subst this
        rcases head d E hE _ R hR with ⟨E', rfl, h4⟩ | ⟨h4, -⟩ | ⟨h4, -⟩ | ⟨h4, -⟩ | ⟨h4, -⟩ | ⟨-, h4⟩ | h4 | ⟨h4, -⟩ | h4
        · rw [List.flatMap_cons] at hR
          simp [render, mdShouldEscape] at hR
        case inr.inr.inr.inr.inr.inl =>
          rcases h4 with h4 | h4
          · exact hf.1 h4
          · exact hf.2 h4
        all_goals simp at h4
    simp [render, reading, step, ht]
  | st => simp [render, reading, step]
  | link =>
    simp only [Fits] at hf
    have ht : (E.flatMap (render d)).head? ≠ some c!"^" := by
      intro hh
      obtain ⟨E', rfl, -⟩ := head_ch d E hE _ hh (by decide)
      exact hf rfl
    simp [render, reading, step, ht]
  | image => simp [render, reading, step]
  | to u t =>
    have := reading_url [] u t (E.flatMap (render d)) hf.1 hf.2
    simp only [render, target, List.append_assoc, List.cons_append, List.nil_append] at this ⊢
    rw [reading]
    simpa [step, reading] using this
  | _ => simp [Fits] at hf

theorem reading_all (d : Dialect) (E : List Ev) (h : Fitting E) : inlineText (E.flatMap (render d)) = E := by
  induction E with
  | nil => rfl
  | cons e E ih =>
    rw [List.flatMap_cons, inlineText, reading_one d e E h]
    exact congrArg _ (ih h.2)

/-! ### The end of running text -/

/-- A `#` at the end has a backslash in front of it. -/
def Ends (s : Bytes) : Prop := ∀ a, s = a ++ [c!"#"] → a.getLast? = some c!"\\"

theorem Ends.append {x y : Bytes} (hx : Ends x) (hy : Ends y) : Ends (x ++ y) := by
  intro a h
  rcases List.eq_nil_or_concat y with rfl | ⟨b, c, rfl⟩
  · exact hx a (by simpa using h)
  · have h' : (x ++ b) ++ [c] = a ++ [c!"#"] := by simpa using h
    obtain ⟨h1, h2⟩ := List.append_inj' h' rfl
    have hc : c = c!"#" := by simpa using h2
    subst h1 hc
    rw [List.getLast?_append, hy b (by simp)]; rfl

theorem Ends.last {x : Bytes} {c : Byte} (hc : c ≠ c!"#") : Ends (x ++ [c]) := by
  intro a h
  have := (List.append_inj' h rfl).2
  simp at this; exact absurd this hc

theorem ends_nil : Ends [] := by intro a h; simp at h

theorem ends_escape (d : Dialect) (s : Bytes) : Ends (escapeMarkdown d s) := by
  induction s with
  | nil => exact ends_nil
  | cons c t ih =>
    rw [escapeMarkdown]
    refine Ends.append ?_ ih
    split
    · intro a h
      have := (List.append_inj' (show [c!"\\"] ++ [c] = a ++ [c!"#"] by simpa using h) rfl).1
      simp [← this]
    · rename_i h
      refine Ends.last (x := []) ?_
      rintro rfl
      simp [mdShouldEscape] at h

theorem ends_text (d : Dialect) (s : Bytes) : Ends (text d s) := by
  have h := ends_escape d
  unfold text
  split
  · split
    · split
      · exact (Ends.append (Ends.append (h _) (Ends.last (x := b!"{{TOC}") (by decide))) (h _))
      · exact Ends.append (h _) (h _)
    · exact h _
  · exact h _

theorem ends_target (u t : Bytes) : Ends (target u t) := Ends.last (by decide)

mutual
theorem ends_inline (d : Dialect) (n : Node) : Ends (inline d n) := by
  match n with
  | .mk k kids =>
    cases k with
    | text s => simpa [inline] using ends_text d s
    | softBreak => exact Ends.last (x := []) (by decide)
    | lineBreak => exact Ends.last (x := b!"  ") (by decide)
    | code s => simp only [inline]; exact Ends.last (by decide)
    | emph => simp only [inline]; exact Ends.last (by decide)
    | strong =>
      simp only [inline]
      exact Ends.append (Ends.append (Ends.last (x := b!"*") (by decide)) (ends_inlines d kids)) (Ends.last (x := b!"*") (by decide))
    | link u t => simp only [inline]; exact Ends.append (Ends.append (Ends.last (x := []) (by decide)) (ends_linkKids d kids)) (ends_target u t)
    | image u t => simp only [inline]; exact Ends.append (Ends.last (x := b!"!") (by decide)) (ends_target u t)
    | _ => simp only [inline]; exact ends_inlines d kids
theorem ends_inlines (d : Dialect) (ns : List Node) : Ends (inlines d ns) := by
  match ns with
  | [] => simpa [inlines] using ends_nil
  | n :: ns => rw [inlines]; exact Ends.append (ends_inline d n) (ends_inlines d ns)
theorem ends_linkKids (d : Dialect) (ns : List Node) : Ends (linkKids d ns) := by
  match ns with
  | [] => simpa [linkKids] using ends_nil
  | n :: ns =>
    rw [linkKids]
    refine Ends.append ?_ (ends_linkKids d ns)
    split
    · exact ends_nil
    · exact ends_inline d n
end

theorem headingText_eq (s : Bytes) (he : Ends s) (h1 : s.head? ≠ some 32) (h2 : s.getLast? ≠ some 32) :
    headingText (32 :: s) = s := by
  unfold headingText
  have e1 : List.dropWhile (fun c : Byte => c == 32) (32 :: s) = s := by
    rw [List.dropWhile_cons, if_pos (by decide)]
    cases s with
    | nil => rfl
    | cons c s => rw [List.dropWhile_cons, if_neg]; simpa using h1
  simp only [e1]
  rcases List.eq_nil_or_concat s with rfl | ⟨a, c, hs⟩
  · rfl
  · rw [List.concat_eq_append] at hs
    subst hs
    have hc : c ≠ 32 := by simpa using h2
    have e2 : List.dropWhile (fun c : Byte => c == 32) (a ++ [c]).reverse = c :: a.reverse := by simp [hc]
    rw [e2, List.dropWhile_cons]
    by_cases h : c = c!"#"
    · subst h
      have := he a rfl
      obtain ⟨b, rfl⟩ := List.getLast?_eq_some_iff.1 this
      simp
    · simp [h, hc]

/-! ### Lines -/

theorem lines_ne (s : Bytes) : lines s ≠ [] := by
  cases s with
  | nil => simp [lines]
  | cons c t =>
    rw [lines]
    split
    · simp
    · split <;> simp

theorem lines_append (a b : Bytes) : lines (a ++ 10 :: b) = lines a ++ lines b := by
  induction a with
  | nil => simp [lines]
  | cons c t ih =>
    rw [List.cons_append, lines, lines, ih]
    split
    · rfl
    · match h : lines t with
      | [] => exact absurd h (lines_ne t)
      | l :: ls => rfl

theorem lines_one {s : Bytes} (h : 10 ∉ s) : lines s = [s] := by
  induction s with
  | nil => rfl
  | cons c t ih =>
    simp at h
    rw [lines, if_neg (fun e => h.1 e.symm), ih h.2]

theorem lines_front {x s h : Bytes} {t : List Bytes} (hx : 10 ∉ x) (hs : lines s = h :: t) : lines (x ++ s) = (x ++ h) :: t := by
  induction x with
  | nil => simpa using hs
  | cons c x ih =>
    simp at hx
    rw [List.cons_append, lines, if_neg (fun e => hx.1 e.symm), ih hx.2]; rfl

theorem lines_last {s : Bytes} (h : s.getLast? = some 10) : lines s = (lines s).dropLast ++ [[]] := by
  obtain ⟨a, rfl⟩ := List.getLast?_eq_some_iff.1 h
  rw [show a ++ [10] = a ++ 10 :: [] from rfl, lines_append]
  simp [lines]

/-! ### Reading blocks -/

theorem text_noRule {l : Bytes} (h : classify l = .text) : ruler c!"-" l = false := by
  unfold classify at h
  simp only at h
  cases hr : ruler c!"-" l with
  | false => rfl
  | true =>
    rw [hr] at h
    simp only [Bool.true_or, if_true] at h
    split at h
    · simp at h
    · split at h <;> simp at h

theorem none_blank (ys : List Bytes) : readLines .none ([] :: ys) = readLines .none ys := by
  simp [readLines, more, begin, classify]

theorem para_go (acc xs ys : List Bytes) (hx : ∀ l ∈ xs, classify l = .text ∧ ¬ ruler c!"=" l) :
    readLines (.para acc) (xs ++ [] :: ys) = .para (acc ++ xs) :: readLines .none ys := by
  induction xs generalizing acc with
  | nil => simp [readLines, more, begin, classify, ruler, close]
  | cons l xs ih =>
    have h := hx l (by simp)
    simp only [List.cons_append, readLines, more, text_noRule h.1, h.2, h.1, if_true, if_false, List.nil_append, or_self, Bool.false_eq_true]
    rw [ih _ fun l hl => hx l (by simp [hl])]; simp

theorem bullet_go (acc xs ys : List Bytes) (hx : ∀ l ∈ xs, classify l = .text ∧ ¬ ruler c!"=" l) :
    readLines (.bullet acc) (xs ++ [] :: ys) = .bullet (acc ++ xs) :: readLines .none ys := by
  induction xs generalizing acc with
  | nil => simp [readLines, more, begin, classify, close]
  | cons l xs ih =>
    have h := hx l (by simp)
    simp only [List.cons_append, readLines, more, h.1, if_true, List.nil_append]
    rw [ih _ fun l hl => hx l (by simp [hl])]; simp

theorem number_go (n : Nat) (acc xs ys : List Bytes) (hx : ∀ l ∈ xs, classify l = .text ∧ ¬ ruler c!"=" l) :
    readLines (.number n acc) (xs ++ [] :: ys) = .number n (acc ++ xs) :: readLines .none ys := by
  induction xs generalizing acc with
  | nil => simp [readLines, more, begin, classify, close]
  | cons l xs ih =>
    have h := hx l (by simp)
    simp only [List.cons_append, readLines, more, h.1, if_true, List.nil_append]
    rw [ih _ fun l hl => hx l (by simp [hl])]; simp

theorem fence_go (i : Bytes) (acc xs ys : List Bytes) (hx : ∀ l ∈ xs, closesFence l = false) :
    readLines (.fence i acc) (xs ++ b!"```" :: ys) = .code i (acc ++ xs) :: readLines .none ys := by
  induction xs generalizing acc with
  | nil =>
    have : closesFence b!"```" = true := by decide
    simp [readLines, more, this]
  | cons l xs ih =>
    simp only [List.cons_append, readLines, more, hx l (by simp), List.nil_append, Bool.false_eq_true, if_false]
    rw [ih _ fun l hl => hx l (by simp [hl])]; simp

theorem html_go (acc xs ys : List Bytes) (hx : ∀ l ∈ xs, classify l ≠ .blank) :
    readLines (.html acc) (xs ++ [] :: ys) = .html (acc ++ xs) :: readLines .none ys := by
  induction xs generalizing acc with
  | nil => simp [readLines, more, classify]
  | cons l xs ih =>
    simp only [List.cons_append, readLines, more, hx l (by simp), List.nil_append, if_false]
    rw [ih _ fun l hl => hx l (by simp [hl])]; simp

theorem classify_quote (l : Bytes) : classify (b!"> " ++ l) = .quote l := by
  simp [classify, ruler]

theorem classify_bullet (l : Bytes) : classify (b!"- " ++ l) = .bullet l := by
  simp [classify, ruler]

theorem classify_fence (i : Bytes) (h : c!"`" ∉ i) : classify (b!"```" ++ i) = .fence i := by
  simp [classify, ruler, h]

theorem classify_heading (n : Nat) (s : Bytes) (h1 : 1 ≤ n) (h2 : n ≤ 6) :
    classify (List.replicate n c!"#" ++ b!" " ++ s) = .heading n (headingText (32 :: s)) := by
  have e : List.takeWhile (· == c!"#") (List.replicate n c!"#" ++ b!" " ++ s) = List.replicate n c!"#" := by
    rw [List.append_assoc]
    exact InlineNotes.takeWhile_stop (c := 32) (by intro x hx; simp [List.eq_of_mem_replicate hx]) (by decide)
  have ed : (List.replicate n c!"#" ++ b!" " ++ s).drop n = 32 :: s := by
    rw [List.append_assoc, List.drop_left' (by simp)]; rfl
  have en : (List.replicate n c!"#" ++ b!" " ++ s).all (· == 32) = false := by
    cases n with
    | zero => omega
    | succ n => simp [List.replicate_succ]
  unfold classify
  simp only [e, List.length_replicate, ed, en]
  simp [h1, h2]

theorem decimal_digits (n : Nat) : (∀ c ∈ Man.decimal n, isDigit c = true) ∧ Man.decimal n ≠ [] ∧ value (Man.decimal n) = n := by
  have hd : ∀ k, k < 10 → isDigit (UInt8.ofNat (48 + k)) = true ∧ (UInt8.ofNat (48 + k)).toNat - 48 = k := by
    intro k hk
    match k, hk with
    | 0, _ | 1, _ | 2, _ | 3, _ | 4, _ | 5, _ | 6, _ | 7, _ | 8, _ | 9, _ => decide
  induction n using Nat.strongRecOn with
  | ind n ih =>
    rw [Man.decimal]
    split
    · rename_i h
      refine ⟨by simpa using (hd n h).1, by simp, ?_⟩
      simp only [value, List.foldl_cons, List.foldl_nil, Nat.zero_mul, Nat.zero_add]
      exact (hd n h).2
    · rename_i h
      obtain ⟨h1, h2, h3⟩ := ih (n / 10) (by omega)
      have h4 := hd (n % 10) (Nat.mod_lt _ (by omega))
      refine ⟨?_, by simp, ?_⟩
      · intro c hc
        rcases List.mem_append.1 hc with hc | hc
        · exact h1 c hc
        · rw [List.mem_singleton.1 hc]; exact h4.1
      · unfold value at h3 ⊢
        rw [List.foldl_append, h3, List.foldl_cons, List.foldl_nil, h4.2]
        omega

theorem classify_number (n : Nat) (l : Bytes) : classify (Man.decimal n ++ b!". " ++ l) = .number n l := by
  obtain ⟨h1, h2, h3⟩ := decimal_digits n
  match hD : Man.decimal n with
  | [] => exact absurd hD h2
  | c :: D =>
    rw [hD] at h1 h3
    have hc := h1 c (by simp)
    have hn : ∀ x : Byte, isDigit x = false → (c == x) = false := by
      intro x hx
      cases h : c == x with
      | false => rfl
      | true => rw [eq_of_beq h] at hc; simp [hc] at hx
    have hn' : ∀ x : Byte, isDigit x = false → ¬ x = c := by
      rintro x hx rfl; simp [hx] at hc
    have et : List.takeWhile isDigit (c :: D ++ b!". " ++ l) = c :: D := by
      rw [List.append_assoc]
      exact InlineNotes.takeWhile_stop (c := c!".") h1 (by decide)
    have ed : (c :: D ++ b!". " ++ l).drop (c :: D).length = b!". " ++ l := by
      rw [List.append_assoc, List.drop_left]
    have ed2 : (c :: D ++ b!". " ++ l).drop ((c :: D).length + 2) = l := by
      rw [← List.drop_drop, ed]; rfl
    unfold classify
    simp only [et, ed, ed2, h3]
    simp [ruler, hn 32 (by decide), hn c!"#" (by decide), hn c!"-" (by decide), hn c!"*" (by decide), hn c!"_" (by decide),
      hn' c!"`" (by decide), hn' c!">" (by decide), hn' c!"-" (by decide), hn' c!"*" (by decide), hn' c!"+" (by decide)]

/-- The lines of a quoted paragraph: each as it is, or behind the mark. -/
def Marked : List Bytes → List Bytes → Prop
  | [], [] => True
  | l :: ls, m :: ms => (m = l ∨ m = b!"> " ++ l) ∧ Marked ls ms
  | _, _ => False

/-- The same, with the first line as it is. -/
def Cont (L M : List Bytes) : Prop := ∃ h L' M', L = h :: L' ∧ M = h :: M' ∧ Marked L' M'

theorem cont_append (x A B : Bytes) (h : Cont (lines A) (lines B)) : Cont (lines (x ++ A)) (lines (x ++ B)) := by
  induction x with
  | nil => exact h
  | cons c x ih =>
    obtain ⟨l, L, M, h1, h2, h3⟩ := ih
    simp only [List.cons_append, lines, h1, h2]
    split
    · exact ⟨[], l :: L, l :: M, rfl, rfl, Or.inl rfl, h3⟩
    · exact ⟨c :: l, L, M, rfl, rfl, h3⟩

theorem cont_quoted (d : Dialect) (ns : List Node) : Cont (lines (inlines d ns)) (lines (quoted d false ns)) := by
  induction ns with
  | nil => exact ⟨[], [], [], by simp [inlines, lines], by simp [quoted, lines], trivial⟩
  | cons n ns ih =>
    rw [inlines, quoted]
    by_cases hn : n.isSoft = true
    · rw [if_pos hn]
      obtain ⟨l, L, M, h1, h2, h3⟩ := ih
      have e : inline d n = b!"\n" := by
        match n, hn with
        | .mk k kids, hn => cases k <;> simp [Node.isSoft, Node.kind] at hn; simp [inline]
      refine ⟨[], l :: L, (b!"> " ++ l) :: M, ?_, ?_, Or.inr rfl, h3⟩
      · rw [e]; simp [lines, h1]
      · rw [show b!"\n> " ++ quoted d false ns = [] ++ 10 :: (b!"> " ++ quoted d false ns) from rfl, lines_append,
          lines_front (by decide) h2]
        rfl
    · rw [if_neg hn]
      simp only [Bool.false_eq_true, if_false, List.nil_append]
      exact cont_append _ _ _ ih

theorem quote_go (acc L M ys : List Bytes) (h : Marked L M) (hx : ∀ l ∈ L, classify l = .text) :
    readLines (.quote acc) (M ++ [] :: ys) = .quote (acc ++ L) :: readLines .none ys := by
  induction L generalizing acc M with
  | nil =>
    cases M with
    | nil => simp [readLines, more, begin, classify, close]
    | cons m M => simp [Marked] at h
  | cons l L ih =>
    cases M with
    | nil => simp [Marked] at h
    | cons m M =>
      obtain ⟨h1, h2⟩ := h
      have ih' := fun acc => ih acc M h2 fun l hl => hx l (by simp [hl])
      rcases h1 with rfl | rfl
      · simp only [List.cons_append, readLines, more, hx m (by simp), List.nil_append]
        rw [ih']; simp
      · simp only [List.cons_append (bs := [] :: ys), readLines]
        simp only [more, classify_quote, List.nil_append]
        rw [ih']; simp

theorem tocPara_no {d : Dialect} {kids : List Node} (h : Flat.Toc d kids) : tocPara d kids = false := by
  unfold tocPara
  split
  · rename_i s ks
    cases hd : decide (d = .mmd) with
    | false => rfl
    | true =>
      have := h (by simpa using hd) s ks rfl
      rw [Bool.true_and, Bool.eq_false_iff]
      exact fun e => this (List.isPrefixOf_iff_prefix.1 e)
  · simp

theorem one_item (d : Dialect) (ks : List Node) (h2 : PlainLines (inlines d ks)) (rest : Bytes) (o : Bool) (n : Nat) :
    readLines .none (lines ((if o then Man.decimal n ++ b!". " else b!"- ") ++ (inlines d ks ++ b!"\n\n") ++ rest)) =
      (if o then .number n (lines (inlines d ks)) else .bullet (lines (inlines d ks))) :: readLines .none (lines rest) := by
  match hl : lines (inlines d ks) with
  | [] => exact absurd hl (lines_ne _)
  | l :: ls =>
    rw [PlainLines, hl] at h2
    have e : ∀ x : Bytes, 10 ∉ x → lines (x ++ (inlines d ks ++ b!"\n\n") ++ rest) = (x ++ l) :: (ls ++ [] :: lines rest) := by
      intro x hx
      rw [show x ++ (inlines d ks ++ b!"\n\n") ++ rest = (x ++ inlines d ks) ++ 10 :: ([] ++ 10 :: rest) by simp, lines_append,
        lines_append, lines_front hx hl]
      simp [lines]
    cases o with
    | true =>
      have hd : 10 ∉ Man.decimal n ++ b!". " := by
        intro h
        rcases List.mem_append.1 h with h | h
        · have := (decimal_digits n).1 10 h; exact absurd this (by decide)
        · simp at h
      simp only [if_true]
      rw [e _ hd, readLines]
      simp only [more, begin, classify_number, List.nil_append]
      rw [number_go n [l] ls _ fun x hx => h2 x (by simp [hx])]; rfl
    | false =>
      simp only [Bool.false_eq_true, if_false]
      rw [e _ (by decide), readLines]
      simp only [more, begin, classify_bullet, List.nil_append]
      rw [bullet_go [l] ls _ fun x hx => h2 x (by simp [hx])]; rfl

theorem all_items (d : Dialect) (o : Bool) (start i : Nat) (its : List Node) (rest : Bytes)
    (h : ∀ it ∈ its, ∃ ks, it = .mk .item [.mk .paragraph ks] ∧ PlainLines (inlines d ks) ∧ Flat.Toc d ks) :
    readLines .none (lines (items d o start i its ++ rest)) =
      (its.mapIdx fun j it =>
        let ls := lines (inlines d (it.kids.flatMap Node.kids))
        if o then Blk.number (start + (i + j)) ls else .bullet ls) ++ readLines .none (lines rest) := by
  induction its generalizing i with
  | nil => simp [items]
  | cons it its ih =>
    obtain ⟨ks, rfl, h2, h3⟩ := h it (by simp)
    have hb : block d (.mk .item [.mk .paragraph ks]) = inlines d ks ++ b!"\n\n" := by
      simp [block, blocks, tocPara_no h3]
    rw [items, hb, List.append_assoc, one_item d ks h2, ih (i + 1) fun it hit => h it (by simp [hit])]
    rw [List.mapIdx_cons]
    simp only [Node.kids, List.flatMap_cons, List.flatMap_nil, List.append_nil, List.cons_append, Nat.add_zero]
    simp only [Nat.add_assoc, Nat.add_comm 1]

/-- One block of the document. -/
theorem one_block (d : Dialect) (n : Node) (h : Flat d n) (rest : Bytes) :
    readLines .none (lines (block d n ++ (if n.isList then [] else b!"\n") ++ rest)) =
      (expected d n).map grown ++ readLines .none (lines rest) := by
  match n with
  | .mk k kids =>
    cases k with
    | paragraph =>
      obtain ⟨h1, h2⟩ := h
      simp only [block, tocPara_no h2, Bool.false_eq_true, if_false, Node.isList, Node.kind, expected, List.map_cons, List.map_nil, grown]
      rw [show inlines d kids ++ b!"\n\n" ++ b!"\n" ++ rest = inlines d kids ++ 10 :: ([] ++ 10 :: ([] ++ 10 :: rest)) by simp,
        lines_append, lines_append, lines_append]
      match hl : lines (inlines d kids) with
      | [] => exact absurd hl (lines_ne _)
      | l :: ls =>
        rw [PlainLines, hl] at h1
        rw [show lines [] = [[]] from rfl, List.cons_append, readLines]
        simp only [more, begin, (h1 l (by simp)).1, List.nil_append, List.singleton_append]
        rw [para_go [l] ls _ fun x hx => h1 x (by simp [hx]), none_blank]; rfl
    | heading m =>
      obtain ⟨h1, h2, h3, h4, h5⟩ := h
      simp only [block, Node.isList, Node.kind, expected, List.map_cons, List.map_nil, grown, Bool.false_eq_true, if_false]
      rw [show List.replicate m c!"#" ++ b!" " ++ inlines d kids ++ b!"\n\n" ++ b!"\n" ++ rest =
          (List.replicate m c!"#" ++ b!" " ++ inlines d kids) ++ 10 :: ([] ++ 10 :: ([] ++ 10 :: rest)) by simp,
        lines_append, lines_append, lines_append, lines_one (s := _ ++ _), List.cons_append, readLines]
      · simp only [more, begin, classify_heading m _ h1 h2, headingText_eq _ (ends_inlines d kids) h4 h5]
        rw [show lines [] = [[]] from rfl]
        simp only [List.nil_append, List.cons_append, none_blank]
      · simp only [List.mem_append, not_or]
        exact ⟨⟨fun hm => absurd (List.eq_of_mem_replicate hm) (by decide), by decide⟩, h3⟩
    | codeBlock info s =>
      obtain ⟨h1, h2, h3, h4⟩ := h
      simp only [block, Node.isList, Node.kind, expected, List.map_cons, List.map_nil, grown, Bool.false_eq_true, if_false]
      rw [show b!"```" ++ info ++ b!"\n" ++ s ++ b!"\n```\n\n" ++ b!"\n" ++ rest =
          (b!"```" ++ info) ++ 10 :: (s ++ 10 :: (b!"```" ++ 10 :: ([] ++ 10 :: ([] ++ 10 :: rest)))) by simp,
        lines_append, lines_append, lines_append, lines_append, lines_append, lines_one (s := b!"```" ++ info), List.cons_append,
        readLines]
      · simp only [more, begin, classify_fence info h2, List.nil_append]
        rw [lines_one (s := b!"```") (by decide), List.cons_append, fence_go info [] (lines s) _ h3, ← lines_last h4]
        rw [show lines [] = [[]] from rfl]
        simp only [List.nil_append, List.cons_append, none_blank]
      · simp only [List.mem_append, not_or]; exact ⟨by decide, h1⟩
    | rule =>
      simp only [block, Node.isList, Node.kind, expected, List.map_cons, List.map_nil, grown, Bool.false_eq_true, if_false]
      rw [show b!"---\n\n" ++ b!"\n" ++ rest = b!"---" ++ 10 :: ([] ++ 10 :: ([] ++ 10 :: rest)) by simp,
        lines_append, lines_append, lines_append, lines_one (s := b!"---") (by decide), List.cons_append, readLines]
      have : classify b!"---" = .rule := by decide
      simp only [more, begin, this]
      rw [show lines [] = [[]] from rfl]
      simp only [List.nil_append, List.cons_append, none_blank]
    | htmlBlock s =>
      obtain ⟨h1, h2, h3, h4⟩ := h
      have hm : ¬ (d = .mmd ∧ (Embed.find b!"<!--TOC" s).isSome) := by
        rintro ⟨e, h⟩
        rw [(Embed.find_none (by simp)).2 (h4 e)] at h
        simp at h
      simp only [block, if_neg hm, Node.isList, Node.kind, expected, List.map_cons, List.map_nil, grown, Bool.false_eq_true, if_false]
      rw [show s ++ b!"\n\n" ++ b!"\n" ++ rest = s ++ 10 :: ([] ++ 10 :: ([] ++ 10 :: rest)) by simp,
        lines_append, lines_append, lines_append]
      conv => lhs; rw [lines_last h3]
      match hl : (lines s).dropLast with
      | [] => simp [hl] at h1
      | l :: ls =>
        rw [hl] at h1 h2
        have hh : classify l = .html := by simpa using h1
        rw [show lines [] = [[]] from rfl]
        simp only [List.nil_append, List.cons_append, List.append_assoc, readLines, more, begin, hh]
        rw [html_go [l] ls _ fun x hx => h2 x (by simp [hx]), none_blank, none_blank]
        simp
    | quote =>
      obtain ⟨ks, rfl, h2, h3⟩ := h
      obtain ⟨l, L, M, e1, e2, e3⟩ := cont_quoted d ks
      have hq : lines (quoted d true ks) = (if ks = [] then [[]] else (b!"> " ++ l) :: M) := by
        cases ks with
        | nil => simp [quoted, lines]
        | cons n ns =>
          have hn : n.isSoft = false := by simpa using h3
          rw [if_neg (by simp), quoted, hn]
          rw [quoted, hn] at e2
          simp only [Bool.false_eq_true, if_false, if_true, List.nil_append] at e2 ⊢
          rw [List.append_assoc, lines_front (by decide) e2]
      have hk : ks ≠ [] := by
        rintro rfl
        have := (h2 [] (by simp [inlines, lines])).1
        exact absurd this (by decide)
      rw [if_neg hk] at hq
      simp only [block, quoteKids, Node.isList, Node.kind, Node.kids, expected, List.map_cons, List.map_nil, grown, Bool.false_eq_true, if_false, if_true]
      rw [show quoted d true ks ++ b!"\n\n" ++ [] ++ b!"\n" ++ rest = quoted d true ks ++ 10 :: ([] ++ 10 :: ([] ++ 10 :: rest)) by simp,
        lines_append, lines_append, lines_append, hq, e1]
      rw [show lines [] = [[]] from rfl, List.cons_append, readLines]
      simp only [more, begin, classify_quote, List.nil_append, List.singleton_append]
      rw [quote_go [l] L M _ e3 fun x hx => (h2 x (by simp [e1, hx])).1, none_blank]; rfl
    | list o start =>
      simp only [Flat] at h
      simp only [block, Node.isList, Node.kind, expected, if_true, List.append_nil, List.append_assoc]
      rw [all_items d o start 0 kids _ h, show b!"\n" ++ rest = [] ++ 10 :: rest from rfl, lines_append, show lines [] = [[]] from rfl,
        List.singleton_append, none_blank]
      congr 1
      simp only [Nat.zero_add]
      symm
      rw [List.map_eq_iff]
      intro i
      rw [List.getElem?_mapIdx]
      cases kids[i]? with
      | none => rfl
      | some it => cases o <;> rfl
    | _ => simp [Flat] at h

theorem page_doc (d : Dialect) (ns : List Node) (h : ∀ n ∈ ns, Flat d n) :
    page (docKids d ns) = (ns.flatMap (expected d)).map grown := by
  unfold page
  induction ns with
  | nil => simp [docKids, lines, readLines, more, begin, classify, close]
  | cons n ns ih =>
    rw [docKids, one_block d n (h n (by simp)), ih fun m hm => h m (by simp [hm])]
    simp

end Verif.ToMarkdown
