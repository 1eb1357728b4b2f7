/- Lemmas about titles, headings and stylesheets in the standalone page. -/
import Verif.Proof.Standalone
import Verif.Proof.Escape
import Verif.Proof.TableDocs

namespace Verif.Standalone
open Spec

/-- One of the two texts begins with the other. -/
def compat (w y : Bytes) : Bool := w.isPrefixOf y || y.isPrefixOf w

/-- No occurrence of `w` can begin in the text, whatever follows. -/
def quiet (w : Bytes) : Bytes → Bool
  | [] => true
  | c :: t => !compat w (c :: t) && quiet w t

theorem compat_append {w y z : Bytes} (h : compat w (y ++ z) = true) : compat w y = true := by
  simp only [compat, Bool.or_eq_true, List.isPrefixOf_iff_prefix] at *
  rcases h with h | h
  · rcases Nat.le_total w.length y.length with hl | hl
    · exact .inl (List.prefix_of_prefix_length_le h (List.prefix_append y z) hl)
    · exact .inr (List.prefix_of_prefix_length_le (List.prefix_append y z) h hl)
  · exact .inr ((List.prefix_append y z).trans h)

theorem quiet_append {w x y : Bytes} (hx : quiet w x = true) (hy : quiet w y = true) : quiet w (x ++ y) = true := by
  induction x with
  | nil => exact hy
  | cons c x ih =>
    simp only [quiet, Bool.and_eq_true, Bool.not_eq_true'] at hx
    simp only [List.cons_append, quiet, Bool.and_eq_true, Bool.not_eq_true']
    refine ⟨?_, ih hx.2⟩
    cases h : compat w (c :: (x ++ y)) with
    | false => rfl
    | true => rw [← List.cons_append] at h; rw [compat_append h] at hx; simp at hx

theorem quiet_free {d : Byte} {w x : Bytes} (h : d ∉ x) : quiet (d :: w) x = true := by
  induction x with
  | nil => rfl
  | cons c x ih =>
    simp only [List.mem_cons, not_or] at h
    have h1 : ¬ c = d := fun e => h.1 e.symm
    simp [quiet, compat, List.isPrefixOf, h.1, h1, ih h.2]

theorem find_quiet {w x s : Bytes} (h : quiet w x = true) : Embed.find w (x ++ s) = (Embed.find w s).map fun r => (x ++ r.1, r.2) := by
  induction x with
  | nil => simp
  | cons c x ih =>
    simp only [quiet, Bool.and_eq_true, Bool.not_eq_true'] at h
    rw [List.cons_append, Embed.find, if_neg, ih h.2]
    · cases Embed.find w s <;> simp
    · intro hp
      have : compat w (c :: x ++ s) = true := by simp [compat, List.isPrefixOf_iff_prefix, hp]
      rw [compat_append this] at h; simp at h

theorem find_min {w : Bytes} : ∀ {s a b a' b' : Bytes}, Embed.find w s = some (a, b) → s = a' ++ w ++ b' → s ≠ [] → a.length ≤ a'.length := by
  intro s
  induction s with
  | nil => intro a b a' b' _ _ h; exact absurd rfl h
  | cons c s ih =>
    intro a b a' b' h hs _
    rw [Embed.find] at h
    by_cases hp : w <+: c :: s
    · rw [if_pos hp] at h
      simp only [Option.some.injEq, Prod.mk.injEq] at h
      rw [← h.1]; simp
    · rw [if_neg hp] at h
      cases hf : Embed.find w s with
      | none => rw [hf] at h; simp at h
      | some r =>
        rw [hf] at h
        simp only [Option.map_some, Option.some.injEq, Prod.mk.injEq] at h
        cases a' with
        | nil => exact absurd ⟨b', by rw [hs]; simp⟩ hp
        | cons e a' =>
          simp only [List.cons_append, List.cons.injEq] at hs
          have hne : s ≠ [] := by rintro rfl; simp [Embed.find] at hf
          have := ih (a := r.1) (b := r.2) hf hs.2 hne
          rw [← h.1]; simpa using this

theorem find_shift {x w : Bytes} : ∀ {s a b : Bytes}, Embed.find w s = some (a ++ x, b) → Embed.find (x ++ w) s = some (a, b) := by
  intro s
  induction s with
  | nil => intro a b h; simp [Embed.find] at h
  | cons c s ih =>
    intro a b h
    have hs := Embed.find_some h
    have h0 := h
    cases a with
    | nil =>
      rw [Embed.find, if_pos ⟨b, by rw [hs]; simp⟩, hs]
      simp only [List.nil_append, List.append_assoc]
      rw [← List.append_assoc x w b, List.drop_left]
    | cons e a =>
      rw [Embed.find] at h
      by_cases hp : w <+: c :: s
      · rw [if_pos hp] at h; simp at h
      · rw [if_neg hp] at h
        cases hf : Embed.find w s with
        | none => rw [hf] at h; simp at h
        | some r =>
          rw [hf] at h
          simp only [Option.map_some, Option.some.injEq, Prod.mk.injEq, List.cons_append, List.cons.injEq] at h
          obtain ⟨⟨rfl, h2⟩, h3⟩ := h
          have := ih (a := a) (b := b) (by rw [hf, ← h2, ← h3])
          rw [Embed.find, if_neg, this]
          · rfl
          · rintro ⟨t, ht⟩
            have := find_min h0 (a' := x) (b' := t) (by rw [← ht]) (by simp)
            simp at this; omega

/-! ### The title -/

theorem decode_none {t : Bytes} (h : c!"&" ∉ t) : Html.decode t = t := by
  induction t with
  | nil => rfl
  | cons c t ih =>
    simp only [List.mem_cons, not_or] at h
    rw [Escape.decode_plain c t (fun e => h.1 e.symm), ih h.2]

theorem title_find {g t : Bytes} (hi : Bool) (rest : Bytes) (hg : c!"<" ∉ g) (ht : ¬ b!"</title>" <:+: t) :
    titleOf (top g t hi ++ rest) = some (Html.decode t) := by
  have e : top g t hi ++ rest = (b!"<!DOCTYPE html>\n<html lang=\"" ++ g ++ (b!"\">\n<head>\n" ++ b!"  <meta charset=\"UTF-8\">\n" ++
      b!"  <meta name=\"viewport\" content=\"width=device-width, initial-scale=1.0\">\n" ++
      b!"  <meta name=\"generator\" content=\"Apex 0.1.85\">\n" ++ b!"  ")) ++ (b!"<title>" ++ (t ++ b!"</title>" ++ (b!"\n" ++ (if hi then rules else []) ++ rest))) := by
    simp only [top, List.append_assoc]; rfl
  have hq : quiet b!"<title>" (b!"<!DOCTYPE html>\n<html lang=\"" ++ g ++ (b!"\">\n<head>\n" ++ b!"  <meta charset=\"UTF-8\">\n" ++
      b!"  <meta name=\"viewport\" content=\"width=device-width, initial-scale=1.0\">\n" ++
      b!"  <meta name=\"generator\" content=\"Apex 0.1.85\">\n" ++ b!"  ")) = true :=
    quiet_append (quiet_append (by decide +kernel) (quiet_free hg)) (by decide +kernel)
  rw [titleOf, e, find_quiet hq, TableCaptions.find_here (by simp)]
  simp only [Option.map_some]
  rw [(Embed.find_eq (by decide) t _).2 ht]
  rfl

theorem language_find {g t : Bytes} (hi : Bool) (rest : Bytes) (hg : c!"\"" ∉ g) :
    languageOf (top g t hi ++ rest) = some (Html.decode g) := by
  have e : ∃ z, top g t hi ++ rest = b!"<!DOCTYPE html>\n<html " ++ (b!"lang=\"" ++ (g ++ c!"\"" :: z)) :=
    ⟨b!">\n<head>\n" ++ (b!"  <meta charset=\"UTF-8\">\n" ++
      (b!"  <meta name=\"viewport\" content=\"width=device-width, initial-scale=1.0\">\n" ++
      (b!"  <meta name=\"generator\" content=\"Apex 0.1.85\">\n" ++ (b!"  <title>" ++ (t ++ (b!"</title>\n" ++ ((if hi then rules else []) ++ rest))))))),
      by simp only [top, List.append_assoc]; rfl⟩
  obtain ⟨z, e⟩ := e
  rw [languageOf, e, find_quiet (by decide +kernel), TableCaptions.find_here (by simp)]
  simp only [Option.map_some, Option.some.injEq]
  have := EmojiHtml.takeWhile_split (x := g) (z := []) (p := (· != c!"\"")) z (fun c hc => by
    simp only [bne_iff_ne]; rintro rfl; exact hg hc) c!"\"" (by decide)
  rw [List.append_nil] at this
  rw [this]

/-! ### The first heading -/

theorem strip_plain {t : Bytes} (h1 : c!"<" ∉ t) (h2 : c!">" ∉ t) (rest : Bytes) : strip false (t ++ rest) = t ++ strip false rest := by
  induction t with
  | nil => rfl
  | cons c t ih =>
    simp only [List.mem_cons, not_or] at h1 h2
    rw [List.cons_append, strip, if_neg (fun e => h1.1 e.symm), if_neg (fun e => h2.1 e.symm), ih h1.2 h2.2]
    rfl

theorem strip_in {t : Bytes} (h1 : c!"<" ∉ t) (h2 : c!">" ∉ t) (rest : Bytes) : strip true (t ++ rest) = strip true rest := by
  induction t with
  | nil => rfl
  | cons c t ih =>
    simp only [List.mem_cons, not_or] at h1 h2
    rw [List.cons_append, strip, if_neg (fun e => h1.1 e.symm), if_neg (fun e => h2.1 e.symm), ih h1.2 h2.2]
    rfl

theorem strip_pieces (ps : List Piece) (h : ∀ p ∈ ps, p.Ok) : strip false (ps.flatMap Piece.src) = ps.flatMap Piece.shown := by
  induction ps with
  | nil => rfl
  | cons p ps ih =>
    have ih := ih fun q hq => h q (by simp [hq])
    have hp := h p (by simp)
    rw [List.flatMap_cons, List.flatMap_cons]
    cases p with
    | text t => rw [Piece.src, Piece.shown, strip_plain hp.1 hp.2, ih]
    | tag t =>
      rw [Piece.src, Piece.shown, List.append_assoc, List.append_assoc, List.cons_append, List.nil_append, strip, if_pos rfl, strip_in hp.1 hp.2,
        List.cons_append, List.nil_append, strip, if_neg (by decide), if_pos rfl, ih]
      rfl

theorem blank_iff (c : Byte) : blank c = true ↔ Blank c := by
  simp [blank, Blank, or_assoc]

theorem trim_spec (s : Bytes) : Trimmed s (((s.reverse.dropWhile blank).reverse).dropWhile blank) := by
  obtain ⟨w, h1, h2, h3⟩ := TableCaptions.dropEnd_spec blank s
  have hd := List.takeWhile_append_dropWhile (p := blank) (l := TableCaptions.dropEnd blank s)
  refine ⟨(TableCaptions.dropEnd blank s).takeWhile blank, w, ?_, fun c hc => ?_, fun c hc => (blank_iff c).1 (h2 c hc), fun c hc hb => ?_, fun c hc hb => ?_⟩
  · show s = _ ++ (TableCaptions.dropEnd blank s).dropWhile blank ++ w
    rw [hd]; exact h1
  · exact (blank_iff c).1 (List.all_eq_true.1 List.all_takeWhile c hc)
  · have := List.head?_dropWhile_not blank (TableCaptions.dropEnd blank s)
    have hc' : ((TableCaptions.dropEnd blank s).dropWhile blank).head? = some c := hc
    rw [hc'] at this
    simp only [(blank_iff c).2 hb] at this
    exact absurd this (by decide)
  · have hc' : ((TableCaptions.dropEnd blank s).dropWhile blank).getLast? = some c := hc
    have := h3 c (by
      rw [← hd, TableCaptions.getLast_append (by intro e; rw [e] at hc'; simp at hc')]; exact hc')
    rw [(blank_iff c).2 hb] at this; simp at this

theorem trimmed_unique {s t t' : Bytes} (h : Trimmed s t) (h' : Trimmed s t') : t = t' := by
  have key : ∀ t, Trimmed s t → t = ((s.reverse.dropWhile blank).reverse).dropWhile blank := by
    rintro t ⟨a, b, rfl, ha, hb, h1, h2⟩
    by_cases ht : t = []
    · subst ht
      have : ((a ++ [] ++ b).reverse ++ []).dropWhile blank = [] := by
        rw [InlineTables.dropWhile_all]
        · rfl
        · intro c hc
          simp only [List.append_nil, List.mem_reverse, List.mem_append] at hc
          exact (blank_iff c).2 (hc.elim (ha c) (hb c))
      rw [List.append_nil] at this
      rw [this]; rfl
    rw [List.reverse_append, EmojiHtml.dropWhile_pre (fun c hc => (blank_iff c).2 (hb c (List.mem_reverse.1 hc)))]
    · rw [List.reverse_reverse, EmojiHtml.dropWhile_pre (fun c hc => (blank_iff c).2 (ha c hc))]
      intro c hc
      cases hb : blank c with
      | false => rfl
      | true => exact absurd ((blank_iff c).1 hb) (h1 c hc)
    · intro c hc
      rw [List.head?_reverse, TableCaptions.getLast_append ht] at hc
      cases hb : blank c with
      | false => rfl
      | true => exact absurd ((blank_iff c).1 hb) (h2 c hc)
  rw [key t h, key t' h']

theorem first_h1 {a attrs z : Bytes} (ps : List Piece) (ha : ¬ b!"<h1" <:+: a) (hat : c!">" ∉ attrs) (hp : ∀ p ∈ ps, p.Ok)
    (hps : ¬ b!"</h1>" <:+: ps.flatMap Piece.src) :
    ∃ t, Trimmed (ps.flatMap Piece.shown) t ∧
      firstH1 (a ++ b!"<h1" ++ attrs ++ b!">" ++ ps.flatMap Piece.src ++ b!"</h1>" ++ z) = if t = [] then none else some t := by
  refine ⟨_, trim_spec _, ?_⟩
  have e : a ++ b!"<h1" ++ attrs ++ b!">" ++ ps.flatMap Piece.src ++ b!"</h1>" ++ z =
      a ++ b!"<h1" ++ (attrs ++ c!">" :: (ps.flatMap Piece.src ++ b!"</h1>" ++ z)) := by simp
  have hd : (attrs ++ c!">" :: (ps.flatMap Piece.src ++ b!"</h1>" ++ z)).dropWhile (· != c!">") = c!">" :: (ps.flatMap Piece.src ++ b!"</h1>" ++ z) :=
    EmojiHtml.dropWhile_pre (fun c hc => by simp only [bne_iff_ne]; rintro rfl; exact hat hc) (fun c hc => by
      simp only [List.head?_cons, Option.some.injEq] at hc; subst hc; decide)
  rw [e, firstH1, (Embed.find_eq (by decide) a _).2 ha]
  simp only
  rw [if_pos (by simp), hd, List.tail_cons, (Embed.find_eq (by decide) _ _).2 hps]
  simp only
  rw [strip_pieces ps hp]

/-! ### Stylesheets -/

/-- The link without the blanks in front of it. -/
def linkTag (p : Bytes) : Bytes := c!"<" :: (b!"link rel=\"stylesheet\" href=\"" ++ p ++ b!"\">\n")

theorem linked_tag (p : Bytes) : linked p = b!"  " ++ linkTag p := by simp [linked, linkTag]

theorem tags_differ {p q : Bytes} (hp : Plain p) (hq : Plain q) (h : p ≠ q) : compat (linkTag p) (linkTag q) = false := by
  cases hc : compat (linkTag p) (linkTag q) with
  | false => rfl
  | true =>
    exfalso
    have key : ∀ {p q : Bytes}, c!"\n" ∉ p → c!"\n" ∉ q → linkTag p <+: linkTag q → p = q := by
      rintro p q h1 h2 ⟨t, ht⟩
      simp only [linkTag, List.cons_append, List.nil_append, List.append_assoc, List.cons.injEq, true_and] at ht
      have ht' : (p ++ [c!"\"", c!">"]) ++ c!"\n" :: t = (q ++ [c!"\"", c!">"]) ++ c!"\n" :: [] := by simpa using ht
      have := congrArg (List.takeWhile (· != c!"\n")) ht'
      have f : ∀ {p : Bytes} (t : Bytes), c!"\n" ∉ p → ((p ++ [c!"\"", c!">"]) ++ c!"\n" :: t).takeWhile (· != c!"\n") = p ++ [c!"\"", c!">"] := by
        intro p t hp
        have := EmojiHtml.takeWhile_split (x := p ++ [c!"\"", c!">"]) (z := []) (p := (· != c!"\n")) t (fun c hc => by
          simp only [bne_iff_ne]; rintro rfl
          simp only [List.mem_append] at hc
          rcases hc with hc | hc
          · exact hp hc
          · revert hc; decide) c!"\n" (by decide)
        rwa [List.append_nil] at this
      rw [f t h1, f [] h2] at this
      exact List.append_cancel_right this
    simp only [compat, Bool.or_eq_true, List.isPrefixOf_iff_prefix] at hc
    rcases hc with hc | hc
    · exact h (key hp.2 hq.2 hc)
    · exact h (key hq.2 hp.2 hc).symm

theorem quiet_link {p q : Bytes} (hp : Plain p) (hq : Plain q) (h : p ≠ q) : quiet (linkTag p) (linked q) = true := by
  rw [linked_tag]
  refine quiet_append (quiet_free (by decide)) ?_
  rw [linkTag, linkTag, quiet]
  have := tags_differ hp hq h
  rw [linkTag, linkTag] at this
  rw [this]
  simp only [Bool.not_false, Bool.true_and]
  refine quiet_free ?_
  simp only [List.mem_append, not_or]
  exact ⟨⟨by decide, hq.1⟩, by decide⟩

theorem quiet_links {p : Bytes} (hp : Plain p) (l : List Bytes) (hl : ∀ q ∈ l, Plain q ∧ p ≠ q) : quiet (linkTag p) (l.flatMap linked) = true := by
  induction l with
  | nil => rfl
  | cons q l ih =>
    rw [List.flatMap_cons]
    exact quiet_append (quiet_link hp (hl q (by simp)).1 (hl q (by simp)).2) (ih fun r hr => hl r (by simp [hr]))

/-- A word that begins like the longer one. -/
theorem quiet_prefix {w v x : Bytes} (h : quiet w x = true) : quiet (w ++ v) x = true := by
  induction x with
  | nil => rfl
  | cons c x ih =>
    simp only [quiet, Bool.and_eq_true, Bool.not_eq_true'] at h ⊢
    refine ⟨?_, ih h.2⟩
    cases hc : compat (w ++ v) (c :: x) with
    | false => rfl
    | true =>
      have : compat w (c :: x) = true := by
        simp only [compat, Bool.or_eq_true, List.isPrefixOf_iff_prefix] at hc ⊢
        rcases hc with hc | hc
        · exact .inl ((List.prefix_append w v).trans hc)
        · rcases Nat.le_total w.length (c :: x).length with hl | hl
          · exact .inl (List.prefix_of_prefix_length_le (List.prefix_append w v) hc hl)
          · exact .inr (List.prefix_of_prefix_length_le hc (List.prefix_append w v) hl)
      rw [this] at h; simp at h

theorem quiet_top {p g t : Bytes} (hi : Bool) (hg : c!"<" ∉ g) (ht : c!"<" ∉ t) : quiet (linkTag p) (top g t hi) = true := by
  have e : linkTag p = b!"<l" ++ (b!"ink rel=\"stylesheet\" href=\"" ++ p ++ b!"\">\n") := by simp [linkTag]
  rw [e]
  apply quiet_prefix
  have hr : quiet b!"<l" (if hi then rules else []) = true := by cases hi <;> decide +kernel
  rw [top]
  repeat' first | exact hr | exact quiet_free hg | exact quiet_free ht | apply quiet_append
  all_goals decide +kernel

theorem link_find {p g t : Bytes} {hi : Bool} {l : List Bytes} (rest : Bytes) (hg : c!"<" ∉ g) (ht : c!"<" ∉ t) (hp : Plain p)
    (hl : ∀ q ∈ l, Plain q ∧ p ≠ q) :
    Embed.find (linked p) (top g t hi ++ l.flatMap linked ++ linked p ++ rest) = some (top g t hi ++ l.flatMap linked, rest) := by
  have e : top g t hi ++ l.flatMap linked ++ linked p ++ rest = (top g t hi ++ l.flatMap linked ++ b!"  ") ++ (linkTag p ++ rest) := by
    rw [linked_tag]; simp
  have hq : quiet (linkTag p) (top g t hi ++ l.flatMap linked ++ b!"  ") = true :=
    quiet_append (quiet_append (quiet_top hi hg ht) (quiet_links hp l hl)) (quiet_free (by decide))
  rw [linked_tag p]
  apply find_shift
  rw [← linked_tag, e, find_quiet hq, TableCaptions.find_here (by simp [linkTag])]
  simp

theorem load_readable {files : Bytes → Option Bytes} {base : Option Bytes} {p css : Bytes} (h : Readable files base p css) : load files base p = some css := by
  obtain ⟨h1, h2, h3, h4, h5⟩ := h
  have hl : css.length < 10485760 ∧ 0 < css.length := ⟨h3, List.length_pos_iff.2 h2⟩
  rcases h1 with h1 | ⟨h1, d, rfl, hd, h6⟩
  · simp [load, h1, hl]
  · simp [load, h1, hd]
    rw [show d ++ c!"/" :: p = d ++ b!"/" ++ p by simp, h6]
    simp [hl]

theorem cstr_clean {s : Bytes} (h : 0 ∉ s) : cstr s = s := by
  induction s with
  | nil => rfl
  | cons c s ih =>
    simp only [List.mem_cons, not_or] at h
    rw [cstr, List.takeWhile_cons, if_pos (by simp only [bne_iff_ne]; exact fun e => h.1 e.symm)]
    exact congrArg (c :: ·) (ih h.2)

theorem load_missing {files : Bytes → Option Bytes} {base : Option Bytes} {p : Bytes} (h : Missing files base p) : load files base p = none := by
  obtain ⟨h1, h2⟩ := h
  cases base with
  | none => simp [load, h1]
  | some d =>
    by_cases hd : d = []
    · simp [load, h1, hd]
    · have := h2 d rfl hd
      simp only [load, h1, hd, if_false, this]

theorem clean_linked {p : Bytes} (h : 0 ∉ p) : 0 ∉ linked p := by
  simp only [linked, List.mem_append, not_or]; exact ⟨⟨by decide, h⟩, by decide⟩

theorem clean_inlined {c : Bytes} (h : 0 ∉ c) : 0 ∉ inlined c := by
  simp only [inlined, List.mem_append, not_or]; exact ⟨⟨by decide, h⟩, by decide⟩

theorem clean_top {g t : Bytes} (hi : Bool) (hg : 0 ∉ g) (ht : 0 ∉ t) : 0 ∉ top g t hi := by
  have hr : 0 ∉ (if hi then rules else []) := by cases hi <;> decide +kernel
  simp only [top, List.mem_append, not_or]
  exact ⟨⟨⟨⟨⟨⟨⟨⟨⟨by decide, hg⟩, by decide⟩, by decide⟩, by decide⟩, by decide⟩, by decide⟩, ht⟩, by decide⟩, hr⟩

theorem clean_bottom {hi : Bool} {header footer : Option Bytes} {content : Bytes} (hh : ∀ x ∈ header, 0 ∉ x) (hf : ∀ x ∈ footer, 0 ∉ x) (hc : 0 ∉ content) :
    0 ∉ bottom hi header footer content := by
  have h1 : 0 ∉ (header.elim [] fun h => b!"  " ++ h ++ b!"\n") := by
    cases header with
    | none => simp
    | some x => have := hh x rfl; simp only [Option.elim, List.mem_append, not_or]; exact ⟨⟨by decide, this⟩, by decide⟩
  have h2 : 0 ∉ (footer.elim [] fun f => b!"\n" ++ f) := by
    cases footer with
    | none => simp
    | some x => have := hf x rfl; simp only [Option.elim, List.mem_append, not_or]; exact ⟨by decide, this⟩
  simp only [bottom, List.mem_append, not_or]
  exact ⟨⟨⟨⟨h1, by cases hi <;> decide⟩, hc⟩, h2⟩, by decide⟩

theorem clean_flat {f : Bytes → Bytes} {l : List Bytes} (h : ∀ p ∈ l, 0 ∉ f p) : 0 ∉ l.flatMap f := by
  intro hm
  obtain ⟨p, hp, h0⟩ := List.mem_flatMap.1 hm
  exact h p hp h0

theorem embed_one {files : Bytes → Option Bytes} {base : Option Bytes} {css : Bytes → Option Bytes} {g t p : Bytes} {hi : Bool} {l : List Bytes} {rest : Bytes}
    (hg : c!"<" ∉ g) (ht : c!"<" ∉ t) (hp : Plain p) (hl : ∀ q ∈ l, Plain q ∧ p ≠ q) (h0 : 0 ∉ top g t hi ++ l.flatMap linked) (hr : 0 ∉ rest)
    (h1 : ∀ c, css p = some c → Readable files base p c) (h2 : css p = none → Missing files base p) :
    embedOne files base p (top g t hi ++ l.flatMap linked ++ linked p ++ rest) = top g t hi ++ l.flatMap linked ++ (css p).elim (linked p) inlined ++ rest := by
  rw [embedOne]
  cases hc : css p with
  | none => rw [load_missing (h2 hc)]; rfl
  | some c =>
    have hR := h1 c hc
    rw [load_readable hR]
    simp only
    rw [if_pos (by rw [link_len]; have := hR.2.2.2.2; omega), link_eq, link_find rest hg ht hp hl]
    simp only [Option.elim]
    rw [cstr_clean]
    · simp [inlined]
    · have := clean_inlined hR.2.2.2.1
      simp only [inlined, List.mem_append, not_or] at this h0 ⊢
      exact ⟨⟨⟨⟨h0, this.1.1⟩, this.1.2⟩, this.2⟩, hr⟩

theorem embed_all {files : Bytes → Option Bytes} {base : Option Bytes} {css : Bytes → Option Bytes} {g t : Bytes} {hi : Bool} (hg : c!"<" ∉ g) (ht : c!"<" ∉ t)
    (g0 : 0 ∉ g) (t0 : 0 ∉ t) (more : List (Option Bytes)) (rest : Bytes) (hr : 0 ∉ rest) (todo done : List Bytes) (hn : todo.Nodup) (hpl : ∀ p ∈ todo, Plain p ∧ 0 ∉ p)
    (hf : Files files base css (todo ++ done)) (hpd : ∀ p ∈ done, 0 ∉ p) :
    embedAll files base (todo.map some ++ more) todo.length (top g t hi ++ todo.flatMap linked ++ embedded css done ++ rest) =
      .val (top g t hi ++ embedded css (todo ++ done) ++ rest) := by
  rcases List.eq_nil_or_concat todo with rfl | ⟨l, p, rfl⟩
  · simp [embedAll]
  · rw [List.concat_eq_append] at *
    have hlen : (l ++ [p]).length = l.length + 1 := by simp
    have hget : ((l ++ [p]).map some ++ more)[l.length]? = some (some p) := by
      rw [List.map_append, List.append_assoc, List.getElem?_append_right (by simp)]; simp
    rw [List.nodup_append] at hn
    have hd0 : 0 ∉ embedded css done := clean_flat fun q hq => by
      cases hc : css q with
      | none => exact clean_linked (hpd q hq)
      | some c => exact clean_inlined ((hf q (by simp [hq])).1 c hc).2.2.2.1
    have hone := embed_one (files := files) (base := base) (css := css) (g := g) (t := t) (p := p) (hi := hi) (l := l) (rest := embedded css done ++ rest) hg ht
      (hpl p (by simp)).1 (fun q hq => ⟨(hpl q (by simp [hq])).1, fun e => hn.2.2 q hq p (by simp) e.symm⟩)
      (by simp only [List.mem_append, not_or]; exact ⟨clean_top hi g0 t0, clean_flat fun q hq => clean_linked (hpl q (by simp [hq])).2⟩)
      (by simp only [List.mem_append, not_or]; exact ⟨hd0, hr⟩) (hf p (by simp)).1 (hf p (by simp)).2
    have e1 : top g t hi ++ (l ++ [p]).flatMap linked ++ embedded css done ++ rest = top g t hi ++ l.flatMap linked ++ linked p ++ (embedded css done ++ rest) := by simp
    have e2 : top g t hi ++ l.flatMap linked ++ (css p).elim (linked p) inlined ++ (embedded css done ++ rest) =
        top g t hi ++ l.flatMap linked ++ embedded css (p :: done) ++ rest := by simp [embedded]
    rw [hlen, embedAll, hget]
    simp only
    rw [e1, hone, e2]
    have e3 : (l ++ [p]).map some ++ more = l.map some ++ (some p :: more) := by simp
    rw [e3, embed_all hg ht g0 t0 (some p :: more) rest hr l (p :: done) hn.1 (fun q hq => hpl q (by simp [hq])) (by
      intro q hq; apply hf; simp only [List.mem_append, List.mem_cons, List.mem_singleton] at hq ⊢; grind) (by
      intro q hq; simp only [List.mem_cons] at hq; rcases hq with rfl | hq
      · exact (hpl q (by simp)).2
      · exact hpd q hq)]
    simp [embedded]
termination_by todo.length
decreasing_by simp_all

end Verif.Standalone
