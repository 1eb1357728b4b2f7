/-
Lemmas for C153 and C154.
-/
import Verif.Model.StripWrap
import Verif.Spec.StripWrap

namespace Verif.StripWrap
open Spec

/-! ### Bytes -/

theorem white_iff : ∀ c : Byte, isSpace c = true ↔ White c := by
  refine forall_byte ?_
  unfold White
  decide +kernel

theorem blank_iff (c : Byte) : blank c = true ↔ c = 32 ∨ c = 9 ∨ c = 10 ∨ c = 13 := by
  simp [blank, or_assoc]

theorem dropWhile_append {p : Byte → Bool} {x z : Bytes} (h : ∀ c ∈ x, p c = true) :
    (x ++ z).dropWhile p = z.dropWhile p := by
  induction x with
  | nil => rfl
  | cons c x ih =>
    rw [List.cons_append, List.dropWhile_cons, if_pos (h c (by simp)), ih fun c hc => h c (by simp [hc])]

theorem dropWhile_stuck {p : Byte → Bool} {x : Bytes} (h : ¬ ∀ c ∈ x, p c = true) (z : Bytes) :
    ∃ c t, (x ++ z).dropWhile p = c :: t ∧ c ∈ x ∧ p c = false := by
  induction x with
  | nil => exact absurd (by simp) h
  | cons c x ih =>
    rw [List.cons_append, List.dropWhile_cons]
    by_cases hc : p c = true
    · rw [if_pos hc]
      obtain ⟨d, t, h1, h2, h3⟩ := ih fun h' => h fun d hd => by
        rcases List.mem_cons.1 hd with rfl | hd
        · exact hc
        · exact h' d hd
      exact ⟨d, t, h1, by simp [h2], h3⟩
    · rw [if_neg hc]
      exact ⟨c, _, rfl, by simp, by simpa using hc⟩

theorem behind_tag {w : Bytes} (z : Bytes) (h : c!">" ∉ w) : behind (w ++ c!">" :: z) = some z := by
  have h1 : (w ++ c!">" :: z).dropWhile (· != c!">") = c!">" :: z := by
    rw [dropWhile_append]
    · rfl
    · intro c hc
      simp only [bne_iff_ne, ne_eq]
      rintro rfl
      exact h hc
  unfold behind
  rw [h1]

theorem behind_split {s r : Bytes} (h : behind s = some r) : ∃ w, c!">" ∉ w ∧ s = w ++ c!">" :: r := by
  unfold behind at h
  split at h
  · simp at h
  · rename_i c r' hd
    cases h
    have h1 := List.takeWhile_append_dropWhile (p := (· != c!">")) (l := s)
    refine ⟨s.takeWhile (· != c!">"), ?_, ?_⟩
    · intro hm
      have := List.all_takeWhile (p := (· != c!">")) (l := s)
      rw [List.all_eq_true] at this
      simpa using this _ hm
    · have h2 : (c == c!">") = true := by
        have := List.head_dropWhile_not (p := (· != c!">")) (l := s) (by rw [hd]; simp)
        simp only [hd, List.head_cons] at this
        simpa using this
      rw [hd] at h1
      simp only [beq_iff_eq] at h2
      subst h2
      exact h1.symm

theorem named_iff {n w : Bytes} (z : Bytes) (hn : c!">" ∉ n) (hw : c!">" ∉ w) :
    named n (w ++ c!">" :: z) = true ↔ Named n w := by
  unfold named Named
  rw [Bool.and_eq_true, beq_iff_eq]
  constructor
  · rintro ⟨h1, h2⟩
    have hl : n.length ≤ w.length := by
      apply Classical.byContradiction
      intro hl
      apply hn
      rw [← h1, List.take_append, List.map_append]
      have : n.length - w.length = (n.length - w.length - 1) + 1 := by omega
      rw [this]
      simp only [List.take_succ_cons, List.map_cons]
      exact List.mem_append_right _ (by simp [toLower, show isUpper c!">" = false from rfl])
    refine ⟨w.take n.length, w.drop n.length, (List.take_append_drop _ _).symm, ?_, ?_⟩
    · rw [List.take_append_of_le_length hl] at h1
      exact h1
    · rw [List.drop_append_of_le_length hl] at h2
      cases hy : w.drop n.length with
      | nil => exact .inl rfl
      | cons c y =>
        rw [hy] at h2
        simp only [List.cons_append, ends, Bool.or_eq_true, beq_iff_eq] at h2
        rcases h2 with rfl | h2
        · exact absurd (List.mem_of_mem_drop (hy ▸ List.mem_cons_self : c!">" ∈ w.drop n.length)) hw
        · exact .inr ⟨c, y, rfl, (white_iff c).1 h2⟩
  · rintro ⟨x, y, rfl, rfl, hy⟩
    rw [List.length_map, List.append_assoc, List.take_left, List.drop_left]
    refine ⟨rfl, ?_⟩
    rcases hy with rfl | ⟨c, y, rfl, hc⟩
    · rfl
    · simp [ends, (white_iff c).2 hc]

/-- The first byte of a tag. -/
theorem named_head {a : Byte} {n w : Bytes} (h : Named (a :: n) w) : ∃ c t, w = c :: t ∧ toLower c = a ∧ Named n t := by
  obtain ⟨x, y, rfl, hx, hy⟩ := h
  cases x with
  | nil => simp at hx
  | cons c x =>
    simp only [List.map_cons, List.cons.injEq] at hx
    exact ⟨c, x ++ y, rfl, hx.1, x, y, rfl, hx.2, hy⟩

theorem lower_slash : ∀ c : Byte, toLower c = c!"/" ↔ c = c!"/" := by
  refine forall_byte ?_
  decide +kernel

theorem named_slash {n w : Bytes} : Named (c!"/" :: n) w ↔ ∃ t, w = c!"/" :: t ∧ Named n t := by
  constructor
  · intro h
    obtain ⟨c, t, rfl, hc, ht⟩ := named_head h
    rw [lower_slash] at hc
    exact ⟨t, by rw [hc], ht⟩
  · rintro ⟨t, rfl, x, y, rfl, hx, hy⟩
    exact ⟨c!"/" :: x, y, rfl, by rw [List.map_cons, hx]; rfl, hy⟩

theorem named_not_slash {a : Byte} {n w : Bytes} (ha : a ≠ c!"/") (h : Named (a :: n) w) : w.head? ≠ some c!"/" := by
  obtain ⟨c, t, rfl, hc, -⟩ := named_head h
  simp only [List.head?_cons, ne_eq, Option.some.injEq]
  rintro rfl
  exact ha hc.symm

theorem skip_value {q : Byte} {v : Bytes} (s : Bytes) (h : q ∉ v) : skip (some q) (v ++ q :: s) = skip none s := by
  induction v with
  | nil => rw [List.nil_append, skip, if_pos rfl]
  | cons c v ih =>
    rw [List.cons_append, skip, if_neg (by rintro rfl; exact h (by simp)), ih fun h' => h (by simp [h'])]

theorem skip_quoted {w : Bytes} (z : Bytes) (h : Quoted w) (hg : c!">" ∉ w) : skip none (w ++ c!">" :: z) = some z := by
  induction h with
  | nil => rfl
  | @char c s h1 h2 _ ih =>
    rw [List.cons_append, skip, if_neg (by rintro rfl; exact hg (by simp)), if_neg (by simp [h1, h2]),
      ih fun h' => hg (by simp [h'])]
  | @value q v s hq hv _ ih =>
    rw [List.append_assoc, List.cons_append, skip, if_neg (by rintro rfl; exact hg (by simp)), if_pos hq,
      List.cons_append, skip_value _ hv, ih fun h' => hg (by simp [h'])]

/-- Without the name, a tag keeps its quotation marks. -/
theorem quoted_letters {x y : Bytes} (h : Quoted (x ++ y)) (hx : ∀ c ∈ x, c ≠ c!"\"" ∧ c ≠ c!"'") : Quoted y := by
  induction x with
  | nil => exact h
  | cons c x ih =>
    have hc := hx c (by simp)
    rw [List.cons_append] at h
    generalize hz : c :: (x ++ y) = z at h
    cases h with
    | nil => cases hz
    | char _ _ h =>
      cases hz
      exact ih h fun c hc => hx c (by simp [hc])
    | value hq =>
      rw [List.cons_append] at hz
      rw [← (List.cons.inj hz).1] at hq
      exact absurd hq (by simp [hc.1, hc.2])

/-! ### The tags of a page -/

theorem html_cons (x : Bytes × Bytes) (l : Tags) : html (x :: l) = c!"<" :: (x.1 ++ c!">" :: (x.2 ++ html l)) := by
  simp [html]

theorem html_append (a b : Tags) : html (a ++ b) = html a ++ html b := by
  simp [html]

theorem good_cons {x : Bytes × Bytes} {l : Tags} (h : Good (x :: l)) :
    c!"<" ∉ x.1 ∧ c!">" ∉ x.1 ∧ Quoted x.1 ∧ c!"<" ∉ x.2 := h x (by simp)

theorem good_tail {x : Bytes × Bytes} {l : Tags} (h : Good (x :: l)) : Good l := fun y hy => h y (by simp [hy])

theorem good_append {a b : Tags} (h : Good (a ++ b)) : Good a ∧ Good b :=
  ⟨fun y hy => h y (by simp [hy]), fun y hy => h y (by simp [hy])⟩

theorem blank_html {w : Bytes} (l : Tags) (h : Blank w) : (w ++ html l).dropWhile blank = html l := by
  rw [dropWhile_append fun c hc => (blank_iff c).2 (h c hc)]
  cases l with
  | nil => rfl
  | cons x l => rw [html_cons]; rfl

theorem not_blank {w : Bytes} (z : Bytes) (h : ¬ Blank w) (hw : c!"<" ∉ w) :
    ∃ c t, (w ++ z).dropWhile blank = c :: t ∧ c ≠ c!"<" := by
  obtain ⟨c, t, h1, h2, -⟩ := dropWhile_stuck (p := blank) (fun h' => h fun c hc => (blank_iff c).1 (h' c hc)) z
  exact ⟨c, t, h1, by rintro rfl; exact hw h2⟩

/-! ### Elements -/

theorem closing_text {n : Bytes} (d : Nat) {t : Bytes} (z : Bytes) (h : c!"<" ∉ t) : closing n d (t ++ z) = closing n d z := by
  induction t with
  | nil => rfl
  | cons c t ih =>
    rw [List.cons_append, closing.eq_def]
    simp only []
    rw [if_neg (by rintro rfl; exact h (by simp)), ih fun h' => h (by simp [h'])]

/-- What the search does at a tag. -/
theorem closing_tag {n : Bytes} (d : Nat) {x : Bytes × Bytes} {l : Tags} (hn : c!">" ∉ n) (h : Good (x :: l)) (z : Bytes) :
    (Named (c!"/" :: n) x.1 → closing n d (html (x :: l) ++ z) =
      if d ≤ 1 then some (x.2 ++ (html l ++ z)) else closing n (d - 1) (html l ++ z)) ∧
    (¬ Named (c!"/" :: n) x.1 → Named n x.1 → n.head? ≠ some c!"/" → closing n d (html (x :: l) ++ z) = closing n (d + 1) (html l ++ z)) ∧
    (¬ Named (c!"/" :: n) x.1 → ¬ Named n x.1 → closing n d (html (x :: l) ++ z) = closing n d (html l ++ z)) := by
  obtain ⟨h1, h2, h3, h4⟩ := good_cons h
  obtain ⟨w, t⟩ := x
  simp only at h1 h2 h3 h4
  have e0 : html ((w, t) :: l) ++ z = c!"<" :: (w ++ c!">" :: (t ++ (html l ++ z))) := by
    rw [html_cons]; simp
  have e1 : ∀ d, closing n d (w ++ c!">" :: (t ++ (html l ++ z))) = closing n d (html l ++ z) := by
    intro d
    rw [closing_text d _ h1, closing.eq_def]
    simp only []
    rw [if_neg (by decide), closing_text d _ h4]
  rw [e0, closing.eq_def]
  simp only [if_true]
  generalize hz : t ++ (html l ++ z) = y at e1 ⊢
  cases w with
  | nil =>
    have hs : ¬ Named (c!"/" :: n) [] := by
      rw [named_slash]; rintro ⟨t, ht, -⟩; cases ht
    refine ⟨fun h => absurd h hs, fun _ h _ => ?_, fun _ h => ?_⟩
    · have := (named_iff (w := []) y hn (by simp)).2 h
      simp only [List.nil_append] at this e1 ⊢
      rw [if_neg (by decide), if_pos this, e1]
    · have := mt (named_iff (w := []) y hn (by simp)).1 h
      simp only [List.nil_append] at this e1 ⊢
      rw [if_neg (by decide), if_neg this, e1]
  | cons e w =>
    simp only [List.cons_append]
    have hw : c!">" ∉ w := fun h => h2 (by simp [h])
    by_cases he : e = c!"/"
    · subst he
      rw [if_pos rfl]
      have hs : Named (c!"/" :: n) (c!"/" :: w) ↔ Named n w := by
        rw [named_slash]
        constructor
        · rintro ⟨t, ht, h⟩; cases ht; exact h
        · exact fun h => ⟨w, rfl, h⟩
      rw [hs]
      refine ⟨fun h => ?_, fun h1 h2 h3 => ?_, fun h _ => ?_⟩
      · rw [if_pos ((named_iff y hn hw).2 h)]
        by_cases hd : d ≤ 1
        · rw [if_pos hd, if_pos hd]
          obtain ⟨a, b, rfl, rfl, -⟩ := h
          rw [List.length_map, List.append_assoc, List.drop_left, behind_tag _ fun h => hw (by simp [h])]
        · rw [if_neg hd, if_neg hd]
          exact e1 _
      · cases n with
        | nil => 
          obtain ⟨a, b, hab, ha, hb⟩ := h2
          have ha : a = [] := by simpa using ha
          subst ha
          rcases hb with rfl | ⟨c, z', rfl, hc⟩
          · cases hab
          · simp only [List.nil_append, List.cons.injEq] at hab
            rw [← hab.1] at hc
            exact absurd hc (by unfold White; decide)
        | cons a n =>
          obtain ⟨c, t', ht, hc, -⟩ := named_head h2
          cases ht
          exact absurd (hc.symm.trans rfl : a = c!"/") (by simpa using h3)
      · rw [if_neg (mt (named_iff y hn hw).1 h)]
        exact e1 _
    · rw [if_neg he]
      have hs : ¬ Named (c!"/" :: n) (e :: w) := by
        rw [named_slash]; rintro ⟨t, ht, -⟩; cases ht; exact he rfl
      refine ⟨fun h => absurd h hs, fun _ h _ => ?_, fun _ h => ?_⟩
      · have := (named_iff (w := e :: w) y hn h2).2 h
        rw [List.cons_append] at this
        rw [if_pos this]
        exact e1 _
      · have := mt (named_iff (w := e :: w) y hn h2).1 h
        rw [List.cons_append] at this
        rw [if_neg this]
        exact e1 _

/-- A name of letters. -/
structure Name (n : Bytes) : Prop where
  head : ∃ a m, n = a :: m ∧ a ≠ c!"/"
  close : c!">" ∉ n

theorem name_disjoint {n w : Bytes} (hn : Name n) (h : Named n w) : ¬ Named (c!"/" :: n) w := by
  obtain ⟨a, m, rfl, ha⟩ := hn.head
  obtain ⟨c, t, rfl, hc, -⟩ := named_head h
  rw [named_slash]
  rintro ⟨t', ht, -⟩
  cases ht
  exact ha hc.symm

theorem name_head {n : Bytes} (hn : Name n) : n.head? ≠ some c!"/" := by
  obtain ⟨a, m, rfl, ha⟩ := hn.head
  simpa using ha

/-- Elements in elements are passed. -/
theorem closing_balanced {n : Bytes} (hn : Name n) {a : Tags} (hb : Balanced n a) :
    ∀ d z, 1 ≤ d → Good a → closing n d (html a ++ z) = closing n d z := by
  induction hb with
  | nil => intro d z _ _; rfl
  | @other x l h1 h2 _ ih =>
    intro d z hd hg
    rw [(closing_tag d hn.close hg z).2.2 h2 h1, ih d z hd (good_tail hg)]
  | @nested o a c b h1 _ h2 _ iha ihb =>
    intro d z hd hg
    have hg1 : Good (o :: (a ++ c :: b)) := hg
    have hg2 := good_append (good_tail hg1)
    rw [List.cons_append, (closing_tag d hn.close hg1 z).2.1 (name_disjoint hn h1) h1 (name_head hn), html_append,
      List.append_assoc, iha (d + 1) _ (by omega) hg2.1, (closing_tag (d + 1) hn.close hg2.2 z).1 h2, if_neg (by omega),
      Nat.add_sub_cancel, ihb d z hd (good_tail hg2.2)]

/-- Tags that close `k` elements more than they open. -/
def Closers (n : Bytes) : Nat → Tags → Prop
  | 0, a => Balanced n a
  | k + 1, a => ∃ a₁ c a₂, a = a₁ ++ c :: a₂ ∧ Balanced n a₁ ∧ Named (c!"/" :: n) c.1 ∧ Closers n k a₂

theorem closers_other {n : Bytes} {x : Bytes × Bytes} (h1 : ¬ Named n x.1) (h2 : ¬ Named (c!"/" :: n) x.1) :
    ∀ k a, Closers n k a → Closers n k (x :: a)
  | 0, _, h => .other h1 h2 h
  | _ + 1, _, ⟨a₁, c, a₂, he, hb, hc, h⟩ => ⟨x :: a₁, c, a₂, by rw [he]; rfl, .other h1 h2 hb, hc, h⟩

theorem closers_open {n : Bytes} {x : Bytes × Bytes} (h1 : Named n x.1) :
    ∀ k a, Closers n (k + 1) a → Closers n k (x :: a)
  | 0, _, ⟨a₁, c, a₂, he, hb, hc, h⟩ => by
    rw [he]
    exact Balanced.nested h1 hb hc h
  | k + 1, _, ⟨a₁, c, a₂, he, hb, hc, b₁, c', b₂, he', hb', hc', h⟩ =>
    ⟨x :: a₁ ++ c :: b₁, c', b₂, by rw [he, he']; simp, .nested h1 hb hc hb', hc', h⟩

/-- What the search finds. -/
theorem closing_some {n : Bytes} (hn : Name n) : ∀ (l : Tags) (d : Nat) (r : Bytes), 1 ≤ d → Good l →
    closing n d (html l) = some r →
    ∃ a c w rest, l = a ++ (c, w) :: rest ∧ Named (c!"/" :: n) c ∧ r = w ++ html rest ∧ Closers n (d - 1) a
  | [], d, r, _, _, h => by rw [show html [] = [] from rfl, closing.eq_def] at h; simp at h
  | x :: l, d, r, hd, hg, h => by
    have hg' := good_tail hg
    have h3 := closing_tag d hn.close hg []
    simp only [List.append_nil] at h3
    by_cases hs : Named (c!"/" :: n) x.1
    · rw [h3.1 hs] at h
      by_cases h1 : d ≤ 1
      · rw [if_pos h1] at h
        cases h
        refine ⟨[], x.1, x.2, l, rfl, hs, rfl, ?_⟩
        rw [show d - 1 = 0 by omega]
        exact .nil
      · rw [if_neg h1] at h
        obtain ⟨a, c, w, rest, h4, h5, h6, h7⟩ := closing_some hn l (d - 1) r (by omega) hg' h
        refine ⟨x :: a, c, w, rest, by rw [h4]; rfl, h5, h6, ?_⟩
        rw [show d - 1 = (d - 1 - 1) + 1 by omega]
        exact ⟨[], x, a, rfl, .nil, hs, h7⟩
    · by_cases ho : Named n x.1
      · rw [h3.2.1 hs ho (name_head hn)] at h
        obtain ⟨a, c, w, rest, h4, h5, h6, h7⟩ := closing_some hn l (d + 1) r (by omega) hg' h
        refine ⟨x :: a, c, w, rest, by rw [h4]; rfl, h5, h6, ?_⟩
        refine closers_open ho _ _ ?_
        rw [show d - 1 + 1 = d + 1 - 1 by omega]
        exact h7
      · rw [h3.2.2 hs ho] at h
        obtain ⟨a, c, w, rest, h4, h5, h6, h7⟩ := closing_some hn l d r hd hg' h
        exact ⟨x :: a, c, w, rest, by rw [h4]; rfl, h5, h6, closers_other ho hs _ _ h7⟩

/-- `find_block_close` finds the end of the element. -/
theorem blockClose_iff {n : Bytes} (hn : Name n) {o : Bytes × Bytes} {l : Tags} (hg : Good (o :: l)) (ho : Named n o.1) (r : Bytes) :
    blockClose n (html (o :: l)) = some r ↔
      ∃ inner c w rest, l = inner ++ (c, w) :: rest ∧ Element n o inner c ∧ r = w ++ html rest := by
  obtain ⟨h1, h2, h3, h4⟩ := good_cons hg
  have e : blockClose n (html (o :: l)) = closing n 1 (html l) := by
    unfold blockClose
    have : html (o :: l) = (c!"<" :: o.1) ++ c!">" :: (o.2 ++ html l) := by rw [html_cons]; rfl
    rw [this, skip_quoted _ (.char (by decide) (by decide) h3) (by simp [h2]), Option.bind_some, closing_text 1 _ h4]
  rw [e]
  constructor
  · intro h
    obtain ⟨a, c, w, rest, h5, h6, h7, h8⟩ := closing_some hn l 1 r (Nat.le_refl _) (good_tail hg) h
    exact ⟨a, c, w, rest, h5, ⟨ho, h8, h6⟩, h7⟩
  · rintro ⟨inner, c, w, rest, rfl, ⟨-, h6, h7⟩, rfl⟩
    have hg' := good_append (good_tail hg)
    rw [html_append, closing_balanced hn h6 1 _ (Nat.le_refl _) hg'.1]
    have := (closing_tag 1 hn.close hg'.2 []).1 h7
    simp only [List.append_nil] at this
    rw [this]
    rfl

theorem name_figure : Name b!"figure" := ⟨⟨_, _, rfl, by decide⟩, by decide⟩
theorem name_video : Name b!"video" := ⟨⟨_, _, rfl, by decide⟩, by decide⟩
theorem name_picture : Name b!"picture" := ⟨⟨_, _, rfl, by decide⟩, by decide⟩

theorem named_other {a b : Byte} {n m w : Bytes} (hab : a ≠ b) (h : Named (a :: n) w) : ¬ Named (b :: m) w := by
  intro h'
  obtain ⟨c, t, rfl, hc, -⟩ := named_head h
  obtain ⟨c', t', ht, hc', -⟩ := named_head h'
  cases ht
  exact hab (hc.symm.trans hc')

/-- The block of a paragraph. -/
theorem blockEnd_iff {o : Bytes × Bytes} {l : Tags} (hg : Good (o :: l)) (r : Bytes) :
    blockEnd (o.1 ++ c!">" :: (o.2 ++ html l)) = some r ↔
      ∃ n inner c w rest, (n = b!"figure" ∨ n = b!"video" ∨ n = b!"picture") ∧ l = inner ++ (c, w) :: rest ∧ Element n o inner c ∧
        r = w ++ html rest := by
  obtain ⟨h1, h2, h3, h4⟩ := good_cons hg
  unfold blockEnd
  rw [← html_cons]
  have nf := named_iff (n := b!"figure") (o.2 ++ html l) name_figure.close h2
  have nv := named_iff (n := b!"video") (o.2 ++ html l) name_video.close h2
  have np := named_iff (n := b!"picture") (o.2 ++ html l) name_picture.close h2
  by_cases hf : Named b!"figure" o.1
  · rw [if_pos (nf.2 hf), blockClose_iff name_figure hg hf]
    constructor
    · rintro ⟨i, c, w, rest, h⟩
      exact ⟨_, i, c, w, rest, .inl rfl, h⟩
    · rintro ⟨n, i, c, w, rest, hn, h⟩
      rcases hn with rfl | rfl | rfl
      · exact ⟨i, c, w, rest, h⟩
      · exact absurd h.2.1.1 (named_other (by decide) hf)
      · exact absurd h.2.1.1 (named_other (by decide) hf)
  rw [if_neg (mt nf.1 hf)]
  by_cases hv : Named b!"video" o.1
  · rw [if_pos (nv.2 hv), blockClose_iff name_video hg hv]
    constructor
    · rintro ⟨i, c, w, rest, h⟩
      exact ⟨_, i, c, w, rest, .inr (.inl rfl), h⟩
    · rintro ⟨n, i, c, w, rest, hn, h⟩
      rcases hn with rfl | rfl | rfl
      · exact absurd h.2.1.1 hf
      · exact ⟨i, c, w, rest, h⟩
      · exact absurd h.2.1.1 (named_other (by decide) hv)
  rw [if_neg (mt nv.1 hv)]
  by_cases hp : Named b!"picture" o.1
  · rw [if_pos (np.2 hp), blockClose_iff name_picture hg hp]
    constructor
    · rintro ⟨i, c, w, rest, h⟩
      exact ⟨_, i, c, w, rest, .inr (.inr rfl), h⟩
    · rintro ⟨n, i, c, w, rest, hn, h⟩
      rcases hn with rfl | rfl | rfl
      · exact absurd h.2.1.1 hf
      · exact absurd h.2.1.1 hv
      · exact ⟨i, c, w, rest, h⟩
  rw [if_neg (mt np.1 hp)]
  constructor
  · intro h; cases h
  · rintro ⟨n, i, c, w, rest, hn, h⟩
    rcases hn with rfl | rfl | rfl
    · exact absurd h.2.1.1 hf
    · exact absurd h.2.1.1 hv
    · exact absurd h.2.1.1 hp

/-- The end of a paragraph. -/
theorem wrapperEnd_iff {w : Bytes} {l : Tags} (hw : c!"<" ∉ w) (hg : Good l) (r : Bytes) :
    wrapperEnd (w ++ html l) = some r ↔ Blank w ∧ ∃ q t rest, l = (q, t) :: rest ∧ Named b!"/p" q ∧ r = t ++ html rest := by
  unfold wrapperEnd
  by_cases hb : Blank w
  · rw [blank_html l hb]
    simp only [hb, true_and]
    cases l with
    | nil => simp [html]
    | cons x l =>
      obtain ⟨q, t⟩ := x
      obtain ⟨h1, h2, h3, h4⟩ := good_cons hg
      simp only at h1 h2 h3 h4
      rw [html_cons]
      simp only []
      cases q with
      | nil =>
        simp only [List.nil_append]
        rw [if_neg (by rintro ⟨-, h, -⟩; exact absurd h (by decide))]
        constructor
        · intro h; cases h
        · rintro ⟨q, t', rest, h, hq, -⟩
          cases h
          obtain ⟨t, h, -⟩ := named_slash.1 hq
          cases h
      | cons e q =>
        simp only [List.cons_append]
        have hq : c!">" ∉ q := fun h => h2 (by simp [h])
        by_cases hc : e = c!"/" ∧ Named b!"p" q
        · rw [if_pos ⟨trivial, hc.1, (named_iff _ (by decide) hq).2 hc.2⟩]
          obtain ⟨x, y, rfl, hx, -⟩ := hc.2
          obtain ⟨c, rfl⟩ : ∃ c, x = [c] := by
            have := congrArg List.length hx
            rw [List.length_map] at this
            exact List.length_eq_one_iff.1 this
          simp only [List.cons_append, List.nil_append, List.drop_succ_cons, List.drop_zero]
          rw [behind_tag _ fun h => hq (by simp [h])]
          constructor
          · intro h
            cases h
            exact ⟨_, t, l, rfl, named_slash.2 ⟨_, by rw [hc.1]; rfl, hc.2⟩, rfl⟩
          · rintro ⟨q', t', rest, h, -, rfl⟩
            cases h
            rfl
        · rw [if_neg (by rintro ⟨-, h, h'⟩; exact hc ⟨h, (named_iff _ (by decide) hq).1 h'⟩)]
          constructor
          · intro h; cases h
          · rintro ⟨q', t', rest, h, hq', -⟩
            cases h
            obtain ⟨t, h, h'⟩ := named_slash.1 hq'
            cases h
            exact absurd ⟨rfl, h'⟩ hc
  · obtain ⟨c, t, h1, h2⟩ := not_blank (html l) hb hw
    rw [h1]
    simp only [hb, false_and, iff_false]
    cases t with
    | nil => simp
    | cons d t => simp [h2]

theorem take_front {x y : Bytes} : (x ++ y).take ((x ++ y).length - y.length) = x := by
  rw [List.length_append, Nat.add_sub_cancel, List.take_left]

/-- What happens at a tag. -/
theorem wrapper_iff {x : Bytes × Bytes} {l : Tags} (hg : Good (x :: l)) (block r : Bytes) :
    wrapper (x.1 ++ c!">" :: (x.2 ++ html l)) = .image block r ↔ ∃ t rest, Wraps (x :: l) block t rest ∧ r = t ++ html rest := by
  obtain ⟨h1, h2, h3, h4⟩ := good_cons hg
  have hg' := good_tail hg
  unfold wrapper
  have hp := named_iff (n := b!"p") (x.2 ++ html l) (by decide) h2
  by_cases hpn : Named b!"p" x.1
  · have hh : (x.1 ++ c!">" :: (x.2 ++ html l)).head? ≠ some c!"/" := by
      have := named_not_slash (by decide) hpn
      obtain ⟨c, t, hc, -⟩ := named_head hpn
      rw [hc] at this ⊢
      exact this
    rw [if_pos ⟨hh, hp.2 hpn⟩, behind_tag _ h2]
    simp only []
    by_cases hb : Blank x.2
    · rw [blank_html l hb]
      cases l with
      | nil =>
        simp only [html, List.flatMap_nil]
        constructor
        · intro h; cases h
        · rintro ⟨t, rest, ⟨n, p, w, o, i, c, w', q, -, h, -⟩, -⟩
          simp at h
      | cons o l =>
        have hbe := blockEnd_iff hg'
        rw [html_cons]
        simp only [if_true]
        constructor
        · intro h
          split at h
          · cases h
          rename_i r1 hr1
          obtain ⟨n, inner, c, w', rest1, hn, rfl, hel, rfl⟩ := (hbe r1).1 hr1
          have hg2 := (good_append (good_tail hg')).2
          split at h
          · cases h
          rename_i r2 hr2
          obtain ⟨hb', q, t, rest, rfl, hq, rfl⟩ := (wrapperEnd_iff (good_cons hg2).2.2.2 (good_tail hg2) r2).1 hr2
          cases h
          refine ⟨t, rest, ⟨n, x.1, x.2, o, inner, c, w', q, hn, rfl, hpn, hb, hel, hb', hq, ?_⟩, rfl⟩
          have e : (c!"<" :: (o.1 ++ c!">" :: (o.2 ++ html (inner ++ (c, w') :: (q, t) :: rest)))) =
              (html (o :: inner) ++ b!"<" ++ c ++ b!">") ++ (w' ++ html ((q, t) :: rest)) := by
            rw [html_append, html_cons (c, w'), html_cons o]
            simp
          rw [e, take_front]
        · rintro ⟨t, rest, ⟨n, p, w, o', inner, c, w', q, hn, h, -, -, hel, hb', hq, rfl⟩, rfl⟩
          simp only [List.cons_append, List.cons.injEq] at h
          obtain ⟨rfl, rfl, rfl⟩ := h
          have hg2 := (good_append (good_tail hg')).2
          have e1 := (hbe (w' ++ html ((q, t) :: rest))).2 ⟨n, inner, c, w', _, hn, rfl, hel, rfl⟩
          have e2 := (wrapperEnd_iff (good_cons hg2).2.2.2 (good_tail hg2) (t ++ html rest)).2 ⟨hb', q, t, rest, rfl, hq, rfl⟩
          rw [e1]
          simp only []
          rw [e2]
          simp only []
          have e : (c!"<" :: (o.1 ++ c!">" :: (o.2 ++ html (inner ++ (c, w') :: (q, t) :: rest)))) =
              (html (o :: inner) ++ b!"<" ++ c ++ b!">") ++ (w' ++ html ((q, t) :: rest)) := by
            rw [html_append, html_cons (c, w'), html_cons o]
            simp
          rw [e, take_front]
    · obtain ⟨c, t, e1, e2⟩ := not_blank (html l) hb h4
      rw [e1]
      simp only []
      rw [if_neg e2]
      constructor
      · intro h; cases h
      · rintro ⟨t, rest, ⟨n, p, w, o, i, c, w', q, -, h, -, hw, -⟩, -⟩
        simp only [List.cons_append, List.cons.injEq] at h
        obtain ⟨rfl, -⟩ := h
        exact absurd hw hb
  · rw [if_neg (by rintro ⟨-, h⟩; exact hpn (hp.1 h))]
    constructor
    · intro h; cases h
    · rintro ⟨t, rest, ⟨n, p, w, o, i, c, w', q, -, h, hw, -⟩, -⟩
      simp only [List.cons_append, List.cons.injEq] at h
      obtain ⟨rfl, -⟩ := h
      exact absurd hw hpn

/-! ### The loop over blocks -/

/-- What the loop writes, without the block. -/
inductive BlockRun : Bytes → Bytes → Prop
  | nil : BlockRun [] []
  | copy {c s o} : (c = c!"<" → ∀ b r, wrapper s ≠ .image b r) → BlockRun s o → BlockRun (c :: s) (c :: o)
  | take {s b r o} : wrapper s = .image b r → BlockRun r o → BlockRun (c!"<" :: s) (b ++ o)

theorem raw_val {c : Byte} {b : Buf} (h : b.out.length < b.cap) : raw c b = .val ⟨b.cap, b.out ++ [c]⟩ := by
  simp [raw, h]

theorem byte_val {len : Nat} {c : Byte} {b : Buf} (h : b.out.length + 2 ≤ b.cap) : byte len c b = .val ⟨b.cap, b.out ++ [c]⟩ := by
  unfold byte
  rw [if_neg (by omega)]
  exact raw_val (b := ⟨b.cap, b.out⟩) (by simp only []; omega)

theorem copy_val {g : Nat} {s : Bytes} {b : Buf} (h : b.out.length + s.length + 1 ≤ b.cap) :
    copy g s b = .val ⟨b.cap, b.out ++ s⟩ := by
  unfold copy
  have e : (if s.length ≥ b.cap - b.out.length then g else b.cap) = b.cap := if_neg (by omega)
  simp only [e]
  rw [if_pos (by omega)]

theorem dropWhile_split (p : Byte → Bool) (s : Bytes) : ∃ w, s = w ++ s.dropWhile p ∧ ∀ c ∈ w, p c = true :=
  ⟨s.takeWhile p, (List.takeWhile_append_dropWhile).symm, fun c hc => by
    have := List.all_takeWhile (p := p) (l := s)
    rw [List.all_eq_true] at this
    exact this c hc⟩

theorem dropWhile_nil {p : Byte → Bool} {s : Bytes} : s.dropWhile p = [] ↔ ∀ c ∈ s, p c = true := by
  constructor
  · intro h
    obtain ⟨w, hw, hp⟩ := dropWhile_split p s
    rw [h, List.append_nil] at hw
    rw [hw]
    exact hp
  · intro h
    have := dropWhile_append (z := []) h
    rwa [List.append_nil] at this

theorem named_split {n s : Bytes} (h : named n s = true) : ∃ x c z, s = x ++ c :: z ∧ x.map toLower = n ∧ (c = c!">" ∨ White c) := by
  unfold named at h
  rw [Bool.and_eq_true, beq_iff_eq] at h
  obtain ⟨h1, h2⟩ := h
  cases hd : s.drop n.length with
  | nil => rw [hd] at h2; cases h2
  | cons c z =>
    rw [hd] at h2
    simp only [ends, Bool.or_eq_true, beq_iff_eq, white_iff] at h2
    refine ⟨s.take n.length, c, z, ?_, h1, h2⟩
    rw [← hd, List.take_append_drop]

theorem skip_suffix : ∀ (s : Bytes) (q : Option Byte) (r : Bytes), skip q s = some r → ∃ x, x ≠ [] ∧ s = x ++ r
  | [], q, r, h => by cases q <;> simp [skip] at h
  | c :: s, none, r, h => by
    rw [skip] at h
    split at h
    · cases h; exact ⟨[c], by simp, rfl⟩
    · split at h
      · obtain ⟨x, -, rfl⟩ := skip_suffix s _ r h
        exact ⟨c :: x, by simp, rfl⟩
      · obtain ⟨x, -, rfl⟩ := skip_suffix s _ r h
        exact ⟨c :: x, by simp, rfl⟩
  | c :: s, some q, r, h => by
    rw [skip] at h
    split at h
    · obtain ⟨x, -, rfl⟩ := skip_suffix s _ r h
      exact ⟨c :: x, by simp, rfl⟩
    · obtain ⟨x, -, rfl⟩ := skip_suffix s _ r h
      exact ⟨c :: x, by simp, rfl⟩

theorem closing_suffix {n : Bytes} : ∀ (s : Bytes) (d : Nat) (r : Bytes), closing n d s = some r → ∃ x, s = x ++ r
  | [], d, r, h => by rw [closing.eq_def] at h; cases h
  | c :: s, d, r, h => by
    rw [closing.eq_def] at h
    simp only [] at h
    split at h
    · cases s with
      | nil => cases h
      | cons e t =>
        have key : ∀ d, closing n d (e :: t) = some r → ∃ x, c :: e :: t = x ++ r := fun d h => by
          obtain ⟨x, hx⟩ := closing_suffix (e :: t) d r h
          exact ⟨c :: x, by rw [hx]; rfl⟩
        simp only [] at h
        split at h
        · split at h
          · split at h
            · obtain ⟨w, -, hw⟩ := behind_split h
              refine ⟨c :: e :: t.take n.length ++ w ++ [c!">"], ?_⟩
              have := List.take_append_drop n.length t
              rw [hw] at this
              simp only [List.cons_append, List.append_assoc, List.nil_append]
              rw [this]
            · exact key _ h
          · exact key _ h
        · split at h <;> exact key _ h
    · obtain ⟨x, hx⟩ := closing_suffix s d r h
      exact ⟨c :: x, by rw [hx]; rfl⟩

theorem blockClose_suffix {n p r : Bytes} (h : blockClose n p = some r) : ∃ x, p = x ++ r := by
  unfold blockClose at h
  rw [Option.bind_eq_some_iff] at h
  obtain ⟨s, h1, h2⟩ := h
  obtain ⟨x, -, rfl⟩ := skip_suffix _ _ _ h1
  obtain ⟨y, rfl⟩ := closing_suffix _ _ _ h2
  exact ⟨x ++ y, by simp⟩

theorem blockEnd_suffix {s r : Bytes} (h : blockEnd s = some r) : ∃ x, c!"<" :: s = x ++ r := by
  unfold blockEnd at h
  split at h
  · exact blockClose_suffix h
  split at h
  · exact blockClose_suffix h
  split at h
  · exact blockClose_suffix h
  · cases h

theorem blanks {w : Bytes} (h : ∀ c ∈ w, blank c = true) : Blank w := fun c hc => (blank_iff c).1 (h c hc)

theorem wrapperEnd_split {s r : Bytes} (h : wrapperEnd s = some r) : ∃ b, Closer b ∧ s = b ++ r := by
  unfold wrapperEnd at h
  obtain ⟨w, hw, hb⟩ := dropWhile_split blank s
  split at h
  · rename_i a b t hd
    split at h
    · rename_i hc
      obtain ⟨rfl, rfl, hn⟩ := hc
      obtain ⟨x, c, z, rfl, hx, hc⟩ := named_split hn
      obtain ⟨a, rfl⟩ : ∃ a, x = [a] := by
        have := congrArg List.length hx
        rw [List.length_map] at this
        exact List.length_eq_one_iff.1 this
      simp only [List.cons_append, List.nil_append, List.drop_succ_cons, List.drop_zero] at h hd
      obtain ⟨v, hv, hv'⟩ := behind_split h
      rw [hd, hv'] at hw
      have ha : a ≠ c!">" := by
        rintro rfl
        exact absurd hx (by decide)
      refine ⟨w ++ b!"<" ++ (c!"/" :: a :: v) ++ b!">", ⟨w, c!"/" :: a :: v, rfl, blanks hb, by simp [hv, ha.symm], ?_⟩, by rw [hw]; simp⟩
      refine named_slash.2 ⟨_, rfl, [a], v, rfl, hx, ?_⟩
      cases v with
      | nil => exact .inl rfl
      | cons d v =>
        simp only [List.cons_append, List.cons.injEq] at hv'
        obtain ⟨rfl, -⟩ := hv'
        rcases hc with rfl | hc
        · exact absurd (by simp) hv
        · exact .inr ⟨c, v, rfl, hc⟩
    · cases h
  · cases h

theorem paragraph_split {s i : Bytes} (hn : named b!"p" s = true) (h : behind s = some i) :
    ∃ t, c!">" ∉ t ∧ Named b!"p" t ∧ c!"<" :: s = b!"<" ++ t ++ b!">" ++ i := by
  obtain ⟨t, ht, rfl⟩ := behind_split h
  exact ⟨t, ht, (named_iff i (by decide) ht).1 hn, by simp⟩

/-- What is removed. -/
theorem wrapper_split {s b r : Bytes} (h : wrapper s = .image b r) : ∃ f e, Opener f ∧ Closer e ∧ c!"<" :: s = f ++ b ++ e ++ r := by
  unfold wrapper at h
  split at h
  · rename_i hc
    split at h
    · cases h
    rename_i i hi
    obtain ⟨w, hw, hb⟩ := dropWhile_split blank i
    split at h
    · cases h
    rename_i c t hd
    split at h
    · rename_i hcl
      subst hcl
      split at h
      · cases h
      rename_i r1 hr1
      split at h
      · cases h
      rename_i r2 hr2
      cases h
      obtain ⟨t', ht1, ht2, ht3⟩ := paragraph_split hc.2 hi
      obtain ⟨x, hx⟩ := blockEnd_suffix hr1
      obtain ⟨e, he, rfl⟩ := wrapperEnd_split hr2
      refine ⟨b!"<" ++ t' ++ b!">" ++ w, e, ⟨t', w, rfl, ht1, ht2, blanks hb⟩, he, ?_⟩
      rw [hx, take_front, ht3, hw, hd, hx]
      simp
    · cases h
  · cases h

theorem opener_len {f : Bytes} (h : Opener f) : 3 ≤ f.length := by
  obtain ⟨t, w, rfl, -, h, -⟩ := h
  obtain ⟨c, t, rfl, -⟩ := named_head h
  simp only [List.length_append, List.length_cons, List.length_nil]
  omega

theorem wrapper_len {s b r : Bytes} (h : wrapper s = .image b r) : b.length + r.length ≤ s.length := by
  obtain ⟨f, e, hf, -, h⟩ := wrapper_split h
  have := opener_len hf
  have := congrArg List.length h
  simp only [List.length_append, List.length_cons] at this
  omega

theorem blockRun_exists : ∀ (k : Nat) (s : Bytes), s.length ≤ k → ∃ o, BlockRun s o
  | _, [], _ => ⟨[], .nil⟩
  | 0, _ :: _, h => by simp at h
  | k + 1, c :: s, h => by
    simp only [List.length_cons] at h
    by_cases hc : c = c!"<" ∧ ∃ b r, wrapper s = .image b r
    · obtain ⟨rfl, b, r, hw⟩ := hc
      have := wrapper_len hw
      obtain ⟨o, ho⟩ := blockRun_exists k r (by omega)
      exact ⟨b ++ o, .take hw ho⟩
    · obtain ⟨o, ho⟩ := blockRun_exists k s (by omega)
      exact ⟨c :: o, .copy (fun h1 b r h2 => hc ⟨h1, b, r, h2⟩) ho⟩

theorem blockLoop_run (len : Nat) {s o : Bytes} (h : BlockRun s o) : ∀ (n : Nat) (b : Buf), s.length < n →
    b.out.length + s.length + 1 ≤ b.cap → blockLoop len n s b = .val ⟨b.cap, b.out ++ o⟩ ∧ o.length ≤ s.length := by
  induction h with
  | nil =>
    intro n b hn _
    obtain ⟨n, rfl⟩ : ∃ m, n = m + 1 := ⟨n - 1, by simp at hn; omega⟩
    rw [blockLoop]
    simp
  | @copy c s o hw _ ih =>
    intro n b hn hr
    obtain ⟨n, rfl⟩ : ∃ m, n = m + 1 := ⟨n - 1, by simp at hn; omega⟩
    simp only [List.length_cons] at hn hr
    obtain ⟨h1, h2⟩ := ih n ⟨b.cap, b.out ++ [c]⟩ (by omega) (by simp only [List.length_append, List.length_cons, List.length_nil]; omega)
    have e1 : byte len c b = .val ⟨b.cap, b.out ++ [c]⟩ := byte_val (by omega)
    have e2 : raw c b = .val ⟨b.cap, b.out ++ [c]⟩ := raw_val (by omega)
    refine ⟨?_, by simpa using h2⟩
    have e3 : (⟨b.cap, b.out ++ (c :: o)⟩ : Buf) = ⟨b.cap, (b.out ++ [c]) ++ o⟩ := by simp
    rw [blockLoop, e3, ← h1]
    by_cases hc : c = c!"<"
    · rw [if_pos hc]
      split
      · rename_i b' r hw'
        exact absurd hw' (hw hc b' r)
      · rw [e2, C.bind]
      · rw [e1, C.bind]
    · rw [if_neg hc, e1, C.bind]
  | @take s b' r o hw _ ih =>
    intro n b hn hr
    obtain ⟨n, rfl⟩ : ∃ m, n = m + 1 := ⟨n - 1, by simp at hn; omega⟩
    simp only [List.length_cons] at hn hr
    have hl := wrapper_len hw
    obtain ⟨h1, h2⟩ := ih n ⟨b.cap, b.out ++ b'⟩ (by omega) (by simp only [List.length_append]; omega)
    refine ⟨?_, by simp only [List.length_append, List.length_cons]; omega⟩
    rw [blockLoop, if_pos rfl, hw]
    simp only []
    rw [copy_val (by omega), C.bind, h1, List.append_assoc]

theorem stripBlocks_run {s o : Bytes} (h : BlockRun s o) : stripBlocks s = .val o := by
  obtain ⟨h1, h2⟩ := blockLoop_run s.length h (s.length + 1) ⟨s.length + 1, []⟩ (by omega) (by simp)
  unfold stripBlocks
  rw [h1, C.bind, List.nil_append]
  exact finish_val (by simp only []; omega)

theorem blockRun_text {t s o : Bytes} (ht : c!"<" ∉ t) (h : BlockRun s o) : BlockRun (t ++ s) (t ++ o) := by
  induction t with
  | nil => exact h
  | cons c t ih =>
    exact .copy (fun hc => absurd (by simp [hc]) ht) (ih fun h => ht (by simp [h]))

theorem wraps_good {l rest : Tags} {b t : Bytes} (hg : Good l) (h : Wraps l b t rest) : c!"<" ∉ t ∧ Good rest := by
  obtain ⟨n, p, w, o, i, c, w', q, -, rfl, -⟩ := h
  have h1 := (good_append (a := (p, w) :: o :: i) hg).2
  have h2 := good_tail h1
  exact ⟨(good_cons h2).2.2.2, good_tail h2⟩

theorem unwrapped_run {l : Tags} {o : Bytes} (h : Unwrapped l o) (hg : Good l) : BlockRun (html l) o := by
  induction h with
  | nil => exact .nil
  | @keep x l o hw _ ih =>
    obtain ⟨h1, h2, h3, h4⟩ := good_cons hg
    have e : html [x] ++ o = c!"<" :: ((x.1 ++ c!">" :: x.2) ++ o) := by rw [html_cons]; simp [html]
    have e' : html (x :: l) = c!"<" :: ((x.1 ++ c!">" :: x.2) ++ html l) := by rw [html_cons]; simp
    rw [e, e']
    refine .copy (fun _ b r hr => ?_) (blockRun_text (by simp [h1, h4]) (ih (good_tail hg)))
    rw [List.append_assoc, List.cons_append] at hr
    obtain ⟨t, rest, h, -⟩ := (wrapper_iff hg b r).1 hr
    exact hw b t rest h
  | @unwrap l b t rest o hw _ ih =>
    obtain ⟨h1, h2⟩ := wraps_good hg hw
    cases l with
    | nil =>
      obtain ⟨n, p, w, o, i, c, w', q, -, h, -⟩ := hw
      cases h
    | cons x l =>
      rw [html_cons, List.append_assoc]
      exact .take ((wrapper_iff hg b _).2 ⟨t, rest, hw, rfl⟩) (blockRun_text h1 (ih h2))

theorem unwrapped_exists : ∀ (k : Nat) (l : Tags), l.length ≤ k → ∃ o, Unwrapped l o
  | _, [], _ => ⟨[], .nil⟩
  | 0, _ :: _, h => by simp at h
  | k + 1, x :: l, h => by
    by_cases hc : ∃ b t r, Wraps (x :: l) b t r
    · obtain ⟨b, t, r, hw⟩ := hc
      have hl : r.length ≤ k := by
        obtain ⟨n, p, w, o, i, c, w', q, -, h', -⟩ := hw
        have := congrArg List.length h'
        simp only [List.length_append, List.length_cons] at this h
        omega
      obtain ⟨o, ho⟩ := unwrapped_exists k r hl
      exact ⟨_, .unwrap hw ho⟩
    · obtain ⟨o, ho⟩ := unwrapped_exists k l (by simpa using h)
      exact ⟨_, .keep (fun b t r h => hc ⟨b, t, r, h⟩) ho⟩

theorem blockRun_less {s o : Bytes} (h : BlockRun s o) : Less Opener (fun e _ => Closer e) s o := by
  induction h with
  | nil => exact .nil
  | copy _ _ ih => exact .keep ih
  | take hw _ ih =>
    obtain ⟨f, e, hf, he, hs⟩ := wrapper_split hw
    rw [hs]
    exact .remove hf he ih

/-! ### The loop over figures -/

/-- What the loop writes, without the block. -/
inductive FigureRun : Int → Bytes → Bytes → Prop
  | nil {d} : FigureRun d [] []
  | copy {d c s o} : c ≠ c!"<" → FigureRun d s o → FigureRun d (c :: s) (c :: o)
  | lt {d s o} : act (depth d s) s = .raw ∨ act (depth d s) s = .byte → FigureRun (depth d s) s o →
      FigureRun d (c!"<" :: s) (c!"<" :: o)
  | tag {d w r o} : act (depth d (w ++ c!">" :: r)) (w ++ c!">" :: r) = .tag → c!">" ∉ w →
      FigureRun (depth d (w ++ c!">" :: r)) r o → FigureRun d (c!"<" :: (w ++ c!">" :: r)) ((c!"<" :: w) ++ c!">" :: o)
  | cut {d s} : act (depth d s) s = .tag → c!">" ∉ s → FigureRun d (c!"<" :: s) (c!"<" :: s)
  | image {d s i r o} : act (depth d s) s = .image i r → FigureRun (depth d s) r o → FigureRun d (c!"<" :: s) (i ++ o)

theorem lead_split (s : Bytes) : ∃ w, s = w ++ prefixEnd s ∧ Lead w := by
  obtain ⟨w, hw, hb⟩ := dropWhile_split blank s
  unfold prefixEnd
  simp only []
  by_cases hp : b!"&lt;" <+: s.dropWhile blank
  · rw [if_pos hp]
    obtain ⟨u, hu⟩ := hp
    obtain ⟨v, hv, hb'⟩ := dropWhile_split blank u
    have e : (s.dropWhile blank).drop 4 = u := by rw [← hu]; rfl
    rw [e]
    exact ⟨w ++ b!"&lt;" ++ v, by rw [hw]; rw [← hu]; simp only [List.append_assoc]; rw [← hv], .inr ⟨w, v, rfl, blanks hb, blanks hb'⟩⟩
  · rw [if_neg hp]
    exact ⟨w, hw, .inl (blanks hb)⟩

theorem paragraphEnd_split {s r : Bytes} (h : paragraphEnd s = some r) : ∃ b, LastCloser b r ∧ s = b ++ r := by
  unfold paragraphEnd at h
  obtain ⟨w, hw, hb⟩ := dropWhile_split blank s
  split at h
  · rename_i a b t hd
    split at h
    · rename_i hc
      obtain ⟨rfl, rfl, hn, -⟩ := hc
      cases h
      cases hbe : behind (t.drop 1) with
      | some r =>
        have : wrapperEnd s = some r := by
          unfold wrapperEnd
          rw [hd]
          simp only []
          rw [if_pos ⟨trivial, trivial, hn⟩, hbe]
        obtain ⟨b, hb, hs⟩ := wrapperEnd_split this
        exact ⟨b, .inl hb, hs⟩
      | none =>
        obtain ⟨x, c, z, rfl, hx, hc⟩ := named_split hn
        obtain ⟨a, rfl⟩ : ∃ a, x = [a] := by
          have := congrArg List.length hx
          rw [List.length_map] at this
          exact List.length_eq_one_iff.1 this
        simp only [List.cons_append, List.nil_append, List.drop_succ_cons, List.drop_zero] at hbe hd
        have hg : c!">" ∉ c :: z := by
          intro hm
          unfold behind at hbe
          split at hbe
          · rename_i he
            rw [dropWhile_nil] at he
            exact absurd (he _ hm) (by decide)
          · cases hbe
        have ha : a ≠ c!">" := by
          rintro rfl
          exact absurd hx (by decide)
        refine ⟨w ++ b!"<" ++ (c!"/" :: a :: c :: z), .inr ⟨rfl, w, _, rfl, blanks hb, ?_, ?_⟩, ?_⟩
        · intro hm
          simp only [List.mem_cons] at hm
          rcases hm with hm | hm | hm
          · exact absurd hm (by decide)
          · exact ha hm.symm
          · exact hg (List.mem_cons.2 hm)
        · refine named_slash.2 ⟨_, rfl, [a], c :: z, rfl, hx, .inr ⟨c, z, rfl, ?_⟩⟩
          rcases hc with rfl | hc
          · exact absurd (by simp) hg
          · exact hc
        · rw [hw, hd]; simp
    · cases h
  · cases h

theorem act_image {d : Int} {s i r : Bytes} (h : act d s = .image i r) :
    0 < d ∧ named b!"p" s = true ∧ paragraph s = .image i r := by
  unfold act at h
  split at h
  · cases h
  split at h
  · cases h
  split at h
  · rename_i hc
    exact ⟨hc.1, hc.2, h⟩
  · cases h

theorem act_split {d : Int} {s i r : Bytes} (h : act d s = .image i r) :
    ∃ f e, LeadOpener f ∧ LastCloser e r ∧ c!"<" :: s = f ++ i ++ e ++ r := by
  obtain ⟨-, hn, h⟩ := act_image h
  unfold paragraph at h
  split at h
  · cases h
  rename_i inner hi
  obtain ⟨w, hw, hl⟩ := lead_split inner
  split at h
  · cases h
  rename_i c t hp
  split at h
  · split at h
    · cases h
    rename_i r1 hr1
    split at h
    · cases h
    rename_i r2 hr2
    cases h
    obtain ⟨t', ht1, ht2, ht3⟩ := paragraph_split hn hi
    obtain ⟨x, -, hx⟩ := skip_suffix _ _ _ hr1
    obtain ⟨e, he, hs⟩ := paragraphEnd_split hr2
    refine ⟨b!"<" ++ t' ++ b!">" ++ w, e, ⟨t', w, rfl, ht1, ht2, hl⟩, he, ?_⟩
    have e1 : c :: t = (c :: t.take 3 ++ x) ++ r1 := by
      have := List.take_append_drop 3 t
      rw [hx] at this
      simp [this]
    rw [e1, take_front, ht3, hw, hp, e1, hs]
    simp
  · cases h

theorem act_len {d : Int} {s i r : Bytes} (h : act d s = .image i r) : i.length + r.length ≤ s.length := by
  obtain ⟨f, e, hf, -, h⟩ := act_split h
  have : 3 ≤ f.length := by
    obtain ⟨t, w, rfl, -, h, -⟩ := hf
    obtain ⟨c, t, rfl, -⟩ := named_head h
    simp only [List.length_append, List.length_cons, List.length_nil]
    omega
  have := congrArg List.length h
  simp only [List.length_append, List.length_cons] at this
  omega

theorem first_close (s : Bytes) : c!">" ∉ s ∨ ∃ w r, s = w ++ c!">" :: r ∧ c!">" ∉ w := by
  cases h : behind s with
  | some r =>
    obtain ⟨w, h1, h2⟩ := behind_split h
    exact .inr ⟨w, r, h2, h1⟩
  | none =>
    refine .inl fun hm => ?_
    unfold behind at h
    split at h
    · rename_i he
      rw [dropWhile_nil] at he
      exact absurd (he _ hm) (by decide)
    · cases h

theorem figureRun_exists : ∀ (k : Nat) (d : Int) (s : Bytes), s.length ≤ k → ∃ o, FigureRun d s o
  | _, _, [], _ => ⟨[], .nil⟩
  | 0, _, _ :: _, h => by simp at h
  | k + 1, d, c :: s, h => by
    simp only [List.length_cons] at h
    by_cases hc : c = c!"<"
    · subst hc
      cases ha : act (depth d s) s with
      | raw =>
        obtain ⟨o, ho⟩ := figureRun_exists k (depth d s) s (by omega)
        exact ⟨_, .lt (.inl ha) ho⟩
      | byte =>
        obtain ⟨o, ho⟩ := figureRun_exists k (depth d s) s (by omega)
        exact ⟨_, .lt (.inr ha) ho⟩
      | tag =>
        rcases first_close s with hs | ⟨w, r, rfl, hw⟩
        · exact ⟨_, .cut ha hs⟩
        · simp only [List.length_append, List.length_cons] at h
          obtain ⟨o, ho⟩ := figureRun_exists k (depth d (w ++ c!">" :: r)) r (by omega)
          exact ⟨_, .tag ha hw ho⟩
      | image i r =>
        have := act_len ha
        obtain ⟨o, ho⟩ := figureRun_exists k (depth d s) r (by omega)
        exact ⟨_, .image ha ho⟩
    · obtain ⟨o, ho⟩ := figureRun_exists k d s (by omega)
      exact ⟨_, .copy hc ho⟩

theorem bytes_val (len : Nat) : ∀ (s : Bytes) (b : Buf), b.out.length + s.length + 1 ≤ b.cap →
    bytes len s b = .val ⟨b.cap, b.out ++ s⟩
  | [], b, _ => by simp [bytes]
  | c :: s, b, h => by
    simp only [List.length_cons] at h
    rw [bytes, byte_val (by omega), C.bind, bytes_val len s _ (by simp only [List.length_append, List.length_cons, List.length_nil]; omega)]
    simp

theorem takeWhile_close {w r : Bytes} (h : c!">" ∉ w) :
    (w ++ c!">" :: r).takeWhile (· != c!">") = w ∧ (w ++ c!">" :: r).dropWhile (· != c!">") = c!">" :: r := by
  induction w with
  | nil => exact ⟨rfl, rfl⟩
  | cons c w ih =>
    obtain ⟨h1, h2⟩ := ih fun h' => h (by simp [h'])
    have hc : (c != c!">") = true := by
      simp only [bne_iff_ne, ne_eq]
      rintro rfl
      exact h (by simp)
    rw [List.cons_append, List.takeWhile_cons, List.dropWhile_cons, if_pos hc, if_pos hc, h1, h2]
    exact ⟨rfl, rfl⟩

theorem takeWhile_none {w : Bytes} (h : c!">" ∉ w) :
    w.takeWhile (· != c!">") = w ∧ w.dropWhile (· != c!">") = [] := by
  have h1 : ∀ c ∈ w, (c != c!">") = true := by
    intro c hc
    simp only [bne_iff_ne, ne_eq]
    rintro rfl
    exact h hc
  refine ⟨?_, by rw [dropWhile_nil]; exact h1⟩
  have := List.takeWhile_append_dropWhile (p := (· != c!">")) (l := w)
  rw [(dropWhile_nil).2 h1, List.append_nil] at this
  exact this

theorem figureLoop_run (len : Nat) {d : Int} {s o : Bytes} (h : FigureRun d s o) : ∀ (n : Nat) (b : Buf), s.length < n →
    b.out.length + s.length + 1 ≤ b.cap → figureLoop len n d s b = .val ⟨b.cap, b.out ++ o⟩ ∧ o.length ≤ s.length := by
  induction h with
  | nil =>
    intro n b hn _
    obtain ⟨n, rfl⟩ : ∃ m, n = m + 1 := ⟨n - 1, by simp at hn; omega⟩
    rw [figureLoop]
    simp
  | @copy d c s o hc _ ih =>
    intro n b hn hr
    obtain ⟨n, rfl⟩ : ∃ m, n = m + 1 := ⟨n - 1, by simp at hn; omega⟩
    simp only [List.length_cons] at hn hr
    obtain ⟨h1, h2⟩ := ih n ⟨b.cap, b.out ++ [c]⟩ (by omega) (by simp only [List.length_append, List.length_cons, List.length_nil]; omega)
    refine ⟨?_, by simpa using h2⟩
    rw [figureLoop, if_neg hc, byte_val (by omega), C.bind, h1]
    simp
  | @lt d s o ha _ ih =>
    intro n b hn hr
    obtain ⟨n, rfl⟩ : ∃ m, n = m + 1 := ⟨n - 1, by simp at hn; omega⟩
    simp only [List.length_cons] at hn hr
    obtain ⟨h1, h2⟩ := ih n ⟨b.cap, b.out ++ [c!"<"]⟩ (by omega) (by simp only [List.length_append, List.length_cons, List.length_nil]; omega)
    refine ⟨?_, by simpa using h2⟩
    rw [figureLoop, if_pos rfl]
    simp only []
    rcases ha with ha | ha
    · rw [ha]
      simp only []
      rw [raw_val (by omega), C.bind, h1]
      simp
    · rw [ha]
      simp only []
      rw [byte_val (by omega), C.bind, h1]
      simp
  | @tag d w r o ha hw _ ih =>
    intro n b hn hr
    obtain ⟨n, rfl⟩ : ∃ m, n = m + 1 := ⟨n - 1, by simp at hn; omega⟩
    simp only [List.length_cons, List.length_append] at hn hr
    obtain ⟨h1, h2⟩ := ih n ⟨b.cap, b.out ++ (c!"<" :: w) ++ [c!">"]⟩ (by omega) (by simp only [List.length_append, List.length_cons, List.length_nil]; omega)
    refine ⟨?_, by simp only [List.length_append, List.length_cons]; omega⟩
    rw [figureLoop, if_pos rfl]
    simp only [ha]
    rw [(takeWhile_close hw).1, (takeWhile_close hw).2, bytes_val _ _ _ (by simp only [List.length_cons]; omega), C.bind]
    simp only []
    rw [raw_val (by simp only [List.length_append, List.length_cons]; omega), C.bind]
    rw [h1]
    simp
  | @cut d s ha hs =>
    intro n b hn hr
    obtain ⟨n, rfl⟩ : ∃ m, n = m + 1 := ⟨n - 1, by simp at hn; omega⟩
    refine ⟨?_, Nat.le_refl _⟩
    rw [figureLoop, if_pos rfl]
    simp only [ha]
    rw [(takeWhile_none hs).1, (takeWhile_none hs).2, bytes_val _ _ _ hr, C.bind]
  | @image d s i r o ha _ ih =>
    intro n b hn hr
    obtain ⟨n, rfl⟩ : ∃ m, n = m + 1 := ⟨n - 1, by simp at hn; omega⟩
    simp only [List.length_cons] at hn hr
    have hl := act_len ha
    obtain ⟨h1, h2⟩ := ih n ⟨b.cap, b.out ++ i⟩ (by omega) (by simp only [List.length_append]; omega)
    refine ⟨?_, by simp only [List.length_append, List.length_cons]; omega⟩
    rw [figureLoop, if_pos rfl]
    simp only [ha]
    rw [copy_val (by omega), C.bind, h1, List.append_assoc]

theorem stripFigures_run {s o : Bytes} (h : FigureRun 0 s o) : stripFigures s = .val o := by
  obtain ⟨h1, h2⟩ := figureLoop_run s.length h (s.length + 1) ⟨s.length + 1, []⟩ (by omega) (by simp)
  unfold stripFigures
  rw [h1, C.bind, List.nil_append]
  exact finish_val (by simp only []; omega)

theorem less_keep {f : Bytes → Prop} {b : Bytes → Bytes → Prop} (t : Bytes) {s o : Bytes} (h : Less f b s o) : Less f b (t ++ s) (t ++ o) := by
  induction t with
  | nil => exact h
  | cons c t ih => exact .keep ih

theorem figureRun_less {d : Int} {s o : Bytes} (h : FigureRun d s o) : Less LeadOpener LastCloser s o := by
  induction h with
  | nil => exact .nil
  | copy _ _ ih => exact .keep ih
  | lt _ _ ih => exact .keep ih
  | @tag d w r o _ _ _ ih =>
    have := less_keep (c!"<" :: w ++ [c!">"]) ih
    simpa using this
  | @cut d s _ _ =>
    have := less_keep (c!"<" :: s) (Less.nil (front := LeadOpener) (back := LastCloser))
    simpa using this
  | image hw _ ih =>
    obtain ⟨f, e, hf, he, hs⟩ := act_split hw
    rw [hs]
    exact .remove hf he ih

theorem figureRun_text {d : Int} {t s o : Bytes} (ht : c!"<" ∉ t) (h : FigureRun d s o) : FigureRun d (t ++ s) (t ++ o) := by
  induction t with
  | nil => exact h
  | cons c t ih =>
    exact .copy (fun hc => absurd (by simp [hc]) ht) (ih fun h => ht (by simp [h]))

theorem depth_tag (d : Int) {x : Bytes × Bytes} {l : Tags} (hg : Good (x :: l)) :
    (Named b!"figure" x.1 → depth d (x.1 ++ c!">" :: (x.2 ++ html l)) = d + 1) ∧
    (Named b!"/figure" x.1 → depth d (x.1 ++ c!">" :: (x.2 ++ html l)) = d - 1) ∧
    (¬ Named b!"figure" x.1 → ¬ Named b!"/figure" x.1 → depth d (x.1 ++ c!">" :: (x.2 ++ html l)) = d) := by
  obtain ⟨h1, h2, h3, h4⟩ := good_cons hg
  obtain ⟨w, t⟩ := x
  simp only at h1 h2 h3 h4 ⊢
  generalize t ++ html l = z
  cases w with
  | nil =>
    refine ⟨fun h => ?_, fun h => ?_, fun _ _ => ?_⟩
    · obtain ⟨c, t, ht, -⟩ := named_head h; cases ht
    · obtain ⟨c, t, ht, -⟩ := named_head h; cases ht
    · rw [List.nil_append, depth, if_neg (by decide), if_neg]
      intro hn
      have := (named_iff (w := []) z (by decide) (by simp)).1 hn
      obtain ⟨c, t, ht, -⟩ := named_head this
      cases ht
  | cons e w =>
    have hw : c!">" ∉ w := fun h => h2 (by simp [h])
    rw [List.cons_append, depth]
    by_cases he : e = c!"/"
    · subst he
      rw [if_pos rfl]
      have hs : Named b!"/figure" (c!"/" :: w) ↔ Named b!"figure" w := by
        refine named_slash.trans ⟨?_, fun h => ⟨w, rfl, h⟩⟩
        rintro ⟨t, ht, h⟩; cases ht; exact h
      rw [hs]
      refine ⟨fun h => absurd rfl (named_not_slash (by decide) h), fun h => ?_, fun _ h => ?_⟩
      · rw [if_pos ((named_iff z (by decide) hw).2 h)]
      · rw [if_neg (mt (named_iff z (by decide) hw).1 h)]
    · rw [if_neg he]
      have hn := named_iff (n := b!"figure") (w := e :: w) z (by decide) h2
      rw [List.cons_append] at hn
      refine ⟨fun h => ?_, fun h => ?_, fun h _ => ?_⟩
      · rw [if_pos (hn.2 h)]
      · obtain ⟨t, ht, -⟩ := named_slash.1 h; cases ht; exact absurd rfl he
      · rw [if_neg (mt hn.1 h)]

theorem image_iff {w : Bytes} (z : Bytes) (hw : c!">" ∉ w) : image (w ++ c!">" :: z) = true ↔ Image w := by
  have hl : ∀ c : Byte, toLower c = c!"i" ∨ toLower c = c!"m" ∨ toLower c = c!"g" → c ≠ c!">" := by
    rintro c h rfl
    exact absurd h (by decide)
  constructor
  · intro h
    unfold image at h
    split at h
    · rename_i i m g c s hs
      simp only [Bool.and_eq_true, Bool.or_eq_true, beq_iff_eq] at h
      obtain ⟨⟨⟨hi, hm⟩, hg⟩, hc⟩ := h
      match w, hs with
      | [], hs => cases hs; exact absurd rfl (hl _ (.inl hi))
      | [_], hs => cases hs; exact absurd rfl (hl _ (.inr (.inl hm)))
      | [_, _], hs => cases hs; exact absurd rfl (hl _ (.inr (.inr hg)))
      | [_, _, _], hs => cases hs; exact ⟨[i, m, g], [], rfl, by simp [hi, hm, hg], .inl rfl⟩
      | _ :: _ :: _ :: _ :: y, hs =>
        cases hs
        refine ⟨[i, m, g], c :: y, rfl, by simp [hi, hm, hg], .inr ⟨c, y, rfl, ?_⟩⟩
        rcases hc with ((hc | hc) | hc) | hc
        · exact .inl hc
        · exact .inr (.inl hc)
        · exact absurd (by simp [hc]) hw
        · exact .inr (.inr hc)
    · cases h
  · rintro ⟨x, y, rfl, hx, hy⟩
    match x, hx with
    | [], hx => cases hx
    | [_], hx => simp at hx
    | [_, _], hx => simp at hx
    | [i, m, g], hx =>
      simp only [List.map_cons, List.map_nil, List.cons.injEq, and_true] at hx
      rcases hy with rfl | ⟨c, y, rfl, hc⟩
      · simp [image, hx]
      · rcases hc with rfl | rfl | rfl <;> simp [image, hx]
    | _ :: _ :: _ :: _ :: _, hx => simp at hx

theorem image_skip {w : Bytes} (z : Bytes) (hw : c!">" ∉ w) (hq : Quoted w) (h : Image w) :
    skip none ((w ++ c!">" :: z).drop 3) = some z := by
  obtain ⟨x, y, rfl, hx, -⟩ := h
  have h3 : x.length = 3 := by
    have := congrArg List.length hx
    rwa [List.length_map] at this
  rw [List.append_assoc, ← h3, List.drop_left]
  refine skip_quoted z (quoted_letters hq fun c hc => ?_) fun h => hw (by simp [h])
  have hm : toLower c ∈ b!"img" := by
    rw [← hx]
    exact List.mem_map_of_mem hc
  constructor <;>
  · rintro rfl
    exact absurd hm (by decide)

theorem html_no_lt {l : Tags} : b!"&lt;" <+: html l → False := by
  rintro ⟨u, hu⟩
  cases l with
  | nil => cases hu
  | cons x l => rw [html_cons] at hu; exact absurd (List.cons.inj hu).1 (by decide)

theorem lead_html {w : Bytes} (l : Tags) (h : Lead w) : prefixEnd (w ++ html l) = html l := by
  unfold prefixEnd
  simp only []
  rcases h with h | ⟨a, b, rfl, ha, hb⟩
  · rw [blank_html l h, if_neg html_no_lt]
  · have e : (a ++ b!"&lt;" ++ b ++ html l).dropWhile blank = b!"&lt;" ++ (b ++ html l) := by
      rw [List.append_assoc, List.append_assoc, dropWhile_append fun c hc => (blank_iff c).2 (ha c hc)]
      rfl
    rw [e, if_pos (List.prefix_append _ _)]
    exact blank_html l hb

theorem not_lead {w : Bytes} (l : Tags) (h : ¬ Lead w) (hw : c!"<" ∉ w) : ∃ c t, prefixEnd (w ++ html l) = c :: t ∧ c ≠ c!"<" := by
  unfold prefixEnd
  simp only []
  have hb : ¬ Blank w := fun hb => h (.inl hb)
  obtain ⟨a, ha, hb'⟩ := dropWhile_split blank w
  generalize hu : w.dropWhile blank = u at ha
  have hne : u ≠ [] := by
    rintro rfl
    rw [List.append_nil] at ha
    rw [ha] at hb
    exact hb (blanks hb')
  have hlt : c!"<" ∉ u := fun h => hw (by rw [ha]; simp [h])
  have e : (w ++ html l).dropWhile blank = u ++ html l := by
    rw [ha, List.append_assoc, dropWhile_append hb']
    cases u with
    | nil => exact absurd rfl hne
    | cons c u =>
      have : blank c = false := by
        have := List.head_dropWhile_not (p := blank) (l := w) (by rw [hu]; simp)
        simpa only [hu, List.head_cons] using this
      rw [List.cons_append, List.dropWhile_cons, this]
      rfl
  rw [e]
  by_cases hp : b!"&lt;" <+: u ++ html l
  · rw [if_pos hp]
    have hul : b!"&lt;" <+: u := by
      obtain ⟨v, hv⟩ := hp
      rcases List.append_eq_append_iff.1 hv with ⟨a', h1, h2⟩ | ⟨c', h1, h2⟩
      · exact ⟨a', h1.symm⟩
      · cases c' with
        | nil => rw [h1, List.append_nil]; exact List.prefix_refl _
        | cons x c' =>
          cases l with
          | nil => cases h2
          | cons y l =>
            rw [html_cons] at h2
            rw [← (List.cons.inj h2).1] at h1
            have : c!"<" ∈ b!"&lt;" := by rw [h1]; simp
            exact absurd this (by decide)
    obtain ⟨v, rfl⟩ := hul
    have : ¬ Blank v := fun hv => h (.inr ⟨a, v, by rw [ha]; simp, blanks hb', hv⟩)
    have e2 : (b!"&lt;" ++ v ++ html l).drop 4 = v ++ html l := rfl
    rw [e2]
    exact not_blank (html l) this fun h => hlt (by simp [h])
  · rw [if_neg hp]
    cases u with
    | nil => exact absurd rfl hne
    | cons c u => exact ⟨c, _, rfl, by rintro rfl; exact hlt (by simp)⟩

theorem closer_iff {w : Bytes} {l : Tags} (hw : c!"<" ∉ w) (hg : Good l) :
    (∀ r, paragraphEnd (w ++ html l) = some r → Blank w ∧ ∃ q t rest, l = (q, t) :: rest ∧ Named b!"/p" q ∧ r = t ++ html rest) ∧
    (∀ q t rest, Blank w → l = (q, t) :: rest → Named b!"/p" q → rest ≠ [] → paragraphEnd (w ++ html l) = some (t ++ html rest)) := by
  constructor
  · intro r h
    refine (wrapperEnd_iff hw hg r).1 ?_
    by_cases hb : Blank w
    · unfold paragraphEnd at h
      unfold wrapperEnd
      rw [blank_html l hb] at h ⊢
      cases l with
      | nil => cases h
      | cons x l =>
        obtain ⟨h1, h2, h3, h4⟩ := good_cons hg
        rw [html_cons] at h ⊢
        generalize hx : x.1 = q at h h1 h2
        cases q with
        | nil =>
          simp only [List.nil_append] at h
          rw [if_neg (by rintro ⟨-, h, -⟩; exact absurd h (by decide))] at h
          cases h
        | cons e q =>
          simp only [List.cons_append] at h ⊢
          split at h
          · rename_i hc
            rw [if_pos ⟨hc.1, hc.2.1, hc.2.2.1⟩]
            have hq : c!">" ∉ q := fun h => h2 (by simp [h])
            obtain ⟨x', y, rfl, hx', -⟩ := (named_iff _ (by decide) hq).1 hc.2.2.1
            obtain ⟨a, rfl⟩ : ∃ a, x' = [a] := by
              have := congrArg List.length hx'
              rw [List.length_map] at this
              exact List.length_eq_one_iff.1 this
            simp only [List.cons_append, List.nil_append, List.drop_succ_cons, List.drop_zero] at h ⊢
            rw [behind_tag _ fun h => hq (by simp [h])] at h ⊢
            exact h
          · cases h
    · obtain ⟨c, t, h1, h2⟩ := not_blank (html l) hb hw
      unfold paragraphEnd at h
      rw [h1] at h
      cases t with
      | nil => cases h
      | cons d t =>
        simp only [] at h
        rw [if_neg (fun hc => h2 hc.1)] at h
        cases h
  · rintro q t rest hb rfl hq hr
    have h := (wrapperEnd_iff hw hg (t ++ html rest)).2 ⟨hb, q, t, rest, rfl, hq, rfl⟩
    unfold wrapperEnd at h
    unfold paragraphEnd
    have hlen : 5 ≤ ((w ++ html ((q, t) :: rest)).dropWhile blank).length := by
      rw [blank_html _ hb, html_cons]
      obtain ⟨e, q', rfl, -, hq'⟩ := named_head hq
      obtain ⟨e', q'', rfl, -⟩ := named_head hq'
      cases rest with
      | nil => exact absurd rfl hr
      | cons x rest =>
        rw [html_cons]
        simp only [List.length_append, List.length_cons]
        omega
    split at h
    · rename_i a b u hd
      split at h
      · rename_i hc
        rw [if_pos ⟨hc.1, hc.2.1, hc.2.2, hlen⟩, h]
        rfl
      · cases h
    · cases h

/-- What happens at a paragraph of a figure. -/
theorem paragraph_image {x : Bytes × Bytes} {l : Tags} (hg : Good (x :: l)) (hpn : Named b!"p" x.1) :
    (∀ i r, paragraph (x.1 ++ c!">" :: (x.2 ++ html l)) = .image i r → ∃ t rest, Holds (x :: l) i t rest) ∧
    (∀ i t rest, Holds (x :: l) i t rest → rest ≠ [] → paragraph (x.1 ++ c!">" :: (x.2 ++ html l)) = .image i (t ++ html rest)) ∧
    paragraph (x.1 ++ c!">" :: (x.2 ++ html l)) ≠ .tag := by
  obtain ⟨h1, h2, h3, h4⟩ := good_cons hg
  have hg' := good_tail hg
  unfold paragraph
  rw [behind_tag _ h2]
  simp only []
  by_cases hl : Lead x.2
  · rw [lead_html l hl]
    cases l with
    | nil =>
      refine ⟨fun i r h => ?_, fun i t rest h _ => ?_, ?_⟩
      · cases h
      · obtain ⟨p, w, i, w', q, h, -⟩ := h
        cases h
      · simp [html]
    | cons m l =>
      obtain ⟨i1, i2, i3, i4⟩ := good_cons hg'
      have hg2 := good_tail hg'
      rw [html_cons]
      simp only [true_and]
      by_cases hi : Image m.1
      · rw [if_pos ((image_iff _ i2).2 hi), image_skip _ i2 i3 hi]
        simp only []
        have e : c!"<" :: (m.1 ++ c!">" :: (m.2 ++ html l)) = (b!"<" ++ m.1 ++ b!">") ++ (m.2 ++ html l) := by simp
        rw [e, take_front]
        obtain ⟨c1, c2⟩ := closer_iff i4 hg2
        refine ⟨fun i r h => ?_, fun i t rest h hr => ?_, ?_⟩
        · split at h
          · cases h
          rename_i r2 hr2
          cases h
          obtain ⟨hb, q, t, rest, rfl, hq, rfl⟩ := c1 _ hr2
          exact ⟨t, rest, x.1, x.2, m.1, m.2, q, rfl, hpn, hl, hi, hb, hq, rfl⟩
        · obtain ⟨p, w, i, w', q, h, -, -, -, hb, hq, rfl⟩ := h
          simp only [List.cons.injEq] at h
          obtain ⟨rfl, rfl, rfl⟩ := h
          rw [c2 q t rest hb rfl hq hr]
        · split <;> simp
      · rw [if_neg (mt (image_iff _ i2).1 hi)]
        refine ⟨fun i r h => ?_, fun i t rest h _ => ?_, by simp⟩
        · cases h
        · obtain ⟨p, w, i, w', q, h, -, -, h', -⟩ := h
          simp only [List.cons.injEq] at h
          obtain ⟨rfl, rfl, rfl⟩ := h
          exact absurd h' hi
  · obtain ⟨c, t, e1, e2⟩ := not_lead l hl h4
    rw [e1]
    simp only []
    rw [if_neg (by rintro ⟨h, -⟩; exact e2 h)]
    refine ⟨fun i r h => ?_, fun i t rest h _ => ?_, by simp⟩
    · cases h
    · obtain ⟨p, w, i, w', q, h, -, h', -⟩ := h
      simp only [List.cons.injEq] at h
      obtain ⟨rfl, -⟩ := h
      exact absurd h' hl

theorem act_tag (d : Int) {x : Bytes × Bytes} {l : Tags} (hg : Good (x :: l)) :
    (Named b!"figure" x.1 → act d (x.1 ++ c!">" :: (x.2 ++ html l)) = .tag) ∧
    (Named b!"/figure" x.1 → act d (x.1 ++ c!">" :: (x.2 ++ html l)) = .byte) ∧
    (¬ Named b!"figure" x.1 → (d ≤ 0 ∨ ∀ i t rest, ¬ Holds (x :: l) i t rest) →
      act d (x.1 ++ c!">" :: (x.2 ++ html l)) = .raw ∨ act d (x.1 ++ c!">" :: (x.2 ++ html l)) = .byte) ∧
    (∀ i t rest, 0 < d → Holds (x :: l) i t rest → rest ≠ [] → act d (x.1 ++ c!">" :: (x.2 ++ html l)) = .image i (t ++ html rest)) := by
  obtain ⟨h1, h2, h3, h4⟩ := good_cons hg
  have nf := named_iff (n := b!"figure") (x.2 ++ html l) (by decide) h2
  have np := named_iff (n := b!"p") (x.2 ++ html l) (by decide) h2
  have hh : ∀ {a : Byte} {n : Bytes}, a ≠ c!"/" → Named (a :: n) x.1 → (x.1 ++ c!">" :: (x.2 ++ html l)).head? ≠ some c!"/" := by
    intro a n ha h
    have := named_not_slash ha h
    obtain ⟨c, t, hc, -⟩ := named_head h
    rw [hc] at this ⊢
    exact this
  unfold act
  refine ⟨fun h => ?_, fun h => ?_, fun h hd => ?_, fun i t rest hd h hr => ?_⟩
  · rw [if_neg (hh (by decide) h), if_pos (nf.2 h)]
  · obtain ⟨t, ht, -⟩ := named_slash.1 h
    rw [if_pos (by rw [ht]; rfl)]
  · split
    · exact .inr rfl
    rw [if_neg (mt nf.1 h)]
    split
    · rename_i hc
      rcases hd with hd | hd
      · omega
      obtain ⟨p1, -, p3⟩ := paragraph_image hg (np.1 hc.2)
      cases hp : paragraph (x.1 ++ c!">" :: (x.2 ++ html l)) with
      | raw => exact .inl rfl
      | byte => exact .inr rfl
      | tag => exact absurd hp p3
      | image i r =>
        obtain ⟨t, rest, h⟩ := p1 i r hp
        exact absurd h (hd i t rest)
    · exact .inr rfl
  · have hpn : Named b!"p" x.1 := by
      obtain ⟨p, w, i, w', q, h, hp, -⟩ := h
      cases h
      exact hp
    rw [if_neg (hh (by decide) hpn), if_neg (mt nf.1 (named_other (by decide) hpn)), if_pos ⟨hd, np.2 hpn⟩]
    exact (paragraph_image hg hpn).2.1 i t rest h hr

theorem freed_rest {d : Nat} {l : Tags} {o : Bytes} (h : Freed (d + 1) l o) : l ≠ [] := by
  rintro rfl
  cases h with
  | free h _ =>
    obtain ⟨p, w, i, w', q, h, -⟩ := h
    cases h

theorem freed_run {d : Nat} {l : Tags} {o : Bytes} (h : Freed d l o) (hg : Good l) : FigureRun d (html l) o := by
  have e : ∀ (x : Bytes × Bytes) (o : Bytes), html [x] ++ o = c!"<" :: ((x.1 ++ c!">" :: x.2) ++ o) := by
    intro x o; rw [html_cons]; simp [html]
  have e' : ∀ (x : Bytes × Bytes) (l : Tags), html (x :: l) = c!"<" :: ((x.1 ++ c!">" :: x.2) ++ html l) := by
    intro x l; rw [html_cons]; simp
  have e2 : ∀ (x : Bytes × Bytes) (l : Tags), (x.1 ++ c!">" :: x.2) ++ html l = x.1 ++ c!">" :: (x.2 ++ html l) := by
    intro x l; simp
  induction h with
  | nil => exact .nil
  | @figure d x l o hn _ ih =>
    obtain ⟨h1, h2, h3, h4⟩ := good_cons hg
    have hd := (depth_tag d hg).1 hn
    have ih := figureRun_text h4 (ih (good_tail hg))
    rw [e', e, e2]
    have := FigureRun.tag (d := d) (w := x.1) (r := x.2 ++ html l) (o := x.2 ++ o) ((act_tag _ hg).1 hn) h2
      (by rw [hd]; exact ih)
    simpa using this
  | @closed d x l o hn _ ih =>
    obtain ⟨h1, h2, h3, h4⟩ := good_cons hg
    have hd := (depth_tag (d + 1 : Nat) hg).2.1 hn
    rw [e', e]
    have hd' : ((d + 1 : Nat) : Int) - 1 = d := by omega
    rw [hd'] at hd
    refine .lt ?_ ?_
    · rw [e2]; exact .inr ((act_tag _ hg).2.1 hn)
    · rw [e2, hd, ← e2]
      exact figureRun_text (by simp [h1, h4]) (ih (good_tail hg))
  | @keep d x l o hn hn' hk _ ih =>
    obtain ⟨h1, h2, h3, h4⟩ := good_cons hg
    have hd := (depth_tag d hg).2.2 hn hn'
    rw [e', e]
    refine .lt ?_ ?_
    · rw [e2, hd]
      refine (act_tag _ hg).2.2.1 hn ?_
      rcases hk with rfl | hk
      · exact .inl (Int.le_refl _)
      · exact .inr hk
    · rw [e2, hd, ← e2]
      exact figureRun_text (by simp [h1, h4]) (ih (good_tail hg))
  | @free d l i t rest o hh hf ih =>
    cases l with
    | nil =>
      obtain ⟨p, w, i, w', q, h, -⟩ := hh
      cases h
    | cons x l =>
      have hpn : Named b!"p" x.1 := by
        obtain ⟨p, w, i, w', q, h, hp, -⟩ := hh
        cases h
        exact hp
      have hd := (depth_tag (d + 1 : Nat) hg).2.2 (named_other (by decide) hpn) (named_other (by decide) hpn)
      have hgr : c!"<" ∉ t ∧ Good rest := by
        obtain ⟨p, w, i, w', q, h, -⟩ := hh
        cases h
        have := good_tail (good_tail hg)
        exact ⟨(good_cons this).2.2.2, good_tail this⟩
      rw [e', e2, List.append_assoc]
      refine .image (r := t ++ html rest) ?_ ?_
      · rw [hd]
        exact (act_tag _ hg).2.2.2 i t rest (by omega) hh (freed_rest hf)
      · rw [hd]
        exact figureRun_text hgr.1 (ih hgr.2)

/-- `d` figures are open, and all are closed in the end. -/
inductive Deep : Nat → Tags → Prop
  | nil : Deep 0 []
  | figure {d x l} : Named b!"figure" x.1 → Deep (d + 1) l → Deep d (x :: l)
  | closed {d x l} : Named b!"/figure" x.1 → Deep d l → Deep (d + 1) (x :: l)
  | other {d x l} : ¬ Named b!"figure" x.1 → ¬ Named b!"/figure" x.1 → Deep d l → Deep d (x :: l)

theorem balanced_deep {a : Tags} (h : Balanced b!"figure" a) : ∀ d m, Deep d m → Deep d (a ++ m) := by
  induction h with
  | nil => exact fun d m h => h
  | other h1 h2 _ ih => exact fun d m h => .other h1 h2 (ih d m h)
  | nested h1 _ h2 _ iha ihb =>
    intro d m h
    have := Deep.figure h1 (iha (d + 1) _ (.closed h2 (ihb d m h)))
    simpa using this

theorem deep_other {a : Byte} {n : Bytes} {d : Nat} {x : Bytes × Bytes} {l : Tags} (ha : a ≠ c!"f") (hn : Named (a :: n) x.1)
    (hs : ¬ Named b!"/figure" x.1) (h : Deep d (x :: l)) : Deep d l := by
  cases h with
  | figure h _ => exact absurd h (named_other ha hn)
  | closed h _ => exact absurd h hs
  | other _ _ h => exact h

theorem image_other {w : Bytes} (h : Image w) : ¬ Named b!"figure" w ∧ ¬ Named b!"/figure" w := by
  obtain ⟨x, y, rfl, hx, -⟩ := h
  cases x with
  | nil => cases hx
  | cons c x =>
    have hc : toLower c = c!"i" := (List.cons.inj hx).1
    constructor <;>
    · intro h
      obtain ⟨d, t, hd, hl, -⟩ := named_head h
      cases hd
      rw [hc] at hl
      exact absurd hl (by decide)

theorem deep_holds {d : Nat} {l rest : Tags} {i t : Bytes} (h : Holds l i t rest) (hd : Deep d l) : Deep d rest := by
  obtain ⟨p, w, i, w', q, rfl, hp, -, hi, -, hq, -⟩ := h
  have h1 := deep_other (by decide) hp (named_other (by decide) hp) hd
  have h2 : Deep d ((q, t) :: rest) := by
    cases h1 with
    | figure h _ => exact absurd h (image_other hi).1
    | closed h _ => exact absurd h (image_other hi).2
    | other _ _ h => exact h
  refine deep_other (by decide) hq (fun h => ?_) h2
  obtain ⟨a, ha, h3⟩ := named_slash.1 hq
  obtain ⟨b, hb, h4⟩ := named_slash.1 h
  rw [ha] at hb
  cases hb
  exact named_other (by decide) h3 h4

theorem freed_exists : ∀ (k d : Nat) (l : Tags), l.length ≤ k → Deep d l → ∃ o, Freed d l o
  | _, _, [], _, h => by cases h; exact ⟨[], .nil⟩
  | 0, _, _ :: _, h, _ => by simp at h
  | k + 1, d, x :: l, h, hd => by
    by_cases hc : d ≠ 0 ∧ ∃ i t rest, Holds (x :: l) i t rest
    · obtain ⟨h0, i, t, rest, hh⟩ := hc
      obtain ⟨d, rfl⟩ : ∃ e, d = e + 1 := ⟨d - 1, by omega⟩
      have hl : rest.length ≤ k := by
        obtain ⟨p, w, i, w', q, h', -⟩ := hh
        have := congrArg List.length h'
        simp only [List.length_cons] at this h
        omega
      obtain ⟨o, ho⟩ := freed_exists k (d + 1) rest hl (deep_holds hh hd)
      exact ⟨_, .free hh ho⟩
    · have hl : l.length ≤ k := by simpa using h
      cases hd with
      | figure hn hd =>
        obtain ⟨o, ho⟩ := freed_exists k _ l hl hd
        exact ⟨_, .figure hn ho⟩
      | closed hn hd =>
        obtain ⟨o, ho⟩ := freed_exists k _ l hl hd
        exact ⟨_, .closed hn ho⟩
      | other h1 h2 hd =>
        obtain ⟨o, ho⟩ := freed_exists k _ l hl hd
        refine ⟨_, .keep h1 h2 ?_ ho⟩
        by_cases h0 : d = 0
        · exact .inl h0
        · exact .inr fun i t rest h => hc ⟨h0, i, t, rest, h⟩

end Verif.StripWrap
