/-
Elements with a `markdown` attribute: the model does what the specification says.
-/
import Verif.Model.InHtml
import Verif.Spec.InHtml
import Verif.Proof.StripWrap
import Verif.Proof.Index

namespace Verif.InHtml
open StripWrap (closing closing_text closing_balanced closing_some closing_tag white_iff html_cons html_append good_cons good_tail good_append)
open StripWrap.Spec (Tags html White Named Balanced Good)
open Index (span_stop span_all span_split)
open Spec (Mentions Other Attribute attributes Marked Plain Kind Trimmed Closed Converted)

/-! ### Attributes -/

theorem mentions_append {x y : Bytes} (h : ¬ Mentions (x ++ y)) : ¬ Mentions y := by
  rintro ⟨a, c, b, rfl, hc⟩
  exact h ⟨x ++ a, c, b, by simp, hc⟩

theorem drop_split (p : Byte → Bool) (s : Bytes) : ∃ x, s = x ++ s.dropWhile p ∧ ∀ c ∈ x, p c = true :=
  StripWrap.dropWhile_split p s

/-- No attribute is found where `markdown=` is not behind white space. -/
theorem search_none {z : Bytes} : ∀ (n : Nat) (a : Bytes), ¬ b!"markdown=" <+: a → ¬ Mentions a → search n a z = none
  | 0, _, _, _ => rfl
  | n + 1, a, h1, h2 => by
    rw [search]
    by_cases ha : a = []
    · rw [if_pos ha]
    rw [if_neg ha]
    simp only []
    obtain ⟨x, hx, hw⟩ := drop_split isSpace a
    have h3 : ¬ b!"markdown=" <+: a.dropWhile isSpace := by
      rintro ⟨y, hy⟩
      cases hn : x.reverse with
      | nil =>
        rw [List.reverse_eq_nil_iff] at hn
        rw [hn, List.nil_append] at hx
        exact h1 ⟨y, by rw [hy, ← hx]⟩
      | cons c t =>
        have : x = t.reverse ++ [c] := by rw [← List.reverse_reverse x, hn]; simp
        exact h2 ⟨t.reverse, c, y, by rw [hx, ← hy, this]; simp, (white_iff c).1 (hw c (by rw [this]; simp))⟩
    rw [if_neg h3]
    obtain ⟨u, hu, -⟩ := drop_split (fun c => !isSpace c) (a.dropWhile isSpace)
    have h4 : ¬ Mentions ((a.dropWhile isSpace).dropWhile fun c => !isSpace c) := by
      rw [hx, hu] at h2
      exact mentions_append (mentions_append h2)
    refine search_none n _ ?_ h4
    rintro ⟨y, hy⟩
    have := List.head?_dropWhile_not (fun c => !isSpace c) (a.dropWhile isSpace)
    rw [← hy] at this
    simp at this
    exact absurd this (by decide)

theorem others_end {s : Bytes} (h : ¬ Mentions s) : others s = (s, []) := by
  induction s with
  | nil => rfl
  | cons c s ih =>
    rw [others, if_neg, ih (mentions_append (x := [c]) h)]
    rintro ⟨hc, y, hy⟩
    obtain ⟨x, hx, hw⟩ := drop_split isSpace (c :: s)
    cases hn : x.reverse with
    | nil =>
      rw [List.reverse_eq_nil_iff] at hn
      rw [hn, List.nil_append, ← hy] at hx
      simp only [List.cons_append, List.cons.injEq] at hx
      rw [hx.1] at hc
      exact absurd hc (by decide)
    | cons d t =>
      have : x = t.reverse ++ [d] := by rw [← List.reverse_reverse x, hn]; simp
      exact h ⟨t.reverse, d, y, by rw [hx, ← hy, this]; simp, (white_iff d).1 (hw d (by rw [this]; simp))⟩

theorem blank_prefix {p r z : Bytes} (hp : c!" " ∉ p) (h : p <+: r ++ c!" " :: z) : p <+: r := by
  rcases Nat.le_total p.length r.length with hl | hl
  · exact List.prefix_of_prefix_length_le h (List.prefix_append r _) hl
  · obtain ⟨y, hy⟩ := h
    have h1 : r <+: p := List.prefix_of_prefix_length_le ⟨c!" " :: z, rfl⟩ ⟨y, hy⟩ hl
    obtain ⟨u, rfl⟩ := h1
    cases u with
    | nil => simp
    | cons c u =>
      rw [List.append_assoc] at hy
      have := List.append_cancel_left hy
      simp only [List.cons_append, List.cons.injEq] at this
      exact absurd (by rw [this.1]; simp) hp

theorem drop_word (m : Bytes) : (b!"markdown=" ++ m).drop 9 = m := rfl

theorem no_blank : c!" " ∉ b!"markdown=" := by decide

theorem mentions_cons {c : Byte} {s : Bytes} : Mentions (c :: s) ↔ (White c ∧ b!"markdown=" <+: s) ∨ Mentions s := by
  constructor
  · rintro ⟨x, d, y, h, hd⟩
    cases x with
    | nil =>
      simp only [List.nil_append, List.cons_append, List.cons.injEq] at h
      exact Or.inl ⟨h.1 ▸ hd, y, by rw [h.2]; rfl⟩
    | cons e x =>
      simp only [List.cons_append, List.cons.injEq] at h
      exact Or.inr ⟨x, d, y, by rw [h.2], hd⟩
  · rintro (⟨h, y, rfl⟩ | ⟨x, d, y, rfl, hd⟩)
    · exact ⟨[], c, y, rfl, h⟩
    · exact ⟨c :: x, d, y, by simp, hd⟩

theorem mentions_blank {v : Bytes} : ∀ {u : Bytes}, Mentions (u ++ c!" " :: v) → Mentions u ∨ b!"markdown=" <+: v ∨ Mentions v
  | [], h => by
    rw [List.nil_append, mentions_cons] at h
    rcases h with ⟨-, h⟩ | h
    · exact Or.inr (Or.inl h)
    · exact Or.inr (Or.inr h)
  | c :: u, h => by
    rw [List.cons_append, mentions_cons] at h
    rw [mentions_cons]
    rcases h with ⟨h1, h2⟩ | h
    · exact Or.inl (Or.inl ⟨h1, blank_prefix no_blank h2⟩)
    · rcases mentions_blank h with h | h
      · exact Or.inl (Or.inr h)
      · exact Or.inr h

/-- The first byte that is not white. -/
theorem no_prefix_drop {u : Bytes} (h1 : ¬ b!"markdown=" <+: u) (h2 : ¬ Mentions u) : ¬ b!"markdown=" <+: u.dropWhile isSpace := by
  induction u with
  | nil => exact h1
  | cons c u ih =>
    rw [mentions_cons] at h2
    rw [List.dropWhile_cons]
    cases hc : isSpace c with
    | false => exact h1
    | true => exact ih (fun h => h2 (Or.inl ⟨(white_iff c).1 hc, h⟩)) fun h => h2 (Or.inr h)

theorem mentions_drop {p : Byte → Bool} {u : Bytes} (h : ¬ Mentions u) : ¬ Mentions (u.dropWhile p) := by
  obtain ⟨x, hx, -⟩ := drop_split p u
  rw [hx] at h
  exact mentions_append h

/-- The dropping of bytes ends in `u`, or it drops all of `u`. -/
theorem drop_either (p : Byte → Bool) (u z : Bytes) :
    (u.dropWhile p ≠ [] ∧ (u ++ z).dropWhile p = u.dropWhile p ++ z) ∨ (∀ c ∈ u, p c = true) ∧ (u ++ z).dropWhile p = z.dropWhile p := by
  induction u with
  | nil => exact Or.inr ⟨by simp, rfl⟩
  | cons c u ih =>
    rw [List.cons_append, List.dropWhile_cons, List.dropWhile_cons]
    cases hc : p c with
    | false => exact Or.inl ⟨by simp, by simp⟩
    | true =>
      simp only [if_true]
      rcases ih with ih | ⟨h1, h2⟩
      · exact Or.inl ih
      · refine Or.inr ⟨?_, h2⟩
        intro d hd
        rcases List.mem_cons.1 hd with rfl | hd
        · exact hc
        · exact h1 d hd

theorem drop_length (p : Byte → Bool) (u : Bytes) : (u.dropWhile p).length ≤ u.length := (List.dropWhile_suffix p).length_le

theorem others_stop {y : Bytes} : ∀ {s : Bytes}, ¬ Mentions s → (∃ x c, s = x ++ [c] ∧ ¬ White c) →
    others (s ++ b!" markdown=" ++ y) = (s, b!" markdown=" ++ y)
  | [], _, ⟨x, c, he, _⟩ => by simp at he
  | d :: s, h, ⟨x, c, he, hc⟩ => by
    have hm : c ∈ d :: s := by rw [he]; simp
    rw [List.append_assoc, List.cons_append, others, if_neg]
    · have h' : ¬ Mentions s := fun h' => h (mentions_cons.2 (Or.inr h'))
      cases hs : s with
      | nil => rfl
      | cons e t =>
        rw [← hs]
        have : others (s ++ b!" markdown=" ++ y) = (s, b!" markdown=" ++ y) := by
          refine others_stop h' ?_
          cases x with
          | nil => rw [hs] at he; simp at he
          | cons f x => exact ⟨x, c, by simp only [List.cons_append, List.cons.injEq] at he; exact he.2, hc⟩
        rw [List.append_assoc] at this
        rw [this]
    · rintro ⟨hd, hp⟩
      rw [← List.cons_append] at hp
      rcases drop_either isSpace (d :: s) (b!" markdown=" ++ y) with ⟨h1, h2⟩ | ⟨h1, -⟩
      · rw [h2] at hp
        refine no_prefix_drop ?_ h (blank_prefix no_blank hp)
        rintro ⟨z, hz⟩
        simp only [List.cons_append, List.cons.injEq] at hz
        rw [← hz.1] at hd
        exact absurd hd (by decide)
      · exact hc ((white_iff c).1 (h1 c hm))

/-- The search finds the attribute. -/
theorem search_some {m z v : Bytes} (hv : value m z = v) (hl : v.length < 64) : ∀ (n : Nat) (u : Bytes), u.length < n → ¬ b!"markdown=" <+: u → ¬ Mentions u →
    search n (u ++ b!" markdown=" ++ m) z = some v
  | 0, u, h, _, _ => by omega
  | n + 1, u, h, h1, h2 => by
    rw [search, if_neg (by simp), List.append_assoc]
    simp only []
    rcases drop_either isSpace u (b!" markdown=" ++ m) with ⟨h3, h4⟩ | ⟨-, h4⟩
    · rw [h4, if_neg]
      · have h6 := mentions_drop (p := isSpace) h2
        have h7 := drop_length isSpace u
        generalize hu : u.dropWhile isSpace = u' at *
        have h8 : (u' ++ (b!" markdown=" ++ m)).dropWhile (fun c => !isSpace c) = u'.dropWhile (fun c => !isSpace c) ++ b!" markdown=" ++ m := by
          rcases drop_either (fun c => !isSpace c) u' (b!" markdown=" ++ m) with ⟨-, h9⟩ | ⟨h9, h10⟩
          · rw [h9, List.append_assoc]
          · rw [h10, (span_all h9).2]
            rfl
        rw [h8]
        cases u' with
        | nil => exact absurd rfl h3
        | cons c u' =>
          have hc : isSpace c = false := by
            have := List.head?_dropWhile_not isSpace u
            rw [hu] at this
            simpa using this
          have h9 : (c :: u').dropWhile (fun c => !isSpace c) = u'.dropWhile (fun c => !isSpace c) := by
            rw [List.dropWhile_cons, hc]
            rfl
          have h10 := drop_length (fun c => !isSpace c) u'
          rw [List.length_cons] at h7
          rw [← h9] at h10
          refine search_some hv hl n _ (by omega) ?_ (mentions_drop h6)
          rintro ⟨y, hy⟩
          have := List.head?_dropWhile_not (fun c => !isSpace c) (c :: u')
          rw [← hy] at this
          simp at this
          exact absurd this (by decide)
      · intro hp
        exact no_prefix_drop h1 h2 (blank_prefix no_blank hp)
    · have h5 : (b!" markdown=" ++ m).dropWhile isSpace = b!"markdown=" ++ m := rfl
      rw [h4, h5, if_pos (List.prefix_append _ _), drop_word, hv, if_pos hl]

theorem attributes_mentions : ∀ {l : List Bytes}, (∀ x ∈ l, Other x) → ¬ Mentions (attributes l)
  | [], _ => by
    rintro ⟨x, c, y, h, -⟩
    simp [attributes] at h
  | a :: l, h => by
    have h1 := h a (by simp)
    have ih := attributes_mentions (l := l) fun x hx => h x (by simp [hx])
    have e : attributes (a :: l) = c!" " :: (a ++ attributes l) := by simp [attributes]
    rw [e, mentions_cons]
    rintro (⟨-, h2⟩ | h2)
    · cases l with
      | nil =>
        rw [show attributes [] = [] from rfl, List.append_nil] at h2
        exact h1.2.2.1 h2
      | cons b l =>
        have e2 : attributes (b :: l) = c!" " :: (b ++ attributes l) := by simp [attributes]
        rw [e2] at h2
        exact h1.2.2.1 (blank_prefix no_blank h2)
    · cases l with
      | nil =>
        rw [show attributes [] = [] from rfl, List.append_nil] at h2
        exact h1.2.2.2 h2
      | cons b l =>
        have e2 : attributes (b :: l) = c!" " :: (b ++ attributes l) := by simp [attributes]
        rw [e2] at h2 ih
        rcases mentions_blank h2 with h3 | h3 | h3
        · exact h1.2.2.2 h3
        · exact ih (mentions_cons.2 (Or.inl ⟨by simp [White], h3⟩))
        · exact ih (mentions_cons.2 (Or.inr h3))

theorem attributes_append (a b : List Bytes) : attributes (a ++ b) = attributes a ++ attributes b := by
  simp [attributes]

theorem attributes_cons (a : Bytes) (l : List Bytes) : attributes (a :: l) = c!" " :: (a ++ attributes l) := by
  simp [attributes]

theorem attributes_last : ∀ {l : List Bytes}, l ≠ [] → (∀ x ∈ l, Other x) → ∃ x c, attributes l = x ++ [c] ∧ ¬ White c
  | [], h, _ => absurd rfl h
  | [a], _, h => by
    obtain ⟨-, ⟨x, c, h1, h2⟩, -⟩ := h a (by simp)
    exact ⟨c!" " :: x, c, by simp [attributes, h1], h2⟩
  | a :: b :: l, _, h => by
    obtain ⟨x, c, h1, h2⟩ := attributes_last (l := b :: l) (by simp) fun x hx => h x (by simp [hx])
    exact ⟨c!" " :: (a ++ x), c, by rw [attributes_cons, h1]; simp, h2⟩

/-- Attributes other than `markdown`: a blank, and a byte that is not white. -/
theorem attributes_head {l : List Bytes} (hne : l ≠ []) (h : ∀ x ∈ l, Other x) : ∃ c x, attributes l = c!" " :: c :: x ∧ isSpace c = false := by
  cases l with
  | nil => exact absurd rfl hne
  | cons a l =>
    obtain ⟨⟨c, x, h1, h2⟩, -⟩ := h a (by simp)
    exact ⟨c, x ++ attributes l, by rw [attributes_cons, h1]; rfl, by rw [← Bool.not_eq_true, white_iff]; exact h2⟩

theorem quote_iff (c : Byte) : quote c = true ↔ c = c!"\"" ∨ c = c!"'" := by
  simp [quote]

theorem attributes_next (b : List Bytes) : attributes b = [] ∨ ∃ x, attributes b = c!" " :: x := by
  cases b with
  | nil => exact Or.inl rfl
  | cons a l => exact Or.inr ⟨_, attributes_cons a l⟩

/-- What the attribute is, in the model. -/
theorem attribute_model {m v : Bytes} (h : Attribute m v) (b : List Bytes) (hb : c!">" ∉ m) (s : Bytes) :
    ∃ r, m = b!"markdown=" ++ r ∧ value (r ++ attributes b) (c!">" :: s) = v ∧ skipValue (r ++ attributes b) = attributes b := by
  rcases h with ⟨q, hq, h1, h2, rfl⟩ | ⟨h1, rfl⟩
  · refine ⟨q :: v ++ [q], by simp, ?_, ?_⟩
    · rw [List.cons_append, List.cons_append, value]
      simp only [(quote_iff q).2 hq, if_true]
      rw [if_pos (by simp)]
      have := (span_stop (p := (· != q)) (a := v) (b := attributes b ++ c!">" :: s) (c := q) (fun x hx => by simp; rintro rfl; exact h1 hx) (by simp)).1
      simpa using this
    · rw [List.cons_append, List.cons_append, skipValue]
      simp only [(quote_iff q).2 hq, if_true]
      clear hb
      induction v with
      | nil => simp [skipQuoted.eq_def q (q :: attributes b)]
      | cons c v ih =>
        rw [List.cons_append, List.cons_append, skipQuoted.eq_def]
        simp only []
        rw [if_neg (by rintro rfl; simp at h1), if_neg (by rintro rfl; simp at h2)]
        exact ih (fun h => h1 (by simp [h])) fun h => h2 (by simp [h])
  · refine ⟨v, rfl, ?_, ?_⟩
    · cases v with
      | nil =>
        rcases attributes_next b with hb' | ⟨x, hb'⟩
        · rw [hb']; rfl
        · rw [hb']; simp [value, quote, isSpace]
      | cons c v =>
        have hc := h1 c (by simp)
        have hq : quote c = false := by
          rw [← Bool.not_eq_true, quote_iff]
          rintro (h | h)
          · exact hc.2.1 h
          · exact hc.2.2 h
        rw [List.cons_append, value]
        simp only [hq, Bool.false_eq_true, if_false]
        have key : ∀ x ∈ c :: v, (!isSpace x && x != c!">") = true := fun x hx => by
          have : isSpace x = false := by rw [← Bool.not_eq_true, white_iff]; exact (h1 x hx).1
          simp [this]
          rintro rfl
          exact hb (by simp only [List.mem_append]; exact Or.inr hx)
        rcases attributes_next b with hb' | ⟨x, hb'⟩
        · rw [hb', List.append_nil]
          exact (span_stop key (by decide)).1
        · rw [hb', ← List.cons_append, List.append_assoc]
          exact (span_stop key (by decide)).1
    · cases v with
      | nil =>
        rcases attributes_next b with hb' | ⟨x, hb'⟩
        · rw [hb']; rfl
        · rw [hb']; simp [skipValue, quote, isSpace]
      | cons c v =>
        have hc := h1 c (by simp)
        have hq : quote c = false := by
          rw [← Bool.not_eq_true, quote_iff]
          rintro (h | h)
          · exact hc.2.1 h
          · exact hc.2.2 h
        rw [List.cons_append, skipValue]
        simp only [hq, Bool.false_eq_true, if_false]
        have key : ∀ x ∈ c :: v, (!isSpace x) = true := fun x hx => by
          have : isSpace x = false := by rw [← Bool.not_eq_true, white_iff]; exact (h1 x hx).1
          simp [this]
        rcases attributes_next b with hb' | ⟨x, hb'⟩
        · rw [hb', List.append_nil]
          exact (span_all key).2
        · rw [hb', ← List.cons_append]
          exact (span_stop key (by decide)).2

/-! ### Tags -/

theorem name_bytes {n : Bytes} (h : Spec.Name n) : ∀ c ∈ n, nameByte c = true := fun c hc => by
  rcases h.2.2 c hc with h | rfl | rfl
  · simp [nameByte, h]
  · rfl
  · rfl

theorem tagAt_marked {w n v w' : Bytes} (h : Marked w n v w') (hw : c!">" ∉ w) (s : Bytes) :
    ∃ attrs, w = n ++ attrs ∧ tagAt (w ++ c!">" :: s) = some ⟨n, attrs, v, s⟩ ∧
      (w'.length + 2 < 2048 → opening ⟨n, attrs, v, s⟩ = .val (b!"<" ++ w' ++ b!">")) := by
  obtain ⟨a, m, b, rfl, rfl, hn, ho, hm, hv⟩ := h
  have hmg : c!">" ∉ m := fun h => hw (by rw [attributes_append, attributes_cons]; simp [h])
  have hag : c!">" ∉ attributes (a ++ m :: b) := fun h => hw (by simp [h])
  obtain ⟨r, rfl, h1, h2⟩ := attribute_model hm b hmg s
  have hoa : ∀ x ∈ a, Other x := fun x hx => ho x (by simp [hx])
  have hob : ∀ x ∈ b, Other x := fun x hx => ho x (by simp [hx])
  have e : attributes (a ++ (b!"markdown=" ++ r) :: b) = attributes a ++ b!" markdown=" ++ (r ++ attributes b) := by
    rw [attributes_append, attributes_cons]; simp
  refine ⟨_, rfl, ?_, fun hl => ?_⟩
  · have h3 : ((n ++ attributes (a ++ (b!"markdown=" ++ r) :: b)) ++ c!">" :: s).takeWhile nameByte = n ∧
        ((n ++ attributes (a ++ (b!"markdown=" ++ r) :: b)) ++ c!">" :: s).dropWhile nameByte = attributes (a ++ (b!"markdown=" ++ r) :: b) ++ c!">" :: s := by
      rw [List.append_assoc]
      obtain ⟨x, hx⟩ : ∃ x, attributes (a ++ (b!"markdown=" ++ r) :: b) = c!" " :: x := by
        rcases attributes_next (a ++ (b!"markdown=" ++ r) :: b) with h | h
        · rw [e] at h; simp at h
        · exact h
      rw [hx, List.cons_append]
      exact span_stop (name_bytes hn) (by decide)
    have h4 := span_stop (p := (· != c!">")) (a := attributes (a ++ (b!"markdown=" ++ r) :: b)) (b := s) (c := c!">")
      (fun x hx => by simp; rintro rfl; exact hag hx) (by simp)
    unfold tagAt
    simp only [h3.1, h3.2, h4.1, h4.2]
    rw [if_pos ⟨List.length_pos_iff.2 hn.1, hn.2.1, by simp⟩]
    have h5 : search (attributes (a ++ (b!"markdown=" ++ r) :: b)).length (attributes (a ++ (b!"markdown=" ++ r) :: b)) (c!">" :: s) = some v := by
      rw [e]
      refine search_some h1 hv _ _ (by simp) ?_ (attributes_mentions hoa)
      rintro ⟨y, hy⟩
      rcases attributes_next a with h | ⟨x, h⟩
      · rw [h] at hy; simp at hy
      · rw [h] at hy; simp at hy
    rw [h5]
    rfl
  · have h3 : (attributes (a ++ (b!"markdown=" ++ r) :: b)).dropWhile (· != c!" ") = attributes (a ++ (b!"markdown=" ++ r) :: b) := by
      rcases attributes_next (a ++ (b!"markdown=" ++ r) :: b) with h | ⟨x, h⟩
      · rw [h]; rfl
      · rw [h]; rfl
    rw [List.length_append, attributes_append, List.length_append] at hl
    have hrest : ∀ k tag, tag.length + (attributes b).length < 2048 → copyAttrs (k + 3) (b!" markdown=" ++ (r ++ attributes b)) tag = tag ++ attributes b := by
      intro k tag ht
      rw [copyAttrs]
      have h5 : (b!" markdown=" ++ (r ++ attributes b)).dropWhile isSpace = b!"markdown=" ++ (r ++ attributes b) := rfl
      simp only [h5]
      rw [if_neg (by simp), if_pos (List.prefix_append _ _), drop_word, h2, copyAttrs]
      simp only []
      by_cases hb : b = []
      · rw [hb]
        simp [attributes]
      · obtain ⟨c, x, hx, hc⟩ := attributes_head hb hob
        have h6 : (attributes b).dropWhile isSpace = c :: x := by
          rw [hx, List.dropWhile_cons, if_pos (by decide), List.dropWhile_cons, hc]; rfl
        have h7 := attributes_mentions hob
        rw [hx, mentions_cons] at h7
        rw [h6, if_neg (by simp), if_neg fun h => h7 (Or.inl ⟨by simp [White], h⟩), others_end fun h => h7 (Or.inr h)]
        simp only []
        rw [hx, List.length_cons] at ht
        rw [if_pos (by omega), copyAttrs, List.dropWhile_nil]
        simp [hx]
    have h4 : ∀ k, copyAttrs (k + 4) (attributes (a ++ (b!"markdown=" ++ r) :: b)) (b!"<" ++ n) = b!"<" ++ n ++ attributes (a ++ b) := by
      intro k
      rw [e]
      by_cases ha : a = []
      · subst ha
        exact hrest (k + 1) _ (by rw [List.length_append, List.length_cons, List.length_nil]; omega)
      · obtain ⟨c, x, hx, hc⟩ := attributes_head ha hoa
        obtain ⟨y, d, hy, hd⟩ := attributes_last ha hoa
        have h6 : (attributes a ++ b!" markdown=" ++ (r ++ attributes b)).dropWhile isSpace = c :: x ++ b!" markdown=" ++ (r ++ attributes b) := by
          rw [hx, List.cons_append, List.cons_append, List.dropWhile_cons, if_pos (by decide), List.cons_append, List.cons_append, List.dropWhile_cons, hc]; rfl
        have h7 := attributes_mentions hoa
        rw [hx, mentions_cons] at h7
        rw [copyAttrs]
        simp only [h6]
        have h8 : others (c :: x ++ b!" markdown=" ++ (r ++ attributes b)) = (c :: x, b!" markdown=" ++ (r ++ attributes b)) := by
          refine others_stop (fun h => h7 (Or.inr h)) ?_
          rw [hx] at hy
          cases y with
          | nil => simp at hy
          | cons f y => exact ⟨y, d, (List.cons.inj hy).2, hd⟩
        have hl' := hl
        rw [hx, List.length_cons] at hl'
        rw [if_neg (by simp), if_neg, h8]
        · simp only []
          rw [if_pos (by simp only [List.length_append, List.length_cons, List.length_nil] at hl' ⊢; omega)]
          rw [hrest k _ (by simp only [List.length_append, List.length_cons, List.length_nil] at hl' ⊢; omega), attributes_append, hx]
          simp
        · intro h
          rw [List.append_assoc] at h
          exact h7 (Or.inl ⟨by simp [White], blank_prefix no_blank h⟩)
    unfold opening
    simp only [h3]
    obtain ⟨k, hk⟩ : ∃ k, (attributes (a ++ (b!"markdown=" ++ r) :: b)).length + 1 = k + 4 := by
      refine ⟨(attributes (a ++ (b!"markdown=" ++ r) :: b)).length - 3, ?_⟩
      rw [e]
      simp only [List.length_append, List.length_cons, List.length_nil]
      omega
    rw [hk, h4 k, if_pos]
    · simp
    · rw [attributes_append]
      simp only [List.length_append, List.length_cons, List.length_nil]
      omega

theorem tagAt_plain {w : Bytes} (h : Plain w) (hw : c!">" ∉ w) (s : Bytes) : tagAt (w ++ c!">" :: s) = none := by
  obtain ⟨n, r, h1, h2, h3, -⟩ := span_split nameByte w
  subst h1
  have h4 : (n ++ r ++ c!">" :: s).dropWhile nameByte = r ++ c!">" :: s ∧ (n ++ r ++ c!">" :: s).takeWhile nameByte = n := by
    rw [List.append_assoc]
    rcases h3 with rfl | ⟨c, b, rfl, hc⟩
    · exact ⟨(span_stop h2 (by decide)).2, (span_stop h2 (by decide)).1⟩
    · exact ⟨(span_stop h2 hc).2, (span_stop h2 hc).1⟩
  have h5 := span_stop (p := (· != c!">")) (a := r) (b := s) (c := c!">") (fun x hx => by simp; rintro rfl; exact hw (by simp [hx])) (by simp)
  unfold tagAt
  simp only [h4.1, h4.2, h5.1, h5.2]
  rw [search_none]
  · simp
  · rintro ⟨y, hy⟩
    rcases h3 with rfl | ⟨c, b, rfl, hc⟩
    · simp at hy
    · simp only [List.cons_append, List.cons.injEq] at hy
      rw [← hy.1] at hc
      exact absurd hc (by decide)
  · exact mentions_append h

/-- The search for tags passes these bytes. -/
def Passed (p : Bytes) : Prop := ∀ s, findTag (p ++ s) = (findTag s).map fun x => (p ++ x.1, x.2)

theorem passed_text {p : Bytes} (h : c!"<" ∉ p) : Passed p := by
  intro s
  induction p with
  | nil => simp
  | cons c p ih =>
    rw [List.cons_append, findTag, if_neg (by rintro rfl; simp at h), ih fun h' => h (by simp [h'])]
    cases findTag s <;> simp

theorem passed_append {p q : Bytes} (hp : Passed p) (hq : Passed q) : Passed (p ++ q) := by
  intro s
  rw [List.append_assoc, hp, hq]
  cases findTag s <;> simp

theorem passed_plain {w : Bytes} (h : Plain w) (h1 : c!"<" ∉ w) (h2 : c!">" ∉ w) : Passed (b!"<" ++ w ++ b!">") := by
  intro s
  have h3 := passed_text (p := w ++ b!">") (by simp [h1]) s
  have h4 := tagAt_plain h h2 s
  have e : b!"<" ++ w ++ b!">" ++ s = c!"<" :: (w ++ c!">" :: s) := by simp
  have e2 : w ++ b!">" ++ s = w ++ c!">" :: s := by simp
  rw [e2] at h3
  rw [e, findTag, if_pos rfl, h4]
  simp only []
  rw [h3]
  cases findTag s <;> simp

theorem findTag_marked {p w : Bytes} (hp : Passed p) {t : Tag} {s : Bytes} (h : tagAt (w ++ c!">" :: s) = some t) :
    findTag (p ++ c!"<" :: (w ++ c!">" :: s)) = some (p, t) := by
  rw [hp, findTag, if_pos rfl, h]
  simp

/-! ### Elements -/

theorem name_lower {n : Bytes} (h : Spec.Name n) : StripWrap.Name (n.map toLower) := by
  have key : ∀ c : Byte, nameByte c = true → toLower c ≠ c!"/" ∧ toLower c ≠ c!">" := by
    refine forall_byte ?_
    decide +kernel
  have hb := name_bytes h
  refine ⟨?_, ?_⟩
  · cases n with
    | nil => exact absurd rfl h.1
    | cons a m => exact ⟨toLower a, m.map toLower, rfl, (key a (hb a (by simp))).1⟩
  · intro hm
    obtain ⟨c, hc, hc'⟩ := List.mem_map.1 hm
    exact (key c (hb c hc)).2 hc'

theorem closeTag_some {n : Bytes} (hn : Spec.Name n) {t : Bytes} {l inner rest : Tags} {c u : Bytes} (ht : c!"<" ∉ t) (hg : Good l) (h : Closed n l inner c u rest) :
    closeTag n (t ++ html l) = some (u ++ html rest) := by
  obtain ⟨rfl, h1, h2⟩ := h
  have hn' := name_lower hn
  have hg' := good_append hg
  rw [closeTag, closing_text 1 _ ht, html_append, closing_balanced hn' h1 1 _ (Nat.le_refl _) hg'.1]
  have := (closing_tag 1 hn'.close hg'.2 []).1 h2
  simpa using this

theorem closeTag_none {n : Bytes} (hn : Spec.Name n) {t : Bytes} {l : Tags} (ht : c!"<" ∉ t) (hg : Good l) (h : ∀ inner c u rest, ¬ Closed n l inner c u rest) :
    closeTag n (t ++ html l) = none := by
  rw [closeTag, closing_text 1 _ ht]
  cases hc : closing (n.map toLower) 1 (html l) with
  | none => rfl
  | some r =>
    obtain ⟨a, c, w, rest, h1, h2, -, h3⟩ := closing_some (name_lower hn) l 1 r (Nat.le_refl _) hg hc
    exact absurd ⟨h1, h3, h2⟩ (h a c w rest)

theorem splitClose_eq (x : Bytes) {c : Bytes} (hc : c!"<" ∉ c) : splitClose (x ++ (b!"<" ++ c ++ b!">")) = (x, b!"<" ++ c ++ b!">") := by
  have e : (x ++ (b!"<" ++ c ++ b!">")).reverse = (c!">" :: c.reverse) ++ c!"<" :: x.reverse := by simp
  have := span_stop (p := (· != c!"<")) (a := c!">" :: c.reverse) (b := x.reverse) (c := c!"<") (fun y hy => by
    simp only [List.mem_cons, List.mem_reverse] at hy
    simp
    rintro rfl
    rcases hy with hy | hy
    · exact absurd hy (by decide)
    · exact hc hy) (by simp)
  unfold splitClose
  rw [e, this.1, this.2]
  simp

theorem mode_eq {v : Bytes} {k : Option Bool} (h : Kind v k) : mode v = k := by
  cases h with
  | one h => subst h; rfl
  | block h => subst h; rfl
  | span h => subst h; rfl
  | none h =>
    simp only [List.mem_cons, List.not_mem_nil, or_false, not_or] at h
    rw [mode, if_neg (by simp [h.1, h.2.1]), if_neg h.2.2]

theorem trim_eq {inline : Bool} {h h' : Bytes} (ht : Trimmed inline h h') : trim inline h = h' := by
  cases ht with
  | block => simp [trim]
  | paragraph =>
    rw [trim, if_pos ⟨rfl, by simp only [List.length_append, List.length_cons, List.length_nil]; omega, ⟨h' ++ b!"</p>\n", by simp⟩, ⟨b!"<p>" ++ h', rfl⟩⟩]
    have e : (b!"<p>" ++ h' ++ b!"</p>\n").drop 3 = h' ++ b!"</p>\n" := rfl
    rw [e]
    refine List.take_left' ?_
    simp only [List.length_append, List.length_cons, List.length_nil]
    omega
  | other hx =>
    rw [trim, if_neg]
    rintro ⟨-, h1, ⟨y, rfl⟩, z, hz⟩
    have h2 : b!"</p>\n" <:+ y := by
      refine List.suffix_of_suffix_length_le ⟨z, hz⟩ (List.suffix_append b!"<p>" y) ?_
      simp only [List.length_append, List.length_cons, List.length_nil] at h1 ⊢
      omega
    obtain ⟨x, rfl⟩ := h2
    exact hx x (by simp)

theorem copy_val {s : Bytes} {cap : Nat} {out : Bytes} (h : out.length + s.length < cap) : copy s ⟨cap, out⟩ = ⟨cap, out ++ s⟩ := by
  rw [copy, if_pos (by simp only []; omega)]

theorem newline_val {cap : Nat} {out : Bytes} (h : out.length < cap) : newline ⟨cap, out⟩ = ⟨cap, out ++ b!"\n"⟩ := by
  rw [newline, if_pos (by simp only []; omega)]

theorem loop_converted {conv : Bytes → Bytes} {l : Tags} {sizes : List (Nat × Nat × Nat)} {out : Bytes} (h : Converted conv l sizes out) :
    ∀ (p : Bytes) (n cap : Nat) (o : Bytes), Good l → Passed p → (∀ x ∈ sizes, x.2.1 < 2 * x.1 ∧ x.2.2 < 2048) → (p ++ html l).length < n →
      o.length + p.length + out.length < cap → loop conv n (p ++ html l) ⟨cap, o⟩ = .val ⟨cap, o ++ p ++ out⟩ := by
  induction h with
  | nil =>
    intro p n cap o _ hp _ hn hc
    cases n with
    | zero => omega
    | succ n =>
      have : findTag (p ++ html []) = none := by rw [hp]; rfl
      rw [loop, this]
      simp only []
      rw [show html [] = [] from rfl, List.append_nil, copy_val (by simpa using hc)]
      simp
  | @plain x l sizes out h1 _ ih =>
    intro p n cap o hg hp hs hn hc
    obtain ⟨hg1, hg2, -, hg4⟩ := good_cons hg
    have hp' : Passed (p ++ html [x]) := by
      refine passed_append hp ?_
      have := passed_append (passed_plain h1 hg1 hg2) (passed_text hg4)
      simpa [html] using this
    have e : p ++ html (x :: l) = (p ++ html [x]) ++ html l := by simp [html]
    rw [e] at hn ⊢
    rw [ih (p ++ html [x]) n cap o (good_tail hg) hp' hs hn (by simp only [List.length_append] at hc ⊢; omega)]
    simp
  | @unclosed x m v w l sizes out h1 h2 _ ih =>
    intro p n cap o hg hp hs hn hc
    obtain ⟨hg1, hg2, -, hg4⟩ := good_cons hg
    obtain ⟨attrs, ha, ht, -⟩ := tagAt_marked h1 hg2 (x.2 ++ html l)
    have hname : Spec.Name m := by obtain ⟨_, _, _, _, _, h, _⟩ := h1; exact h
    cases n with
    | zero => omega
    | succ n =>
      rw [html_cons] at hn
      simp only [List.length_append, List.length_cons] at hn
      simp only [html, List.flatMap_cons, List.flatMap_nil, List.length_append, List.length_cons, List.length_nil] at hc
      rw [html_cons, loop, findTag_marked hp ht]
      simp only [closeTag_none hname hg4 (good_tail hg) h2]
      rw [copy_val (s := p) (by omega), Tag.src]
      simp only []
      rw [List.append_assoc b!"<" m, ← ha, copy_val (by simp only [List.length_append, List.length_cons, List.length_nil]; omega)]
      rw [ih x.2 n cap _ (good_tail hg) (passed_text hg4) hs (by simp only [List.length_append]; omega) (by simp only [List.length_append, List.length_cons, List.length_nil]; omega)]
      simp [html]
  | @kept x m v w l inner c t rest sizes out h1 h2 h3 _ ih =>
    intro p n cap o hg hp hs hn hc
    obtain ⟨hg1, hg2, -, hg4⟩ := good_cons hg
    obtain ⟨attrs, ha, ht, -⟩ := tagAt_marked h1 hg2 (x.2 ++ html l)
    have hname : Spec.Name m := by obtain ⟨_, _, _, _, _, h, _⟩ := h1; exact h
    have hcl := closeTag_some hname hg4 (good_tail hg) h2
    obtain ⟨rfl, -, -⟩ := h2
    have hg5 := good_append (good_tail hg)
    obtain ⟨hc1, hc2, -, hc4⟩ := good_cons hg5.2
    cases n with
    | zero => omega
    | succ n =>
      rw [html_cons] at hn
      simp only [html_append, html_cons, List.length_append, List.length_cons] at hn
      have eh : (html (x :: inner ++ [(c, t)])).length = x.1.length + x.2.length + (html inner).length + c.length + t.length + 4 := by
        rw [List.cons_append, html_cons, html_append, html_cons, show html [] = [] from rfl]
        simp only [List.length_append, List.length_cons, List.length_nil]
        omega
      rw [List.length_append, eh] at hc
      rw [html_cons, loop, findTag_marked hp ht]
      simp only [hcl]
      have e : x.2 ++ html (inner ++ (c, t) :: rest) = (x.2 ++ html inner ++ (b!"<" ++ c ++ b!">")) ++ (t ++ html rest) := by
        rw [html_append, html_cons]; simp
      have ex : (x.2 ++ html (inner ++ (c, t) :: rest)).take ((x.2 ++ html (inner ++ (c, t) :: rest)).length - (t ++ html rest).length) =
          x.2 ++ html inner ++ (b!"<" ++ c ++ b!">") := by
        rw [e]
        exact StripWrap.take_front
      rw [ex, copy_val (s := p) (by omega), splitClose_eq _ hc1, Tag.src]
      simp only []
      have fin : loop conv n (t ++ html rest) (copy (b!"<" ++ m ++ attrs ++ b!">" ++ (x.2 ++ html inner ++ (b!"<" ++ c ++ b!">"))) ⟨cap, o ++ p⟩) =
          .val ⟨cap, o ++ p ++ (html (x :: inner ++ [(c, t)]) ++ out)⟩ := by
        rw [List.append_assoc b!"<" m, ← ha]
        rw [copy_val (by simp only [List.length_append, List.length_cons, List.length_nil]; omega)]
        rw [ih t n cap _ (good_tail hg5.2) (passed_text hc4) hs (by simp only [List.length_append]; omega) (by simp only [List.length_append, List.length_cons, List.length_nil]; omega)]
        simp [html]
      rcases h3 with h3 | h3
      · rw [mode_eq h3]
        exact fin
      · split
        · rw [if_pos h3]
          exact fin
        · exact fin
  | @converted x m v w l inner c t rest sizes out inline sizes' i h h1 h2 h3 h4 _ h5 _ ih1 ih2 =>
    intro p n cap o hg hp hs hn hc
    obtain ⟨hg1, hg2, -, hg4⟩ := good_cons hg
    obtain ⟨attrs, ha, ht, hop⟩ := tagAt_marked h1 hg2 (x.2 ++ html l)
    have hname : Spec.Name m := by obtain ⟨_, _, _, _, _, h, _⟩ := h1; exact h
    have hcl := closeTag_some hname hg4 (good_tail hg) h2
    obtain ⟨rfl, -, -⟩ := h2
    have hg5 := good_append (good_tail hg)
    obtain ⟨hc1, hc2, -, hc4⟩ := good_cons hg5.2
    have hs1 := hs ((x.2 ++ html inner).length, (x.2 ++ i).length, w.length + 2) (by simp)
    cases n with
    | zero => omega
    | succ n =>
      rw [html_cons] at hn
      simp only [html_append, html_cons, List.length_append, List.length_cons] at hn
      simp only [List.length_append, List.length_cons, List.length_nil] at hc
      rw [html_cons, loop, findTag_marked hp ht]
      simp only [hcl]
      have e : x.2 ++ html (inner ++ (c, t) :: rest) = (x.2 ++ html inner ++ (b!"<" ++ c ++ b!">")) ++ (t ++ html rest) := by
        rw [html_append, html_cons]; simp
      have ex : (x.2 ++ html (inner ++ (c, t) :: rest)).take ((x.2 ++ html (inner ++ (c, t) :: rest)).length - (t ++ html rest).length) =
          x.2 ++ html inner ++ (b!"<" ++ c ++ b!">") := by
        rw [e]
        exact StripWrap.take_front
      rw [ex, copy_val (s := p) (by omega), splitClose_eq _ hc1, mode_eq h3]
      simp only []
      rw [if_neg h4, hop hs1.2]
      have hroom : (x.2 ++ i).length < 2 * (x.2 ++ html inner).length := hs1.1
      rw [ih1 x.2 n _ [] hg5.1 (passed_text hg4) (fun y hy => hs y (by simp [hy])) (by simp only [List.length_append]; omega)
        (by simp only [List.length_append, List.length_nil] at hroom ⊢; omega)]
      rw [C.bind, List.nil_append]
      simp only []
      rw [finish_val (by omega)]
      simp only [C.bind]
      rw [trim_eq h5, copy_val (s := b!"<" ++ w ++ b!">") (by simp only [List.length_append, List.length_cons, List.length_nil]; omega),
        copy_val (s := h) (by simp only [List.length_append, List.length_cons, List.length_nil]; omega),
        copy_val (s := b!"<" ++ c ++ b!">") (by simp only [List.length_append, List.length_cons, List.length_nil]; omega),
        newline_val (by simp only [List.length_append, List.length_cons, List.length_nil]; omega),
        ih2 t n cap _ (good_tail hg5.2) (passed_text hc4) (fun y hy => hs y (by simp [hy])) (by simp only [List.length_append]; omega)
          (by simp only [List.length_append, List.length_cons, List.length_nil]; omega)]
      simp

theorem kind_exists (v : Bytes) : ∃ k, Kind v k := by
  by_cases h1 : v = b!"1"
  · exact ⟨_, .one h1⟩
  by_cases h2 : v = b!"block"
  · exact ⟨_, .block h2⟩
  by_cases h3 : v = b!"span"
  · exact ⟨_, .span h3⟩
  exact ⟨_, .none (by simp [h1, h2, h3])⟩

theorem trimmed_exists (inline : Bool) (h : Bytes) : ∃ h', Trimmed inline h h' := by
  cases inline with
  | false => exact ⟨h, .block⟩
  | true =>
    by_cases hx : ∃ x, h = b!"<p>" ++ x ++ b!"</p>\n"
    · obtain ⟨x, rfl⟩ := hx
      exact ⟨x, .paragraph⟩
    · exact ⟨h, .other fun x hx' => hx ⟨x, hx'⟩⟩

theorem converted_exists (conv : Bytes → Bytes) : ∀ (k : Nat) (l : Tags), l.length ≤ k → (∀ x ∈ l, Plain x.1 ∨ ∃ n v w, Marked x.1 n v w) →
    ∃ sizes out, Converted conv l sizes out
  | _, [], _, _ => ⟨[], [], .nil⟩
  | k + 1, x :: l, hk, hl => by
    rw [List.length_cons] at hk
    have hl' : ∀ y ∈ l, Plain y.1 ∨ ∃ n v w, Marked y.1 n v w := fun y hy => hl y (by simp [hy])
    obtain ⟨sizes, out, h⟩ := converted_exists conv k l (by omega) hl'
    rcases hl x (by simp) with h1 | ⟨n, v, w, h1⟩
    · exact ⟨_, _, .plain h1 h⟩
    · by_cases hc : ∃ inner c t rest, Closed n l inner c t rest
      · obtain ⟨inner, c, t, rest, hc⟩ := hc
        obtain ⟨he, h2, h3⟩ := hc
        have hlen := congrArg List.length he
        rw [List.length_append, List.length_cons] at hlen
        obtain ⟨s1, o1, hr⟩ := converted_exists conv k rest (by omega) fun y hy => hl' y (by rw [he]; simp [hy])
        obtain ⟨s2, o2, hi⟩ := converted_exists conv k inner (by omega) fun y hy => hl' y (by rw [he]; simp [hy])
        obtain ⟨kind, hk⟩ := kind_exists v
        cases kind with
        | none => exact ⟨_, _, .kept h1 ⟨he, h2, h3⟩ (Or.inl hk) hr⟩
        | some inline =>
          by_cases h4 : x.2 ++ html inner = []
          · exact ⟨_, _, .kept h1 ⟨he, h2, h3⟩ (Or.inr h4) hr⟩
          · obtain ⟨h', ht⟩ := trimmed_exists inline (conv (x.2 ++ o2))
            exact ⟨_, _, .converted h1 ⟨he, h2, h3⟩ hk h4 hi ht hr⟩
      · exact ⟨_, _, .unclosed h1 (fun inner c t rest h' => hc ⟨inner, c, t, rest, h'⟩) h⟩

/-! ### Any text without the attribute -/

theorem tagAt_none {s : Bytes} (h : ¬ Mentions s) : tagAt s = none := by
  obtain ⟨n, r, h1, h2, h3, h4, h5⟩ := span_split nameByte s
  obtain ⟨a, z, h6, h7, h8, h9, h10⟩ := span_split (· != c!">") r
  subst h1 h6
  unfold tagAt
  simp only [h4, h5, h9, h10]
  rw [search_none]
  · simp
  · rintro ⟨y, rfl⟩
    rcases h3 with h3 | ⟨c, b, h3, hc⟩
    · simp at h3
    · simp only [List.cons_append, List.cons.injEq] at h3
      rw [← h3.1] at hc
      exact absurd hc (by decide)
  · rintro ⟨x, c, y, rfl, hc⟩
    exact h ⟨n ++ x, c, y ++ z, by simp, hc⟩

theorem findTag_none {s : Bytes} (h : ¬ Mentions s) : findTag s = none := by
  induction s with
  | nil => rfl
  | cons c s ih =>
    have h' : ¬ Mentions s := fun h' => h (mentions_cons.2 (Or.inr h'))
    rw [findTag, tagAt_none h', ih h']
    simp

end Verif.InHtml
