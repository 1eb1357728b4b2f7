/-
Ids written into headings: lemmas.
-/
import Verif.Model.InjectIds
import Verif.Spec.InjectIds
import Verif.Proof.HeaderIds
import Verif.Proof.Transforms

namespace Verif.InjectIds
open Spec
open Transforms (strstr)
open Transforms.Spec (White)
open HeaderIds (splitFirst splitFirst_iff)

/-! ### The buffer -/

theorem fold_fits {cap : Nat} : ∀ (ws : List Bytes) (out : Bytes), out.length + ws.flatten.length ≤ cap →
    ws.foldl (write cap) out = out ++ ws.flatten := by
  intro ws
  induction ws with
  | nil => intro out _; simp
  | cons w ws ih =>
    intro out h
    rw [List.flatten_cons, List.length_append] at h
    rw [List.foldl_cons, write, if_pos (by omega), ih _ (by rw [List.length_append]; omega)]
    simp

theorem fold_len {cap : Nat} : ∀ (ws : List Bytes) (out : Bytes), out.length ≤ cap → (ws.foldl (write cap) out).length ≤ cap := by
  intro ws
  induction ws with
  | nil => intro out h; exact h
  | cons w ws ih =>
    intro out h
    rw [List.foldl_cons]
    apply ih
    unfold write
    split
    · rw [List.length_append]; omega
    · exact h

/-! ### The tags -/

theorem level_iff : ∀ d : Byte, (c!"1" ≤ d ∧ d ≤ c!"6") ↔ d ∈ b!"123456" :=
  fun d => forall_byte (p := fun d => (c!"1" ≤ d ∧ d ≤ c!"6") ↔ d ∈ b!"123456") (by decide +kernel) d

theorem gt_not_white : ¬ White c!">" := by unfold White; decide

/-- The test of the code finds tags. -/
theorem head_tag {s : Bytes} (h : isHead s = true) : ∃ d t, s = c!"<" :: c!"h" :: d :: t ∧
    ∀ attrs r, splitFirst c!">" t = some (attrs, r) → Tag s d attrs r := by
  match s, h with
  | a :: b :: d :: c :: t, h =>
    unfold isHead at h
    simp only [Bool.and_eq_true, beq_iff_eq, decide_eq_true_eq, Bool.or_eq_true] at h
    obtain ⟨⟨⟨⟨rfl, rfl⟩, h1⟩, h2⟩, h3⟩ := h
    refine ⟨d, c :: t, rfl, ?_⟩
    intro attrs r hs
    obtain ⟨e, hn⟩ := (splitFirst_iff ..).1 hs
    refine ⟨by rw [e]; simp, (level_iff d).1 ⟨h1, h2⟩, hn, ?_⟩
    intro x hx
    cases attrs with
    | nil => cases hx
    | cons y attrs =>
      simp at hx e
      obtain ⟨rfl, -⟩ := e
      subst hx
      rcases h3 with rfl | h3
      · simp at hn
      · exact (Transforms.isSpace_iff _).1 h3

theorem tag_head {s : Bytes} {d : Byte} {attrs r : Bytes} (h : Tag s d attrs r) : isHead s = true ∧
    s = c!"<" :: c!"h" :: d :: (attrs ++ c!">" :: r) ∧ splitFirst c!">" (attrs ++ c!">" :: r) = some (attrs, r) := by
  obtain ⟨e, hd, hn, hw⟩ := h
  have e : s = c!"<" :: c!"h" :: d :: (attrs ++ c!">" :: r) := by rw [e]; simp
  refine ⟨?_, e, (splitFirst_iff ..).2 ⟨rfl, hn⟩⟩
  have h1 := (level_iff d).2 hd
  cases attrs with
  | nil => rw [e]; simp [isHead, h1.1, h1.2]
  | cons c attrs =>
    have := (Transforms.isSpace_iff c).2 (hw c rfl)
    rw [e]; simp [isHead, h1.1, h1.2, this]

/-- Whether a page starts with a tag, as the loop sees it. -/
theorem tag_cases (c : Byte) (r : Bytes) :
    ((isHead (c :: r) = false ∨ splitFirst c!">" (r.drop 2) = none) ∧ ∀ d attrs u, ¬ Tag (c :: r) d attrs u) ∨
    ∃ d attrs u, isHead (c :: r) = true ∧ splitFirst c!">" (r.drop 2) = some (attrs, u) ∧ Tag (c :: r) d attrs u ∧
      c = c!"<" ∧ r.take 2 = [c!"h", d] ∧ r.length = attrs.length + u.length + 3 := by
  by_cases h : isHead (c :: r) = true
  · obtain ⟨d, t, e, ht⟩ := head_tag h
    simp at e
    obtain ⟨rfl, rfl⟩ := e
    have e2 : (c!"h" :: d :: t).drop 2 = t := rfl
    rw [e2]
    cases hs : splitFirst c!">" t with
    | none =>
      left
      refine ⟨.inr rfl, ?_⟩
      intro d' attrs u hT
      obtain ⟨-, e, h3⟩ := tag_head hT
      simp at e
      rw [← e.2, hs] at h3
      cases h3
    | some p =>
      obtain ⟨attrs, u⟩ := p
      right
      have hl := splitFirst_len hs
      refine ⟨d, attrs, u, h, rfl, ht _ _ hs, rfl, rfl, ?_⟩
      simp
      omega
  · left
    refine ⟨.inl (by simpa using h), ?_⟩
    intro d attrs u hT
    exact h (tag_head hT).1

theorem tag_unique {s : Bytes} {d d' : Byte} {attrs attrs' r r' : Bytes} (h : Tag s d attrs r) (h' : Tag s d' attrs' r') :
    d = d' ∧ attrs = attrs' ∧ r = r' := by
  obtain ⟨-, e, h3⟩ := tag_head h
  obtain ⟨-, e', h3'⟩ := tag_head h'
  rw [e] at e'
  simp only [List.cons.injEq, true_and] at e'
  rw [e'.2, h3'] at h3
  simp at h3
  exact ⟨e'.1, h3.1.symm, h3.2.symm⟩

/-- `id=` in front of the end of the tag is an attribute of the tag. -/
theorem idAt_none {s : Bytes} {d : Byte} {attrs r : Bytes} (h : Tag s d attrs r) (hn : ¬ b!"id=" <:+: attrs) :
    idAt s (3 + attrs.length) = none := by
  unfold idAt
  cases hs : strstr s b!"id=" with
  | none => rfl
  | some j =>
    simp only []
    split
    · rename_i hj
      exfalso
      have hf := (Transforms.strstr_some hs).1
      obtain ⟨e, hd, hg, -⟩ := h
      have hdd : d ≠ c!"i" ∧ d ≠ c!"d" := by
        constructor <;> (rintro rfl; revert hd; decide)
      have e : s = c!"<" :: c!"h" :: d :: (attrs ++ c!">" :: r) := by rw [e]; simp
      rw [e] at hf
      have hle := Transforms.strstr_le hs
      generalize hx : (c!"<" :: c!"h" :: d :: (attrs ++ c!">" :: r)).take j = x at hf
      generalize hy : (c!"<" :: c!"h" :: d :: (attrs ++ c!">" :: r)).drop (j + (b!"id=").length) = y at hf
      have hxl : x.length = j := by
        rw [← hx, List.length_take, ← e]
        simp at hle
        omega
      rcases x with _ | ⟨x1, _ | ⟨x2, _ | ⟨x3, x⟩⟩⟩
      · simp at hf
      · simp at hf
      · simp at hf
        exact hdd.1 hf.2.2.1
      · simp only [List.cons_append, List.cons.injEq] at hf
        have hf := hf.2.2.2
        simp only [List.length_cons] at hxl
        apply hn
        rcases Nat.lt_or_ge attrs.length (x.length + 3) with hl | hl
        · exfalso
          have h1 : (attrs ++ c!">" :: r)[attrs.length]? = some c!">" := by simp
          rw [hf, List.append_assoc, List.getElem?_append_right (by omega)] at h1
          have : attrs.length - x.length = 0 ∨ attrs.length - x.length = 1 ∨ attrs.length - x.length = 2 := by omega
          rcases this with h | h | h <;> (rw [h] at h1; simp at h1)
        · have h1 : (attrs ++ c!">" :: r).take (x.length + 3) = attrs.take (x.length + 3) := by
            rw [List.take_append_of_le_length hl]
          have h2 : (x ++ b!"id=" ++ y).take (x.length + 3) = x ++ b!"id=" := by
            rw [List.take_left' (by simp)]
          rw [hf, h2] at h1
          exact ⟨x, attrs.drop (x.length + 3), by rw [h1, List.take_append_drop]⟩
    · rfl

/-! ### The loop -/

theorem pieces_char (anchors : Bool) (ids : List Bytes) (i : Nat) {c : Byte} {r : Bytes}
    (h : isHead (c :: r) = false ∨ splitFirst c!">" (r.drop 2) = none) :
    pieces anchors ids i (c :: r) = [c] :: pieces anchors ids i r := by
  conv => lhs; unfold pieces
  rcases h with h | h
  · rw [if_neg (by simp [h])]
  · split
    · split
      · rfl
      · rename_i h2; rw [h] at h2; cases h2
    · rfl

theorem pieces_tag (anchors : Bool) (ids : List Bytes) (i : Nat) {c : Byte} {r attrs after : Bytes}
    (h1 : isHead (c :: r) = true) (h2 : splitFirst c!">" (r.drop 2) = some (attrs, after)) :
    pieces anchors ids i (c :: r) =
      match ids[i]? with
      | some id =>
        if anchors then
          (c :: r.take 2 ++ attrs ++ b!">") :: anchor id :: pieces anchors ids (i + 1) after
        else
          match idAt (c :: r) (c :: r.take 2 ++ attrs).length with
          | some j =>
            (c :: r.take 2 ++ attrs).take j :: attr id ::
              (behindId ((c :: r.take 2 ++ attrs).drop (j + 3))).map (fun b => [b]) ++ pieces anchors ids (i + 2) (c!">" :: after)
          | none => (c :: r.take 2) :: attrs :: b!" " :: attr id :: b!">" :: pieces anchors ids (i + 1) after
      | none =>
        (c :: r.take 2 ++ attrs ++ b!">") ::
          pieces anchors ids (if (idAt (c :: r) (c :: r.take 2 ++ attrs).length).isSome then i else i + 1) after := by
  conv => lhs; unfold pieces
  rw [if_pos h1]
  split
  · rename_i h3; rw [h2] at h3; cases h3
  · rename_i a b h3
    rw [h2] at h3
    cases h3
    rfl

/-- Without further ids nothing changes. -/
theorem pieces_rest (anchors : Bool) (ids : List Bytes) (n : Nat) : ∀ (s : Bytes), s.length ≤ n → ∀ i, ids.length ≤ i →
    (pieces anchors ids i s).flatten = s := by
  induction n with
  | zero =>
    intro s hs i _
    have : s = [] := List.eq_nil_of_length_eq_zero (by omega)
    subst this
    rw [pieces]; rfl
  | succ n ih =>
    intro s hs i hi
    cases s with
    | nil => rw [pieces]; rfl
    | cons c r =>
      rcases tag_cases c r with ⟨h, -⟩ | ⟨d, attrs, u, h1, h2, hT, rfl, h3, hl⟩
      · rw [pieces_char _ _ _ h, List.flatten_cons, ih r (by simp at hs; omega) i hi]
        rfl
      · rw [pieces_tag _ _ _ h1 h2, List.getElem?_eq_none hi]
        simp only []
        rw [List.flatten_cons, ih u (by simp at hs; omega) _ (by split <;> omega), h3, hT.1]
        simp

theorem drop_cons {ids : List Bytes} {i : Nat} {id : Bytes} (h : ids[i]? = some id) : ids.drop i = id :: ids.drop (i + 1) := by
  obtain ⟨hi, he⟩ := List.getElem?_eq_some_iff.1 h
  rw [List.drop_eq_getElem_cons hi, he]

theorem attr_eq {id : Bytes} (h : id.length ≤ 94) : attr id = b!"id=\"" ++ id ++ b!"\"" := by
  unfold attr
  rw [List.take_of_length_le]
  simp; omega

theorem anchor_eq {id : Bytes} (h : id.length ≤ 22) : anchor id =
    b!"<a href=\"#" ++ id ++ b!"\" aria-hidden=\"true\" class=\"anchor\" id=\"" ++ id ++ b!"\"></a>" := by
  unfold anchor
  rw [List.take_of_length_le]
  simp; omega

theorem pieces_named (ids : List Bytes) (hl : ∀ id ∈ ids, id.length ≤ 94) (n : Nat) : ∀ (s : Bytes), s.length ≤ n → NoIds s → ∀ i,
    Named (ids.drop i) s (pieces false ids i s).flatten ∧
    (pieces false ids i s).flatten.length ≤ s.length + 100 * (ids.length - i) := by
  induction n with
  | zero =>
    intro s hs _ i
    have : s = [] := List.eq_nil_of_length_eq_zero (by omega)
    subst this
    rw [pieces]
    exact ⟨.nil, by simp⟩
  | succ n ih =>
    intro s hs hno i
    cases s with
    | nil => rw [pieces]; exact ⟨.nil, by simp⟩
    | cons c r =>
      rcases tag_cases c r with ⟨h, hT⟩ | ⟨d, attrs, u, h1, h2, hT, hc, h3, hlen⟩
      · rw [pieces_char _ _ _ h]
        obtain ⟨g1, g2⟩ := ih r (by simp at hs; omega)
          (fun a s d attrs u e ht => hno (c :: a) s d attrs u (by rw [e]; rfl) ht) i
        refine ⟨.char hT g1, ?_⟩
        simp at g2 ⊢
        omega
      · cases hi : ids[i]? with
        | none =>
          have hi' : ids.length ≤ i := by simpa using hi
          rw [pieces_rest _ _ _ _ (Nat.le_refl _) i hi', List.drop_eq_nil_of_le hi']
          exact ⟨.rest, by simp⟩
        | some id =>
          obtain ⟨hi', he⟩ := List.getElem?_eq_some_iff.1 hi
          have hid := hl id (by rw [← he]; exact List.getElem_mem hi')
          have hn : ¬ b!"id=" <:+: attrs := hno [] _ d attrs u rfl hT
          have hat := idAt_none hT hn
          have htl : (c :: r.take 2 ++ attrs).length = 3 + attrs.length := by rw [h3]; simp; omega
          rw [pieces_tag _ _ _ h1 h2, hi]
          simp only [Bool.false_eq_true, if_false]
          rw [htl, hat]
          simp only []
          obtain ⟨g1, g2⟩ := ih u (by simp at hs; omega) (fun a s d' attrs' u' e ht =>
            hno (b!"<h" ++ [d] ++ attrs ++ b!">" ++ a) s d' attrs' u' (by rw [hT.1, e]; simp) ht) (i + 1)
          rw [drop_cons hi, attr_eq hid]
          constructor
          · have := Named.heading (id := id) hT g1
            rw [h3]; subst hc
            simpa using this
          · rw [h3]
            simp at g2 ⊢
            omega

theorem pieces_anchored (ids : List Bytes) (hl : ∀ id ∈ ids, id.length ≤ 22) (n : Nat) : ∀ (s : Bytes), s.length ≤ n → ∀ i,
    Anchored (ids.drop i) s (pieces true ids i s).flatten ∧
    (pieces true ids i s).flatten.length ≤ s.length + 100 * (ids.length - i) := by
  induction n with
  | zero =>
    intro s hs i
    have : s = [] := List.eq_nil_of_length_eq_zero (by omega)
    subst this
    rw [pieces]
    exact ⟨.nil, by simp⟩
  | succ n ih =>
    intro s hs i
    cases s with
    | nil => rw [pieces]; exact ⟨.nil, by simp⟩
    | cons c r =>
      rcases tag_cases c r with ⟨h, hT⟩ | ⟨d, attrs, u, h1, h2, hT, hc, h3, hlen⟩
      · rw [pieces_char _ _ _ h]
        obtain ⟨g1, g2⟩ := ih r (by simp at hs; omega) i
        refine ⟨.char hT g1, ?_⟩
        simp at g2 ⊢
        omega
      · cases hi : ids[i]? with
        | none =>
          have hi' : ids.length ≤ i := by simpa using hi
          rw [pieces_rest _ _ _ _ (Nat.le_refl _) i hi', List.drop_eq_nil_of_le hi']
          exact ⟨.rest, by simp⟩
        | some id =>
          obtain ⟨hi', he⟩ := List.getElem?_eq_some_iff.1 hi
          have hid := hl id (by rw [← he]; exact List.getElem_mem hi')
          rw [pieces_tag _ _ _ h1 h2, hi]
          simp only [if_true]
          obtain ⟨g1, g2⟩ := ih u (by simp at hs; omega) (i + 1)
          rw [drop_cons hi, anchor_eq hid]
          constructor
          · have := Anchored.heading (id := id) hT g1
            rw [h3]; subst hc
            simpa using this
          · rw [h3]
            simp at g2 ⊢
            omega

end Verif.InjectIds
