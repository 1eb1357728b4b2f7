/-
The marks of the index in the page, and the index.
-/
import Verif.Proof.Index

namespace Verif.Index
open Spec (Term Listed InOrder Letter Groups entryHtml groupHtml indexHtml Placed)
open Embed (find)

theorem idText_id {id : Bytes} (r : Bytes) (h : c!">" ∉ id) : idText (id ++ b!"-->" ++ r) = (id, b!"-->" ++ r) := by
  induction id with
  | nil =>
    rw [List.nil_append, List.cons_append, idText, if_pos (Or.inr (by rw [List.isPrefixOf_iff_prefix]; exact ⟨r, by simp⟩))]
  | cons c id ih =>
    have h1 : c ≠ c!">" := by rintro rfl; exact h (by simp)
    have h2 : ¬ b!"-->".isPrefixOf (c :: (id ++ b!"-->" ++ r)) = true := by
      rw [List.isPrefixOf_iff_prefix]
      rintro ⟨w, hw⟩
      match id, h with
      | [], _ => simp at hw
      | [d], _ => simp at hw
      | d :: e :: id, h =>
        simp only [List.cons_append, List.cons.injEq] at hw
        exact h (by rw [← hw.2.2.1]; simp)
    rw [List.cons_append, List.cons_append, idText, if_neg (by simp only [h1, false_or]; exact h2), ih fun h' => h (by simp [h'])]

theorem idText_split (s : Bytes) : s = (idText s).1 ++ (idText s).2 := by
  induction s with
  | nil => rfl
  | cons c s ih =>
    rw [idText]
    split
    · rfl
    · simp only [List.cons_append]
      rw [← ih]

theorem idText_some {s : Bytes} (h : c!">" ∈ s) : (idText s).2 ≠ [] := by
  induction s with
  | nil => cases h
  | cons c s ih =>
    rw [idText]
    split
    · simp
    · rename_i hc
      refine ih ?_
      rcases List.mem_cons.1 h with h | h
      · exact absurd (Or.inl h.symm) hc
      · exact h

/-- No mark begins in a text that has none, before the end or a mark. -/
theorem no_mark {u z : Bytes} (hu : u ≠ []) (hi : ¬ b!"<!--IDX:" <:+: u) (hz : z = [] ∨ ∃ w, z = c!"<" :: w) : ¬ b!"<!--IDX:".isPrefixOf (u ++ z) = true := by
  rw [List.isPrefixOf_iff_prefix]
  intro hp
  rcases List.prefix_or_prefix_of_prefix hp (List.prefix_append u z) with h | ⟨w, hw⟩
  · exact hi h.isInfix
  · obtain ⟨q, hq⟩ := hp
    rw [← hw, List.append_assoc] at hq
    have hq2 := List.append_cancel_left hq
    clear hq
    cases w with
    | nil =>
      rw [List.append_nil] at hw
      rw [hw] at hi
      exact hi (List.infix_refl _)
    | cons d w =>
      rcases hz with rfl | ⟨z', rfl⟩
      · simp at hq2
      · rw [List.cons_append, List.cons.injEq] at hq2
        cases u with
        | nil => exact hu rfl
        | cons c u =>
          have hm : c!"<" ∈ (b!"<!--IDX:" : Bytes).drop 1 := by
            rw [← hw, hq2.1]
            simp
          revert hm
          decide

theorem marks_text {t z : Bytes} (hi : ¬ b!"<!--IDX:" <:+: t) (hz : z = [] ∨ ∃ w, z = c!"<" :: w) :
    ∀ (n cap : Nat) (out : Bytes), out.length < cap → ∃ cap', (out ++ t).length < cap' ∧ marks (n + t.length) cap out (t ++ z) = marks n cap' (out ++ t) z := by
  induction t with
  | nil => exact fun n cap out hc => ⟨cap, by simpa using hc, by simp⟩
  | cons c t ih =>
    intro n cap out hc
    have hg := grow_byte cap out.length
    obtain ⟨cap', h1, h2⟩ := ih (fun h => hi (h.trans (List.suffix_cons c t).isInfix)) n (grow cap out.length 1 0) (out ++ [c]) (by
      simp only [List.length_append, List.length_cons, List.length_nil]; omega)
    refine ⟨cap', by simpa using h1, ?_⟩
    rw [List.length_cons, ← Nat.add_assoc, List.cons_append, marks, if_neg (by rw [← List.cons_append]; exact no_mark (by simp) hi hz), copy, put_val (by omega),
      C.val_bind, h2]
    simp

theorem page_cons (t : Bytes) (x : Bytes × Bytes) (l : List (Bytes × Bytes)) : Spec.page t (x :: l) = t ++ (b!"<!--IDX:" ++ (x.1 ++ b!"-->" ++ Spec.page x.2 l)) := by
  simp [Spec.page]

theorem linked_cons (t : Bytes) (x : Bytes × Bytes) (l : List (Bytes × Bytes)) : Spec.linked t (x :: l) = t ++ (span x.1 ++ Spec.linked x.2 l) := by
  simp [Spec.linked, span]

theorem marks_page : ∀ (l : List (Bytes × Bytes)) (t : Bytes), ¬ b!"<!--IDX:" <:+: t →
    (∀ x ∈ l, c!">" ∉ x.1 ∧ x.1.length < 64 ∧ ¬ b!"<!--IDX:" <:+: x.2) → ∀ (n cap : Nat) (out : Bytes), (Spec.page t l).length ≤ n → out.length < cap →
    marks n cap out (Spec.page t l) = .val (out ++ Spec.linked t l)
  | [], t, ht, _, n, cap, out, hn, hc => by
    have e : Spec.page t [] = t ++ [] := by simp [Spec.page]
    rw [e] at hn ⊢
    obtain ⟨m, rfl⟩ : ∃ m, n = m + t.length := ⟨n - t.length, by rw [List.append_nil] at hn; omega⟩
    obtain ⟨cap', h1, h2⟩ := marks_text (z := []) ht (Or.inl rfl) m cap out hc
    rw [h2]
    cases m <;> simp [marks, finish_val h1, Spec.linked]
  | x :: l, t, ht, hl, n, cap, out, hn, hc => by
    obtain ⟨g1, g2, g3⟩ := hl x (by simp)
    rw [page_cons] at hn ⊢
    simp only [List.length_append, List.length_cons, List.length_nil] at hn
    obtain ⟨m, rfl⟩ : ∃ m, n = (m + 1) + t.length := ⟨n - 1 - t.length, by omega⟩
    obtain ⟨cap', h1, h2⟩ := marks_text (z := b!"<!--IDX:" ++ (x.1 ++ b!"-->" ++ Spec.page x.2 l)) ht (Or.inr ⟨_, rfl⟩) (m + 1) cap out hc
    rw [h2]
    have hp : b!"<!--IDX:".isPrefixOf (b!"<!--IDX:" ++ (x.1 ++ b!"-->" ++ Spec.page x.2 l)) = true := by
      rw [List.isPrefixOf_iff_prefix]
      exact List.prefix_append _ _
    have hd : (b!"<!--IDX:" ++ (x.1 ++ b!"-->" ++ Spec.page x.2 l)).drop 8 = x.1 ++ b!"-->" ++ Spec.page x.2 l := rfl
    have hgr := grow_room cap' (out ++ t).length (span x.1).length
    generalize hw : b!"<!--IDX:" ++ (x.1 ++ b!"-->" ++ Spec.page x.2 l) = w at hp hd ⊢
    cases w with
    | nil => simp at hw
    | cons c w =>
      rw [marks, if_pos hp]
      simp only [hd, idText_id _ g1]
      rw [if_pos ⟨by rw [List.isPrefixOf_iff_prefix]; exact List.prefix_append _ _, g2⟩, puts_val (by omega), C.val_bind,
        show (b!"-->" ++ Spec.page x.2 l).drop 3 = Spec.page x.2 l from rfl,
        marks_page l x.2 g3 (fun y hy => hl y (by simp [hy])) m _ _ (by omega) (by rw [List.length_append]; omega), linked_cons]
      simp only [List.append_assoc]

/-- There is a result if every mark ends. -/
theorem marks_val : ∀ (n : Nat) (s : Bytes) (cap : Nat) (out : Bytes), s.length ≤ n → (∀ x y, s = x ++ b!"<!--IDX:" ++ y → c!">" ∈ y) → out.length < cap →
    ∃ o, marks n cap out s = .val o
  | n, [], cap, out, _, _, hc => ⟨out, by cases n <;> simp [marks, finish_val hc]⟩
  | 0, _ :: _, _, _, h, _, _ => by simp at h
  | n + 1, c :: s, cap, out, hn, hm, hc => by
    have hcopy : ∀ u v : Bytes, c :: s = u ++ v → v ≠ [] → ∃ o, copy (marks n) cap out v = .val o := by
      intro u v he hv
      cases v with
      | nil => exact absurd rfl hv
      | cons d v =>
        have hg := grow_byte cap out.length
        have hl := congrArg List.length he
        simp only [List.length_append, List.length_cons] at hl hn
        obtain ⟨o, ho⟩ := marks_val n v (grow cap out.length 1 0) (out ++ [d]) (by omega) (fun x y h => hm (u ++ d :: x) y (by rw [he, h]; simp)) (by
          simp only [List.length_append, List.length_cons, List.length_nil]; omega)
        exact ⟨o, by rw [copy, put_val (by omega), C.val_bind, ho]⟩
    rw [marks]
    split
    · rename_i hp
      obtain ⟨w, hw⟩ := List.isPrefixOf_iff_prefix.1 hp
      have hd : (c :: s).drop 8 = w := by rw [← hw]; rfl
      simp only [hd]
      have hs := idText_split w
      split
      · rename_i hx
        have hgr := grow_room cap out.length (span (idText w).1).length
        obtain ⟨r, hr⟩ := List.isPrefixOf_iff_prefix.1 hx.1
        rw [puts_val (by omega), C.val_bind, ← hr, show (b!"-->" ++ r).drop 3 = r from rfl]
        have hl := congrArg List.length hw
        rw [hs, ← hr] at hl
        simp only [List.length_append, List.length_cons] at hl hn
        exact marks_val n r _ _ (by omega) (fun x y h => hm (b!"<!--IDX:" ++ (idText w).1 ++ b!"-->" ++ x) y (by
          rw [← hw]
          conv => lhs; rw [hs, ← hr, h]
          simp only [List.append_assoc])) (by rw [List.length_append]; omega)
      · exact hcopy (b!"<!--IDX:" ++ (idText w).1) _ (by rw [← hw, List.append_assoc, ← hs]) (idText_some (hm [] w (by rw [← hw]; rfl)))
    · exact hcopy [] _ rfl (by simp)

theorem appendAll_val : ∀ (l : List Bytes) (b : Nat × Bytes), b.2.length < b.1 → ∃ cap, (b.2 ++ l.flatten).length < cap ∧ appendAll b l = .val (cap, b.2 ++ l.flatten)
  | [], b, h => ⟨b.1, by simpa using h, by simp [appendAll]⟩
  | s :: l, b, h => by
    have key : ∀ cap, b.2.length + s.length < cap → (append b s = .val (cap, b.2 ++ s)) →
        ∃ cap, (b.2 ++ (s :: l).flatten).length < cap ∧ appendAll b (s :: l) = .val (cap, b.2 ++ (s :: l).flatten) := by
      intro cap hc ha
      obtain ⟨cap', h1, h2⟩ := appendAll_val l (cap, b.2 ++ s) (by simp only [List.length_append]; omega)
      simp only [List.append_assoc] at h1 h2
      exact ⟨cap', by rw [List.flatten_cons]; exact h1, by rw [appendAll, ha, C.val_bind, h2, List.flatten_cons]⟩
    by_cases hs : s.length < b.1 - b.2.length
    · refine key b.1 (by omega) ?_
      rw [append]
      simp only [if_pos hs]
      rw [puts_val (by omega), C.val_bind]
    · refine key ((b.2.length + s.length + 1) * 2) (by omega) ?_
      rw [append]
      simp only [if_neg hs]
      rw [puts_val (by omega), C.val_bind]

theorem generate_val (byLetter : Bool) {es : List Entry} (h : es ≠ []) : generate byLetter es = .val (texts byLetter es).flatten := by
  unfold generate
  rw [if_neg h]
  obtain ⟨cap, h1, h2⟩ := appendAll_val (texts byLetter es) (8192, []) (by simp)
  rw [List.nil_append] at h1 h2
  rw [h2, C.val_bind, finish_val h1]

theorem link_eq {x : Listed} (h : x.2 < 2 ^ 31) : link (toEntry x) = Spec.link x.2 := by
  unfold link Spec.link toEntry
  have hl := Aria.number_len x.2 (by omega)
  change (Spec.number x.2).length ≤ _ at hl
  rw [List.take_of_length_le (by
    simp only [List.length_append, List.length_cons, List.length_nil]
    omega)]
  simp

theorem item_eq {x : Listed} (h : x.2 < 2 ^ 31) (hi : x.1.item.length ≤ 2042) : (item (toEntry x)).flatten = entryHtml x := by
  unfold item entryHtml
  rw [link_eq h, List.take_of_length_le (by
    simp only [List.length_append, List.length_cons, List.length_nil, toEntry]
    omega)]
  obtain ⟨⟨i, sub, p⟩, k⟩ := x
  simp only [toEntry]
  cases p <;> cases sub <;> simp

theorem firstLetter_letter (s : Bytes) : Letter s (firstLetter s) := by
  unfold firstLetter
  obtain ⟨a, r, e1, e2, e3, -, e5⟩ := span_split (fun c => !isAlnum c) s
  rw [e5]
  have ha : ∀ c ∈ a, isAlnum c = false := fun c hc => by simpa using e2 c hc
  rcases e3 with rfl | ⟨c, b, rfl, hc⟩
  · rw [List.append_nil] at e1
    subst e1
    exact Or.inl ⟨ha, rfl⟩
  · exact Or.inr ⟨a, c, b, e1, ha, by simpa using hc, rfl⟩

theorem items_flatten {es : List Listed} (h : ∀ e ∈ es, e.1.item.length ≤ 2042 ∧ e.2 < 2 ^ 31) : ((es.map toEntry).flatMap item).flatten = es.flatMap entryHtml := by
  induction es with
  | nil => rfl
  | cons x es ih =>
    rw [List.map_cons, List.flatMap_cons, List.flatten_append, item_eq (h x (by simp)).2 (h x (by simp)).1, ih fun e he => h e (by simp [he]), List.flatMap_cons]

theorem groups_open : ∀ (es : List Listed) (l : Byte), (∀ e ∈ es, e.1.item.length ≤ 2042 ∧ e.2 < 2 ^ 31) → ∃ (g : List Listed) (gs : List (Byte × List Listed)),
    g ++ gs.flatMap (·.2) = es ∧ (∀ e ∈ g, Letter e.1.item l) ∧ (∀ x ∈ gs, x.2 ≠ [] ∧ ∀ e ∈ x.2, Letter e.1.item x.1) ∧
    (∀ a x y b, l :: gs.map (·.1) = a ++ x :: y :: b → x ≠ y) ∧
    (groups (some l) (es.map toEntry)).flatten = g.flatMap entryHtml ++ b!"</ul>\n</dd>\n</dl>\n" ++ gs.flatMap groupHtml
  | [], l, _ => by
    refine ⟨[], [], rfl, by simp, by simp, ?_, rfl⟩
    intro a x y b h
    have := congrArg List.length h
    simp at this
    omega
  | x :: es, l, h => by
    have hx := h x (by simp)
    obtain ⟨g, gs, h1, h2, h3, h4, h5⟩ := groups_open es (firstLetter x.1.item) fun e he => h e (by simp [he])
    have he : (toEntry x).item = x.1.item := rfl
    by_cases hl : some l = some (firstLetter x.1.item)
    · have hl' : l = firstLetter x.1.item := by simpa using hl
      refine ⟨x :: g, gs, by rw [List.cons_append, h1], ?_, h3, by rw [hl']; exact h4, ?_⟩
      · intro e hm
        rcases List.mem_cons.1 hm with rfl | hm
        · rw [hl']
          exact firstLetter_letter _
        · rw [hl']
          exact h2 e hm
      · rw [List.map_cons, groups, he]
        simp only [if_pos hl, List.nil_append]
        rw [List.flatten_append, item_eq hx.2 hx.1, h5, List.flatMap_cons]
        simp only [List.append_assoc]
    · refine ⟨[], (firstLetter x.1.item, x :: g) :: gs, by simp [h1], by simp, ?_, ?_, ?_⟩
      · intro y hy
        rcases List.mem_cons.1 hy with rfl | hy
        · refine ⟨by simp, fun e hm => ?_⟩
          rcases List.mem_cons.1 hm with rfl | hm
          · exact firstLetter_letter _
          · exact h2 e hm
        · exact h3 y hy
      · intro a y z b e
        cases a with
        | nil =>
          rw [List.map_cons, List.nil_append, List.cons.injEq, List.cons.injEq] at e
          rintro rfl
          exact hl (by rw [e.1, ← e.2.1])
        | cons c a =>
          rw [List.cons_append, List.cons.injEq] at e
          exact h4 a y z b e.2
      · rw [List.map_cons, groups, he]
        simp only [if_neg hl]
        rw [if_neg (by simp), List.flatten_append, List.flatten_append, List.flatten_append, item_eq hx.2 hx.1, h5, List.flatMap_cons, groupHtml]
        simp

theorem groups_eq {es : List Listed} (hne : es ≠ []) (h : ∀ e ∈ es, e.1.item.length ≤ 2042 ∧ e.2 < 2 ^ 31) : ∃ gs, Groups es gs ∧
    (groups none (es.map toEntry)).flatten = gs.flatMap groupHtml := by
  cases es with
  | nil => exact absurd rfl hne
  | cons x es =>
    have hx := h x (by simp)
    obtain ⟨g, gs, h1, h2, h3, h4, h5⟩ := groups_open es (firstLetter x.1.item) fun e he => h e (by simp [he])
    have he : (toEntry x).item = x.1.item := rfl
    refine ⟨(firstLetter x.1.item, x :: g) :: gs, ⟨by simp [h1], ?_, ?_⟩, ?_⟩
    · intro y hy
      rcases List.mem_cons.1 hy with rfl | hy
      · refine ⟨by simp, fun e hm => ?_⟩
        rcases List.mem_cons.1 hm with rfl | hm
        · exact firstLetter_letter _
        · exact h2 e hm
      · exact h3 y hy
    · intro a y z b e
      refine h4 (a.map (·.1)) y.1 z.1 (b.map (·.1)) ?_
      have := congrArg (List.map (·.1)) e
      simpa using this
    · rw [List.map_cons, groups, he]
      rw [if_neg (by simp), if_pos rfl, List.flatten_append, List.flatten_append, item_eq hx.2 hx.1, h5, List.flatMap_cons, groupHtml]
      simp

theorem notAfter_iff (a b : Bytes) : notAfter a b = true ↔ a.map toLower ≤ b.map toLower := by
  have key : ∀ a b : Bytes, notAfter a b = false ↔ b.map toLower < a.map toLower := by
    intro a
    induction a with
    | nil => intro b; cases b <;> simp [notAfter]
    | cons c a ih =>
      intro b
      cases b with
      | nil => simp [notAfter]
      | cons d b =>
        rw [notAfter, List.map_cons, List.map_cons, List.cons_lt_cons_iff, Bool.or_eq_false_iff, Bool.and_eq_false_iff, ih b, decide_eq_false_iff_not, beq_eq_false_iff_ne]
        constructor
        · rintro ⟨h1, h2⟩
          by_cases he : toLower c = toLower d
          · exact Or.inr ⟨he.symm, h2.resolve_left fun h => h he⟩
          · refine Or.inl ?_
            rw [UInt8.lt_iff_toNat_lt] at h1 ⊢
            have : (toLower c).toNat ≠ (toLower d).toNat := fun h => he (UInt8.toNat_inj.1 h)
            omega
        · rintro (h | ⟨h1, h2⟩)
          · refine ⟨?_, Or.inl ?_⟩
            · rw [UInt8.lt_iff_toNat_lt] at h ⊢
              omega
            · intro he
              rw [he, UInt8.lt_iff_toNat_lt] at h
              omega
          · exact ⟨by rw [h1]; simp, Or.inr h2⟩
  rw [← Bool.not_eq_false, key]
  exact Iff.rfl

theorem le_trans' {a b c : Bytes} (h : a ≤ b) (h' : b ≤ c) : a ≤ c := List.le_trans h h'

theorem entryLe_iff' (a b : Entry) : entryLe a b = true ↔ (a.item.map toLower < b.item.map toLower ∨ a.item.map toLower = b.item.map toLower ∧
    (match a.sub, b.sub with
      | none, _ => True
      | some _, none => False
      | some x, some y => x.map toLower ≤ y.map toLower)) := by
  unfold entryLe
  by_cases h1 : a.item.map toLower ≤ b.item.map toLower
  · by_cases h2 : b.item.map toLower ≤ a.item.map toLower
    · have he : a.item.map toLower = b.item.map toLower := List.le_antisymm h1 h2
      rw [if_pos (by rw [(notAfter_iff _ _).2 h1, (notAfter_iff _ _).2 h2]; rfl)]
      have hlt : ¬ a.item.map toLower < b.item.map toLower := by rw [he]; exact List.lt_irrefl _
      rw [or_iff_right hlt, and_iff_right he]
      cases a.sub <;> cases b.sub <;> simp [notAfter_iff]
    · have h3 : a.item.map toLower < b.item.map toLower := List.not_le.1 h2
      rw [if_neg (by
        rw [Bool.and_eq_true, notAfter_iff, notAfter_iff]
        exact fun h => h2 h.2), notAfter_iff]
      exact ⟨fun _ => Or.inl h3, fun _ => h1⟩
  · rw [if_neg (by
      rw [Bool.and_eq_true, notAfter_iff, notAfter_iff]
      exact fun h => h1 h.1), notAfter_iff]
    constructor
    · exact fun h => absurd h h1
    · rintro (h | ⟨h, -⟩)
      · exact List.le_of_lt h
      · exact absurd (by rw [h]; exact List.le_refl _) h1

theorem entryLe_iff (a b : Listed) : entryLe (toEntry a) (toEntry b) = true ↔ InOrder a b := entryLe_iff' _ _

theorem inOrder_total (a b : Listed) : InOrder a b ∨ InOrder b a := by
  unfold InOrder
  by_cases h : a.1.item.map toLower = b.1.item.map toLower
  · simp only [h, true_and]
    have hlt : ¬ b.1.item.map toLower < b.1.item.map toLower := List.lt_irrefl _
    simp only [hlt, false_or]
    cases a.1.sub <;> cases b.1.sub <;> simp
    exact List.le_total _ _
  · rcases List.le_total (a.1.item.map toLower) (b.1.item.map toLower) with h' | h'
    · by_cases hl : a.1.item.map toLower < b.1.item.map toLower
      · exact Or.inl (Or.inl hl)
      · exact absurd (List.le_antisymm h' (List.not_lt.1 hl)) h
    · by_cases hl : b.1.item.map toLower < a.1.item.map toLower
      · exact Or.inr (Or.inl hl)
      · exact absurd (List.le_antisymm (List.not_lt.1 hl) h') h

theorem inOrder_trans {a b c : Listed} (h : InOrder a b) (h' : InOrder b c) : InOrder a c := by
  unfold InOrder at *
  rcases h with h | ⟨h, hs⟩
  · rcases h' with h' | ⟨h', -⟩
    · exact Or.inl (List.lt_trans h h')
    · exact Or.inl (h' ▸ h)
  · rcases h' with h' | ⟨h', hs'⟩
    · exact Or.inl (h ▸ h')
    · refine Or.inr ⟨h.trans h', ?_⟩
      revert hs hs'
      cases a.1.sub <;> cases b.1.sub <;> cases c.1.sub <;> simp
      exact fun h1 h2 => List.le_trans h1 h2

theorem place_placed (html index : Bytes) : Placed html index (place html index) := by
  unfold place
  cases hf : find b!"<!--INDEX-->" html with
  | some x =>
    obtain ⟨x, y⟩ := x
    have he := Embed.find_some hf
    have := (Embed.find_eq (d := c!"<") (w := b!"!--INDEX-->") (by decide) x y).1 (by rw [← he]; exact hf)
    exact Or.inl ⟨x, y, he, this, rfl⟩
  | none =>
    refine Or.inr ⟨(Embed.find_none (by simp)).1 hf, ?_⟩
    simp only []
    cases hf' : find b!"</body>" html with
    | some x =>
      obtain ⟨x, y⟩ := x
      have he := Embed.find_some hf'
      have := (Embed.find_eq (d := c!"<") (w := b!"/body>") (by decide) x y).1 (by rw [← he]; exact hf')
      exact Or.inl ⟨x, y, he, this, rfl⟩
    | none => exact Or.inr ⟨(Embed.find_none (by simp)).1 hf', rfl⟩

end Verif.Index
