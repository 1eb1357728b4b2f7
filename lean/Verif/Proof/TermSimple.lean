/- Lemmas about tables without joined cells on a terminal. -/
import Verif.Proof.TermGrid

namespace Verif.Term
open Spec TermStyle.Spec
open TermStyle (style reset)

mutual
theorem all_imp {P Q : Kind → Prop} (h : ∀ k, P k → Q k) : ∀ n : Node, All P n → All Q n
  | .mk k a kids, hn => by
    unfold All at hn ⊢
    exact ⟨h k hn.1, alls_imp h kids hn.2⟩
theorem alls_imp {P Q : Kind → Prop} (h : ∀ k, P k → Q k) : ∀ ns : List Node, Alls P ns → Alls Q ns
  | [], _ => by unfold Alls; trivial
  | n :: ns, hn => by
    unfold Alls at hn ⊢
    exact ⟨all_imp h n hn.1, alls_imp h ns hn.2⟩
end

/-- What stands before a text on its side. -/
def leadOf (b : Align) (e : Nat) : Nat :=
  match b with
  | .right => e
  | .center => e / 2
  | _ => 0

theorem span_single {a : Option Bytes} {w : Bytes} (hw : w ≠ []) (h : ∀ x, a = some x → ¬ w <:+: x) : spanAttr a w = 1 := by
  unfold spanAttr
  cases a with
  | none => rfl
  | some x =>
    have := (Embed.find_none hw).2 (h x rfl)
    simp [this]

theorem removed_single {a : Option Bytes} (h : ∀ x, a = some x → ¬ b!"data-remove" <:+: x) : removed a = false := by
  unfold removed
  cases a with
  | none => rfl
  | some x =>
    have := (Embed.find_none (by simp)).2 (h x rfl)
    simp [this]

/-- The place of a cell of its own. -/
def slot (n : Node) : Slot := ⟨n, 1, true⟩

theorem placeRow_single {emoji : Bytes → Bytes} {rows cols r : Nat} (hr : r < rows) (hb : rows < 2147483648 ∧ cols < 2147483648) : ∀ {cs : List Node} {c : Nat} {g : Grid}, (∀ j, c ≤ j → g r j = none) →
    (∀ n ∈ cs, Single emoji n) → c + cs.length ≤ cols →
    ∃ g', placeRow rows cols r c cs g = .val g' ∧ (∀ (k : Nat) (n : Node), cs[k]? = some n → g' r (c + k) = some (slot n)) ∧ ∀ i j, i ≠ r ∨ j < c ∨ c + cs.length ≤ j → g' i j = g i j
  | [], c, g, _, _, _ => ⟨g, rfl, by simp, fun _ _ _ => rfl⟩
  | n :: cs, c, g, hfree, hs, hc => by
    simp only [List.length_cons] at hc
    have hn := hs n (List.mem_cons_self ..)
    have e1 := span_single (by simp) hn.colspan
    have e2 := span_single (by simp) hn.rowspan
    have e3 := removed_single hn.kept
    obtain ⟨g', h1, h2, h3⟩ := placeRow_single (emoji := emoji) hr hb (cs := cs) (c := c + 1) (g := place rows cols g r c 1 1 n) (by
      intro j hj
      unfold place
      rw [if_neg (by omega)]
      exact hfree j (by omega)) (fun x hx => hs x (List.mem_cons_of_mem _ hx)) (by omega)
    refine ⟨g', ?_, ?_, ?_⟩
    · unfold placeRow
      simp only [e1, e2, e3, Bool.false_eq_true, if_false]
      rw [freeCol_free (hfree c (Nat.le_refl _)), if_neg (by omega), if_pos (by omega)]
      exact h1
    · intro k x hx
      cases k with
      | zero =>
        simp only [List.getElem?_cons_zero, Option.some.injEq] at hx
        subst hx
        rw [h3 r (c + 0) (.inr (.inl (by omega)))]
        unfold place
        rw [if_pos ⟨by omega, by omega, by omega, by omega, hr, by omega⟩]
        simp [slot]
      | succ k =>
        simp only [List.getElem?_cons_succ] at hx
        have := h2 k x hx
        rwa [show c + 1 + k = c + (k + 1) by omega] at this
    · intro i j hij
      simp only [List.length_cons] at hij
      rw [h3 i j (by omega)]
      unfold place
      rw [if_neg (by omega)]

/-- The places of rows of single cells. -/
theorem placeRows_single {emoji : Bytes → Bytes} {rows cols : Nat} (hb : rows < 2147483648 ∧ cols < 2147483648) : ∀ {rs : List Node} {r : Nat} {g : Grid}, (∀ i j, r ≤ i → g i j = none) →
    (∀ n ∈ rs, (∀ c ∈ cellsOf n, Single emoji c) ∧ (cellsOf n).length = cols) → r + rs.length ≤ rows →
    ∃ g', placeRows rows cols r rs g = .val g' ∧ (∀ (i : Nat) (n : Node), rs[i]? = some n → ∀ j : Nat, g' (r + i) j = (cellsOf n)[j]?.map slot) ∧ ∀ i j, i < r ∨ r + rs.length ≤ i → g' i j = g i j
  | [], r, g, _, _, _ => ⟨g, rfl, by simp, fun _ _ _ => rfl⟩
  | n :: rs, r, g, hfree, hs, hr => by
    simp only [List.length_cons] at hr
    have hn := hs n (List.mem_cons_self ..)
    obtain ⟨g1, h1, h2, h3⟩ := placeRow_single (emoji := emoji) (rows := rows) (cols := cols) (r := r) (by omega) hb (cs := cellsOf n) (c := 0) (g := g) (fun j _ => hfree r j (Nat.le_refl _)) hn.1 (by omega)
    obtain ⟨g', h4, h5, h6⟩ := placeRows_single (emoji := emoji) hb (rs := rs) (r := r + 1) (g := g1) (by
      intro i j hi
      rw [h3 i j (.inl (by omega))]
      exact hfree i j (by omega)) (fun x hx => hs x (List.mem_cons_of_mem _ hx)) (by omega)
    refine ⟨g', ?_, ?_, ?_⟩
    · unfold placeRows
      rw [h1, C.val_bind]
      exact h4
    · intro i x hx j
      cases i with
      | zero =>
        simp only [List.getElem?_cons_zero, Option.some.injEq] at hx
        subst hx
        rw [h6 (r + 0) j (.inl (by omega))]
        cases hj : (cellsOf n)[j]? with
        | some y =>
          have := h2 j y hj
          rw [Nat.zero_add] at this
          exact this
        | none =>
          have := List.getElem?_eq_none_iff.1 hj
          rw [Nat.add_zero, h3 r j (.inr (.inr (by omega))), hfree r j (Nat.le_refl _)]
          rfl
      | succ i =>
        simp only [List.getElem?_cons_succ] at hx
        have := h5 i x hx j
        rwa [show r + 1 + i = r + (i + 1) by omega] at this
    · intro i j hij
      simp only [List.length_cons] at hij
      rw [h6 i j (by omega), h3 i j (.inl (by omega))]

/-! ### Lines of single cells -/

/-- The side of a cell: its own, or that of its column in the first row. -/
def sideOf (head cell : Node) : Align := if alignOf cell.attrs ≠ .default then alignOf cell.attrs else alignOf head.attrs

theorem aligned_lead {w l p : Nat} {t : Bytes} {a b : Align} (hp : t.length = p) (hw : p ≤ w) (hab : b = if a = .default then .left else a) (hl : l = leadOf b (w - p)) :
    Aligned w t a (List.replicate l c!" " ++ t ++ List.replicate (w - p - l) c!" ") := by
  subst hp
  cases a with
  | default =>
    simp only [if_true] at hab
    subst hab
    simp only [leadOf] at hl
    subst hl
    exact .left (by simp) (by simp) (by omega)
  | left =>
    simp at hab
    subst hab
    simp only [leadOf] at hl
    subst hl
    exact .left (by simp) (by simp) (by omega)
  | right =>
    simp at hab
    subst hab
    simp only [leadOf] at hl
    subst hl
    have := Aligned.right (w := w) (t := t) (l := w - t.length) (by omega)
    rw [Nat.sub_self]
    simpa using this
  | center =>
    simp at hab
    subst hab
    simp only [leadOf] at hl
    subst hl
    exact .center (by omega) (by omega) (by omega)

section
variable {o : Opt} (ho : Quiet o) {f : Frame} (hf : f.Fits o.emoji)
include hf ho

theorem cell_text (header : Bool) (c : Nat) {n : Node} (h : Single o.emoji n) (hc : c < f.vis) (hw : plainWidth n ≤ f.inner c) {a : Align} (ha : f.align c n = if a = .default then .left else a) :
    ∃ x, Shows (f.cell o header c (slot n)) (b!" " ++ x ++ b!" │") ∧ Aligned (f.inner c) (readAll o.emoji n.kids) a x := by
  have he := even_seens _ h.even
  have hp : plainWidth n = plainWidths n.kids := by
    have hk := h.kind
    cases n with
    | mk k a kids =>
      simp only [Node.kind] at hk
      subst hk
      rfl
  have hroom : f.room c 1 = f.inner c := by
    have := room_tot f (c := c) (span := 1) (by omega) (by omega)
    simp only [Frame.tot] at this
    omega
  have hplain : seens o.emoji n.kids = readAll o.emoji n.kids := by
    refine seens_reads _ ?_
    have : ∀ k, Even o.emoji k → Plain o.emoji k := by
      intro k hk
      cases k <;> first | trivial | exact hk.elim | (show ¬ _; rw [hk.2.1]; exact hk.2.2)
    exact alls_imp this _ h.even
  have hs := shows_cell ho hf header c (slot n) (evens_calm _ h.even)
  have hlead : f.lead c (slot n) = leadOf (f.align c n) (f.inner c - plainWidth n) := by
    unfold Frame.lead leadOf
    simp only [slot, hroom]
    cases f.align c n <;> rfl
  refine ⟨_, ?_, aligned_lead (by rw [← hplain, he.2, ← hp]) hw ha hlead⟩
  simp only [slot, hroom, hplain] at hs
  have e1 : ∀ k, List.replicate (1 + k) c!" " = b!" " ++ List.replicate k c!" " := fun k => by rw [Nat.add_comm, List.replicate_succ]; rfl
  have e2 : ∀ k, List.replicate (1 + k) c!" " = List.replicate k c!" " ++ b!" " := fun k => by rw [Nat.add_comm, List.replicate_succ']
  rw [e1, e2] at hs
  have e3 : b!" │" = b!" " ++ b!"│" := rfl
  rw [e3]
  simp only [List.append_assoc] at hs ⊢
  exact hs

theorem line_text (header : Bool) (r : Nat) : ∀ (n c : Nat) (cs : List Node) (as : List Align), as.length = cs.length → c + cs.length = f.vis → cs.length ≤ n → (∀ j : Nat, f.grid r (c + j) = cs[j]?.map slot) →
    (∀ n ∈ cs, Single o.emoji n) → (∀ (j : Nat) (x : Node), cs[j]? = some x → plainWidth x ≤ f.inner (c + j)) →
    (∀ (j : Nat) (x : Node) (a : Align), cs[j]? = some x → as[j]? = some a → f.align (c + j) x = if a = .default then .left else a) →
    ∃ v, Shows (f.line o header r n c) v ∧ Line ((List.range' c cs.length).map f.inner) ((cs.map fun x => readAll o.emoji x.kids).zip as) v
  | 0, c, cs, as, hl, h1, h2, _, _, _, _ => by
    have : cs = [] := List.length_eq_zero_iff.1 (by omega)
    subst this
    exact ⟨[], shows_calm (s := []) (by simp), .nil⟩
  | n + 1, c, [], as, hl, h1, h2, _, _, _, _ => by
    unfold Frame.line
    rw [if_neg (by simp only [List.length_nil] at h1; omega)]
    exact ⟨[], shows_calm (s := []) (by simp), .nil⟩
  | n + 1, c, x :: cs, [], hl, _, _, _, _, _, _ => by simp at hl
  | n + 1, c, x :: cs, a :: as, hl, h1, h2, hg, hs, hw, ha => by
    simp only [List.length_cons] at h1 h2 hl
    obtain ⟨v, hv, hline⟩ := line_text header r n (c + 1) cs as (by omega) (by omega) (by omega) (by
      intro j
      have := hg (j + 1)
      rwa [show c + (j + 1) = c + 1 + j by omega, List.getElem?_cons_succ] at this) (fun y hy => hs y (List.mem_cons_of_mem _ hy)) (by
      intro j y hy
      have := hw (j + 1) y (by simpa using hy)
      rwa [show c + (j + 1) = c + 1 + j by omega] at this) (by
      intro j y b hy hb
      have := ha (j + 1) y b (by simpa using hy) (by simpa using hb)
      rwa [show c + (j + 1) = c + 1 + j by omega] at this)
    have h0 := hg 0
    simp only [Nat.add_zero, List.getElem?_cons_zero, Option.map_some] at h0
    obtain ⟨y, hy, hal⟩ := cell_text ho hf header c (hs x (List.mem_cons_self ..)) (by omega) (hw 0 x rfl) (a := a) (ha 0 x a rfl rfl)
    unfold Frame.line
    rw [if_pos (by omega), h0]
    simp only [slot, if_true]
    refine ⟨_, hy.append hv, ?_⟩
    rw [List.length_cons, List.range'_succ, List.map_cons, List.map_cons, List.zip_cons_cons]
    exact .cons hal hline

end

/-! ### Tables of single cells -/

theorem strokes_bars (f : Frame) (sep right : Bytes) : ∀ n c, f.bars sep right n c = strokes sep right ((List.range' c n).map f.inner)
  | 0, _ => rfl
  | 1, c => by simp [Frame.bars, strokes]
  | n + 2, c => by
    have e : (List.range' c (n + 2)).map f.inner = f.inner c :: f.inner (c + 1) :: (List.range' (c + 2) n).map f.inner := by
      rw [List.range'_succ, List.range'_succ]
      simp
    have ih := strokes_bars f sep right (n + 1) (c + 1)
    rw [List.range'_succ, List.map_cons] at ih
    rw [e, Frame.bars, strokes, ih]
    · simp
    · simp

theorem worded_equals {n : Node} (h : Worded n) : equals n = false := by
  unfold equals
  split
  · rename_i s hs
    obtain ⟨c, hc, h1, h2⟩ := h s hs
    simp only [Bool.and_eq_false_iff, decide_eq_false_iff_not, List.all_eq_false]
    right
    refine ⟨c, ?_, by simpa using h1⟩
    have keep : ∀ l : Bytes, c ∈ l → c ∈ l.dropWhile isSpace := by
      intro l
      induction l with
      | nil => simp
      | cons x l ih =>
        intro hm
        rw [List.dropWhile_cons]
        split
        · rename_i hx
          rcases List.mem_cons.1 hm with rfl | hm
          · rw [h2] at hx; cases hx
          · exact ih hm
        · exact hm
    exact keep _ (List.mem_reverse.2 (keep _ hc))
  · rfl

theorem cellsOf_all {n : Node} (h : ∀ c ∈ n.kids, c.kind = .cell) : cellsOf n = n.kids := by
  unfold cellsOf
  rw [List.filter_eq_self]
  intro c hc
  simpa using h c hc

theorem rowsOf_all {ns : List Node} (h : ∀ n ∈ ns, n.kind = .row) : rowsOf ns = ns := by
  unfold rowsOf
  rw [List.filter_eq_self]
  intro c hc
  simpa using h c hc

theorem spanSum_single {emoji : Bytes → Bytes} : ∀ {cs : List Node}, (∀ n ∈ cs, Single emoji n) → spanSum cs = cs.length
  | [], _ => rfl
  | n :: cs, h => by
    have := spanSum_single fun x hx => h x (List.mem_cons_of_mem _ hx)
    unfold spanSum at *
    rw [List.map_cons, List.sum_cons, this, span_single (by simp) (h n (List.mem_cons_self ..)).colspan]
    simp
    omega

theorem foldl_max_const {n : Nat} : ∀ (l : List Nat) (a : Nat), (∀ x ∈ l, x = n) → a ≤ n → (l ≠ [] ∨ a = n) → l.foldl max a = n
  | [], a, _, _, h => by simpa using h
  | x :: l, a, hl, ha, _ => by
    have hx := hl x (List.mem_cons_self ..)
    subst hx
    rw [List.foldl_cons, Nat.max_eq_right ha]
    exact foldl_max_const l x (fun y hy => hl y (List.mem_cons_of_mem _ hy)) (Nat.le_refl _) (.inr rfl)

/-- A width is that of some cell, or none. -/
theorem widths_some {g : Grid} {cols : Nat} (hg : ∀ r c s, g r c = some s → s.span = 1) : ∀ (l : List (Nat × Nat)) (ws : Nat → Nat) (j : Nat),
    l.foldl (widen g cols) ws j = ws j ∨ ∃ p ∈ l, p.2 = j ∧ ∃ s, g p.1 p.2 = some s ∧ l.foldl (widen g cols) ws j = plainWidth s.cell
  | [], _, _ => .inl rfl
  | p :: l, ws, j => by
    rw [List.foldl_cons]
    rcases widths_some hg l (widen g cols ws p) j with h | ⟨q, hq, h1, s, h2, h3⟩
    · rw [h]
      have : widen g cols ws p j = ws j ∨ p.2 = j ∧ ∃ s, g p.1 p.2 = some s ∧ widen g cols ws p j = plainWidth s.cell := by
        unfold widen
        cases hs : g p.1 p.2 with
        | none => exact .inl rfl
        | some s =>
          simp only
          split
          · rw [if_pos (hg _ _ _ hs)]
            split
            · rename_i hj
              rcases Nat.le_total (plainWidth s.cell) (ws j) with hm | hm
              · left; rw [Nat.max_eq_right hm]
              · right; exact ⟨hj.symm, s, rfl, Nat.max_eq_left hm⟩
            · exact .inl rfl
          · exact .inl rfl
      rcases this with h | ⟨h1, s, h2, h3⟩
      · exact .inl h
      · exact .inr ⟨p, List.mem_cons_self .., h1, s, h2, h3⟩
    · exact .inr ⟨q, List.mem_cons_of_mem _ hq, h1, s, h2, h3⟩

end Verif.Term
