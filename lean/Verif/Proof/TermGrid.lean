/- Lemmas about the places of cells of a table on a terminal. -/
import Verif.Proof.TermTable

namespace Verif.Term
open Spec TermStyle.Spec

/-! ### Places -/

theorem one_le_int (v : Int) : 1 ≤ (if v ≤ 0 then 1 else v.toNat) := by
  split <;> omega

theorem spanAttr_pos (a : Option Bytes) (w : Bytes) : 1 ≤ spanAttr a w := by
  unfold spanAttr
  split
  · exact Nat.le_refl _
  · split
    · split
      · exact one_le_int _
      · exact Nat.le_refl _
    · exact Nat.le_refl _

/-- Cells are where they are said to be, one beside the other. -/
structure Laid (rows cols : Nat) (g : Grid) : Prop where
  bound : ∀ i j s, g i j = some s → i < rows ∧ j < cols
  owner : ∀ i j s, g i j = some s → s.owner = true → 1 ≤ s.span ∧ j + s.span ≤ cols ∧ ∀ k < s.span, (g i (j + k)).isSome

/-- The columns a row asks for. -/
def spanSum (cs : List Node) : Nat := (cs.map fun c => spanAttr c.attrs b!"colspan").sum

theorem laid_place {rows cols r c w : Nat} {g : Grid} {cell : Node} (hg : Laid rows cols g) (hr : r < rows) (hw : 1 ≤ w) (hc : c + w ≤ cols) : Laid rows cols (place rows cols g r c 1 w cell) := by
  constructor
  · intro i j s hs
    unfold place at hs
    split at hs
    · rename_i h; exact ⟨h.2.2.2.2.1, h.2.2.2.2.2⟩
    · exact hg.bound i j s hs
  · intro i j s hs hown
    unfold place at hs
    split at hs
    · rename_i h
      cases hs
      simp only [decide_eq_true_eq] at hown
      obtain ⟨rfl, rfl⟩ := hown
      refine ⟨hw, hc, ?_⟩
      intro k hk
      unfold place
      rw [if_pos ⟨Nat.le_refl _, by omega, by omega, by simp only at hk; omega, hr, by simp only at hk; omega⟩]
      rfl
    · obtain ⟨h1, h2, h3⟩ := hg.owner i j s hs hown
      refine ⟨h1, h2, ?_⟩
      intro k hk
      unfold place
      split
      · rfl
      · exact h3 k hk

theorem freeCol_free {g : Grid} {r n c : Nat} (h : g r c = none) : freeCol g r n c = c := by
  cases n with
  | zero => rfl
  | succ n => unfold freeCol; rw [h]

theorem placeRow_laid {rows cols r : Nat} (hr : r < rows) : ∀ {cs : List Node} {c : Nat} {g g' : Grid}, Laid rows cols g → (∀ i j, r ≤ i → (i = r → c ≤ j) → g i j = none) →
    (∀ n ∈ cs, spanAttr n.attrs b!"rowspan" = 1) → c + spanSum cs ≤ cols → placeRow rows cols r c cs g = .val g' → Laid rows cols g' ∧ ∀ i j, r + 1 ≤ i → g' i j = none
  | [], c, g, g', hg, hfree, _, _, h => by
    simp only [placeRow, C.val.injEq] at h
    subst h
    exact ⟨hg, fun i j hi => hfree i j (by omega) (by omega)⟩
  | n :: cs, c, g, g', hg, hfree, hspan, hc, h => by
    have hsum : spanSum (n :: cs) = spanAttr n.attrs b!"colspan" + spanSum cs := by simp [spanSum]
    have hw := spanAttr_pos n.attrs b!"colspan"
    rw [hsum] at hc
    have hone := hspan n (List.mem_cons_self ..)
    have hrest : ∀ x ∈ cs, spanAttr x.attrs b!"rowspan" = 1 := fun x hx => hspan x (List.mem_cons_of_mem _ hx)
    unfold placeRow at h
    simp only [hone] at h
    rw [freeCol_free (hfree r c (Nat.le_refl _) fun _ => Nat.le_refl _)] at h
    split at h
    · split at h
      · exact placeRow_laid hr hg (fun i j h1 h2 => hfree i j h1 fun e => by have := h2 e; omega) hrest (by omega) h
      · cases h
    · rw [if_neg (by omega)] at h
      split at h
      · refine placeRow_laid hr (laid_place hg hr hw (by omega)) ?_ hrest (by omega) h
        intro i j h1 h2
        unfold place
        rw [if_neg (by
          intro hx
          have hi : i = r := by omega
          have := h2 hi
          omega)]
        exact hfree i j h1 fun e => by have := h2 e; omega
      · cases h

theorem placeRows_laid {rows cols : Nat} : ∀ {rs : List Node} {r : Nat} {g g' : Grid}, Laid rows cols g → (∀ i j, r ≤ i → g i j = none) → r + rs.length ≤ rows →
    (∀ n ∈ rs, (∀ c ∈ cellsOf n, spanAttr c.attrs b!"rowspan" = 1) ∧ spanSum (cellsOf n) ≤ cols) → placeRows rows cols r rs g = .val g' → Laid rows cols g'
  | [], r, g, g', hg, _, _, _, h => by
    simp only [placeRows, C.val.injEq] at h
    exact h ▸ hg
  | n :: rs, r, g, g', hg, hfree, hr, hc, h => by
    unfold placeRows at h
    simp only [List.length_cons] at hr
    cases h1 : placeRow rows cols r 0 (cellsOf n) g with
    | ub => rw [h1, C.ub_bind] at h; cases h
    | val g1 =>
      rw [h1, C.val_bind] at h
      have hn := hc n (List.mem_cons_self ..)
      obtain ⟨h2, h3⟩ := placeRow_laid (by omega) hg (fun i j hi _ => hfree i j hi) hn.1 (by omega) h1
      exact placeRows_laid h2 h3 (by omega) (fun x hx => hc x (List.mem_cons_of_mem _ hx)) h

/-! ### Greatest elements -/

theorem foldl_max_le : ∀ (l : List Nat) (a : Nat), a ≤ l.foldl max a
  | [], a => Nat.le_refl _
  | x :: l, a => Nat.le_trans (Nat.le_max_left a x) (foldl_max_le l (max a x))

theorem foldl_max_mem : ∀ (l : List Nat) (a x : Nat), x ∈ l → x ≤ l.foldl max a
  | y :: l, a, x, h => by
    rcases List.mem_cons.1 h with rfl | h
    · exact Nat.le_trans (Nat.le_max_right a x) (foldl_max_le l (max a x))
    · exact foldl_max_mem l _ x h

theorem foldl_max_bound : ∀ (l : List Nat) (a b : Nat), a ≤ b → (∀ x ∈ l, x ≤ b) → l.foldl max a ≤ b
  | [], _, _, h, _ => h
  | x :: l, a, b, h, hl => foldl_max_bound l (max a x) b (Nat.max_le.2 ⟨h, hl x (List.mem_cons_self ..)⟩) fun y hy => hl y (List.mem_cons_of_mem _ hy)

theorem mem_places {rows cols r c : Nat} : (r, c) ∈ places rows cols ↔ r < rows ∧ c < cols := by simp [places]

theorem visual_ge {g : Grid} {rows cols r c : Nat} (hr : r < rows) (hc : c < cols) (h : (g r c).isSome) : c + 1 ≤ visual g rows cols := by
  refine foldl_max_mem _ _ _ ?_
  refine List.mem_map.2 ⟨(r, c), ?_, rfl⟩
  exact List.mem_filter.2 ⟨mem_places.2 ⟨hr, hc⟩, h⟩

theorem colsOf_ge {rs : List Node} {n : Node} (h : n ∈ rs) : spanSum (cellsOf n) ≤ colsOf rs := foldl_max_mem _ _ _ (List.mem_map.2 ⟨n, h, rfl⟩)

/-! ### Widths -/

theorem widen_mono (g : Grid) (cols : Nat) (ws : Nat → Nat) (p : Nat × Nat) (j : Nat) : ws j ≤ widen g cols ws p j := by
  unfold widen
  cases g p.1 p.2 with
  | none => exact Nat.le_refl _
  | some s =>
    by_cases h : s.owner = true
    · by_cases h1 : s.span = 1
      · simp only [h, h1, if_true]
        split
        · exact Nat.le_max_right _ _
        · exact Nat.le_refl _
      · simp only [h, h1, if_true, if_false]
        split
        · exact Nat.le_max_right _ _
        · exact Nat.le_refl _
    · simp only [h, Bool.false_eq_true, if_false]
      exact Nat.le_refl _

theorem widths_mono (g : Grid) (cols : Nat) : ∀ (l : List (Nat × Nat)) (ws : Nat → Nat) (j : Nat), ws j ≤ l.foldl (widen g cols) ws j
  | [], _, _ => Nat.le_refl _
  | p :: l, ws, j => Nat.le_trans (widen_mono g cols ws p j) (widths_mono g cols l _ j)

theorem widths_mem (g : Grid) (cols : Nat) : ∀ (l : List (Nat × Nat)) (ws : Nat → Nat) (p : Nat × Nat), p ∈ l → ∃ ws', ∀ j, widen g cols ws' p j ≤ l.foldl (widen g cols) ws j
  | q :: l, ws, p, h => by
    rcases List.mem_cons.1 h with rfl | h
    · exact ⟨ws, fun j => widths_mono g cols l _ j⟩
    · exact widths_mem g cols l _ p h

/-- The columns of a cell are wide enough for it. -/
theorem widths_ge {g : Grid} {rows cols r c : Nat} {s : Slot} (hg : Laid rows cols g) (h : g r c = some s) (hown : s.owner = true) :
    ∀ k < s.span, (plainWidth s.cell + s.span - 1) / s.span ≤ widths g rows cols (c + k) := by
  intro k hk
  have hb := hg.bound r c s h
  obtain ⟨h1, h2, _⟩ := hg.owner r c s h hown
  obtain ⟨ws, hws⟩ := widths_mem g cols (places rows cols) (fun _ => 0) (r, c) (mem_places.2 hb)
  refine Nat.le_trans ?_ (hws (c + k))
  unfold widen
  simp only [h, hown, if_true]
  split
  · rename_i h1s
    rw [h1s] at hk ⊢
    have : k = 0 := by omega
    subst this
    simp only
    rw [if_pos (Nat.add_zero c), Nat.div_one]
    exact Nat.le_max_left _ _
  · simp only
    rw [if_pos ⟨by omega, by omega, by omega⟩]
    exact Nat.le_max_left _ _

theorem tot_ge (f : Frame) {p : Nat} : ∀ n c, (∀ k < n, p ≤ f.inner (c + k)) → n * (p + 3) ≤ f.tot n c
  | 0, _, _ => by simp
  | n + 1, c, h => by
    have h0 := h 0 (by omega)
    have := tot_ge f (p := p) n (c + 1) fun k hk => by have := h (k + 1) (by omega); rwa [show c + (k + 1) = c + 1 + k by omega] at this
    rw [Frame.tot, Nat.succ_mul]
    simp only [Nat.add_zero] at h0
    omega

theorem ceil_mul {w n : Nat} (h : 1 ≤ n) : w ≤ n * ((w + n - 1) / n) := by
  have h1 := Nat.div_add_mod (w + n - 1) n
  have h2 := Nat.mod_lt (w + n - 1) h
  omega

/-- A table whose cells are laid out fits its frame. -/
theorem fits_of_laid {g : Grid} {rows cols n : Nat} {border : Bytes} {emoji : Bytes → Bytes} (hg : Laid rows cols g) (hb : Shows border [])
    (hc : ∀ r c s, g r c = some s → Alls (Even emoji) s.cell.kids ∧ s.cell.kind = .cell) :
    (Frame.mk g (visual g rows cols) (widths g rows cols) border (spaces n)).Fits emoji := by
  refine ⟨hb, ⟨n, rfl⟩, ?_⟩
  intro r c s hs hown
  simp only at hs
  have hbd := hg.bound r c s hs
  obtain ⟨h1, h2, h3⟩ := hg.owner r c s hs hown
  have hv : c + s.span ≤ visual g rows cols := by
    have := visual_ge (g := g) (rows := rows) (cols := cols) (r := r) (c := c + (s.span - 1)) hbd.1 (by omega) (h3 (s.span - 1) (by omega))
    omega
  refine ⟨h1, hv, ?_, (hc r c s hs).1, (hc r c s hs).2⟩
  have hroom := room_tot (Frame.mk g (visual g rows cols) (widths g rows cols) border (spaces n)) h1 hv
  have htot := tot_ge (Frame.mk g (visual g rows cols) (widths g rows cols) border (spaces n)) (p := (plainWidth s.cell + s.span - 1) / s.span) s.span c (by
    intro k hk
    have := widths_ge hg hs hown k hk
    unfold Frame.inner
    simp only
    split
    · exact this
    · omega)
  have := ceil_mul (w := plainWidth s.cell) h1
  rw [Nat.mul_add] at htot
  omega

end Verif.Term
