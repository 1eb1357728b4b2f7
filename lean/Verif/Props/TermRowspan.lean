import Verif.Props.TermTable

namespace Verif.Term

/-! ### C207: cells that take several rows keep their places -/

/-- From row `r` on, what is taken in a column is taken from that row on without a gap. -/
def Dense (g : Grid) (r : Nat) : Prop := ∀ i j, r ≤ i → g i j ≠ none → ∀ i', r ≤ i' → i' ≤ i → g i' j ≠ none

/-- No cell of the rows asks for more than one column. -/
def Narrowed (rows : List Node) : Prop := ∀ row ∈ rows, ∀ c ∈ cellsOf row, spanAttr c.attrs b!"colspan" = 1

theorem freeCol_none {g : Grid} {r : Nat} : ∀ {n c : Nat}, freeCol g r n c < c + n → g r (freeCol g r n c) = none
  | 0, c, h => by simp only [freeCol] at h; omega
  | n + 1, c, h => by
    cases e : g r c with
    | none => rw [freeCol, e]; exact e
    | some s =>
      have hf : freeCol g r (n + 1) c = freeCol g r n (c + 1) := by rw [freeCol, e]
      rw [hf] at h ⊢
      exact freeCol_none (by omega)

theorem placeRow_keeps {rows cols r : Nat} : ∀ (cs : List Node) (c : Nat) (g g' : Grid), (∀ x ∈ cs, spanAttr x.attrs b!"colspan" = 1) → Dense g r →
    placeRow rows cols r c cs g = .val g' → Dense g' r ∧ ∀ i j s, g i j = some s → g' i j = some s
  | [], c, g, g', _, hd, h => by
    rw [placeRow] at h
    cases h
    exact ⟨hd, fun _ _ _ e => e⟩
  | x :: cs, c, g, g', hw, hd, h => by
    rw [placeRow] at h
    simp only [hw x (by simp)] at h
    split at h
    · split at h
      · exact placeRow_keeps cs _ g g' (fun y hy => hw y (by simp [hy])) hd h
      · cases h
    · split at h
      · cases h
        exact ⟨hd, fun _ _ _ e => e⟩
      · split at h
        · rename_i hc _
          have hfree : g r (freeCol g r (cols - c) c) = none := freeCol_none (by omega)
          generalize freeCol g r (cols - c) c = c' at h hc hfree
          have hd' : Dense (place rows cols g r c' (spanAttr x.attrs b!"rowspan") 1 x) r := by
            intro i j hi hs i' hi' hle
            unfold place at hs ⊢
            split
            · simp
            · rename_i hn
              split at hs
              · exfalso
                apply hn
                omega
              · exact hd i j hi hs i' hi' hle
          obtain ⟨h1, h2⟩ := placeRow_keeps cs _ _ g' (fun y hy => hw y (by simp [hy])) hd' h
          refine ⟨h1, fun i j s e => h2 i j s ?_⟩
          unfold place
          rw [if_neg]
          · exact e
          · rintro ⟨a, _, b, b', _⟩
            have : j = c' := by omega
            subst this
            exact hd i j a (by rw [e]; simp) r (Nat.le_refl _) a hfree
        · cases h

theorem placeRows_keeps {rows cols : Nat} : ∀ (rs : List Node) (r : Nat) (g g' : Grid), Narrowed rs → Dense g r →
    placeRows rows cols r rs g = .val g' → ∀ i j s, g i j = some s → g' i j = some s
  | [], r, g, g', _, _, h => by
    rw [placeRows] at h
    cases h
    exact fun _ _ _ e => e
  | row :: rs, r, g, g', hw, hd, h => by
    rw [placeRows] at h
    cases h1 : placeRow rows cols r 0 (cellsOf row) g with
    | ub => rw [h1] at h; cases h
    | val g1 =>
      rw [h1] at h
      obtain ⟨hd1, hk⟩ := placeRow_keeps _ _ _ _ (hw row (by simp)) hd h1
      have hd2 : Dense g1 (r + 1) := fun i j hi hs i' hi' hle => hd1 i j (by omega) hs i' (by omega) hle
      exact fun i j s e => placeRows_keeps rs (r + 1) g1 g' (fun y hy => hw y (by simp [hy])) hd2 h i j s (hk i j s e)

theorem placeRows_append {rows cols : Nat} : ∀ (a b : List Node) (r : Nat) (g g1 : Grid), placeRows rows cols r a g = .val g1 →
    placeRows rows cols r (a ++ b) g = placeRows rows cols (r + a.length) b g1
  | [], b, r, g, g1, h => by
    rw [placeRows] at h
    cases h
    rfl
  | x :: a, b, r, g, g1, h => by
    rw [placeRows] at h
    rw [List.cons_append, placeRows]
    cases h1 : placeRow rows cols r 0 (cellsOf x) g with
    | ub => rw [h1] at h; cases h
    | val g2 =>
      rw [h1] at h
      have := placeRows_append a b (r + 1) g2 g1 h
      rw [List.length_cons, show r + (a.length + 1) = r + 1 + a.length by omega]
      exact this

theorem placeRows_dense {rows cols : Nat} : ∀ (rs : List Node) (r : Nat) (g g' : Grid), Narrowed rs → Dense g r →
    placeRows rows cols r rs g = .val g' → Dense g' (r + rs.length)
  | [], r, g, g', _, hd, h => by
    rw [placeRows] at h
    cases h
    exact hd
  | row :: rs, r, g, g', hw, hd, h => by
    rw [placeRows] at h
    cases h1 : placeRow rows cols r 0 (cellsOf row) g with
    | ub => rw [h1] at h; cases h
    | val g1 =>
      rw [h1] at h
      obtain ⟨hd1, _⟩ := placeRow_keeps _ _ _ _ (hw row (by simp)) hd h1
      have hd2 : Dense g1 (r + 1) := fun i j hi hs i' hi' hle => hd1 i j (by omega) hs i' (by omega) hle
      have := placeRows_dense rs (r + 1) g1 g' (fun y hy => hw y (by simp [hy])) hd2 h
      rw [List.length_cons, show r + (rs.length + 1) = r + 1 + rs.length by omega]
      exact this

/-- C207: the rows of a table that come later take no place from a cell that is there, however many rows it takes.  Missing: cells that
take several columns, where it fails (`C207_over`). -/
theorem C207_kept_partial {rows cols : Nat} {a b : List Node} {g1 g : Grid} (hw : Narrowed (a ++ b)) (h1 : placeRows rows cols 0 a (fun _ _ => none) = .val g1)
    (h : placeRows rows cols 0 (a ++ b) (fun _ _ => none) = .val g) (i j : Nat) (s : Slot) (e : g1 i j = some s) : g i j = some s := by
  have h0 : Dense (fun _ _ => none : Grid) 0 := fun i j _ hs => absurd rfl hs
  rw [placeRows_append a b 0 _ g1 h1] at h
  exact placeRows_keeps b _ g1 g (fun y hy => hw y (by simp [hy])) (placeRows_dense a 0 _ g1 (fun y hy => hw y (by simp [hy])) h0 h1) h i j s e

/-- A cell that takes two rows. -/
def tall (t : Bytes) : Node := .mk .cell (some b!" rowspan=\"2\"") [.mk (.text t) none []]

/-- The only cell of the second row is in the second column, as the first one is taken. -/
theorem C207_tall : drawn [.mk .row none [tall b!"A", .mk .cell none [.mk (.text b!"b") none []]], row [b!"c"], row [b!"d", b!"e"]] =
    .val b!"┌───┬───┐\n│ A │ b │\n├───┼───┤\n│   │ c │\n│ d │ e │\n└───┴───┘\n\n" := by decide +kernel

/-- C207 fails: a cell that takes two columns is put over one that takes two rows. -/
theorem C207_over : drawn [.mk .row none [.mk .cell none [.mk (.text b!"a") none []], tall b!"B"], .mk .row none (wide b!"c")] =
    .val b!"┌───┬───┐\n│ a │ B │\n├───┼───┤\n│ c     │\n└───┴───┘\n\n" := by decide +kernel

/-- C207: the alignment of a cell, for the attributes that apex writes (advanced_tables.c:560) and those of HTML. -/
theorem C207_align : alignOf (some b!" style=\"text-align: center\"") = .center ∧ alignOf (some b!" style=\"text-align: right\"") = .right ∧ alignOf (some b!" style=\"text-align: left\"") = .left ∧
    alignOf (some b!" align=\"center\"") = .center ∧ alignOf (some b!" align=\"right\"") = .right ∧ alignOf (some b!" align=\"left\"") = .left ∧ alignOf (some b!" colspan=\"2\"") = .default ∧
    alignOf none = .default := by decide +kernel

end Verif.Term
