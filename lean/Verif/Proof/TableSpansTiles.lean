import Verif.Proof.TableSpans

namespace Verif.TableSpans
open ElemAttrs (has has_iff has_not)
open Spec (NoBlock Blank Padded Rule words word Colon Colonless Holds Clean Dash At Sound Lefts Ups attr mark Kept Covers Tiles RuleRow Aligned)

theorem cellAt_lt {t : List Row} {r c : Nat} {x : Cell} (h : cellAt t r c = some x) : r < t.length := by
  rcases Nat.lt_or_ge r t.length with h' | h'
  · exact h'
  · unfold cellAt at h; rw [List.getElem?_eq_none h'] at h; cases h

theorem left_not_up {x : Cell} (h : Spec.Left x) (h' : Spec.Up x) : False := by
  have := left_isUp h; rw [up_isUp h'] at this; cases this

theorem at_unique {t : List Row} {p q : Cell → Prop} {r c : Nat} (hpq : ∀ x, p x → q x → False) (h1 : At t p r c) (h2 : At t q r c) : False := by
  obtain ⟨x, e1, h1⟩ := h1
  obtain ⟨y, e2, h2⟩ := h2
  rw [e1] at e2
  simp only [Option.some.injEq] at e2
  rw [← e2] at h2
  exact hpq x h1 h2

/-- The marks of a table. -/
theorem marks {al : Bool} {t : List Row} (hs : Sound al t) :
    ∃ t', spans al t = .val t' ∧ t'.map Row.data = t.map Row.data ∧ (∀ r c, cellAt t r c = none → cellAt t' r c = none) ∧
      ∀ r c x, cellAt t r c = some x → ∃ y, cellAt t' r c = some y ∧ y.kids = x.kids ∧ y.src = x.src ∧
        (Spec.Left x ∨ Spec.Up x → y.data = some b!" data-remove=\"true\"") ∧
        (Spec.Text al x → ∃ n m, Lefts t r c n ∧ Ups t r c m ∧ y.data = mark x.data n m) := by
  obtain ⟨s, N, hN, hi, e⟩ := sound_inv hs
  have hd : s.above.map Row.data = t.map Row.data := by rw [hi.data, List.take_of_length_le hN]
  have hlen : s.above.length = t.length := by simpa using congrArg List.length hd
  refine ⟨s.above, e, hd, fun r c h => ?_, fun r c x hx => ?_⟩
  · by_cases hr : r < N
    · exact hi.none r c hr h
    · unfold cellAt; rw [List.getElem?_eq_none (by omega)]; rfl
  · have hrt := cellAt_lt hx
    have hr : r < N := by omega
    rcases reads_of hs hx with ⟨h, h1, h2⟩ | ⟨h, h1⟩ | ⟨h, h1, h2⟩
    · obtain ⟨row, m, e1, ⟨e2, e3, e4⟩, e5⟩ := hi.text r c x hr hx h
      refine ⟨_, e5, rfl, rfl, ?_, fun _ => ?_⟩
      · rintro (h' | h')
        · exact (text_not_left h h').elim
        · exact (text_not_up h h').elim
      · obtain ⟨k1, k2⟩ := trail_spec (row.cells.drop (c + 1))
        have hwide := hs.wide row (List.mem_of_getElem? e1)
        have hk : trail 0 (row.cells.drop (c + 1)) < 10 ^ 8 := by
          rcases Nat.lt_or_ge (trail 0 (row.cells.drop (c + 1))) 51 with h' | h'
          · omega
          · obtain ⟨y, hy, -⟩ := k1 50 (by omega)
            rw [List.getElem?_drop, List.getElem?_eq_none (by omega)] at hy
            cases hy
        have hm : m < 2 ^ 31 := by
          have ht := hs.tall
          rcases Nat.eq_zero_or_pos m with h' | h'
          · omega
          · obtain ⟨y, hy, -⟩ := e2 (r + m) (by omega) (by omega)
            have := cellAt_lt hy
            omega
        refine ⟨trail 0 (row.cells.drop (c + 1)), m, ⟨fun j hj1 hj2 => ?_, ?_⟩, ⟨e2, ?_⟩, mark_eq (text_fresh h) hk hm⟩
        · obtain ⟨y, hy, hl⟩ := k1 (j - (c + 1)) (by omega)
          rw [List.getElem?_drop, show c + 1 + (j - (c + 1)) = j by omega, ← cellAt_some e1] at hy
          rcases reads_of hs hy with ⟨_, h', _⟩ | ⟨h', _⟩ | ⟨_, h', _⟩
          · rw [hl] at h'; cases h'
          · exact ⟨y, hy, h'⟩
          · rw [hl] at h'; cases h'
        · rintro ⟨y, hy, hl⟩
          rw [cellAt_some e1] at hy
          have := k2 y (by rw [List.getElem?_drop, ← hy]; congr 1; omega)
          rw [show lf y = true from left_isLeft hl] at this
          cases this
        · intro hu
          by_cases h' : r + m + 1 < N
          · exact e4 h' hu
          · obtain ⟨y, hy, -⟩ := hu
            have := cellAt_lt hy
            omega
    · refine ⟨_, hi.gone r c x hr hx (.inl h1), rfl, rfl, fun _ => rfl, fun h' => (text_not_left h' h).elim⟩
    · refine ⟨_, hi.gone r c x hr hx (.inr h2), rfl, rfl, fun _ => rfl, fun h' => (text_not_up h' h).elim⟩

theorem attr_no {w w' : Bytes} {n : Nat} (c : Byte) (hw : c ∈ w) (h : c ∉ w') (hd : isDigit c = false) (h1 : c ≠ c!" ") (h2 : c ≠ c!"=") (h3 : c ≠ c!"\"") :
    ¬ w <:+: attr w' n := not_infix_of_not_mem hw (attr_not h hd h1 h2 h3)

theorem fresh_covers {d : Option Bytes} (h : Fresh d) : ∀ s, d = some s → ¬ b!"colspan" <:+: s ∧ ¬ b!"rowspan" <:+: s ∧ ¬ b!"data-remove" <:+: s := by
  intro s hs
  rcases h with rfl | ⟨s', rfl, h1, h2, h3, h4⟩
  · cases hs
  · simp only [Option.some.injEq] at hs
    rw [← hs]
    exact ⟨h2, h3, fun h => h4 (List.IsInfix.trans ⟨[], b!"remove", rfl⟩ h)⟩

theorem mark_covers {x y : Cell} {n m : Nat} (hf : Fresh x.data) (hy : y.data = mark x.data n m) (hnm : n = 0 ∨ m = 0) :
    Kept y ∧ Covers b!"colspan" y (n + 1) ∧ Covers b!"rowspan" y (m + 1) := by
  have key : ∀ s, y.data = some s → s = attr b!"colspan" (n + 1) ∧ 0 < n ∧ m = 0 ∨ s = attr b!"rowspan" (m + 1) ∧ 0 < m ∧ n = 0 ∨
      (n = 0 ∧ m = 0 ∧ ¬ b!"colspan" <:+: s ∧ ¬ b!"rowspan" <:+: s ∧ ¬ b!"data-remove" <:+: s) := by
    intro s hs
    rw [hy] at hs
    match n, m, hnm with
    | 0, 0, _ => exact .inr (.inr ⟨rfl, rfl, fresh_covers hf s hs⟩)
    | n + 1, 0, _ => simp only [mark, Option.some.injEq] at hs; exact .inl ⟨hs.symm, by omega, rfl⟩
    | 0, m + 1, _ => simp only [mark, Option.some.injEq] at hs; exact .inr (.inl ⟨hs.symm, by omega, rfl⟩)
  refine ⟨fun s hs => ?_, ?_, ?_⟩
  · rcases key s hs with ⟨rfl, _⟩ | ⟨rfl, _⟩ | ⟨_, _, _, _, h⟩
    · exact attr_no c!"v" (by decide) (by decide) (by decide) (by decide) (by decide) (by decide)
    · exact attr_no c!"v" (by decide) (by decide) (by decide) (by decide) (by decide) (by decide)
    · exact h
  · rcases Nat.eq_zero_or_pos n with h0 | h0
    · refine .inr ⟨by omega, fun s hs => ?_⟩
      rcases key s hs with ⟨_, h, _⟩ | ⟨rfl, _⟩ | ⟨_, _, h, _⟩
      · omega
      · exact attr_no c!"c" (by decide) (by decide) (by decide) (by decide) (by decide) (by decide)
      · exact h
    · left
      obtain ⟨n', rfl⟩ : ∃ n', n = n' + 1 := ⟨n - 1, by omega⟩
      have hm : m = 0 := by omega
      subst hm
      exact ⟨_, hy, ⟨[], [], by simp⟩⟩
  · rcases Nat.eq_zero_or_pos m with h0 | h0
    · refine .inr ⟨by omega, fun s hs => ?_⟩
      rcases key s hs with ⟨rfl, _⟩ | ⟨_, h, _⟩ | ⟨_, _, _, h, _⟩
      · exact attr_no c!"r" (by decide) (by decide) (by decide) (by decide) (by decide) (by decide)
      · omega
      · exact h
    · left
      obtain ⟨m', rfl⟩ : ∃ m', m = m' + 1 := ⟨m - 1, by omega⟩
      have hn : n = 0 := by omega
      subst hn
      exact ⟨_, hy, ⟨[], [], by simp⟩⟩

/-- Cells are joined in one direction: the table is covered. -/
theorem tiles {al : Bool} {t : List Row} (hs : Sound al t) (hb : NoBlock al t) : ∃ t', spans al t = .val t' ∧ Tiles t' := by
  obtain ⟨t', e, -, hnone, hsome⟩ := marks hs
  have hch : ∀ p : Nat × Nat, ∃ q : Nat × Nat, ∀ x, cellAt t p.1 p.2 = some x → Spec.Text al x →
      Lefts t p.1 p.2 q.1 ∧ Ups t p.1 p.2 q.2 ∧ ∀ y, cellAt t' p.1 p.2 = some y → y.data = mark x.data q.1 q.2 := by
    intro p
    cases hx : cellAt t p.1 p.2 with
    | none => exact ⟨(0, 0), fun x h => by cases h⟩
    | some x =>
      rcases reads_of hs hx with ⟨h, _⟩ | ⟨h, _⟩ | ⟨h, _⟩
      · obtain ⟨y, hy, -, -, -, hm⟩ := hsome _ _ x hx
        obtain ⟨n, m, h1, h2, h3⟩ := hm h
        refine ⟨(n, m), fun x' hx' _ => ?_⟩
        simp only [Option.some.injEq] at hx'
        subst hx'
        refine ⟨h1, h2, fun y' hy' => ?_⟩
        rw [hy] at hy'
        simp only [Option.some.injEq] at hy'
        rw [← hy']; exact h3
      · refine ⟨(0, 0), fun x' hx' h' => ?_⟩
        simp only [Option.some.injEq] at hx'
        subst hx'
        exact (text_not_left h' h).elim
      · refine ⟨(0, 0), fun x' hx' h' => ?_⟩
        simp only [Option.some.injEq] at hx'
        subst hx'
        exact (text_not_up h' h).elim
  obtain ⟨f, hf⟩ := Classical.axiomOfChoice hch
  have hone : ∀ r c, At t (Spec.Text al) r c → (f (r, c)).1 = 0 ∨ (f (r, c)).2 = 0 := by
    rintro r c ⟨x, hx, htx⟩
    obtain ⟨h1, h2, -⟩ := hf (r, c) x hx htx
    rcases Nat.eq_zero_or_pos (f (r, c)).1 with h | h
    · exact .inl h
    rcases Nat.eq_zero_or_pos (f (r, c)).2 with h' | h'
    · exact .inr h'
    exact absurd ⟨h1.1 (c + 1) (by omega) (by simp only []; omega), h2.1 (r + 1) (by omega) (by simp only []; omega)⟩ (hb r c ⟨x, hx, htx⟩)
  have hlefts : ∀ r c, At t (Spec.Text al) r c → Lefts t r c (f (r, c)).1 := fun r c ⟨x, hx, htx⟩ => (hf (r, c) x hx htx).1
  have hups : ∀ r c, At t (Spec.Text al) r c → Ups t r c (f (r, c)).2 := fun r c ⟨x, hx, htx⟩ => (hf (r, c) x hx htx).2.1
  -- the cells shown are those of their own
  have hkept : ∀ r c y, cellAt t' r c = some y → Kept y → At t (Spec.Text al) r c := by
    intro r c y hy hk
    cases hx : cellAt t r c with
    | none => rw [hnone r c hx] at hy; cases hy
    | some x =>
      obtain ⟨y', hy', -, -, hg, -⟩ := hsome r c x hx
      rw [hy] at hy'
      simp only [Option.some.injEq] at hy'
      subst hy'
      rcases reads_of hs hx with ⟨h, _⟩ | ⟨h, _⟩ | ⟨h, _⟩
      · exact ⟨x, hx, h⟩
      · exact absurd ⟨b!" ", b!"=\"true\"", rfl⟩ (hk _ (hg (.inl h)))
      · exact absurd ⟨b!" ", b!"=\"true\"", rfl⟩ (hk _ (hg (.inr h)))
  have hown : ∀ r c, At t (Spec.Text al) r c → ∃ y, cellAt t' r c = some y ∧ Kept y ∧ Covers b!"colspan" y ((f (r, c)).1 + 1) ∧ Covers b!"rowspan" y ((f (r, c)).2 + 1) := by
    rintro r c ⟨x, hx, htx⟩
    obtain ⟨y, hy, -⟩ := hsome r c x hx
    exact ⟨y, hy, mark_covers (text_fresh htx) ((hf (r, c) x hx htx).2.2 y hy) (hone r c ⟨x, hx, htx⟩)⟩
  have hin : ∀ i j, (cellAt t i j).isSome → (cellAt t' i j).isSome := by
    intro i j h
    obtain ⟨x, hx⟩ := Option.isSome_iff_exists.1 h
    obtain ⟨y, hy, -⟩ := hsome i j x hx
    rw [hy]; rfl
  have hat : ∀ {p : Cell → Prop} {i j}, At t p i j → (cellAt t i j).isSome := fun ⟨x, hx, _⟩ => by rw [hx]; rfl
  have exTU : ∀ {r c}, At t (Spec.Text al) r c → At t Spec.Up r c → False := fun h h' => at_unique (fun _ => text_not_up) h h'
  have exTL : ∀ {r c}, At t (Spec.Text al) r c → At t Spec.Left r c → False := fun h h' => at_unique (fun _ => text_not_left) h h'
  have exLU : ∀ {r c}, At t Spec.Left r c → At t Spec.Up r c → False := fun h h' => at_unique (fun _ => left_not_up) h h'
  -- what a place covered by a cell is
  have hcov : ∀ r c i j, At t (Spec.Text al) r c → r ≤ i → i < r + ((f (r, c)).2 + 1) → c ≤ j → j < c + ((f (r, c)).1 + 1) →
      (r = i ∧ c = j) ∨ (r = i ∧ c < j ∧ ∀ k, c < k → k ≤ j → At t Spec.Left i k) ∨ (c = j ∧ r < i ∧ ∀ k, r < k → k ≤ i → At t Spec.Up k j) := by
    intro r c i j h h1 h2 h3 h4
    have ho := hone r c h
    rcases Nat.lt_or_ge c j with h5 | h5
    · have : (f (r, c)).2 = 0 := by omega
      have hri : r = i := by omega
      subst hri
      exact .inr (.inl ⟨rfl, h5, fun k hk1 hk2 => (hlefts r c h).1 k hk1 (by omega)⟩)
    · have hcj : c = j := by omega
      subst hcj
      rcases Nat.lt_or_ge r i with h6 | h6
      · exact .inr (.inr ⟨rfl, h6, fun k hk1 hk2 => (hups r c h).1 k hk1 (by omega)⟩)
      · exact .inl ⟨by omega, rfl⟩
  refine ⟨t', e, fun r c => (f (r, c)).1 + 1, fun r c => (f (r, c)).2 + 1, ?_, ?_, ?_⟩
  · intro r c y hy hk
    obtain ⟨y', hy', -, h1, h2⟩ := hown r c (hkept r c y hy hk)
    rw [hy] at hy'
    simp only [Option.some.injEq] at hy'
    subst hy'
    exact ⟨h1, h2⟩
  · intro r c y hy hk i j h1 h2 h3 h4
    rcases hcov r c i j (hkept r c y hy hk) h1 h2 h3 h4 with ⟨rfl, rfl⟩ | ⟨rfl, h5, h6⟩ | ⟨rfl, h5, h6⟩
    · rw [hy]; rfl
    · exact hin _ _ (hat (h6 j h5 (Nat.le_refl _)))
    · exact hin _ _ (hat (h6 i h5 (Nat.le_refl _)))
  · intro i j hij
    have hx : ∃ x, cellAt t i j = some x := by
      cases hx : cellAt t i j with
      | none => rw [hnone i j hx] at hij; cases hij
      | some x => exact ⟨x, rfl⟩
    obtain ⟨x, hx⟩ := hx
    have hK : ∀ r c, At t' Kept r c → At t (Spec.Text al) r c := fun r c ⟨y, hy, hk⟩ => hkept r c y hy hk
    rcases reads_of hs hx with ⟨h, _⟩ | ⟨h, _⟩ | ⟨h, _⟩
    · obtain ⟨y, hy, hk, -⟩ := hown i j ⟨x, hx, h⟩
      refine ⟨i, j, ⟨⟨y, hy, hk⟩, Nat.le_refl _, Nat.lt_add_of_pos_right (Nat.succ_pos _), Nat.le_refl _, Nat.lt_add_of_pos_right (Nat.succ_pos _)⟩, ?_⟩
      intro r' c' hk' h1 h2 h3 h4
      rcases hcov r' c' i j (hK r' c' hk') h1 h2 h3 h4 with h5 | ⟨_, h5, h6⟩ | ⟨_, h5, h6⟩
      · exact h5
      · exact (exTL ⟨x, hx, h⟩ (h6 j h5 (Nat.le_refl _))).elim
      · exact (exTU ⟨x, hx, h⟩ (h6 i h5 (Nat.le_refl _))).elim
    · obtain ⟨c, hc, hct, hcb⟩ := hs.left i j ⟨x, hx, h⟩
      obtain ⟨y, hy, hk, -⟩ := hown i c hct
      have hall : ∀ k, c < k → k ≤ j → At t Spec.Left i k := by
        intro k h1 h2
        rcases Nat.lt_or_ge k j with h3 | h3
        · exact hcb k h1 h3
        · rw [show k = j by omega]; exact ⟨x, hx, h⟩
      have hn : j < c + ((f (i, c)).1 + 1) := by
        rcases Nat.lt_or_ge j (c + ((f (i, c)).1 + 1)) with h1 | h1
        · exact h1
        · exact absurd (hall (c + (f (i, c)).1 + 1) (by omega) (by omega)) (hlefts i c hct).2
      refine ⟨i, c, ⟨⟨y, hy, hk⟩, Nat.le_refl _, Nat.lt_add_of_pos_right (Nat.succ_pos _), by omega, hn⟩, ?_⟩
      intro r' c' hk' h1 h2 h3 h4
      have ht' := hK r' c' hk'
      rcases hcov r' c' i j ht' h1 h2 h3 h4 with ⟨rfl, rfl⟩ | ⟨rfl, h5, h6⟩ | ⟨_, h5, h6⟩
      · exact (exTL ht' ⟨x, hx, h⟩).elim
      · refine ⟨rfl, ?_⟩
        rcases Nat.lt_trichotomy c' c with h7 | h7 | h7
        · exact (exTL hct (h6 c h7 (by omega))).elim
        · exact h7
        · exact (exTL ht' (hall c' h7 (by omega))).elim
      · exact (exLU ⟨x, hx, h⟩ (h6 i h5 (Nat.le_refl _))).elim
    · obtain ⟨r, hr, hrt, hrb⟩ := hs.up i j ⟨x, hx, h⟩
      obtain ⟨y, hy, hk, -⟩ := hown r j hrt
      have hall : ∀ k, r < k → k ≤ i → At t Spec.Up k j := by
        intro k h1 h2
        rcases Nat.lt_or_ge k i with h3 | h3
        · exact hrb k h1 h3
        · rw [show k = i by omega]; exact ⟨x, hx, h⟩
      have hn : i < r + ((f (r, j)).2 + 1) := by
        rcases Nat.lt_or_ge i (r + ((f (r, j)).2 + 1)) with h1 | h1
        · exact h1
        · exact absurd (hall (r + (f (r, j)).2 + 1) (by omega) (by omega)) (hups r j hrt).2
      refine ⟨r, j, ⟨⟨y, hy, hk⟩, by omega, hn, Nat.le_refl _, Nat.lt_add_of_pos_right (Nat.succ_pos _)⟩, ?_⟩
      intro r' c' hk' h1 h2 h3 h4
      have ht' := hK r' c' hk'
      rcases hcov r' c' i j ht' h1 h2 h3 h4 with ⟨rfl, rfl⟩ | ⟨rfl, h5, h6⟩ | ⟨rfl, h5, h6⟩
      · exact (exTU ht' ⟨x, hx, h⟩).elim
      · exact (exLU (h6 j h5 (Nat.le_refl _)) ⟨x, hx, h⟩).elim
      · refine ⟨?_, rfl⟩
        rcases Nat.lt_trichotomy r' r with h7 | h7 | h7
        · exact (exTU hrt (h6 r h7 (by omega))).elim
        · exact h7
        · exact (exTU ht' (hall r' h7 (by omega))).elim

end Verif.TableSpans
