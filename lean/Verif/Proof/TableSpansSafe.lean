import Verif.Proof.TableSpansTiles

namespace Verif.TableSpans
open Embed (find)
open ElemAttrs (has has_iff has_not)
open ImgCaptions (trim)
open Spec (Blank Padded Rule words word Colon Colonless Holds Clean Dash At Sound Lefts Ups attr mark Kept Covers Tiles RuleRow Aligned)

/-! ### The shape of the table stays -/

/-- A row as it is: its mark and the number of its cells. -/
def shape (row : Row) : Option Bytes × Nat := (row.data, row.cells.length)

/-- What a cell shows. -/
def view (x : Cell) : Bytes × List Inl := (x.src, x.kids)

theorem modData_shape (f : Option Bytes → Bytes) (t : List Row) (r c : Nat) : (modData f t r c).map shape = t.map shape := by
  apply List.ext_getElem?
  intro i
  unfold modData
  simp only [List.getElem?_map, List.getElem?_modify]
  cases t[i]? with
  | none => rfl
  | some row => by_cases h : r = i <;> simp [h, shape]

theorem map_modify_view (cells : List Cell) (c : Nat) (f : Option Bytes → Bytes) :
    (cells.modify c fun cell => { cell with data := some (f cell.data) }).map view = cells.map view := by
  apply List.ext_getElem?
  intro i
  simp only [List.getElem?_map, List.getElem?_modify]
  cases cells[i]? with
  | none => rfl
  | some x => by_cases h : c = i <;> simp [h, view]

theorem modData_view (f : Option Bytes → Bytes) (t : List Row) (r c : Nat) :
    (modData f t r c).map (fun row => row.cells.map view) = t.map fun row => row.cells.map view := by
  apply List.ext_getElem?
  intro i
  unfold modData
  simp only [List.getElem?_map, List.getElem?_modify]
  cases t[i]? with
  | none => rfl
  | some row => by_cases h : r = i <;> simp [h, map_modify_view]

theorem mergeLeft_view {l l' : List Cell} (h : mergeLeft l = some l') : l'.map view = l.map view := by
  induction l generalizing l' with
  | nil => cases h
  | cons x l ih =>
    unfold mergeLeft at h
    split at h
    · cases hm : mergeLeft l with
      | none => rw [hm] at h; cases h
      | some q =>
        rw [hm] at h
        simp only [Option.map_some, Option.some.injEq] at h
        rw [← h, List.map_cons, List.map_cons, ih hm]
    · simp only [Option.some.injEq] at h
      rw [← h]; rfl

/-- The state keeps the shape of the rows above, and has one more cell. -/
structure Grown (st st' : St) (x : Cell) : Prop where
  shape : st'.above.map shape = st.above.map shape
  view : (st'.above.map fun row => row.cells.map view) = st.above.map fun row => row.cells.map view
  left : st'.left.map TableSpans.view = TableSpans.view x :: st.left.map TableSpans.view
  active : st'.active.length = st.active.length

theorem keep_grown {st st' : St} {x : Cell} (h : keep st x = .val st') : Grown st st' x := by
  unfold keep at h
  split at h
  · split at h
    · simp only [C.val.injEq] at h; subst h; exact ⟨rfl, rfl, rfl, by simp⟩
    · cases h
  · simp only [C.val.injEq] at h; subst h; exact ⟨rfl, rfl, rfl, rfl⟩

theorem spanCell_grown {prev : Option Nat} {st st' : St} {ov : Bytes} {x : Cell} (h : spanCell prev st ov x = .val st') : Grown st st' x := by
  unfold spanCell at h
  split at h
  · split at h
    · rename_i hl
      simp only [C.val.injEq] at h
      subst h
      refine ⟨rfl, rfl, ?_, rfl⟩
      rw [hl]
      by_cases hk : x.kids.isEmpty = true <;> simp [hk, view]
    · split at h
      · rename_i l hm
        simp only [C.val.injEq] at h
        subst h
        exact ⟨rfl, rfl, by simp only [List.map_cons, mergeLeft_view hm]; rfl, rfl⟩
      · exact keep_grown h
  · split at h
    · split at h
      · simp only [C.val.injEq] at h
        subst h
        exact ⟨modData_shape .., modData_view .., rfl, by simp⟩
      · simp only [C.val.injEq] at h
        subst h
        exact ⟨rfl, rfl, rfl, rfl⟩
    · exact keep_grown h

/-- The cell with its colons taken off. -/
def colonless (al : Bool) (x : Cell) : Cell := if al && !removed x.data then (aligned x).getD x else x

theorem stepCell_grown {al : Bool} {prev : Option Nat} {st st' : St} {x : Cell} (h : stepCell al prev st x = .val st') : Grown st st' (colonless al x) := by
  unfold stepCell at h
  unfold colonless
  split at h
  · rename_i ha
    rw [if_pos ha]
    cases hx : aligned x with
    | none => simp only [hx] at h; exact spanCell_grown h
    | some y =>
      simp only [hx] at h
      split at h
      · cases h
      · exact spanCell_grown h
  · rename_i ha
    rw [if_neg ha]
    exact spanCell_grown h

theorem stepCells_grown {al : Bool} {prev : Option Nat} (cells : List Cell) : ∀ {st st' : St}, stepCells al prev st cells = .val st' →
    st'.above.map shape = st.above.map shape ∧ ((st'.above.map fun row => row.cells.map view) = st.above.map fun row => row.cells.map view) ∧
      st'.left.reverse.map view = st.left.reverse.map view ++ cells.map (fun x => view (colonless al x)) ∧ st'.active.length = st.active.length := by
  induction cells with
  | nil =>
    intro st st' h
    simp only [stepCells, C.val.injEq] at h
    subst h
    simp
  | cons x cells ih =>
    intro st st' h
    unfold stepCells at h
    cases hx : stepCell al prev st x with
    | ub => rw [hx] at h; cases h
    | val st1 =>
      rw [hx, C.val_bind] at h
      obtain ⟨h1, h2, h3, h4⟩ := ih h
      have hg := stepCell_grown hx
      refine ⟨h1.trans hg.shape, h2.trans hg.view, ?_, h4.trans hg.active⟩
      rw [h3, List.map_reverse, hg.left, List.reverse_cons, List.map_reverse]
      simp

theorem footRow_view (f : Bool) (row : Row) : (footRow f row).cells.map view = row.cells.map view := by
  unfold footRow
  rw [List.map_map]
  refine List.map_congr_left fun x _ => ?_
  simp only [Function.comp]
  split <;> rfl

theorem isFoot_iff {row : Row} : isFoot row = true ↔ RuleRow row := by
  unfold isFoot RuleRow
  rw [List.any_eq_true]
  constructor
  · rintro ⟨x, hx, h⟩; exact ⟨x, hx, isRule_iff.1 h⟩
  · rintro ⟨x, hx, h⟩; exact ⟨x, hx, isRule_iff.2 h⟩

/-- The marks of the rows, given whether the foot has begun. -/
def footData : Bool → List Row → List (Option Bytes × Nat)
  | _, [] => []
  | f, row :: r => (if f || isFoot row then some foot else row.data, row.cells.length) :: footData (f || isFoot row) r

theorem stepRow_shape {al : Bool} {s s' : Rows} {row : Row} (h : stepRow al s row = .val s') :
    s'.above.map shape = s.above.map shape ++ [(if s.inFoot || isFoot row then some foot else row.data, row.cells.length)] ∧
      s'.inFoot = (s.inFoot || isFoot row) ∧ s'.active.length = s.active.length ∧
      (al = false → (s'.above.map fun row => row.cells.map view) = (s.above.map fun row => row.cells.map view) ++ [row.cells.map view]) := by
  unfold stepRow at h
  simp only [] at h
  split at h
  · simp only [C.val.injEq] at h
    subst h
    refine ⟨?_, rfl, rfl, fun _ => ?_⟩
    · simp [shape, footRow]
    · simp only [List.map_append, List.map_cons, List.map_nil, List.map_map]
      rw [← footRow_view s.inFoot row]
      rfl
  · cases hc : stepCells al s.prev ⟨s.above, s.active, []⟩ (footRow s.inFoot row).cells with
    | ub => rw [hc] at h; cases h
    | val st =>
      rw [hc, C.val_bind] at h
      simp only [C.val.injEq] at h
      subst h
      obtain ⟨h1, h2, h3, h4⟩ := stepCells_grown _ hc
      have hl : st.left.reverse.length = row.cells.length := by
        have := congrArg List.length h3
        simpa [footRow] using this
      refine ⟨?_, rfl, h4, fun hal => ?_⟩
      · simp only [List.map_append, List.map_cons, List.map_nil, h1, shape, hl]
        rfl
      · subst hal
        simp only [List.map_append, List.map_cons, List.map_nil, h2, h3, List.reverse_nil, List.nil_append]
        rw [← footRow_view s.inFoot row]
        have : ∀ x, colonless false x = x := fun _ => rfl
        simp only [this]

theorem stepRows_shape {al : Bool} (t : List Row) : ∀ {s s' : Rows}, stepRows al s t = .val s' →
    s'.above.map shape = s.above.map shape ++ footData s.inFoot t ∧
      (al = false → (s'.above.map fun row => row.cells.map view) = (s.above.map fun row => row.cells.map view) ++ t.map fun row => row.cells.map view) := by
  induction t with
  | nil =>
    intro s s' h
    simp only [stepRows, C.val.injEq] at h
    subst h
    simp [footData]
  | cons row t ih =>
    intro s s' h
    unfold stepRows at h
    cases hx : stepRow al s row with
    | ub => rw [hx] at h; cases h
    | val s1 =>
      rw [hx, C.val_bind] at h
      obtain ⟨h1, h2⟩ := ih h
      obtain ⟨g1, g2, -, g4⟩ := stepRow_shape hx
      refine ⟨?_, fun hal => ?_⟩
      · rw [h1, g1, g2]; simp [footData]
      · rw [h2 hal, g4 hal]; simp

theorem footData_get (t : List Row) : ∀ (f : Bool) (r : Nat) (row : Row), t[r]? = some row →
    (footData f t)[r]? = some (if f = true ∨ ∃ i, i ≤ r ∧ ∃ row', t[i]? = some row' ∧ isFoot row' = true then some foot else row.data, row.cells.length) := by
  classical
  induction t with
  | nil => intro f r row h; simp at h
  | cons a t ih =>
    intro f r row h
    cases r with
    | zero =>
      simp only [List.getElem?_cons_zero, Option.some.injEq] at h
      subst h
      simp only [footData, List.getElem?_cons_zero, Option.some.injEq, Prod.mk.injEq, and_true]
      have e : (f = true ∨ ∃ i, i ≤ 0 ∧ ∃ row', (a :: t)[i]? = some row' ∧ isFoot row' = true) ↔ (f || isFoot a) = true := by
        rw [Bool.or_eq_true]
        refine or_congr Iff.rfl ⟨?_, fun h => ⟨0, Nat.le_refl _, a, rfl, h⟩⟩
        rintro ⟨i, hi, row', h1, h2⟩
        rw [show i = 0 by omega] at h1
        simp only [List.getElem?_cons_zero, Option.some.injEq] at h1
        rw [h1]; exact h2
      by_cases hc : (f || isFoot a) = true
      · rw [if_pos hc, if_pos (e.2 hc)]
      · rw [if_neg hc, if_neg (fun h => hc (e.1 h))]
    | succ r =>
      simp only [List.getElem?_cons_succ] at h
      simp only [footData, List.getElem?_cons_succ, ih _ r row h, Option.some.injEq, Prod.mk.injEq, and_true]
      have e : ((f || isFoot a) = true ∨ ∃ i, i ≤ r ∧ ∃ row', t[i]? = some row' ∧ isFoot row' = true) ↔
          (f = true ∨ ∃ i, i ≤ r + 1 ∧ ∃ row', (a :: t)[i]? = some row' ∧ isFoot row' = true) := by
        rw [Bool.or_eq_true]
        constructor
        · rintro ((h1 | h1) | ⟨i, hi, row', h1, h2⟩)
          · exact .inl h1
          · exact .inr ⟨0, by omega, a, rfl, h1⟩
          · exact .inr ⟨i + 1, by omega, row', by simpa using h1, h2⟩
        · rintro (h1 | ⟨i, hi, row', h1, h2⟩)
          · exact .inl (.inl h1)
          · cases i with
            | zero =>
              simp only [List.getElem?_cons_zero, Option.some.injEq] at h1
              rw [← h1] at h2; exact .inl (.inr h2)
            | succ i => exact .inr ⟨i, by omega, row', by simpa using h1, h2⟩
      by_cases hc : ((f || isFoot a) = true ∨ ∃ i, i ≤ r ∧ ∃ row', t[i]? = some row' ∧ isFoot row' = true)
      · rw [if_pos hc, if_pos (e.1 hc)]
      · rw [if_neg hc, if_neg (fun h => hc (e.2 h))]

/-! ### Where memory is safe -/

theorem keep_val {st : St} {x : Cell} (h : st.left.length < 50) : ∃ st', keep st x = .val st' := by
  unfold keep
  simp only [h, if_true]
  split <;> exact ⟨_, rfl⟩

theorem spanCell_val {prev : Option Nat} {st : St} {ov : Bytes} {x : Cell} (h : st.left.length < 50) : ∃ st', spanCell prev st ov x = .val st' := by
  unfold spanCell
  split
  · split
    · exact ⟨_, rfl⟩
    · split
      · exact ⟨_, rfl⟩
      · exact keep_val h
  · split
    · split <;> exact ⟨_, rfl⟩
    · exact keep_val h

theorem stepCell_val {al : Bool} {prev : Option Nat} {st : St} {x : Cell} (h : st.left.length < 50) (hx : al = true → rawOf x.data = [] ∨ Colonless x.kids) :
    ∃ st', stepCell al prev st x = .val st' := by
  unfold stepCell
  split
  · rename_i ha
    rw [Bool.and_eq_true] at ha
    rcases hx ha.1 with h1 | h1
    · cases aligned x with
      | none => exact spanCell_val h
      | some y => simp only [h1]; exact spanCell_val h
    · rw [aligned_none h1]; exact spanCell_val h
  · exact spanCell_val h

theorem stepCells_val {al : Bool} {prev : Option Nat} (cells : List Cell) : ∀ {st : St}, st.left.length + cells.length ≤ 50 →
    (al = true → ∀ x ∈ cells, rawOf x.data = [] ∨ Colonless x.kids) → ∃ st', stepCells al prev st cells = .val st' := by
  induction cells with
  | nil => intro st _ _; exact ⟨st, rfl⟩
  | cons x cells ih =>
    intro st h hx
    simp only [List.length_cons] at h
    obtain ⟨st1, h1⟩ := stepCell_val (prev := prev) (st := st) (by omega) (fun ha => hx ha x List.mem_cons_self)
    have hl := (congrArg List.length (stepCell_grown h1).left)
    simp only [List.length_map, List.length_cons] at hl
    obtain ⟨st2, h2⟩ := ih (st := st1) (by omega) (fun ha y hy => hx ha y (List.mem_cons_of_mem _ hy))
    exact ⟨st2, by rw [stepCells, h1, C.val_bind]; exact h2⟩

theorem rawOf_gone : rawOf (some gone) = [] := by decide +kernel

theorem stepRow_val {al : Bool} {s : Rows} {row : Row} (h : row.cells.length ≤ 50) (hx : al = true → ∀ x ∈ row.cells, rawOf x.data = [] ∨ Colonless x.kids) :
    ∃ s', stepRow al s row = .val s' := by
  unfold stepRow
  simp only []
  split
  · exact ⟨_, rfl⟩
  · have hc : (footRow s.inFoot row).cells.length = row.cells.length := by simp [footRow]
    obtain ⟨st, h1⟩ := stepCells_val (al := al) (prev := s.prev) (footRow s.inFoot row).cells (st := ⟨s.above, s.active, []⟩) (by simp [hc, h]) (by
      intro ha x hx'
      simp only [footRow, List.mem_map] at hx'
      obtain ⟨y, hy, rfl⟩ := hx'
      split
      · exact .inl rawOf_gone
      · exact hx ha y hy)
    rw [h1]
    exact ⟨_, rfl⟩

theorem stepRows_val {al : Bool} (t : List Row) : ∀ {s : Rows}, (∀ row ∈ t, row.cells.length ≤ 50) →
    (al = true → ∀ row ∈ t, ∀ x ∈ row.cells, rawOf x.data = [] ∨ Colonless x.kids) → ∃ s', stepRows al s t = .val s' := by
  induction t with
  | nil => intro s _ _; exact ⟨s, rfl⟩
  | cons row t ih =>
    intro s h hx
    obtain ⟨s1, h1⟩ := stepRow_val (s := s) (h row List.mem_cons_self) (fun ha => hx ha row List.mem_cons_self)
    obtain ⟨s2, h2⟩ := ih (s := s1) (fun r hr => h r (List.mem_cons_of_mem _ hr)) (fun ha r hr => hx ha r (List.mem_cons_of_mem _ hr))
    exact ⟨s2, by rw [stepRows, h1, C.val_bind]; exact h2⟩

theorem stepCells_ub {al : Bool} {prev : Option Nat} (cells : List Cell) : ∀ {st : St}, st.left.length ≤ 50 → 50 < st.left.length + cells.length →
    (∀ x ∈ cells, Spec.Text al x) → stepCells al prev st cells = .ub := by
  induction cells with
  | nil => intro st h1 h2; simp at h2; omega
  | cons x cells ih =>
    intro st h1 h2 hx
    have ht := hx x List.mem_cons_self
    have hk : stepCell al prev st x = keep st x := by
      rw [stepCell_plain ht.colons]
      unfold spanCell
      rw [if_neg (by rw [text_isLeft ht]; decide), if_neg (by rw [text_isUp ht]; simp)]
    have hc : (!isUp x && !removed x.data) = true := by rw [text_isUp ht, fresh_shown (text_fresh ht)]; rfl
    simp only [List.length_cons] at h2
    unfold stepCells
    rw [hk]
    unfold keep
    rw [if_pos hc]
    by_cases h50 : st.left.length < 50
    · rw [if_pos h50, C.val_bind]
      refine ih (by simp only [List.length_cons]; omega) (by simp only [List.length_cons]; omega) fun y hy => hx y (List.mem_cons_of_mem _ hy)
    · rw [if_neg h50]; rfl

theorem columns_ub {al : Bool} {row : Row} {rest : List Row} (h1 : 50 < row.cells.length) (h2 : ∀ x ∈ row.cells, Spec.Text al x) (h3 : ∃ x ∈ row.cells, ¬ Dash x) :
    spans al (row :: rest) = .ub := by
  obtain ⟨hf1, hf2⟩ := footRow_plain (row := row) fun x hx => text_rule (h2 x hx)
  have hdash : ¬ (row.cells ≠ [] ∧ row.cells.all isDash = true) := by
    rintro ⟨-, h⟩
    obtain ⟨x, hx, hx'⟩ := h3
    exact hx' (isDash_iff.1 (List.all_eq_true.1 h x hx))
  have : stepRow al ⟨[], List.replicate 50 none, none, false⟩ row = .ub := by
    unfold stepRow
    simp only [hf1]
    rw [if_neg hdash, stepCells_ub _ (by simp) (by simpa using h1) h2]
    rfl
  unfold spans
  rw [stepRows, this]
  rfl

/-! ### Colons -/

theorem trim_of_split {a m b : Bytes} {c d : Byte} {y z : Bytes} (ha : Blank a) (hb : Blank b) (hc : m = c :: y) (hd : m = z ++ [d])
    (hcs : isSpace c = false) (hds : isSpace d = false) :
    trim (a ++ m ++ b) = m ∧ (a ++ m ++ b).takeWhile isSpace = a ∧ ((a ++ m ++ b).reverse.takeWhile isSpace).reverse = b := by
  refine ⟨trim_of_padded ⟨a, b, rfl, ha, hb⟩ hc hd hcs hds, ?_, ?_⟩
  · rw [hc, List.append_assoc, List.cons_append, (Index.span_stop ha hcs).1]
  · rw [hd, List.reverse_append, List.reverse_append, List.reverse_append, List.reverse_singleton, List.append_assoc, List.singleton_append,
      (Index.span_stop (fun c hc => hb c (by simpa using hc)) hds).1, List.reverse_reverse]

theorem colon_not_space : isSpace c!":" = false := by decide

/-- The colons of a text. -/
theorem alignText_of {s t a : Bytes} (h : Aligned s t a) : alignText s = some (a, t) := by
  obtain ⟨p, m, q, hp, hq, rfl, h⟩ := h
  unfold alignText
  rcases h with ⟨rfl, rfl | ⟨rfl, rfl⟩⟩ | ⟨rfl, rfl, y, c, rfl, hc, hcc⟩ | ⟨rfl, rfl, c, y, rfl, hc, hcc⟩
  · obtain ⟨h1, h2, h3⟩ := trim_of_split (m := c!":" :: m ++ [c!":"]) hp hq rfl rfl colon_not_space colon_not_space
    have e : p ++ c!":" :: m ++ c!":" :: q = p ++ (c!":" :: m ++ [c!":"]) ++ q := by simp
    rw [e, h1, h2, h3]
    have hl : (c!":" :: m ++ [c!":"]).getLast? = some c!":" := List.getLast?_concat
    simp only [hl]
    simp
  · obtain ⟨h1, h2, h3⟩ := trim_of_split (m := [c!":"]) (z := []) hp hq rfl rfl colon_not_space colon_not_space
    have e : p ++ c!":" :: q = p ++ [c!":"] ++ q := by simp
    rw [e, h1, h2, h3]
    simp
  · obtain ⟨h1, h2, h3⟩ := trim_of_split (m := c!":" :: (y ++ [c])) (z := c!":" :: y) hp hq rfl (by simp) colon_not_space hc
    have e : p ++ c!":" :: (y ++ [c]) ++ q = p ++ (c!":" :: (y ++ [c])) ++ q := by simp
    have hl : (c!":" :: (y ++ [c])).getLast? = some c := by rw [← List.cons_append, List.getLast?_append]; simp
    rw [e, h1, h2, h3]
    simp only [hl]
    simp [hcc]
  · obtain ⟨h1, h2, h3⟩ := trim_of_split (m := c :: y ++ [c!":"]) (z := c :: y) hp hq rfl rfl hc colon_not_space
    have e : p ++ c :: y ++ c!":" :: q = p ++ (c :: y ++ [c!":"]) ++ q := by simp
    rw [e, h1, h2, h3]
    have hl : (c :: y ++ [c!":"]).getLast? = some c!":" := List.getLast?_concat
    simp only [hl, List.dropLast_concat]
    simp [hcc]

theorem aligned_of {s t a : Bytes} (h : alignText s = some (a, t)) : Aligned s t a := by
  obtain ⟨p, q, e, hp, hq, hpe, hrest⟩ := trim_split s
  unfold alignText at h
  simp only [] at h
  rcases hrest with h0 | ⟨hqe, ⟨c, y, hc, hcs⟩, z, d, hd, hds⟩
  · rw [if_pos h0] at h; cases h
  · rw [if_neg (by rw [hc]; simp), ← hpe, ← hqe] at h
    have hh : (trim s).head? = some c := by rw [hc]; rfl
    have hl : (trim s).getLast? = some d := by rw [hd]; simp
    rw [hh, hl] at h
    simp only [Option.some.injEq] at h
    by_cases h1 : c = c!":"
    · rw [if_pos h1] at h
      by_cases h2 : d = c!":"
      · rw [if_pos h2] at h
        simp only [Option.some.injEq, Prod.mk.injEq] at h
        obtain ⟨rfl, rfl⟩ := h
        refine ⟨p, ((trim s).drop 1).dropLast, q, hp, hq, rfl, .inl ⟨rfl, ?_⟩⟩
        cases z with
        | nil =>
          rw [List.nil_append] at hd
          right
          refine ⟨by rw [hd]; rfl, ?_⟩
          have e' := e
          rw [hd, h2] at e'
          rw [e']; simp
        | cons z0 z =>
          left
          have e' := e
          rw [hc] at hd
          simp only [List.cons_append, List.cons.injEq] at hd
          rw [hc, h1] at e' ⊢
          simp only [List.drop_succ_cons, List.drop_zero]
          rw [hd.2, h2] at e' ⊢
          rw [List.dropLast_concat, e']; simp
      · rw [if_neg h2] at h
        simp only [Option.some.injEq, Prod.mk.injEq] at h
        obtain ⟨rfl, rfl⟩ := h
        refine ⟨p, (trim s).drop 1, q, hp, hq, rfl, .inr (.inl ⟨rfl, ?_, ?_⟩)⟩
        · have e' := e
          rw [hc, h1] at e'
          rw [hc, e']; simp
        · rw [hc] at hd
          cases z with
          | nil => simp only [List.nil_append, List.cons.injEq] at hd; exact absurd (hd.1.symm.trans h1) h2
          | cons z0 z =>
            simp only [List.cons_append, List.cons.injEq] at hd
            exact ⟨z, d, by rw [hc, hd.2]; rfl, hds, h2⟩
    · rw [if_neg h1] at h
      by_cases h2 : d = c!":"
      · rw [if_pos h2] at h
        simp only [Option.some.injEq, Prod.mk.injEq] at h
        obtain ⟨rfl, rfl⟩ := h
        refine ⟨p, (trim s).dropLast, q, hp, hq, rfl, .inr (.inr ⟨rfl, ?_, ?_⟩)⟩
        · have e' := e
          rw [hd, h2] at e'
          rw [hd, List.dropLast_concat, e']; simp
        · rw [hd, List.dropLast_concat]
          cases z with
          | nil =>
            rw [hc] at hd
            simp only [List.nil_append, List.cons.injEq] at hd
            exact absurd (hd.1.trans h2) h1
          | cons z0 z =>
            rw [hc] at hd
            simp only [List.cons_append, List.cons.injEq] at hd
            exact ⟨z0, z, rfl, by rw [← hd.1]; exact hcs, by rw [← hd.1]; exact h1⟩
      · rw [if_neg h2] at h; cases h

theorem aligned_iff {s t a : Bytes} : Aligned s t a ↔ alignText s = some (a, t) := ⟨alignText_of, aligned_of⟩

theorem colon_aligned {s : Bytes} (h : Colon s) : ∃ t a, alignText s = some (a, t) := by
  obtain ⟨p, q, e, hp, hq, hpe, hrest⟩ := trim_split s
  have hcs := colon_not_space
  rcases hrest with h0 | ⟨hqe, ⟨c, y, hc, hcn⟩, z, d, hd, hdn⟩
  · have hb := trim_nil.1 h0
    have : c!":" ∈ s := by rcases h with ⟨a, m, rfl, -⟩ | ⟨m, b, rfl, -⟩ <;> simp
    rw [hb _ this] at hcs; cases hcs
  have hh : (trim s).head? = some c := by rw [hc]; rfl
  have hl : (trim s).getLast? = some d := by rw [hd]; simp
  have key : c = c!":" ∨ d = c!":" := by
    rcases h with ⟨a, m, e1, ha⟩ | ⟨m, b, e1, hb⟩
    · left
      have h1 := (Index.span_stop ha hcs (b := m)).2
      have h2 := (Index.span_stop hp hcn (b := y ++ q)).2
      rw [← e1] at h1
      have e2 : s = p ++ c :: (y ++ q) := by rw [e, hc]; simp
      rw [← e2, h1] at h2
      simp only [List.cons.injEq] at h2
      exact h2.1.symm
    · right
      have h1 := (Index.span_stop (fun c hc => hb c (by simpa using hc) : ∀ c ∈ b.reverse, isSpace c = true) hcs (b := m.reverse)).2
      have h2 := (Index.span_stop (fun c hc => hq c (by simpa using hc) : ∀ c ∈ q.reverse, isSpace c = true) hdn (b := (p ++ z).reverse)).2
      have e2 : s.reverse = q.reverse ++ d :: (p ++ z).reverse := by rw [e, hd]; simp
      have e3 : s.reverse = b.reverse ++ c!":" :: m.reverse := by rw [e1]; simp
      rw [← e3] at h1
      rw [← e2, h1] at h2
      simp only [List.cons.injEq] at h2
      exact h2.1.symm
  unfold alignText
  simp only []
  rw [if_neg (by rw [hc]; simp), hh, hl]
  simp only [Option.some.injEq]
  by_cases h1 : c = c!":"
  · rw [if_pos h1]
    by_cases h2 : d = c!":"
    · rw [if_pos h2]; exact ⟨_, _, rfl⟩
    · rw [if_neg h2]; exact ⟨_, _, rfl⟩
  · rw [if_neg h1, if_pos (key.resolve_left h1)]; exact ⟨_, _, rfl⟩

/-- A mark that holds the text of a cell with colons is read after it is freed. -/
theorem freed_ub {x : Cell} {s u : Bytes} {cells : List Cell} {d : Option Bytes} {rest : List Row} (hk : x.kids = [.text s]) (hs : Colon s)
    (hd : x.data = some u) (hu : Clean u) (hne : u ≠ []) : spans true (⟨d, x :: cells⟩ :: rest) = .ub := by
  have hmem : c!":" ∈ s := by rcases hs with ⟨a, m, rfl, -⟩ | ⟨m, b, rfl, -⟩ <;> simp
  have hrule : isRule x = false := by
    cases hr : isRule x with
    | false => rfl
    | true =>
      obtain ⟨s', ks, hk', n, hn, hp⟩ := isRule_iff.1 hr
      rw [hk] at hk'
      simp only [List.cons.injEq, Inl.text.injEq] at hk'
      rw [← hk'.1] at hp
      exact absurd hmem (padded_mem hp (by simp [List.mem_replicate]) (by decide))
  have hdash : isDash x = false := by
    cases hr : isDash x with
    | false => rfl
    | true =>
      rcases isDash_iff.1 hr with h | ⟨ks, h⟩
      · rw [hk] at h; cases h
      · rw [hk] at h
        simp only [List.cons.injEq, Inl.text.injEq] at h
        rw [h.1] at hmem
        exact absurd hmem (by decide)
  obtain ⟨t, a, ht⟩ := colon_aligned hs
  have hal : aligned x = some { x with data := some (alignMark x.data a), kids := [.text t] } := by
    unfold aligned
    rw [hk]
    simp only [firstText, ht]
  have hrem : removed x.data = false := fresh_shown (.inr ⟨u, hd, hu⟩)
  have hraw : rawOf x.data = u := by rw [hd]; exact rawOf_clean hu.2.1 hu.2.2.1 hu.2.2.2
  have hcell : ∀ st, stepCell true none st x = .ub := by
    intro st
    unfold stepCell
    rw [if_pos (by rw [hrem]; rfl), hal]
    simp only []
    rw [if_pos (by rw [hraw]; exact hne)]
  have : stepRow true ⟨[], List.replicate 50 none, none, false⟩ ⟨d, x :: cells⟩ = .ub := by
    unfold stepRow
    simp only []
    rw [if_neg (by simp [hdash])]
    have : (footRow false ⟨d, x :: cells⟩).cells = x :: cells.map fun c => if isRule c then { c with data := some gone } else c := by
      simp only [footRow, List.map_cons, hrule]; rfl
    rw [this, stepCells, hcell]
    rfl
  unfold spans
  rw [stepRows, this]
  rfl

end Verif.TableSpans
