import Verif.Proof.TableSpansSafe

namespace Verif.TableSpans
open Embed (find find_some)
open ElemAttrs (has has_iff has_not)
open ImgCaptions (trim)
open Spec (Own Blank Padded Rule words word Colon Colonless Holds Clean Dash At Sound Lefts Ups attr mark Kept Covers Tiles RuleRow Aligned)

/-! ### What is gone stays gone -/

theorem infix_split {w a b : Bytes} {c : Byte} (hw : c ∉ w) (h : w <:+: a ++ c :: b) : w <:+: a ∨ w <:+: b := by
  obtain ⟨p, q, e⟩ := h
  rw [List.append_assoc] at e
  rcases List.append_eq_append_iff.1 e with ⟨x, h1, h2⟩ | ⟨x, h1, h2⟩
  · rcases List.append_eq_append_iff.1 h2 with ⟨y, h3, h4⟩ | ⟨y, h3, h4⟩
    · left; exact ⟨p, y, by rw [h1, h3, List.append_assoc]⟩
    · cases y with
      | nil => left; exact ⟨p, [], by rw [h1, h3]; simp⟩
      | cons y0 y =>
        simp only [List.cons_append, List.cons.injEq] at h4
        exact absurd (by rw [h3, h4.1]; simp) hw
  · cases x with
    | nil =>
      rw [List.nil_append] at h2
      cases w with
      | nil => exact .inl (List.nil_infix)
      | cons w0 w =>
        simp only [List.cons_append, List.cons.injEq] at h2
        exact absurd (by rw [h2.1]; simp) hw
    | cons x0 x =>
      simp only [List.cons_append, List.cons.injEq] at h2
      right; exact ⟨x, q, by rw [h2.2, List.append_assoc]⟩

theorem cut_infix {w s : Bytes} {n : Nat} (h : w <:+: cut n s) : w <:+: s := h.trans (List.take_prefix _ _).isInfix

theorem int_digit {n : Int} {c : Byte} (h : c ∈ int n) : c = c!"-" ∨ isDigit c = true := by
  unfold int at h
  split at h
  · simp only [List.mem_cons] at h
    exact h.imp id (Plugins.decimal_digits _ c)
  · exact .inr (Plugins.decimal_digits _ c h)

theorem int_not {n : Int} : c!"a" ∉ int n := by
  intro h
  rcases int_digit h with h | h
  · exact absurd h (by decide)
  · exact absurd h (by decide)

theorem style_infix {s w : Bytes} (h : w <:+: style (some s)) (hw : w ≠ []) : w <:+: s := by
  unfold style at h
  simp only [] at h
  split at h
  · rename_i a r hf
    have e := find_some hf
    split at h
    · rename_i a1 r1 h1
      split at h
      · rename_i b1 r2 h2
        split at h
        · refine h.trans ?_
          rw [e, find_some h1, find_some h2]
          conv => rhs; rw [← List.takeWhile_append_dropWhile (p := fun c => decide (c ≠ c!" " ∧ c ≠ c!"\t")) (l := r2)]
          exact ⟨a, r2.dropWhile fun c => decide (c ≠ c!" " ∧ c ≠ c!"\t"), by simp⟩
        · exact absurd (List.infix_nil.1 h) hw
      · exact absurd (List.infix_nil.1 h) hw
    · exact absurd (List.infix_nil.1 h) hw
  · exact absurd (List.infix_nil.1 h) hw

theorem span_no (w : Bytes) (n : Int) (hw : c!"t" ∉ w) : ¬ b!"data-remove" <:+: w ++ b!"=\"" ++ int n ++ b!"\"" := by
  refine not_infix_of_not_mem (c := c!"t") (by decide) fun h => ?_
  simp only [List.mem_append] at h
  rcases h with ((h | h) | h) | h
  · exact hw h
  · exact absurd h (by decide)
  · rcases int_digit h with h | h <;> exact absurd h (by decide)
  · exact absurd h (by decide)

/-- What of the mark is kept by `addUp`. -/
def kept (d : Option Bytes) : Bytes :=
  match d with
  | some s => if c!"=" ∈ s ∧ has b!"rowspan=" s = false then s else []
  | none => []

theorem addUp_eq (d : Option Bytes) : addUp d = cut 256 (kept d ++ b!" rowspan=\"" ++ int (number b!"rowspan=" d + 1) ++ b!"\"") := rfl

theorem addUp_shown {d : Option Bytes} (h : removed d = false) : removed (some (addUp d)) = false := by
  cases hr : removed (some (addUp d)) with
  | false => rfl
  | true =>
    rw [addUp_eq] at hr
    have h1 := cut_infix (removed_some.1 hr)
    have h2 := infix_split (c := c!" ") (w := b!"data-remove") (by decide) (a := kept d) (b := b!"rowspan" ++ b!"=\"" ++ int (number b!"rowspan=" d + 1) ++ b!"\"") (by
        simpa using h1)
    rcases h2 with h2 | h2
    · cases d with
      | none => exact absurd (List.infix_nil.1 h2) (by decide)
      | some s =>
        unfold kept at h2
        simp only [] at h2
        split at h2
        · rw [removed_some.2 h2] at h; cases h
        · exact absurd (List.infix_nil.1 h2) (by decide)
    · exact absurd h2 (span_no b!"rowspan" _ (by decide))

theorem addLeft_shown {d : Option Bytes} (h : removed d = false) : removed (some (addLeft d)) = false := by
  cases hr : removed (some (addLeft d)) with
  | false => rfl
  | true =>
    have h1 := cut_infix (removed_some.1 hr)
    have h2 := infix_split (c := c!" ") (w := b!"data-remove") (by decide) (a := if style d ≠ [] then b!" " ++ style d else [])
      (b := b!"colspan" ++ b!"=\"" ++ int (number b!"colspan=" d + 1) ++ b!"\"") (by
        simpa using h1)
    rcases h2 with h2 | h2
    · split at h2
      · have h3 := infix_split (c := c!" ") (w := b!"data-remove") (by decide) (a := []) (b := style d) (by simpa using h2)
        rcases h3 with h3 | h3
        · exact absurd (List.infix_nil.1 h3) (by decide)
        · cases d with
          | none => exact absurd (List.infix_nil.1 h3) (by decide)
          | some s =>
            rw [removed_some.2 (style_infix h3 (by decide))] at h; cases h
      · exact absurd (List.infix_nil.1 h2) (by decide)
    · exact absurd h2 (span_no b!"colspan" _ (by decide))

/-- A cell after a step: as it was if it is not shown, and shown if it was. -/
def Stays (x y : Cell) : Prop := (removed x.data = true → y = x) ∧ (removed x.data = false → removed y.data = false)

theorem stays_refl (x : Cell) : Stays x x := ⟨fun _ => rfl, id⟩

theorem stays_trans {x y z : Cell} (h1 : Stays x y) (h2 : Stays y z) : Stays x z := by
  refine ⟨fun h => ?_, fun h => h2.2 (h1.2 h)⟩
  have e := h1.1 h
  rw [e] at h2
  exact h2.1 h

theorem mergeLeft_stays {l l' : List Cell} (h : mergeLeft l = some l') : l'.length = l.length ∧
    ∀ (i : Nat) (x : Cell), l[i]? = some x → ∃ y, l'[i]? = some y ∧ Stays x y := by
  induction l generalizing l' with
  | nil => cases h
  | cons x l ih =>
    unfold mergeLeft at h
    split at h
    · cases hm : mergeLeft l with
      | none => rw [hm] at h; cases h
      | some q =>
        rw [hm] at h
        simp only [Option.map_some, Option.some.injEq] at h
        obtain ⟨h1, h2⟩ := ih hm
        rw [← h]
        refine ⟨by simp [h1], fun i z hz => ?_⟩
        cases i with
        | zero => exact ⟨z, by simpa using hz, stays_refl _⟩
        | succ i => simpa using h2 i z (by simpa using hz)
    · rename_i hx
      simp only [Option.some.injEq] at h
      rw [← h]
      refine ⟨rfl, fun i z hz => ?_⟩
      cases i with
      | zero =>
        simp only [List.getElem?_cons_zero, Option.some.injEq] at hz
        subst hz
        exact ⟨_, rfl, fun h' => absurd h' hx, fun h' => addLeft_shown h'⟩
      | succ i => exact ⟨z, by simpa using hz, stays_refl _⟩

/-- The state: each entry of `active_rowspan` is a cell that is shown. -/
def Live (st : St) : Prop := ∀ c r, st.active[c]? = some (some r) →
  (∃ x, cellAt st.above r c = some x ∧ removed x.data = false) ∨ r = st.above.length ∧ ∃ x : Cell, st.left.reverse[c]? = some x ∧ removed x.data = false

/-- One more cell, and what was there stays. -/
structure Next (st st' : St) : Prop where
  above : ∀ r c x, cellAt st.above r c = some x → ∃ y, cellAt st'.above r c = some y ∧ Stays x y
  rows : st'.above.length = st.above.length
  left : ∀ (c : Nat) (x : Cell), st.left.reverse[c]? = some x → ∃ y, st'.left.reverse[c]? = some y ∧ Stays x y
  count : st'.left.length = st.left.length + 1
  live : Live st'

theorem rev_get {l : List Cell} {c : Nat} {x y : Cell} (h : l.reverse[c]? = some x) : (y :: l).reverse[c]? = some x := by
  rw [List.reverse_cons, List.getElem?_append_left]
  · exact h
  · exact (List.getElem?_eq_some_iff.1 h).1

theorem next_push {st : St} (hl : Live st) (x : Cell) : Next st { st with left := x :: st.left } := by
  refine ⟨fun r c x h => ⟨x, h, stays_refl _⟩, rfl, fun c y h => ⟨y, rev_get h, stays_refl _⟩, rfl, fun c r h => ?_⟩
  rcases hl c r h with h1 | ⟨h1, y, h2, h3⟩
  · exact .inl h1
  · exact .inr ⟨h1, y, rev_get h2, h3⟩

theorem keep_next {st st' : St} {x : Cell} (hl : Live st) (h : keep st x = .val st') : Next st st' ∧ st'.left.head? = some x := by
  unfold keep at h
  split at h
  · rename_i hx
    split at h
    · simp only [C.val.injEq] at h
      subst h
      have hn := next_push hl x
      refine ⟨⟨hn.above, rfl, hn.left, rfl, fun c r h => ?_⟩, rfl⟩
      simp only [List.getElem?_set] at h
      split at h
      · rename_i hc
        split at h
        · simp only [Option.some.injEq] at h
          refine .inr ⟨h.symm, x, ?_, ?_⟩
          · rw [← hc]; simp
          · simp only [Bool.and_eq_true, Bool.not_eq_true'] at hx; exact hx.2
        · cases h
      · exact hn.live c r h
    · cases h
  · simp only [C.val.injEq] at h
    subst h
    exact ⟨next_push hl x, rfl⟩

theorem target_shown {prev : Option Nat} {st : St} {r : Nat} (hl : Live st) (h : target prev st = some r) :
    ∃ x, cellAt st.above r st.left.length = some x ∧ removed x.data = false := by
  unfold target at h
  split at h
  · rename_i r' ha
    simp only [Option.some.injEq] at h
    subst h
    rcases hl _ _ ha with h1 | ⟨-, x, h2, -⟩
    · exact h1
    · have := (List.getElem?_eq_some_iff.1 h2).1
      simp at this
  · split at h
    · split at h
      · rename_i x hx
        split at h
        · cases h
        · rename_i hr
          simp only [Option.some.injEq] at h
          subst h
          exact ⟨x, hx, by simpa using hr⟩
      · cases h
    · cases h

theorem spanCell_next {prev : Option Nat} {st st' : St} {ov : Bytes} {x : Cell} (hl : Live st) (h : spanCell prev st ov x = .val st') :
    Next st st' ∧ (x.data = some gone → ∃ y, st'.left.head? = some y ∧ y.data = some gone) := by
  unfold spanCell at h
  split at h
  · split at h
    · rename_i hs
      simp only [C.val.injEq] at h
      subst h
      have := next_push hl (if x.kids.isEmpty then { x with data := some gone } else x)
      rw [hs] at this
      refine ⟨this, fun hd => ⟨_, rfl, ?_⟩⟩
      split
      · rfl
      · exact hd
    · split at h
      · rename_i l hm
        simp only [C.val.injEq] at h
        subst h
        obtain ⟨h1, h2⟩ := mergeLeft_stays hm
        have hst : ∀ (c : Nat) (x : Cell), st.left.reverse[c]? = some x → ∃ y, l.reverse[c]? = some y ∧ Stays x y := by
          intro c z hz
          have hc : c < st.left.length := by simpa using (List.getElem?_eq_some_iff.1 hz).1
          rw [List.getElem?_reverse (by omega)] at hz ⊢
          · rw [h1]; exact h2 _ z hz
        refine ⟨⟨fun r c x h => ⟨x, h, stays_refl _⟩, rfl, fun c y hy => ?_, by simp [h1], fun c r h => ?_⟩, fun _ => ⟨_, rfl, rfl⟩⟩
        · obtain ⟨z, hz, hs⟩ := hst c y hy
          exact ⟨z, rev_get hz, hs⟩
        · rcases hl c r h with h3 | ⟨h3, y, h4, h5⟩
          · exact .inl h3
          · obtain ⟨z, hz, hs⟩ := hst c y h4
            exact .inr ⟨h3, z, rev_get hz, hs.2 h5⟩
      · obtain ⟨h1, h2⟩ := keep_next hl h
        exact ⟨h1, fun hd => ⟨x, h2, hd⟩⟩
  · split at h
    · split at h
      · rename_i r ht
        simp only [C.val.injEq] at h
        subst h
        obtain ⟨z, hz, hzs⟩ := target_shown hl ht
        have hab : ∀ r' c x, cellAt st.above r' c = some x → ∃ y, cellAt (modData addUp st.above r st.left.length) r' c = some y ∧ Stays x y := by
          intro r' c y hy
          rw [cellAt_modData]
          split
          · rename_i hrc
            rw [← hrc.1, ← hrc.2, hz] at hy
            simp only [Option.some.injEq] at hy
            subst hy
            rw [← hrc.1, ← hrc.2, hz]
            exact ⟨_, rfl, fun h' => by (rw [hzs] at h'; cases h'), fun _ => addUp_shown hzs⟩
          · exact ⟨y, hy, stays_refl _⟩
        have hn := next_push hl ({ x with data := some gone } : Cell)
        have hlen : (modData addUp st.above r st.left.length).length = st.above.length := by simp [modData]
        refine ⟨⟨hab, hlen, hn.left, rfl, fun c r' h => ?_⟩, fun _ => ⟨_, rfl, rfl⟩⟩
        have old : ∀ r'', (∃ x, cellAt st.above r'' c = some x ∧ removed x.data = false) →
            ∃ x, cellAt (modData addUp st.above r st.left.length) r'' c = some x ∧ removed x.data = false := by
          rintro r'' ⟨y, hy, hys⟩
          obtain ⟨w, hw, hws⟩ := hab r'' c y hy
          exact ⟨w, hw, hws.2 hys⟩
        simp only [List.getElem?_set] at h
        split at h
        · rename_i hc
          split at h
          · simp only [Option.some.injEq] at h
            rw [← h]
            exact .inl (old r ⟨z, by rw [← hc]; exact hz, hzs⟩)
          · cases h
        · rcases hl c r' h with h3 | ⟨h3, y, h4, h5⟩
          · exact .inl (old r' h3)
          · exact .inr ⟨by rw [hlen]; exact h3, y, rev_get h4, h5⟩
      · simp only [C.val.injEq] at h
        subst h
        exact ⟨next_push hl _, fun _ => ⟨_, rfl, rfl⟩⟩
    · obtain ⟨h1, h2⟩ := keep_next hl h
      exact ⟨h1, fun hd => ⟨x, h2, hd⟩⟩

theorem stepCell_next {al : Bool} {prev : Option Nat} {st st' : St} {x : Cell} (hl : Live st) (h : stepCell al prev st x = .val st') :
    Next st st' ∧ (x.data = some gone → ∃ y, st'.left.head? = some y ∧ y.data = some gone) := by
  unfold stepCell at h
  split at h
  · rename_i ha
    have hx : x.data ≠ some gone := by
      intro e
      rw [e, removed_gone] at ha
      simp at ha
    split at h
    · split at h
      · cases h
      · exact ⟨(spanCell_next hl h).1, fun e => absurd e hx⟩
    · exact spanCell_next hl h
  · exact spanCell_next hl h

theorem stepCells_next {al : Bool} {prev : Option Nat} (cells : List Cell) : ∀ {st st' : St}, Live st → stepCells al prev st cells = .val st' →
    Live st' ∧ (∀ r c x, cellAt st.above r c = some x → ∃ y, cellAt st'.above r c = some y ∧ Stays x y) ∧ st'.above.length = st.above.length ∧
      (∀ (c : Nat) (x : Cell), st.left.reverse[c]? = some x → ∃ y, st'.left.reverse[c]? = some y ∧ Stays x y) ∧
      ∀ (c : Nat) (x : Cell), cells[c]? = some x → x.data = some gone → ∃ y, st'.left.reverse[st.left.length + c]? = some y ∧ y.data = some gone := by
  induction cells with
  | nil =>
    intro st st' hl h
    simp only [stepCells, C.val.injEq] at h
    subst h
    exact ⟨hl, fun r c x h => ⟨x, h, stays_refl _⟩, rfl, fun c x h => ⟨x, h, stays_refl _⟩, fun c x h => by simp at h⟩
  | cons x cells ih =>
    intro st st' hl h
    unfold stepCells at h
    cases hx : stepCell al prev st x with
    | ub => rw [hx] at h; cases h
    | val st1 =>
      rw [hx, C.val_bind] at h
      obtain ⟨hn, hg⟩ := stepCell_next hl hx
      obtain ⟨h1, h2, h3, h4, h5⟩ := ih hn.live h
      refine ⟨h1, fun r c y hy => ?_, h3.trans hn.rows, fun c y hy => ?_, fun c y hy hd => ?_⟩
      · obtain ⟨z, hz, hs⟩ := hn.above r c y hy
        obtain ⟨w, hw, hs'⟩ := h2 r c z hz
        exact ⟨w, hw, stays_trans hs hs'⟩
      · obtain ⟨z, hz, hs⟩ := hn.left c y hy
        obtain ⟨w, hw, hs'⟩ := h4 c z hz
        exact ⟨w, hw, stays_trans hs hs'⟩
      · cases c with
        | zero =>
          simp only [List.getElem?_cons_zero, Option.some.injEq] at hy
          subst hy
          obtain ⟨z, hz, hzd⟩ := hg hd
          have hz' : st1.left.reverse[st.left.length]? = some z := by
            cases hs : st1.left with
            | nil => rw [hs] at hz; cases hz
            | cons a l =>
              have hc := hn.count
              rw [hs] at hz hc
              simp only [List.head?_cons, Option.some.injEq] at hz
              subst hz
              simp only [List.length_cons] at hc
              rw [List.reverse_cons, show st.left.length = l.reverse.length by simp; omega]
              simp
          obtain ⟨w, hw, hs⟩ := h4 _ z hz'
          exact ⟨w, hw, by rw [hs.1 (by rw [hzd]; exact removed_gone)]; exact hzd⟩
        | succ c =>
          obtain ⟨z, hz, hzd⟩ := h5 c y (by simpa using hy) hd
          refine ⟨z, ?_, hzd⟩
          rw [← hz, hn.count]
          congr 1; omega

/-- A cell that is never shown: one of equal signs, or one in a row of nothing but dashes and empty cells. -/
def Never (row : Row) (x : Cell) : Prop := isRule x = true ∨ row.cells.all isDash = true

/-- Between rows. -/
def LiveRows (s : Rows) : Prop := ∀ (c : Nat) r, s.active[c]? = some (some r) → ∃ x, cellAt s.above r c = some x ∧ removed x.data = false

theorem stepRow_next {al : Bool} {s s' : Rows} {row : Row} (hl : LiveRows s) (h : stepRow al s row = .val s') :
    LiveRows s' ∧ s'.above.length = s.above.length + 1 ∧ (∀ r c x, cellAt s.above r c = some x → ∃ y, cellAt s'.above r c = some y ∧ Stays x y) ∧
      ∀ (c : Nat) (x : Cell), row.cells[c]? = some x → Never row x → ∃ y, cellAt s'.above s.above.length c = some y ∧ y.data = some gone := by
  unfold stepRow at h
  simp only [] at h
  split at h
  · rename_i hd
    simp only [C.val.injEq] at h
    subst h
    have hold : ∀ r c x, cellAt s.above r c = some x → ∀ q : Row, cellAt (s.above ++ [q]) r c = some x := by
      intro r c x hx q
      rw [cellAt_append, if_pos (cellAt_lt hx)]; exact hx
    refine ⟨fun c r h => ?_, by simp, fun r c x hx => ⟨x, hold r c x hx _, stays_refl _⟩, fun c x hx _ => ?_⟩
    · obtain ⟨x, hx, hs⟩ := hl c r h
      exact ⟨x, hold r c x hx _, hs⟩
    · simp only [cellAt_append, Nat.lt_irrefl, if_false, if_true, List.getElem?_map, footRow, hx, Option.map_some]
      exact ⟨_, rfl, rfl⟩
  · rename_i hd
    cases hc : stepCells al s.prev ⟨s.above, s.active, []⟩ (footRow s.inFoot row).cells with
    | ub => rw [hc] at h; cases h
    | val st =>
      rw [hc, C.val_bind] at h
      simp only [C.val.injEq] at h
      subst h
      have hl' : Live ⟨s.above, s.active, []⟩ := fun c r h => .inl (hl c r h)
      obtain ⟨h1, h2, h3, -, h5⟩ := stepCells_next _ hl' hc
      simp only [] at h2 h3 h5
      have hold : ∀ r c x, cellAt st.above r c = some x → ∀ q : Row, cellAt (st.above ++ [q]) r c = some x := by
        intro r c x hx q
        rw [cellAt_append, if_pos (cellAt_lt hx)]; exact hx
      refine ⟨fun c r h => ?_, by simp [h3], fun r c x hx => ?_, fun c x hx hn => ?_⟩
      · rcases h1 c r h with ⟨x, hx, hs⟩ | ⟨hr, x, hx, hs⟩
        · exact ⟨x, hold r c x hx _, hs⟩
        · refine ⟨x, ?_, hs⟩
          rw [cellAt_append, if_neg (by omega), if_pos hr]
          exact hx
      · obtain ⟨y, hy, hs⟩ := h2 r c x hx
        exact ⟨y, hold r c y hy _, hs⟩
      · have hr : isRule x = true := by
          rcases hn with hn | hn
          · exact hn
          · exact absurd ⟨by intro e; rw [e] at hx; simp at hx, hn⟩ hd
        obtain ⟨y, hy, hyd⟩ := h5 c { x with data := some gone } (by simp [footRow, hx, hr]) rfl
        refine ⟨y, ?_, hyd⟩
        rw [cellAt_append, if_neg (by omega), if_pos h3.symm]
        simpa using hy

theorem stepRows_next {al : Bool} (t : List Row) : ∀ {s s' : Rows}, LiveRows s → stepRows al s t = .val s' →
    (∀ r c x, cellAt s.above r c = some x → ∃ y, cellAt s'.above r c = some y ∧ Stays x y) ∧
      ∀ (r c : Nat) (row : Row) (x : Cell), t[r]? = some row → row.cells[c]? = some x → Never row x → ∃ y, cellAt s'.above (s.above.length + r) c = some y ∧ y.data = some gone := by
  induction t with
  | nil =>
    intro s s' hl h
    simp only [stepRows, C.val.injEq] at h
    subst h
    exact ⟨fun r c x h => ⟨x, h, stays_refl _⟩, fun r c row x h => by simp at h⟩
  | cons row t ih =>
    intro s s' hl h
    unfold stepRows at h
    cases hx : stepRow al s row with
    | ub => rw [hx] at h; cases h
    | val s1 =>
      rw [hx, C.val_bind] at h
      obtain ⟨g1, g2, g3, g4⟩ := stepRow_next hl hx
      obtain ⟨h1, h2⟩ := ih g1 h
      refine ⟨fun r c y hy => ?_, fun r c row' y hr hy hn => ?_⟩
      · obtain ⟨z, hz, hs⟩ := g3 r c y hy
        obtain ⟨w, hw, hs'⟩ := h1 r c z hz
        exact ⟨w, hw, stays_trans hs hs'⟩
      · cases r with
        | zero =>
          simp only [List.getElem?_cons_zero, Option.some.injEq] at hr
          subst hr
          obtain ⟨z, hz, hzd⟩ := g4 c y hy hn
          obtain ⟨w, hw, hs⟩ := h1 _ c z hz
          exact ⟨w, hw, by rw [hs.1 (by rw [hzd]; exact removed_gone)]; exact hzd⟩
        | succ r =>
          obtain ⟨z, hz, hzd⟩ := h2 r c row' y (by simpa using hr) hy hn
          refine ⟨z, ?_, hzd⟩
          rw [← hz, g2]
          congr 1; omega

/-! ### Tables with nothing joined -/

/-- The cell as it is with its colons taken off. -/
theorem stepCell_own {prev : Option Nat} {st : St} {x : Cell} {s : Bytes} (hk : x.kids = [.text s]) (hsrc : x.src = []) (hd : x.data = none)
    (h1 : ¬ Padded b!"<<" s) (h2 : ¬ Padded b!"^^" s) (h3 : ∀ u a, Aligned s u a → ¬ Padded b!"^^" u) (hc : st.left.length < 50) :
    stepCell true prev st x = .val { st with active := st.active.set st.left.length (some st.above.length), left := colonless true x :: st.left } := by
  have hrm : removed x.data = false := by rw [hd]; rfl
  have hcond : (true && !removed x.data) = true := by rw [hrm]; rfl
  have hraw : rawOf x.data = [] := by rw [hd]; rfl
  unfold stepCell colonless
  rw [if_pos hcond, if_pos hcond]
  cases ha : alignText s with
  | none =>
    have hal : aligned x = none := by unfold aligned; rw [hk]; simp only [firstText, ha]
    rw [hal]
    simp only [Option.getD_none]
    have hl : isLeft (rawOf x.data) x = false := by
      have : trim s ≠ b!"<<" := fun e => h1 (trim_left.1 e)
      unfold isLeft raw
      rw [hraw, hsrc, hk]
      simp [fullTexts, fullText, this]
    have hu : isUp x = false := by
      unfold isUp; rw [hk]
      simpa using fun e => h2 (trim_up.1 e)
    unfold spanCell keep
    rw [hl, hu, hrm]
    simp [hc]
  | some p =>
    obtain ⟨a, u⟩ := p
    have hA := aligned_of ha
    have hal : aligned x = some { x with data := some (alignMark x.data a), kids := [.text u] } := by
      unfold aligned; rw [hk]; simp only [firstText, ha]
    rw [hal]
    simp only [Option.getD_some]
    rw [if_neg (by rw [hraw]; simp)]
    have hm : alignMark x.data a = b!" style=\"text-align: " ++ a ++ b!"\"" ∧ removed (some (alignMark x.data a)) = false ∧
        rawOf (some (alignMark x.data a)) = b!" style=\"text-align: " ++ a ++ b!"\"" ∧ trim (b!" style=\"text-align: " ++ a ++ b!"\"") ≠ b!"<<" := by
      rw [hd]
      obtain ⟨-, -, -, -, -, -, ⟨rfl, -⟩ | ⟨rfl, -⟩ | ⟨rfl, -⟩⟩ := hA <;> decide +kernel
    have hne : b!" style=\"text-align: " ++ a ++ b!"\"" ≠ [] := by simp
    have hl : isLeft [] { x with data := some (alignMark x.data a), kids := [.text u] } = false := by
      unfold isLeft raw
      simp only [hm.2.2.1]
      rw [if_neg (by simp), if_pos hne, if_pos hne]
      simp only [hm.2.2.2, decide_false, Bool.and_false, Bool.false_and]
    have hu : isUp { x with data := some (alignMark x.data a), kids := [.text u] } = false := by
      unfold isUp
      simpa using fun e => h3 u a hA (trim_up.1 e)
    unfold spanCell keep
    rw [hl, hu, hm.2.1]
    simp [hc]

theorem stepCells_own {prev : Option Nat} (cells : List Cell) : ∀ {st : St}, (∀ x ∈ cells, ∃ s, Own x s) → st.left.length + cells.length ≤ 50 →
    ∃ a, stepCells true prev st cells = .val ⟨st.above, a, (cells.map (colonless true)).reverse ++ st.left⟩ := by
  induction cells with
  | nil => intro st _ _; exact ⟨st.active, rfl⟩
  | cons x cells ih =>
    intro st hx hl
    simp only [List.length_cons] at hl
    obtain ⟨s, hs⟩ := hx x (List.mem_cons_self ..)
    unfold stepCells
    rw [stepCell_own hs.kids hs.src hs.data hs.left hs.up.1 hs.up.2 (by omega), C.val_bind]
    obtain ⟨a, e⟩ := ih (st := { st with active := st.active.set st.left.length (some st.above.length), left := colonless true x :: st.left })
      (fun y hy => hx y (List.mem_cons_of_mem _ hy)) (by simp only [List.length_cons]; omega)
    exact ⟨a, by rw [e]; simp⟩

theorem stepRows_own (t : List Row) : ∀ {s : Rows}, s.inFoot = false → (∀ row ∈ t, row.cells.length ≤ 50 ∧ (∀ x ∈ row.cells, ∃ s, Own x s) ∧ (row.cells ≠ [] → ∃ x ∈ row.cells, ¬ Dash x)) →
    ∃ s', stepRows true s t = .val s' ∧ s'.above = s.above ++ t.map fun row => { row with cells := row.cells.map (colonless true) } := by
  induction t with
  | nil => intro s _ _; exact ⟨s, rfl, by simp⟩
  | cons row t ih =>
    intro s hf h
    obtain ⟨h1, h2, h3⟩ := h row (List.mem_cons_self ..)
    have hr : ∀ x ∈ row.cells, isRule x = false := by
      intro x hx
      obtain ⟨s, hs⟩ := h2 x hx
      cases hr : isRule x with
      | false => rfl
      | true =>
        obtain ⟨s', ks, hk, hR⟩ := isRule_iff.1 hr
        rw [hs.kids] at hk
        simp only [List.cons.injEq, Inl.text.injEq] at hk
        rw [← hk.1] at hR
        exact absurd hR hs.rule
    obtain ⟨f1, f2⟩ := footRow_plain hr
    have hnd : ¬ (row.cells ≠ [] ∧ row.cells.all isDash = true) := by
      rintro ⟨e1, e2⟩
      obtain ⟨x, hx, hd⟩ := h3 e1
      exact hd (isDash_iff.1 (List.all_eq_true.1 e2 x hx))
    obtain ⟨a, e⟩ := stepCells_own (prev := s.prev) row.cells (st := ⟨s.above, s.active, []⟩) h2 (by simpa using h1)
    have hs : stepRow true s row = .val ⟨s.above ++ [{ row with cells := row.cells.map (colonless true) }], a, some s.above.length, false⟩ := by
      unfold stepRow
      simp only []
      rw [if_neg hnd, hf, f1, e, C.val_bind, f2]
      simp
    obtain ⟨s', e1, e2⟩ := ih (s := ⟨s.above ++ [{ row with cells := row.cells.map (colonless true) }], a, some s.above.length, false⟩) rfl
      (fun row hr => h row (List.mem_cons_of_mem _ hr))
    refine ⟨s', ?_, by rw [e2]; simp⟩
    unfold stepRows
    rw [hs, C.val_bind, e1]

theorem spans_own {t : List Row} (h : ∀ row ∈ t, row.cells.length ≤ 50 ∧ (∀ x ∈ row.cells, ∃ s, Own x s) ∧ (row.cells ≠ [] → ∃ x ∈ row.cells, ¬ Dash x)) :
    spans true t = .val (t.map fun row => { row with cells := row.cells.map (colonless true) }) := by
  obtain ⟨s', e1, e2⟩ := stepRows_own t (s := ⟨[], List.replicate 50 none, none, false⟩) rfl h
  unfold spans
  rw [e1, C.val_bind, e2]
  rfl

/-- A cell of its own with its colons taken off. -/
theorem colonless_own {x : Cell} {s : Bytes} (h : Own x s) :
    (∃ u a, Aligned s u a ∧ colonless true x = ⟨some (b!" style=\"text-align: " ++ a ++ b!"\""), [], [.text u]⟩) ∨ ¬ Colon s ∧ colonless true x = x := by
  have hcond : (true && !removed x.data) = true := by rw [h.data]; rfl
  unfold colonless
  rw [if_pos hcond]
  cases ha : alignText s with
  | none =>
    right
    refine ⟨fun hc => ?_, ?_⟩
    · obtain ⟨t, a, e⟩ := colon_aligned hc
      rw [ha] at e; cases e
    · have hal : aligned x = none := by unfold aligned; rw [h.kids]; simp only [firstText, ha]
      rw [hal]; rfl
  | some p =>
    obtain ⟨a, u⟩ := p
    left
    have hA := aligned_of ha
    refine ⟨u, a, hA, ?_⟩
    have hal : aligned x = some { x with data := some (alignMark x.data a), kids := [.text u] } := by
      unfold aligned; rw [h.kids]; simp only [firstText, ha]
    rw [hal, Option.getD_some, h.data, h.src]
    have : alignMark none a = b!" style=\"text-align: " ++ a ++ b!"\"" := by
      obtain ⟨-, -, -, -, -, -, ⟨rfl, -⟩ | ⟨rfl, -⟩ | ⟨rfl, -⟩⟩ := hA <;> decide +kernel
    rw [this]

end Verif.TableSpans
