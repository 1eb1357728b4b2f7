/-
Tables on a terminal (C206, C207).
-/
import Verif.Proof.TermTable
import Verif.Proof.TermGrid
import Verif.Proof.TermSimple

namespace Verif.Term
open Spec TermStyle.Spec

/-! ### C206: all lines of a table are of the same width -/

theorem grid_cells {kids : List Node} {rows cols : Nat} {g : Grid} {P : Node → Prop} (hc : ∀ r ∈ kids, ∀ c ∈ r.kids, P c) (hg : placeRows rows cols 0 (rowsOf kids) (fun _ _ => none) = .val g) :
    ∀ r c s, g r c = some s → P s.cell ∧ s.cell.kind = .cell := by
  refine placeRows_cells (P := fun n => P n ∧ n.kind = .cell) hg ?_ (by simp)
  intro n hn c hcm
  exact ⟨hc n (List.mem_filter.1 hn).1 c (List.mem_filter.1 hcm).1, by simpa using (List.mem_filter.1 hcm).2⟩

/-- C206, for all tables of text, code and emphasis of one byte for each character, with cells joined to their left but not to those above, whatever their sides and widths: all lines are of the same width.
Missing: other text, links, and cells joined to those above; for the first two it is false. -/
theorem C206_width_partial {o : Opt} (ho : Quiet o) {indent : Nat} {a : Option Bytes} {kids : List Node} {t : Bytes} (hr : ∀ r ∈ kids, ∀ c ∈ r.kids, ∀ x, c.attrs = some x → ¬ b!"rowspan" <:+: x)
    (he : ∀ r ∈ kids, ∀ c ∈ r.kids, Alls (Even o.emoji) c.kids) (h : table o indent a kids = .val t) :
    ∃ n, ∃ ls : List Bytes, text (screen t) = ls.flatMap (· ++ b!"\n") ++ (if ls = [] then [] else b!"\n") ∧ ∀ l ∈ ls, (10 : Byte) ∉ l ∧ width l = n := by
  have empty : ∀ t', t' = t → t' = [] → ∃ n, ∃ ls : List Bytes, text (screen t) = ls.flatMap (· ++ b!"\n") ++ (if ls = [] then [] else b!"\n") ∧ ∀ l ∈ ls, (10 : Byte) ∉ l ∧ width l = n := by
    rintro t' rfl rfl
    exact ⟨0, [], rfl, by simp⟩
  unfold table at h
  split at h
  · cases h; exact empty _ rfl rfl
  simp only at h
  split at h
  · cases h; exact empty _ rfl rfl
  split at h
  · cases hg : placeRows (rowsOf kids).length (colsOf (rowsOf kids)) 0 (rowsOf kids) fun _ _ => none with
    | ub => rw [hg] at h; cases h
    | val g =>
      rw [hg, C.val_bind] at h
      split at h
      · cases h; exact empty _ rfl rfl
      · rw [C.val.injEq] at h
        have hcells := grid_cells (P := fun n => Alls (Even o.emoji) n.kids) he hg
        have hlaid : Laid (rowsOf kids).length (colsOf (rowsOf kids)) g := by
          refine placeRows_laid ⟨by simp, by simp⟩ (by simp) (by omega) ?_ hg
          intro n hn
          refine ⟨?_, colsOf_ge hn⟩
          intro c hc
          exact span_single (by simp) (hr n (List.mem_filter.1 hn).1 c (List.mem_filter.1 hc).1)
        have hfit := fits_of_laid (n := indent) hlaid (shows_border ho) hcells
        obtain ⟨l1, h1, h2, h3⟩ := edge_line hfit (left := b!"┌") (sep := b!"┬") (right := b!"┐") (nl := b!"\n") (by decide) (by decide) (by decide) (by decide)
        obtain ⟨l2, h4, h5, h6⟩ := edge_line hfit (left := b!"└") (sep := b!"┴") (right := b!"┘") (nl := b!"\n\n") (by decide) (by decide) (by decide) (by decide)
        obtain ⟨ls, h7, h8⟩ := rows_lines ho hfit (List.range (rowsOf kids).length)
        have hs := (h1.append h7).append h4
        rw [h] at hs
        refine ⟨width l1, l1 :: ls ++ [l2], ?_, ?_⟩
        · rw [hs.screen.1]
          simp
        · intro l hl
          simp only [List.cons_append, List.mem_cons, List.mem_append, List.not_mem_nil, or_false] at hl
          rcases hl with rfl | hl | rfl
          · exact ⟨h2, rfl⟩
          · exact ⟨(h8 l hl).1, by rw [(h8 l hl).2, h3]⟩
          · exact ⟨h5, by rw [h6, h3]⟩
  · cases h

/-- A row of cells with a text each. -/
def row (ts : List Bytes) : Node := .mk .row none (ts.map fun t => .mk .cell none [.mk (.text t) none []])

/-- A cell that takes two columns, and the one it replaces. -/
def wide (t : Bytes) : List Node := [.mk .cell (some b!" colspan=\"2\"") [.mk (.text t) none []], .mk .cell (some b!" data-remove=\"true\"") []]

/-- What one reads of a table. -/
def drawn (kids : List Node) : C Bytes := do
  let t ← table {} 0 none kids
  .val (text (screen t))

example : drawn [.mk .row none (wide b!"ab"), row [b!"c", b!"d"]] = .val b!"┌───┬───┐\n│ ab    │\n├───┼───┤\n│ c │ d │\n└───┴───┘\n\n" := by decide +kernel

/-- C206 fails: a letter of two bytes makes its line too short, and the target of a link makes it too long. -/
theorem C206_uneven : drawn [row [b!"é"]] = .val b!"┌────┐\n│ é │\n├────┤\n└────┘\n\n" ∧
    drawn [.mk .row none [.mk .cell none [.mk (.link b!"u") none [.mk (.text b!"a") none []]]]] = .val b!"┌───┐\n│ a (u) │\n├───┤\n└───┘\n\n" := by decide +kernel

/-! ### C207: each cell is shown in its column -/

theorem rows_text {f : Frame} {o : Opt} {Q : Nat → Bytes → Prop} : ∀ (m start : Nat), (∀ i, start ≤ i → i < start + m → ∃ v, Shows (f.row o i) (f.indent ++ b!"│" ++ v ++ b!"\n") ∧ Q i v) →
    ∃ vs : List Bytes, vs.length = m ∧ (∀ (k : Nat) (v : Bytes), vs[k]? = some v → Q (start + k) v) ∧ Shows ((List.range' start m).flatMap (f.row o)) (vs.flatMap fun v => f.indent ++ b!"│" ++ v ++ b!"\n")
  | 0, _, _ => ⟨[], rfl, by simp, shows_calm (s := []) (by simp)⟩
  | m + 1, start, h => by
    obtain ⟨v, h1, h2⟩ := h start (Nat.le_refl _) (by omega)
    obtain ⟨vs, h3, h4, h5⟩ := rows_text m (start + 1) fun i hi hj => h i (by omega) (by omega)
    refine ⟨v :: vs, by simp [h3], ?_, ?_⟩
    · intro k w hk
      cases k with
      | zero => simp only [List.getElem?_cons_zero, Option.some.injEq] at hk; subst hk; exact h2
      | succ k =>
        have := h4 k w (by simpa using hk)
        rwa [show start + 1 + k = start + (k + 1) by omega] at this
    · rw [List.range'_succ, List.flatMap_cons, List.flatMap_cons]
      exact h1.append h5

/-- C207, for all tables of equal rows whose cells are not joined, of text, code and emphasis of one byte for each character, with no row of equal signs: the table is drawn with all its rows and cells in
order, each cell in its column and on its side, and the columns as narrow as they can be.  Missing: other text, feet of tables, and joined cells, for which it is false. -/
theorem C207_cells_partial {o : Opt} (ho : Quiet o) (indent : Nat) {head : Node} {rest : List Node} {n : Nat} (hn : 1 ≤ n) (hsize : (head :: rest).length * n < 2147483648)
    (h : ∀ r ∈ head :: rest, r.kind = .row ∧ r.kids.length = n ∧ (∀ c ∈ r.kids, Single o.emoji c) ∧ ∃ c ∈ r.kids, Worded c) :
    ∃ (t : Bytes) (ws : List Nat) (vs : List Bytes), table o indent none (head :: rest) = .val t ∧ text (screen t) = drawing (spaces indent) ws vs ∧ vs.length = (head :: rest).length ∧ ws.length = n ∧
      (∀ (j w : Nat), ws[j]? = some w → w = 1 ∨ ∃ r ∈ head :: rest, ∃ c, r.kids[j]? = some c ∧ (readAll o.emoji c.kids).length = w) ∧
      ∀ (i : Nat) (r : Node) (v : Bytes), (head :: rest)[i]? = some r → vs[i]? = some v → Line ws ((r.kids.map fun c => readAll o.emoji c.kids).zip (List.zipWith sideOf head.kids r.kids)) v := by
  have hrows : rowsOf (head :: rest) = head :: rest := rowsOf_all fun r hr => (h r hr).1
  have hcells : ∀ r ∈ head :: rest, cellsOf r = r.kids := fun r hr => cellsOf_all fun c hc => ((h r hr).2.2.1 c hc).kind
  have hcols : colsOf (head :: rest) = n := by
    refine foldl_max_const _ _ ?_ (Nat.zero_le _) (.inl (by simp))
    intro x hx
    obtain ⟨r, hr, rfl⟩ := List.mem_map.1 hx
    have := spanSum_single (h r hr).2.2.1
    rw [hcells r hr]
    unfold spanSum at this
    rw [this, (h r hr).2.1]
  have hlen : (head :: rest).length ≤ (head :: rest).length * n := Nat.le_mul_of_pos_right _ hn
  have hlen' : n ≤ (head :: rest).length * n := Nat.le_mul_of_pos_left _ (by simp)
  obtain ⟨g, hg, hg2, hg3⟩ := placeRows_single (emoji := o.emoji) (rows := (head :: rest).length) (cols := n) ⟨by omega, by omega⟩ (rs := head :: rest) (r := 0) (g := fun _ _ => none) (by simp) (by
    intro r hr
    rw [hcells r hr]
    exact ⟨(h r hr).2.2.1, (h r hr).2.1⟩) (by omega)
  have hgrid : ∀ (i : Nat) (r : Node), (head :: rest)[i]? = some r → ∀ j : Nat, g i j = r.kids[j]?.map slot := by
    intro i r hr j
    have := hg2 i r hr j
    rwa [Nat.zero_add, hcells r (List.mem_of_getElem? hr)] at this
  have hmem : ∀ i j s, g i j = some s → ∃ r, (head :: rest)[i]? = some r ∧ ∃ c, r.kids[j]? = some c ∧ s = slot c := by
    intro i j s hs
    cases hr : (head :: rest)[i]? with
    | none =>
      have := List.getElem?_eq_none_iff.1 hr
      rw [hg3 i j (.inr (by omega))] at hs
      cases hs
    | some r =>
      rw [hgrid i r hr j] at hs
      cases hc : r.kids[j]? with
      | none => rw [hc] at hs; cases hs
      | some c =>
        rw [hc] at hs
        exact ⟨r, rfl, c, hc, (Option.some.inj hs).symm⟩
  have hlaid : Laid (head :: rest).length n g := by
    refine placeRows_laid ⟨by simp, by simp⟩ (by simp) (by omega) ?_ hg
    intro r hr
    rw [hcells r hr, spanSum_single (h r hr).2.2.1, (h r hr).2.1]
    exact ⟨fun c hc => span_single (by simp) ((h r hr).2.2.1 c hc).rowspan, Nat.le_refl _⟩
  have hvis : visual g (head :: rest).length n = n := by
    refine Nat.le_antisymm ?_ ?_
    · refine foldl_max_bound _ _ _ (Nat.zero_le _) ?_
      intro x hx
      obtain ⟨p, hp, rfl⟩ := List.mem_map.1 hx
      have := (mem_places.1 (List.mem_filter.1 hp).1).2
      omega
    · have hk : head.kids[n - 1]? ≠ none := by
        intro hk
        have := List.getElem?_eq_none_iff.1 hk
        have := (h head (List.mem_cons_self ..)).2.1
        omega
      cases hc : head.kids[n - 1]? with
      | none => exact absurd hc hk
      | some c =>
        have h0 := hgrid 0 head rfl (n - 1)
        rw [hc] at h0
        have := visual_ge (g := g) (rows := (head :: rest).length) (cols := n) (r := 0) (c := n - 1) (by simp) (by omega) (by rw [h0]; rfl)
        omega
  have hall : ∀ i j s, g i j = some s → Alls (Even o.emoji) s.cell.kids ∧ s.cell.kind = .cell := by
    intro i j s hs
    obtain ⟨r, hr, c, hc, rfl⟩ := hmem i j s hs
    have := (h r (List.mem_of_getElem? hr)).2.2.1 c (List.mem_of_getElem? hc)
    exact ⟨this.even, this.kind⟩
  have hfit := fits_of_laid (n := indent) hlaid (shows_border ho) hall
  rw [hvis] at hfit
  generalize hfe : Frame.mk g n (widths g (head :: rest).length n) (TermStyle.style o.wide (o.theme.border.getD (if o.wide then b!"38;5;250" else b!"white"))) (spaces indent) = f at hfit
  have fgrid : f.grid = g := by rw [← hfe]
  have fvis : f.vis = n := by rw [← hfe]
  have find : f.indent = spaces indent := by rw [← hfe]
  have hwid : ∀ (i : Nat) (r : Node), (head :: rest)[i]? = some r → ∀ (j : Nat) (x : Node), r.kids[j]? = some x → plainWidth x ≤ f.inner j := by
    intro i r hr j x hx
    have hs := hgrid i r hr j
    rw [hx] at hs
    have h1 := widths_ge hlaid hs rfl 0 (show 0 < 1 by decide)
    simp only [slot, Nat.add_sub_cancel, Nat.div_one, Nat.add_zero] at h1
    rw [← hfe]
    unfold Frame.inner
    simp only
    split <;> omega
  have hside : ∀ (i : Nat) (r : Node), (head :: rest)[i]? = some r → ∀ (j : Nat) (x : Node) (a : Align), r.kids[j]? = some x → (List.zipWith sideOf head.kids r.kids)[j]? = some a →
      f.align j x = if a = .default then .left else a := by
    intro i r hr j x a hx ha
    rw [List.getElem?_zipWith] at ha
    cases hh : head.kids[j]? with
    | none => rw [hh] at ha; simp at ha
    | some y =>
      rw [hh, hx] at ha
      simp only [Option.some.injEq] at ha
      have h0 := hgrid 0 head rfl j
      rw [hh] at h0
      have hca : colAlign f.grid j = alignOf y.attrs := by
        rw [fgrid]
        unfold colAlign
        rw [h0]
        rfl
      unfold Frame.align
      rw [hca, ← ha]
      unfold sideOf
      by_cases h1 : alignOf x.attrs = .default
      · rw [h1]
        simp only [ne_eq, not_true_eq_false, if_false]
        by_cases h2 : alignOf y.attrs = .default
        · simp [h2]
        · simp [h2]
      · simp [h1]
  have hfoot : ∀ (i : Nat) (r : Node), (head :: rest)[i]? = some r → f.footer i = false := by
    intro i r hr
    obtain ⟨c, hc, hcw⟩ := (h r (List.mem_of_getElem? hr)).2.2.2
    obtain ⟨j, hj⟩ := List.mem_iff_getElem?.1 hc
    have hjn : j < n := by
      have := (List.getElem?_eq_some_iff.1 hj).1
      have := (h r (List.mem_of_getElem? hr)).2.1
      omega
    unfold Frame.footer
    simp only [Bool.and_eq_false_iff, List.all_eq_false]
    right
    refine ⟨c, ?_, by rw [worded_equals hcw]; decide⟩
    rw [List.mem_filterMap]
    refine ⟨j, by rw [fvis]; exact List.mem_range.2 hjn, ?_⟩
    rw [fgrid, hgrid i r hr j, hj]
    rfl
  have hline : ∀ (i : Nat) (r : Node), (head :: rest)[i]? = some r → ∃ v, Shows (f.line o (i = 0) i f.vis 0) v ∧
      Line ((List.range' 0 n).map f.inner) ((r.kids.map fun c => readAll o.emoji c.kids).zip (List.zipWith sideOf head.kids r.kids)) v := by
    intro i r hr
    have hm := h r (List.mem_of_getElem? hr)
    have hl := hm.2.1
    have := line_text ho hfit (i = 0) i f.vis 0 r.kids (List.zipWith sideOf head.kids r.kids) (by rw [List.length_zipWith, (h head (List.mem_cons_self ..)).2.1, hl]; omega) (by rw [fvis]; omega) (by rw [fvis]; omega)
      (by intro j; rw [Nat.zero_add, fgrid]; exact hgrid i r hr j) hm.2.2.1 (by intro j x hx; rw [Nat.zero_add]; exact hwid i r hr j x hx) (by intro j x a hx ha; rw [Nat.zero_add]; exact hside i r hr j x a hx ha)
    rwa [hl] at this
  have hind : (27 : Byte) ∉ f.indent := by rw [find]; exact calm_spaces _
  have hrow : ∀ (i : Nat) (r : Node), (head :: rest)[i]? = some r → ∃ v, Shows (f.indent ++ f.bar ++ f.line o (i = 0) i f.vis 0 ++ b!"\n") (f.indent ++ b!"│" ++ v ++ b!"\n") ∧
      Line ((List.range' 0 n).map f.inner) ((r.kids.map fun c => readAll o.emoji c.kids).zip (List.zipWith sideOf head.kids r.kids)) v := by
    intro i r hr
    obtain ⟨v, h1, h2⟩ := hline i r hr
    exact ⟨v, (((shows_calm hind).append (shows_bar hfit)).append h1).append (shows_calm (by decide)), h2⟩
  obtain ⟨v0, hv0, hq0⟩ := hrow 0 head rfl
  obtain ⟨vs, hvs1, hvs2, hvs3⟩ := rows_text (f := f) (o := o) (Q := fun i v => ∀ r, (head :: rest)[i]? = some r →
      Line ((List.range' 0 n).map f.inner) ((r.kids.map fun c => readAll o.emoji c.kids).zip (List.zipWith sideOf head.kids r.kids)) v) rest.length 1 (by
    intro i h1 h2
    have : i < (head :: rest).length := by simp only [List.length_cons]; omega
    have hr : (head :: rest)[i]? = some (head :: rest)[i] := List.getElem?_eq_getElem this
    obtain ⟨v, h3, h4⟩ := hrow i _ hr
    refine ⟨v, ?_, ?_⟩
    · unfold Frame.row
      rw [hfoot i _ hr, if_neg (by decide), if_neg (by omega), List.append_nil]
      exact h3
    · intro r hr'
      rw [hr] at hr'
      cases hr'
      exact h4)
  have htop := shows_edge hfit (left := b!"┌") (sep := b!"┬") (right := b!"┐") (nl := b!"\n") (by decide) (by decide) (by decide) (by decide)
  have hmid := shows_edge hfit (left := b!"├") (sep := b!"┼") (right := b!"┤") (nl := b!"\n") (by decide) (by decide) (by decide) (by decide)
  have hbot := shows_edge hfit (left := b!"└") (sep := b!"┴") (right := b!"┘") (nl := b!"\n\n") (by decide) (by decide) (by decide) (by decide)
  have hrow0 : Shows (f.row o 0) (f.indent ++ b!"│" ++ v0 ++ b!"\n" ++ (f.indent ++ b!"├" ++ f.bars b!"┼" b!"┤" f.vis 0 ++ b!"\n")) := by
    unfold Frame.row
    rw [hfoot 0 head rfl, if_neg (by decide), if_pos rfl]
    exact hv0.append hmid
  have hrange : List.range (head :: rest).length = 0 :: List.range' 1 rest.length := by
    rw [List.range_eq_range', List.length_cons, List.range'_succ]
  refine ⟨f.edge b!"┌" b!"┬" b!"┐" b!"\n" ++ (List.range (head :: rest).length).flatMap (f.row o) ++ f.edge b!"└" b!"┴" b!"┘" b!"\n\n", (List.range' 0 n).map f.inner, v0 :: vs, ?_, ?_, by simp [hvs1], by simp, ?_, ?_⟩
  · unfold table
    rw [if_neg (by decide)]
    simp only [hrows, hcols]
    rw [if_neg (by simp only [List.length_cons]; omega), if_pos hsize, hg, C.val_bind, hvis, if_neg (by omega), hfe]
  · have := ((htop.append (hrow0.append hvs3)).append hbot).screen.1
    rw [hrange, List.flatMap_cons, this]
    unfold drawing
    rw [strokes_bars, strokes_bars, strokes_bars, find, fvis]
    simp only [List.append_assoc]
  · intro j w hw
    rw [List.getElem?_map, Option.map_eq_some_iff] at hw
    obtain ⟨j', hj', rfl⟩ := hw
    obtain ⟨hjn, hj''⟩ := List.getElem?_eq_some_iff.1 hj'
    rw [List.getElem_range', Nat.zero_add, Nat.one_mul] at hj''
    subst hj''
    rw [← hfe]
    unfold Frame.inner
    simp only
    split
    · right
      rename_i hpos
      rcases widths_some (cols := n) (g := g) (by
        intro r c s hs
        obtain ⟨_, _, _, _, rfl⟩ := hmem r c s hs
        rfl) (places (head :: rest).length n) (fun _ => 0) j with h0 | ⟨p, hp, h1, s, h2, h3⟩
      · unfold widths at hpos
        rw [h0] at hpos
        omega
      · obtain ⟨r, hr, c, hc, rfl⟩ := hmem _ _ _ h2
        rw [h1] at hc
        have hmr := List.mem_of_getElem? hr
        have hs := (h r hmr).2.2.1 c (List.mem_of_getElem? hc)
        refine ⟨r, hmr, c, hc, ?_⟩
        unfold widths
        rw [h3]
        have he := even_seens _ hs.even
        have hplain : seens o.emoji c.kids = readAll o.emoji c.kids := by
          refine seens_reads _ (alls_imp ?_ _ hs.even)
          intro k hk
          cases k <;> first | trivial | exact hk.elim | (show ¬ _; rw [hk.2.1]; exact hk.2.2)
        rw [← hplain, he.2]
        have hk := hs.kind
        cases c with
        | mk k a kids =>
          simp only [Node.kind] at hk
          subst hk
          rfl
    · exact .inl rfl
  · intro i r v hr hv
    cases i with
    | zero =>
      simp only [List.getElem?_cons_zero, Option.some.injEq] at hr hv
      subst hr hv
      exact hq0
    | succ i =>
      simp only [List.getElem?_cons_succ] at hv
      have := hvs2 i v hv r (by rwa [Nat.add_comm])
      exact this

example : drawn [row [b!"Name", b!"x"], row [b!"a", b!"long one"]] = .val b!"┌──────┬──────────┐\n│ Name │ x        │\n├──────┼──────────┤\n│ a    │ long one │\n└──────┴──────────┘\n\n" := by decide +kernel

example : ∀ r ∈ [row [b!"Name", b!"x"], row [b!"a", b!"long one"]], r.kind = .row ∧ r.kids.length = 2 ∧ (∀ c ∈ r.kids, Single id c) ∧ ∃ c ∈ r.kids, Worded c := by
  have key : ∀ t : Bytes, Narrow t → ¬ b!"APEXLTLT" <:+: t → Single id (.mk .cell none [.mk (.text t) none []]) := by
    intro t h1 h2
    refine ⟨rfl, by simp [Node.attrs], by simp [Node.attrs], by simp [Node.attrs], ?_⟩
    simp only [Node.kids, Alls, All, Spec.Even, id, and_true]
    exact ⟨h1, trivial, h2⟩
  intro r hr
  simp only [List.mem_cons, List.not_mem_nil, or_false] at hr
  rcases hr with rfl | rfl
  · refine ⟨rfl, rfl, ?_, _, List.mem_cons_self .., ?_⟩
    · intro c hc
      simp only [row, List.map_cons, List.map_nil, Node.kids, List.mem_cons, List.not_mem_nil, or_false] at hc
      rcases hc with rfl | rfl
      · exact key _ (by unfold Narrow; decide) (by decide +kernel)
      · exact key _ (by unfold Narrow; decide) (by decide +kernel)
    · intro s hs
      simp only [Node.kids, List.head?_cons, Option.map_some, Node.kind, Option.some.injEq, Kind.text.injEq] at hs
      subst hs
      decide
  · refine ⟨rfl, rfl, ?_, _, List.mem_cons_self .., ?_⟩
    · intro c hc
      simp only [row, List.map_cons, List.map_nil, Node.kids, List.mem_cons, List.not_mem_nil, or_false] at hc
      rcases hc with rfl | rfl
      · exact key _ (by unfold Narrow; decide) (by decide +kernel)
      · exact key _ (by unfold Narrow; decide) (by decide +kernel)
    · intro s hs
      simp only [Node.kids, List.head?_cons, Option.map_some, Node.kind, Option.some.injEq, Kind.text.injEq] at hs
      subst hs
      decide

/-- C207 fails: a cell that takes two columns counts for three with the one it replaces, so that what follows is a column too far to the right: `B` is not above `z`. -/
theorem C207_shifted : drawn [.mk .row none (wide b!"A" ++ [.mk .cell none [.mk (.text b!"B") none []]]), row [b!"x", b!"y", b!"z"]] =
    .val b!"┌───┬───┬───┬───┐\n│ A     │   │ B │\n├───┼───┼───┼───┤\n│ x │ y │ z │   │\n└───┴───┴───┴───┘\n\n" := by decide +kernel

end Verif.Term
