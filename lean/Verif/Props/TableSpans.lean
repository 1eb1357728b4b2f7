/-
Joined cells, feet and aligned cells of tables (C192 - C195).
-/
import Verif.Proof.TableSpans
import Verif.Proof.TableSpansTiles
import Verif.Proof.TableSpansSafe
import Verif.Proof.TableSpansGone

namespace Verif.TableSpans
open Spec

/-! ### Tables for the examples -/

/-- A cell of a text. -/
def txt (s : Bytes) : Cell := ⟨none, [], [.text s]⟩

/-- A table of texts. -/
def tab (t : List (List Bytes)) : List Row := t.map fun row => ⟨none, row.map txt⟩

/-- The marks of the cells of a table. -/
def marksOf : C (List Row) → Option (List (List (Option Bytes)))
  | .val t => some (t.map fun row => row.cells.map Cell.data)
  | .ub => none

theorem marksOf_some {e : C (List Row)} {d : List (List (Option Bytes))} (h : marksOf e = some d) :
    ∃ t', e = .val t' ∧ (t'.map fun row => row.cells.map Cell.data) = d := by
  cases e with
  | ub => cases h
  | val t' => exact ⟨t', rfl, by simpa [marksOf] using h⟩

theorem txt_text {al : Bool} {s : Bytes} (h : ∀ c ∈ s, c ≠ c!"<" ∧ c ≠ c!"^" ∧ c ≠ c!"=" ∧ c ≠ c!":") : Spec.Text al (txt s) := by
  have key : ∀ (c : Byte) (w : Bytes), c ∈ w → isSpace c = false → c ∉ s → ¬ Padded w s := by
    rintro c w hw - hs ⟨a, b, rfl, -, -⟩
    exact hs (by simp [hw])
  have n1 : c!"<" ∉ s := fun hm => (h _ hm).1 rfl
  have n2 : c!"^" ∉ s := fun hm => (h _ hm).2.1 rfl
  have n3 : c!"=" ∉ s := fun hm => (h _ hm).2.2.1 rfl
  have n4 : c!":" ∉ s := fun hm => (h _ hm).2.2.2 rfl
  refine ⟨rfl, fun p ks => by simp [txt], .inl rfl, ?_, fun s' ks e => ?_, fun _ s' e => ?_⟩
  · simpa [words, word, txt] using key _ b!"<<" (by simp) (by decide) n1
  · simp only [txt, List.cons.injEq, Inl.text.injEq] at e
    rw [← e.1]
    refine ⟨key _ b!"^^" (by simp) (by decide) n2, ?_⟩
    rintro ⟨n, hn, hp⟩
    exact key c!"=" _ (by simp; omega) (by decide) n3 hp
  · simp only [txt, List.mem_singleton, Inl.text.injEq] at e
    have e' : s' = s := by
      rcases e with e | ⟨k, rfl, e⟩
      · exact e
      · simp [children] at e
    rw [e']
    rintro (⟨a, m, rfl, -⟩ | ⟨m, b, rfl, -⟩) <;> simp at n4

theorem txt_left : Left (txt b!"<<") := ⟨b!"<<", rfl, ⟨[], [], by simp, by simp [Blank], by simp [Blank]⟩, rfl, .inl rfl⟩

theorem txt_up : Up (txt b!" ^^ ") := ⟨b!" ^^ ", rfl, ⟨b!" ", b!" ", by simp, by simp [Blank]; decide, by simp [Blank]; decide⟩, rfl, .inl rfl⟩

/-- A table with a joined cell of each kind. -/
def joined : List Row := tab [[b!"a", b!"<<", b!"b"], [b!"c", b!"d", b!" ^^ "]]

theorem joined_cells {r c : Nat} {x : Cell} (h : cellAt joined r c = some x) :
    (r, c, x) = (0, 0, txt b!"a") ∨ (r, c, x) = (0, 1, txt b!"<<") ∨ (r, c, x) = (0, 2, txt b!"b") ∨ (r, c, x) = (1, 0, txt b!"c") ∨ (r, c, x) = (1, 1, txt b!"d") ∨
      (r, c, x) = (1, 2, txt b!" ^^ ") := by
  match r, c, h with
  | 0, 0, h | 0, 1, h | 0, 2, h | 1, 0, h | 1, 1, h | 1, 2, h =>
    simp only [joined, tab, cellAt, List.map_cons, List.map_nil, List.getElem?_cons_zero, List.getElem?_cons_succ, Option.bind_some, Option.some.injEq] at h
    subst h
    simp
  | 0, c + 3, h => simp [joined, tab, cellAt] at h
  | 1, c + 3, h => simp [joined, tab, cellAt] at h
  | r + 2, c, h => simp [joined, tab, cellAt] at h

theorem txt_word (al : Bool) (s : Bytes) (h : s = b!"a" ∨ s = b!"b" ∨ s = b!"c" ∨ s = b!"d") : Spec.Text al (txt s) :=
  txt_text (by rcases h with rfl | rfl | rfl | rfl <;> decide)

theorem joined_sound (al : Bool) : Sound al joined := by
  have at0 : ∀ r c x, cellAt joined r c = some x → Spec.Text al x ∨ Left x ∨ Up x := by
    intro r c x h
    rcases joined_cells h with h | h | h | h | h | h <;> simp only [Prod.mk.injEq] at h <;> rw [h.2.2]
    · exact .inl (txt_word al _ (by simp))
    · exact .inr (.inl txt_left)
    · exact .inl (txt_word al _ (by simp))
    · exact .inl (txt_word al _ (by simp))
    · exact .inl (txt_word al _ (by simp))
    · exact .inr (.inr txt_up)
  refine ⟨by simp [joined, tab], by simp [joined, tab], at0, ?_, ?_, ?_⟩
  · intro row hr _
    simp only [joined, tab, List.map_cons, List.map_nil, List.mem_cons, List.not_mem_nil, or_false] at hr
    have hd : ∀ s : Bytes, s.length = 1 → ¬ Dash (txt s) := by
      rintro s hs (h | ⟨ks, h⟩)
      · simp [txt] at h
      · simp only [txt, List.cons.injEq, Inl.text.injEq] at h
        rw [h.1] at hs; exact absurd hs (by decide)
    rcases hr with rfl | rfl
    · exact ⟨txt b!"a", by simp, hd _ rfl⟩
    · exact ⟨txt b!"c", by simp, hd _ rfl⟩
  · rintro r c ⟨x, hx, hL⟩
    rcases joined_cells hx with h | h | h | h | h | h <;> simp only [Prod.mk.injEq] at h <;> obtain ⟨rfl, rfl, rfl⟩ := h
    · exact absurd (txt_word al b!"a" (by simp)) (fun h => text_not_left h hL)
    · exact ⟨0, by omega, ⟨_, rfl, txt_word al _ (by simp)⟩, fun j h1 h2 => by omega⟩
    · exact absurd (txt_word al b!"b" (by simp)) (fun h => text_not_left h hL)
    · exact absurd (txt_word al b!"c" (by simp)) (fun h => text_not_left h hL)
    · exact absurd (txt_word al b!"d" (by simp)) (fun h => text_not_left h hL)
    · exact (left_not_up hL txt_up).elim
  · rintro r c ⟨x, hx, hU⟩
    rcases joined_cells hx with h | h | h | h | h | h <;> simp only [Prod.mk.injEq] at h <;> obtain ⟨rfl, rfl, rfl⟩ := h
    · exact absurd (txt_word al b!"a" (by simp)) (fun h => text_not_up h hU)
    · exact (left_not_up txt_left hU).elim
    · exact absurd (txt_word al b!"b" (by simp)) (fun h => text_not_up h hU)
    · exact absurd (txt_word al b!"c" (by simp)) (fun h => text_not_up h hU)
    · exact absurd (txt_word al b!"d" (by simp)) (fun h => text_not_up h hU)
    · exact ⟨0, by omega, ⟨_, rfl, txt_word al _ (by simp)⟩, fun j h1 h2 => by omega⟩

/-! ### C192: joined cells -/

/-- C192, where every `<<` is behind a cell of its own or another `<<` and every `^^` under a cell of its own or another `^^`: each cell of its own is marked with as many columns and rows as there are
`<<` behind and `^^` under it, each `<<` and `^^` is not shown, and nothing else changes.  Missing: that a cell joined on both sides keeps both numbers. -/
theorem C192_marks_partial {al : Bool} {t : List Row} (hs : Sound al t) :
    ∃ t', spans al t = .val t' ∧ t'.map Row.data = t.map Row.data ∧ (∀ r c, cellAt t r c = none → cellAt t' r c = none) ∧
      ∀ r c x, cellAt t r c = some x → ∃ y, cellAt t' r c = some y ∧ y.kids = x.kids ∧ y.src = x.src ∧
        (Left x ∨ Up x → y.data = some b!" data-remove=\"true\"") ∧
        (Spec.Text al x → ∃ n m, Lefts t r c n ∧ Ups t r c m ∧ y.data = mark x.data n m) := marks hs

/-- C192: if no cell is joined on both sides, the cells shown cover each place of the table once. -/
theorem C192_tiles_partial {al : Bool} {t : List Row} (hs : Sound al t) (hb : NoBlock al t) : ∃ t', spans al t = .val t' ∧ Tiles t' := tiles hs hb

theorem joined_noBlock (al : Bool) : NoBlock al joined := by
  rintro r c ⟨x, hx, hT⟩ ⟨⟨y, hy, hL⟩, ⟨z, hz, hU⟩⟩
  rcases joined_cells hz with h | h | h | h | h | h <;> simp only [Prod.mk.injEq] at h <;> obtain ⟨h1, rfl, rfl⟩ := h
  · exact text_not_up (txt_word al b!"a" (by simp)) hU
  · exact left_not_up txt_left hU
  · exact text_not_up (txt_word al b!"b" (by simp)) hU
  · exact text_not_up (txt_word al b!"c" (by simp)) hU
  · exact text_not_up (txt_word al b!"d" (by simp)) hU
  · rcases joined_cells hy with h | h | h | h | h | h <;> simp only [Prod.mk.injEq] at h <;> omega

example : Sound true joined ∧ NoBlock true joined ∧
    marksOf (spans true joined) = some [[some b!" colspan=\"2\"", some b!" data-remove=\"true\"", some b!" rowspan=\"2\""], [none, none, some b!" data-remove=\"true\""]] :=
  ⟨joined_sound true, joined_noBlock true, by decide +kernel⟩

/-- C192 fails: a cell of two columns and three rows is marked with three rows only; the third row has one cell too many on the page and the first has one too few. -/
theorem C192_block : ∃ t', spans true (tab [[b!"a", b!"<<", b!"b"], [b!"^^", b!"c", b!"d"], [b!"^^", b!"e", b!"f"]]) = .val t' ∧
    (t'.map fun row => row.cells.map Cell.data) = [[some b!" rowspan=\"3\"", some b!" data-remove=\"true\"", none], [some b!" data-remove=\"true\"", none, none], [some b!" data-remove=\"true\"", none, none]] :=
  marksOf_some (by decide +kernel)

/-- C192 fails: a `^^` under a `<<` joins the cell further up in that column: the head of the second column covers two rows, although the cell below it is another one. -/
theorem C192_past : ∃ t', spans true (tab [[b!"h", b!"i"], [b!"a", b!"<<"], [b!"^^", b!"^^"]]) = .val t' ∧
    (t'.map fun row => row.cells.map Cell.data) = [[none, some b!" rowspan=\"2\""], [some b!" colspan=\"2\" rowspan=\"2\"", some b!" data-remove=\"true\""], [some b!" data-remove=\"true\"", some b!" data-remove=\"true\""]] :=
  marksOf_some (by decide +kernel)

/-- C192 fails: a `<<` behind a `^^` at the begin of a row is shown. -/
theorem C192_shown : ∃ t', spans true (tab [[b!"h", b!"i"], [b!"a", b!"<<"], [b!"^^", b!"<<"]]) = .val t' ∧
    (t'.map fun row => row.cells.map Cell.data) = [[none, none], [some b!" colspan=\"2\" rowspan=\"2\"", some b!" data-remove=\"true\""], [some b!" data-remove=\"true\"", none]] :=
  marksOf_some (by decide +kernel)

/-- C192 fails: the text of a cell, which the parser leaves as its mark, becomes part of the attributes if it has an equal sign and the cell below joins it. -/
theorem C192_injected : ∃ t', spans false [⟨none, [⟨some b!"x onclick=f()", [], [.text b!"x onclick=f()"]⟩]⟩, ⟨none, [txt b!"^^"]⟩] = .val t' ∧
    (t'.map fun row => row.cells.map Cell.data) = [[some b!"x onclick=f() rowspan=\"2\""], [some b!" data-remove=\"true\""]] := marksOf_some (by decide +kernel)

/-! ### C193: memory -/

/-- C193: tables of up to fifty columns are safe if no cell with colons has its text as its mark. -/
theorem C193_safe_partial {al : Bool} {t : List Row} (hw : ∀ row ∈ t, row.cells.length ≤ 50)
    (hx : al = true → ∀ row ∈ t, ∀ x ∈ row.cells, x.data = none ∨ Colonless x.kids) : ∃ t', spans al t = .val t' := by
  obtain ⟨s', e⟩ := stepRows_val (al := al) t (s := ⟨[], List.replicate 50 none, none, false⟩) hw
    (fun ha row hr x hc => (hx ha row hr x hc).imp (fun h => by rw [h]; rfl) id)
  exact ⟨s'.above, by unfold spans; rw [e]; rfl⟩

/-- C193 fails: for every table whose first row has more than fifty cells of their own, an entry behind the fifty of `active_rowspan` is written. -/
theorem C193_columns {al : Bool} {row : Row} {rest : List Row} (h1 : 50 < row.cells.length) (h2 : ∀ x ∈ row.cells, Spec.Text al x) (h3 : ∃ x ∈ row.cells, ¬ Dash x) :
    spans al (row :: rest) = .ub := columns_ub h1 h2 h3

example : spans false [⟨none, List.replicate 51 (txt b!"a")⟩] = .ub :=
  C193_columns (by simp) (fun x hx => by rw [(List.mem_replicate.1 hx).2]; exact txt_word _ _ (by simp))
    ⟨txt b!"a", by simp, by rintro (h | ⟨ks, h⟩) <;> simp [txt] at h⟩

/-- C193 fails: if the mark of the first cell is a text and the cell begins or ends with a colon, the mark is read after it is freed. -/
theorem C193_freed {x : Cell} {s u : Bytes} {cells : List Cell} {d : Option Bytes} {rest : List Row} (hk : x.kids = [.text s]) (hs : Colon s)
    (hd : x.data = some u) (hu : Clean u) (hne : u ≠ []) : spans true (⟨d, x :: cells⟩ :: rest) = .ub := freed_ub hk hs hd hu hne

example : spans true [⟨none, [⟨some b!":a:", [], [.text b!":a:"]⟩]⟩] = .ub :=
  C193_freed (s := b!":a:") rfl (.inl ⟨[], b!"a:", rfl, by simp [Blank]⟩) rfl
    ⟨by decide, not_infix_of_not_mem (c := c!"o") (by decide) (by decide), not_infix_of_not_mem (c := c!"o") (by decide) (by decide),
      not_infix_of_not_mem (c := c!"d") (by decide) (by decide)⟩ (by decide)

/-! ### C194: the foot -/

/-- C194: rows and cells stay in their number, the row with `===` and all after it are rows of the foot, and no other row is. -/
theorem C194_rows {al : Bool} {t t' : List Row} (h : spans al t = .val t') :
    (t'.map fun row => row.cells.length) = (t.map fun row => row.cells.length) ∧
      ∀ (r : Nat) (row row' : Row), t[r]? = some row → t'[r]? = some row' →
        ((∃ i, i ≤ r ∧ ∃ q, t[i]? = some q ∧ RuleRow q) → row'.data = some b!" data-tfoot=\"true\"") ∧
        ((¬ ∃ i, i ≤ r ∧ ∃ q, t[i]? = some q ∧ RuleRow q) → row'.data = row.data) := by
  classical
  unfold spans at h
  cases hs : stepRows al ⟨[], List.replicate 50 none, none, false⟩ t with
  | ub => rw [hs] at h; cases h
  | val s =>
    rw [hs, C.val_bind] at h
    simp only [C.val.injEq] at h
    subst h
    have e := (stepRows_shape t hs).1
    simp only [List.map_nil, List.nil_append] at e
    have hlen : ∀ (u : List Row) (f : Bool), (footData f u).map Prod.snd = u.map fun row => row.cells.length := by
      intro u
      induction u with
      | nil => intro f; rfl
      | cons a u ih => intro f; simp [footData, ih]
    refine ⟨?_, fun r row row' hr hr' => ?_⟩
    · rw [← hlen t false, ← e, List.map_map]
      rfl
    · have g := footData_get t false r row hr
      rw [← e, List.getElem?_map, hr'] at g
      simp only [Option.map_some, Option.some.injEq, shape, Prod.mk.injEq] at g
      have hiff : (false = true ∨ ∃ i, i ≤ r ∧ ∃ row', t[i]? = some row' ∧ isFoot row' = true) ↔ ∃ i, i ≤ r ∧ ∃ q, t[i]? = some q ∧ RuleRow q := by
        constructor
        · rintro (h | ⟨i, h1, q, h2, h3⟩)
          · cases h
          · exact ⟨i, h1, q, h2, isFoot_iff.1 h3⟩
        · rintro ⟨i, h1, q, h2, h3⟩
          exact .inr ⟨i, h1, q, h2, isFoot_iff.2 h3⟩
      refine ⟨fun hc => ?_, fun hc => ?_⟩
      · rw [g.1, if_pos (hiff.2 hc)]; rfl
      · rw [g.1, if_neg (fun h => hc (hiff.1 h))]

/-- C194: a cell of `===`, and each cell of a row of nothing but dashes and empty cells, is not shown. -/
theorem C194_hidden {al : Bool} {t t' : List Row} (h : spans al t = .val t') {r c : Nat} {row : Row} {x : Cell} (hr : t[r]? = some row) (hx : row.cells[c]? = some x)
    (hn : (∃ s ks, x.kids = .text s :: ks ∧ Rule s) ∨ ∀ y ∈ row.cells, Dash y) : ∃ y, cellAt t' r c = some y ∧ y.data = some b!" data-remove=\"true\"" := by
  unfold spans at h
  cases hs : stepRows al ⟨[], List.replicate 50 none, none, false⟩ t with
  | ub => rw [hs] at h; cases h
  | val s =>
    rw [hs, C.val_bind] at h
    simp only [C.val.injEq] at h
    subst h
    have hl : LiveRows ⟨[], List.replicate 50 none, none, false⟩ := by
      intro c r h
      simp only [List.getElem?_replicate] at h
      split at h <;> simp at h
    obtain ⟨y, hy, hd⟩ := (stepRows_next t hl hs).2 r c row x hr hx (by
      rcases hn with hn | hn
      · exact .inl (isRule_iff.2 hn)
      · exact .inr (List.all_eq_true.2 fun y hy => isDash_iff.2 (hn y hy)))
    exact ⟨y, by simpa using hy, hd⟩

/-- C194: without alignment of cells, no cell loses or gets any text. -/
theorem C194_content {t t' : List Row} (h : spans false t = .val t') : (t'.map fun row => row.cells.map fun x => (x.src, x.kids)) = t.map fun row => row.cells.map fun x => (x.src, x.kids) := by
  unfold spans at h
  cases hs : stepRows false ⟨[], List.replicate 50 none, none, false⟩ t with
  | ub => rw [hs] at h; cases h
  | val s =>
    rw [hs, C.val_bind] at h
    simp only [C.val.injEq] at h
    subst h
    have e := (stepRows_shape t hs).2 rfl
    simp only [List.map_nil, List.nil_append] at e
    exact e

/-- C194, for all tables of up to fifty columns whose cells have no marks. -/
theorem C194_foot {al : Bool} {t : List Row} (hw : ∀ row ∈ t, row.cells.length ≤ 50) (hd : ∀ row ∈ t, ∀ x ∈ row.cells, x.data = none) :
    ∃ t', spans al t = .val t' ∧ (t'.map fun row => row.cells.length) = (t.map fun row => row.cells.length) ∧
      (∀ (r : Nat) (row row' : Row), t[r]? = some row → t'[r]? = some row' →
        ((∃ i, i ≤ r ∧ ∃ q, t[i]? = some q ∧ RuleRow q) → row'.data = some b!" data-tfoot=\"true\"") ∧
        ((¬ ∃ i, i ≤ r ∧ ∃ q, t[i]? = some q ∧ RuleRow q) → row'.data = row.data)) ∧
      ∀ (r c : Nat) (row : Row) (x : Cell), t[r]? = some row → row.cells[c]? = some x → ((∃ s ks, x.kids = .text s :: ks ∧ Rule s) ∨ ∀ y ∈ row.cells, Dash y) →
        ∃ y, cellAt t' r c = some y ∧ y.data = some b!" data-remove=\"true\"" := by
  obtain ⟨t', e⟩ := C193_safe_partial (al := al) hw (fun _ row hr x hx => .inl (hd row hr x hx))
  exact ⟨t', e, (C194_rows e).1, (C194_rows e).2, fun r c row x hr hx hn => C194_hidden e hr hx hn⟩

example : ∃ t', spans true (tab [[b!"a", b!"b"], [b!" ==== ", b!"==="], [b!"c", b!"^^"]]) = .val t' ∧
    (t'.map fun row => (row.data, row.cells.map Cell.data)) = [(none, [none, some b!" rowspan=\"2\""]),
      (some b!" data-tfoot=\"true\"", [some b!" data-remove=\"true\"", some b!" data-remove=\"true\""]), (some b!" data-tfoot=\"true\"", [none, some b!" data-remove=\"true\""])] := by
  have key : ∀ (e : C (List Row)) d, (match e with | .val t => some (t.map fun row => (row.data, row.cells.map Cell.data)) | .ub => none) = some d →
      ∃ t', e = .val t' ∧ (t'.map fun row => (row.data, row.cells.map Cell.data)) = d := by
    intro e d h
    cases e with
    | ub => cases h
    | val t' => exact ⟨t', rfl, by simpa using h⟩
  exact key _ _ (by decide +kernel)

/-! ### C195: aligned cells -/

/-- C195: the text and the alignment found for a text with colons, for all texts. -/
theorem C195_text {s u a : Bytes} : Aligned s u a ↔ alignText s = some (a, u) := aligned_iff

/-- C195: a text is aligned if and only if it begins or ends with a colon, blanks aside; and in one way only. -/
theorem C195_colons (s : Bytes) : (Colon s ↔ ∃ u a, Aligned s u a) ∧ ∀ u a u' a', Aligned s u a → Aligned s u' a' → u = u' ∧ a = a' := by
  refine ⟨⟨fun h => ?_, ?_⟩, fun u a u' a' h h' => ?_⟩
  · obtain ⟨u, a, e⟩ := colon_aligned h
    exact ⟨u, a, aligned_of e⟩
  · rintro ⟨u, a, p, m, q, hp, hq, -, h⟩
    rcases h with ⟨-, rfl | ⟨-, rfl⟩⟩ | ⟨-, rfl, -⟩ | ⟨-, rfl, -⟩
    · exact .inl ⟨p, m ++ c!":" :: q, by simp, hp⟩
    · exact .inl ⟨p, q, rfl, hp⟩
    · exact .inl ⟨p, m ++ q, by simp, hp⟩
    · exact .inr ⟨p ++ m, q, by simp, hq⟩
  · have e := (alignText_of h).symm.trans (alignText_of h')
    simp only [Option.some.injEq, Prod.mk.injEq] at e
    exact ⟨e.2, e.1⟩

/-- C195, for tables of up to fifty columns of texts where no cell is joined: each cell with colons loses them and is marked with its alignment, and every other cell stays.
Missing: cells with other content than one text, and cells that are joined. -/
theorem C195_table_partial {t : List Row} (h : ∀ row ∈ t, row.cells.length ≤ 50 ∧ (∀ x ∈ row.cells, ∃ s, Own x s) ∧ (row.cells ≠ [] → ∃ x ∈ row.cells, ¬ Dash x)) :
    ∃ t', spans true t = .val t' ∧ t'.map Row.data = t.map Row.data ∧ (t'.map fun row => row.cells.length) = (t.map fun row => row.cells.length) ∧
      ∀ r c x, cellAt t r c = some x → ∃ y s, cellAt t' r c = some y ∧ x.kids = [.text s] ∧
        ((∃ u a, Aligned s u a ∧ y = ⟨some (b!" style=\"text-align: " ++ a ++ b!"\""), [], [.text u]⟩) ∨ ¬ Colon s ∧ y = x) := by
  refine ⟨_, spans_own h, by simp [Function.comp], by simp [Function.comp], fun r c x hx => ?_⟩
  unfold cellAt at hx ⊢
  rw [List.getElem?_map]
  cases hr : t[r]? with
  | none => rw [hr] at hx; cases hx
  | some row =>
    rw [hr, Option.bind_some] at hx
    obtain ⟨s, hs⟩ := (h row (List.mem_of_getElem? hr)).2.1 x (List.mem_of_getElem? hx)
    simp only [Option.map_some, Option.bind_some, List.getElem?_map, hx]
    exact ⟨_, s, rfl, hs.kids, colonless_own hs⟩

theorem own_txt {s : Bytes} (h : ∀ c ∈ s, c ≠ c!"<" ∧ c ≠ c!"^" ∧ c ≠ c!"=") : Own (txt s) s := by
  have n1 : c!"<" ∉ s := fun hm => (h _ hm).1 rfl
  have n2 : c!"^" ∉ s := fun hm => (h _ hm).2.1 rfl
  have n3 : c!"=" ∉ s := fun hm => (h _ hm).2.2 rfl
  refine ⟨rfl, rfl, rfl, ?_, ⟨?_, ?_⟩, ?_⟩
  · rintro ⟨a, b, rfl, -, -⟩; simp at n1
  · rintro ⟨a, b, rfl, -, -⟩; simp at n2
  · rintro u a ⟨p, m, q, -, -, rfl, hA⟩ ⟨a', b', e, -, -⟩
    have hm : c!"^" ∈ p ++ m ++ q := by rw [e]; simp
    simp only [List.mem_append] at hm
    apply n2
    rcases hA with ⟨-, rfl | ⟨rfl, rfl⟩⟩ | ⟨-, rfl, -⟩ | ⟨-, rfl, -⟩ <;> simp only [List.mem_append, List.mem_cons, List.not_mem_nil] at hm ⊢
    · rcases hm with (h | h) | h <;> simp [h]
    · rcases hm with (h | h) | h
      · simp [h]
      · cases h
      · simp [h]
    · rcases hm with (h | h) | h <;> simp [h]
    · rcases hm with (h | h) | h <;> simp [h]
  · rintro ⟨n, hn, a, b, rfl, -, -⟩
    refine n3 ?_
    simp only [List.mem_append, List.mem_replicate]
    exact .inl (.inr ⟨by omega, trivial⟩)

example : ∃ t', spans true (tab [[b!" :a: ", b!"b:"], [b!":c d", b!"e:f"]]) = .val t' ∧ t'.map Row.data = (tab [[b!" :a: ", b!"b:"], [b!":c d", b!"e:f"]]).map Row.data :=
  have ⟨t', h1, h2, _⟩ := C195_table_partial (t := tab [[b!" :a: ", b!"b:"], [b!":c d", b!"e:f"]]) (by
    intro row hr
    simp only [tab, List.map_cons, List.map_nil, List.mem_cons, List.not_mem_nil, or_false] at hr
    rcases hr with rfl | rfl
    · refine ⟨by simp, fun x hx => ?_, fun _ => ⟨txt b!"b:", by simp, ?_⟩⟩
      · simp only [List.mem_cons, List.not_mem_nil, or_false] at hx
        rcases hx with rfl | rfl
        · exact ⟨_, own_txt (by decide)⟩
        · exact ⟨_, own_txt (by decide)⟩
      · rintro (h | ⟨ks, h⟩) <;> simp [txt] at h
    · refine ⟨by simp, fun x hx => ?_, fun _ => ⟨txt b!"e:f", by simp, ?_⟩⟩
      · simp only [List.mem_cons, List.not_mem_nil, or_false] at hx
        rcases hx with rfl | rfl
        · exact ⟨_, own_txt (by decide)⟩
        · exact ⟨_, own_txt (by decide)⟩
      · rintro (h | ⟨ks, h⟩) <;> simp [txt] at h)
  ⟨t', h1, h2⟩

example : marksOf (spans true (tab [[b!" :a: ", b!"b:"], [b!":c d", b!"e:f"]])) =
    some [[some b!" style=\"text-align: center\"", some b!" style=\"text-align: right\""], [some b!" style=\"text-align: left\"", none]] := by decide +kernel

/-- C195 fails: the colons of a ratio or of a time at the end of a cell are taken off as well, and a cell of one colon becomes empty. -/
theorem C195_lost : alignText b!"Note:" = some (b!"right", b!"Note") ∧ alignText b!":" = some (b!"center", []) := by decide +kernel

end Verif.TableSpans
