/-
Helper lemmas for C165: attribute lists on lines of their own.
-/
import Verif.Model.IalLines
import Verif.Spec.IalLines
import Verif.Proof.Bibliography

namespace Verif.IalLines
open Spec (List' Toc Line Read)
open Bibliography (blank_space solid_ends solid_ne trimEnd_solid)
open Bibliography.Spec (Blank Solid)
open Citations (white_iff span_iff)
open Citations.Spec (White Ends)
open Index (span_stop span_all span_split)

theorem blank_iff {w : Bytes} : w.all isSpace = true ↔ Blank w := by
  rw [List.all_eq_true]
  exact ⟨fun h c hc => (white_iff c).1 (h c hc), fun h c hc => (white_iff c).2 (h c hc)⟩

theorem list_iff {l a : Bytes} : list l = some a ↔ List' l a := by
  constructor
  · intro h
    unfold list at h
    obtain ⟨w, r, e, hw, hr, h1, h2⟩ := span_split isSpace l
    rw [h2] at h
    match r, h with
    | o :: k :: t, h =>
      simp only [] at h
      split at h
      · rename_i hk
        obtain ⟨x, y, e', hx, hy, h3, h4⟩ := span_split (· != c!"}") t
        rw [h3, h4] at h
        rcases hy with rfl | ⟨c, y, rfl, hc⟩
        · simp at h
        · simp only [] at h
          split at h
          · rename_i ha
            have hc : c = c!"}" := by simpa using hc
            subst hc
            simp only [Option.some.injEq] at h
            subst h
            refine ⟨w, y, by rw [e, e', hk.1]; simp, fun c hc => (white_iff c).1 (hw c hc), blank_iff.1 ha, ?_, ?_⟩
            · intro hm
              rcases List.mem_cons.1 hm with rfl | hm
              · rcases hk.2 with h | h | h <;> simp at h
              · have := hx _ hm
                simp at this
            · rcases hk.2 with h | h | h <;> simp [h]
          · simp at h
      · simp at h
  · rintro ⟨w, w', rfl, hw, hw', ha, hk⟩
    match a, ha, hk with
    | [], _, hk => simp at hk
    | k :: a, ha, hk =>
      have hk' : k = c!":" ∨ k = c!"#" ∨ k = c!"." := by simpa using hk
      have h1 : (w ++ b!"{" ++ k :: a ++ b!"}" ++ w').dropWhile isSpace = c!"{" :: k :: (a ++ c!"}" :: w') := by
        rw [show w ++ b!"{" ++ k :: a ++ b!"}" ++ w' = w ++ c!"{" :: (k :: (a ++ c!"}" :: w')) by simp]
        exact (span_stop (blank_space hw) (by decide)).2
      have h2 := span_stop (p := (· != c!"}")) (a := a) (b := w') (c := c!"}") (by
        intro x hx
        simp only [bne_iff_ne, ne_eq]
        rintro rfl
        exact ha (by simp [hx])) (by simp)
      unfold list
      rw [h1]
      simp only []
      rw [if_pos ⟨trivial, hk'⟩, h2.1, h2.2]
      simp only []
      rw [if_pos (blank_iff.2 hw')]

theorem list_none {l : Bytes} : list l = none ↔ ∀ a, ¬ List' l a := by
  constructor
  · intro h a ha
    rw [← list_iff, h] at ha
    simp at ha
  · intro h
    cases hl : list l with
    | none => rfl
    | some a => exact absurd (list_iff.1 hl) (h a)

theorem solid_split {s : Bytes} : ∃ v w : Bytes, s = v ++ w ∧ Blank w ∧ Ial.trimEnd s = v ∧ (v = [] ∨ ∃ t c, v = t ++ [c] ∧ ¬ White c) := by
  obtain ⟨a, r, e, ha, hr, h1, h2⟩ := span_split isSpace s.reverse
  refine ⟨r.reverse, a.reverse, ?_, ?_, ?_, ?_⟩
  · rw [← List.reverse_append, ← e, List.reverse_reverse]
  · intro c hc
    exact (white_iff c).1 (ha c (List.mem_reverse.1 hc))
  · unfold Ial.trimEnd
    rw [h2]
  · rcases hr with rfl | ⟨c, b, rfl, hc⟩
    · exact Or.inl rfl
    · refine Or.inr ⟨b.reverse, c, by simp, ?_⟩
      rw [← white_iff, hc]
      simp

theorem trimEnd_append {v w : Bytes} (hw : Blank w) (hv : v = [] ∨ ∃ t c, v = t ++ [c] ∧ ¬ White c) : Ial.trimEnd (v ++ w) = v := by
  unfold Ial.trimEnd
  rw [List.reverse_append, (span_iff (p := isSpace) (a := w.reverse) (r := v.reverse) (fun c hc => blank_space hw c (List.mem_reverse.1 hc)) ?_).2, List.reverse_reverse]
  intro d q e hd
  rcases hv with rfl | ⟨t, c, rfl, hc⟩
  · simp at e
  · simp only [List.reverse_append, List.reverse_cons, List.reverse_nil, List.nil_append, List.cons_append, List.cons.injEq] at e
    exact hc ((white_iff c).1 (e.1 ▸ hd))

theorem toc_letters {t : Bytes} (h : t.map toLower = b!"toc") : ∃ x y z, t = [x, y, z] ∧ ¬ White x ∧ ¬ White z := by
  match t, h with
  | [], h => simp at h
  | [_], h => simp at h
  | [_, _], h => simp at h
  | _ :: _ :: _ :: _ :: _, h => simp at h
  | [x, y, z], h =>
    simp only [List.map_cons, List.map_nil, List.cons.injEq, and_true] at h
    refine ⟨x, y, z, rfl, ?_, ?_⟩
    · exact forall_byte (p := fun x => toLower x = c!"t" → ¬ White x) (by unfold White; decide +kernel) x h.1
    · exact forall_byte (p := fun x => toLower x = c!"c" → ¬ White x) (by unfold White; decide +kernel) z h.2.2

theorem toc_iff {a o : Bytes} : toc a = some o ↔ Toc a o := by
  constructor
  · intro h
    match a, h with
    | k :: t, h =>
      unfold toc at h
      simp only [] at h
      split at h
      · rename_i hk
        obtain ⟨w, r, e, hw, hr, _, h2⟩ := span_split isSpace t
        rw [h2] at h hk
        obtain ⟨v, w', e', hw', h3, hv⟩ := solid_split (s := r)
        rw [h3] at h hk
        have ev : v = v.take 3 ++ v.drop 3 := (List.take_append_drop 3 v).symm
        obtain ⟨hk, ht⟩ := hk
        subst hk
        cases hd : v.drop 3 with
        | nil =>
          rw [hd] at h
          simp only [Option.some.injEq] at h
          subst h
          rw [hd, List.append_nil] at ev
          refine ⟨w, v.take 3, [], w', ?_, fun c hc => (white_iff c).1 (hw c hc), ht, fun c hc => by simp at hc, hw', Or.inl ⟨rfl, rfl⟩⟩
          rw [e, e', ← ev]
          simp
        | cons c q =>
          rw [hd] at h
          simp only [] at h
          split at h
          · rename_i hc
            obtain ⟨x, y, exy, hx, hy, _, h5⟩ := span_split isSpace (c :: q)
            rw [h5] at h
            simp only [Option.some.injEq] at h
            subst h
            have hx0 : x ≠ [] := by
              rintro rfl
              rcases hy with rfl | ⟨d, b, rfl, hd'⟩
              · simp at exy
              · simp only [List.nil_append, List.cons.injEq] at exy
                rw [← exy.1, hc] at hd'
                simp at hd'
            have hlast : ∃ u d, v = u ++ [d] ∧ ¬ White d := by
              rcases hv with rfl | hv
              · simp at hd
              · exact hv
            have hy0 : ∃ u d, y = u ++ [d] ∧ ¬ White d := by
              obtain ⟨u, d, ed, hd'⟩ := hlast
              rcases List.eq_nil_or_concat y with rfl | ⟨y', d', rfl⟩
              · exfalso
                rw [List.append_nil] at exy
                rcases List.eq_nil_or_concat x with rfl | ⟨x', d'', rfl⟩
                · exact hx0 rfl
                · rw [ed, ← ed, hd, exy, List.concat_eq_append, ← List.append_assoc] at ev
                  rw [ed] at ev
                  obtain ⟨_, h6⟩ := List.append_inj' ev rfl
                  simp only [List.cons.injEq, and_true] at h6
                  have := hx d'' (by simp)
                  rw [← h6, white_iff] at this
                  exact hd' this
              · rw [List.concat_eq_append] at exy ⊢
                rw [hd, exy, ← List.append_assoc, ← List.append_assoc, ed] at ev
                have ev' : u ++ [d] = (u ++ [d]).take 3 ++ x ++ y' ++ [d'] := ev
                obtain ⟨_, h6⟩ := List.append_inj' ev' rfl
                simp only [List.cons.injEq, and_true] at h6
                subst h6
                exact ⟨y', d, rfl, hd'⟩
            refine ⟨w, v.take 3, x, w', ?_, fun c hc => (white_iff c).1 (hw c hc), ht, fun c hc => (white_iff c).1 (hx c hc), hw', Or.inr ⟨hx0, ?_, hy0⟩⟩
            · rw [e, e']
              conv => lhs; rw [ev, hd, exy]
              simp
            · rcases hy with rfl | ⟨d, b, rfl, hd'⟩
              · obtain ⟨u, d, h7, _⟩ := hy0
                simp at h7
              · refine ⟨d, b, rfl, ?_⟩
                rw [← white_iff, hd']
                simp
          · simp at h
      · simp at h
  · rintro ⟨w, t, v, w', rfl, hw, ht, hv, hw', ho⟩
    obtain ⟨x, y, z, rfl, hx, hz⟩ := toc_letters ht
    have hx' : isSpace x = false := by
      rw [← Bool.not_eq_true, white_iff]
      exact hx
    have h1 : (w ++ [x, y, z] ++ v ++ o ++ w').dropWhile isSpace = ([x, y, z] ++ v ++ o) ++ w' := by
      rw [show w ++ [x, y, z] ++ v ++ o ++ w' = w ++ x :: (y :: z :: (v ++ o ++ w')) by simp, (span_stop (blank_space hw) hx').2]
      simp
    have h2 : Ial.trimEnd (([x, y, z] ++ v ++ o) ++ w') = [x, y, z] ++ v ++ o := by
      refine trimEnd_append hw' (Or.inr ?_)
      rcases ho with ⟨rfl, rfl⟩ | ⟨_, _, u, d, rfl, hd⟩
      · exact ⟨[x, y], z, rfl, hz⟩
      · exact ⟨[x, y, z] ++ v ++ u, d, by simp, hd⟩
    rw [show b!":" ++ w ++ [x, y, z] ++ v ++ o ++ w' = c!":" :: (w ++ [x, y, z] ++ v ++ o ++ w') by simp]
    unfold toc
    simp only []
    rw [h1, h2, if_pos ⟨trivial, by simpa using ht⟩]
    rcases ho with ⟨rfl, rfl⟩ | ⟨hv0, hs⟩
    · rfl
    · match v, hv, hv0 with
      | c :: v, hv, _ =>
        have h3 : ([x, y, z] ++ c :: v ++ o).drop 3 = c :: (v ++ o) := by simp
        rw [h3]
        simp only []
        have h4 : (c :: (v ++ o)).dropWhile isSpace = o := (span_iff (p := isSpace) (a := c :: v) (blank_space hv) (by
          have := solid_ends (z := []) hs
          rwa [List.append_nil] at this)).2
        rw [if_pos (blank_space hv c (by simp)), h4]

theorem toc_none {a : Bytes} : toc a = none ↔ ∀ o, ¬ Toc a o := by
  constructor
  · intro h o ho
    rw [← toc_iff, h] at ho
    simp at ho
  · intro h
    cases ht : toc a with
    | none => rfl
    | some o => exact absurd (toc_iff.1 ht) (h o)

theorem marker_eq (o : Bytes) : marker o = Spec.marker o := by
  unfold marker Spec.marker
  split <;> simp

theorem piece_line {b : Prop} {c : Bool} (hb : c = true ↔ b) (l : Bytes) : Line b l (piece c l) := by
  unfold piece
  cases hl : list l with
  | none => exact .text (list_none.1 hl)
  | some a =>
    have ha := list_iff.1 hl
    simp only []
    cases ht : toc a with
    | none =>
      have h := toc_none.1 ht
      cases c with
      | true => exact .after ha h (hb.1 rfl)
      | false => exact .list ha h fun h' => by simpa using hb.2 h'
    | some o =>
      have h := toc_iff.1 ht
      simp only [marker_eq]
      cases c with
      | true => exact .tocAfter ha h (hb.1 rfl)
      | false => exact .toc ha h fun h' => by simpa using hb.2 h'

theorem line_piece {b : Prop} {c : Bool} (hb : c = true ↔ b) {l o : Bytes} (h : Line b l o) : piece c l = o := by
  unfold piece
  cases h with
  | text h => rw [list_none.2 h]
  | list h1 h2 h3 =>
    have : c = false := by rw [← Bool.not_eq_true, hb]; exact h3
    rw [list_iff.2 h1]
    simp only []
    rw [toc_none.2 h2, this]
    rfl
  | after h1 h2 h3 =>
    rw [list_iff.2 h1]
    simp only []
    rw [toc_none.2 h2, hb.2 h3]
    rfl
  | toc h1 h2 h3 =>
    have : c = false := by rw [← Bool.not_eq_true, hb]; exact h3
    rw [list_iff.2 h1]
    simp only []
    rw [toc_iff.2 h2, this, ← marker_eq]
    rfl
  | tocAfter h1 h2 h3 =>
    rw [list_iff.2 h1]
    simp only []
    rw [toc_iff.2 h2, hb.2 h3, ← marker_eq]
    rfl

theorem next_iff {l : Bytes} : (!l.all isSpace && (list l).isNone) = true ↔ (¬ Blank l ∧ ∀ a, ¬ List' l a) := by
  rw [Bool.and_eq_true, Bool.not_eq_true', ← Bool.not_eq_true, blank_iff, Option.isNone_iff_eq_none, list_none]

theorem loop_read (n : Nat) : ∀ (s : Bytes) (c : Bool) (b : Prop), s.length < n → (c = true ↔ b) → Read b s (loop n c s) := by
  induction n with
  | zero => intro s c b h; omega
  | succ n ih =>
    intro s c b hs hb
    cases s with
    | nil => exact .nil
    | cons x s =>
      obtain ⟨l, r, e, hl, hr, h1, h2⟩ := span_split (· != c!"\n") (x :: s)
      have hn : c!"\n" ∉ l := fun h => by simpa using hl _ h
      rw [loop]
      rw [h1, h2]
      rcases hr with rfl | ⟨y, r, rfl, hy⟩
      · simp only [List.append_nil] at e ⊢
        rw [e]
        exact .last (by rw [← e]; simp) hn (piece_line hb l)
      · have hy : y = c!"\n" := by simpa using hy
        subst hy
        simp only []
        have := Read.cons hn (piece_line hb l) (ih r (!l.all isSpace && (list l).isNone) _ (by
          rw [e] at hs
          simp only [List.length_append, List.length_cons] at hs
          omega) next_iff)
        rw [e]
        simpa using this

theorem read_loop {b : Prop} {s o : Bytes} (h : Read b s o) : ∀ (n : Nat) (c : Bool), s.length < n → (c = true ↔ b) → loop n c s = o := by
  induction h with
  | nil =>
    intro n c hn _
    cases n with
    | zero => simp at hn
    | succ n => rfl
  | @last b l o h0 h1 h2 =>
    intro n c hn hb
    cases n with
    | zero => omega
    | succ n =>
      have h := span_all (p := (· != c!"\n")) (a := l) fun x hx => by
        simp only [bne_iff_ne, ne_eq]
        rintro rfl
        exact h1 hx
      match l, h0, h with
      | x :: l, _, h =>
        rw [loop]
        rw [h.1, h.2, line_piece hb h2]
        simp
  | @cons b l o s t h1 h2 _ ih =>
    intro n c hn hb
    cases n with
    | zero => omega
    | succ n =>
      have h := span_stop (p := (· != c!"\n")) (a := l) (b := s) (c := c!"\n") (fun x hx => by
        simp only [bne_iff_ne, ne_eq]
        rintro rfl
        exact h1 hx) (by simp)
      have h3 := ih n (!l.all isSpace && (list l).isNone) (by
        simp only [List.length_append, List.length_cons, List.length_nil] at hn
        omega) next_iff
      have e : l ++ b!"\n" ++ s = l ++ c!"\n" :: s := by simp
      rw [e]
      generalize hz : l ++ c!"\n" :: s = z at h ⊢
      cases z with
      | nil => simp at hz
      | cons x z =>
        rw [loop]
        rw [h.1, h.2, line_piece hb h2]
        simp only []
        rw [h3]
        simp

theorem list_len {l a : Bytes} (h : List' l a) : a.length + 2 ≤ l.length := by
  obtain ⟨w, w', rfl, _⟩ := h
  simp only [List.length_append, List.length_cons, List.length_nil]
  omega

theorem toc_len {a o : Bytes} (h : Toc a o) : (o = [] ∧ 4 ≤ a.length) ∨ o.length + 5 ≤ a.length := by
  obtain ⟨w, t, v, w', rfl, _, ht, _, _, ho⟩ := h
  obtain ⟨x, y, z, rfl, _⟩ := toc_letters ht
  rcases ho with ⟨rfl, rfl⟩ | ⟨hv, _⟩
  · left
    simp only [List.length_append, List.length_cons, List.length_nil, true_and]
    omega
  · right
    have := List.length_pos_iff.2 hv
    simp only [List.length_append, List.length_cons, List.length_nil]
    omega

theorem line_len {b : Prop} {l o : Bytes} (h : Line b l o) : o.length ≤ 2 * l.length := by
  have head : ∀ {a}, List' l a → 1 ≤ a.length := by
    rintro a ⟨w, w', _, _, _, _, hk⟩
    cases a with
    | nil => simp at hk
    | cons c a => simp
  have mk : ∀ o, (Spec.marker o).length = if o = [] then 10 else o.length + 11 := by
    intro o
    unfold Spec.marker
    split
    · rfl
    · simp only [List.length_append, List.length_cons, List.length_nil]
      omega
  cases h with
  | text => omega
  | list => omega
  | after h1 =>
    have := list_len h1
    have := head h1
    simp only [List.length_append, List.length_cons, List.length_nil]
    omega
  | toc h1 h2 =>
    have := list_len h1
    rw [mk]
    rcases toc_len h2 with ⟨rfl, _⟩ | _
    · rw [if_pos rfl]; omega
    · split <;> omega
  | tocAfter h1 h2 =>
    have := list_len h1
    rw [List.length_append, mk]
    simp only [List.length_cons, List.length_nil]
    rcases toc_len h2 with ⟨rfl, _⟩ | _
    · rw [if_pos rfl]; omega
    · split <;> omega

theorem read_len {b : Prop} {s o : Bytes} (h : Read b s o) : o.length ≤ 2 * s.length := by
  induction h with
  | nil => simp
  | last _ _ h => exact line_len h
  | cons _ h _ ih =>
    have := line_len h
    simp only [List.length_append, List.length_cons, List.length_nil]
    omega

end Verif.IalLines
