/- Lemmas about tables on a terminal. -/
import Verif.Spec.TermTable
import Verif.Proof.TermProse

namespace Verif.Term
open Spec TermStyle.Spec
open TermStyle (style reset exec_append effect_reset)

/-! ### Widths of texts -/

theorem width_append (a b : Bytes) : width (a ++ b) = width a + width b := by simp [width]

theorem width_nil : width [] = 0 := rfl

theorem width_spaces (n : Nat) : width (List.replicate n c!" ") = n := by
  unfold width
  rw [List.filter_eq_self.2]
  · simp
  · intro c hc
    rw [List.eq_of_mem_replicate hc]
    decide

theorem width_narrow {s : Bytes} (h : Narrow s) : width s = s.length := by
  unfold width
  rw [List.filter_eq_self.2]
  intro c hc
  have := (h c hc).2
  simp only [decide_eq_true_eq]
  omega

theorem width_lines : ∀ n, width (List.replicate n b!"─").flatten = n
  | 0 => rfl
  | n + 1 => by
    rw [List.replicate_succ, List.flatten_cons, width_append, width_lines n]
    have : width b!"─" = 1 := by decide
    omega

theorem narrow_append {a b : Bytes} (ha : Narrow a) (hb : Narrow b) : Narrow (a ++ b) := by
  intro c hc
  rcases List.mem_append.1 hc with h | h
  · exact ha c h
  · exact hb c h

mutual
/-- Even text is as wide as it is counted. -/
theorem even_seen {emoji : Bytes → Bytes} : ∀ n : Node, All (Even emoji) n → Narrow (seen emoji n) ∧ (seen emoji n).length = plainWidth n
  | .mk k a kids, h => by
    unfold All at h
    obtain ⟨hk, h⟩ := h
    have ih := even_seens kids h
    cases k with
    | text s =>
      simp only [seen, plainWidth]
      rw [hk.2.1, ltlt_plain _ hk.2.2]
      exact ⟨hk.1, rfl⟩
    | code s =>
      simp only [seen, plainWidth]
      exact ⟨hk, trivial⟩
    | emph => simp only [seen, plainWidth]; exact ih
    | strong => simp only [seen, plainWidth]; exact ih
    | _ => exact hk.elim
theorem even_seens {emoji : Bytes → Bytes} : ∀ ns : List Node, Alls (Even emoji) ns → Narrow (seens emoji ns) ∧ (seens emoji ns).length = plainWidths ns
  | [], _ => ⟨by simp [seens, Narrow], rfl⟩
  | n :: ns, h => by
    unfold Alls at h
    have h1 := even_seen n h.1
    have h2 := even_seens ns h.2
    simp only [seens, plainWidths]
    exact ⟨narrow_append h1.1 h2.1, by simp [h1.2, h2.2]⟩
end

theorem narrow_calm {s : Bytes} (h : Narrow s) : (27 : Byte) ∉ s := by
  intro hm
  exact absurd (h _ hm).1 (by decide)

theorem narrow_line {s : Bytes} (h : Narrow s) : (10 : Byte) ∉ s := by
  intro hm
  exact absurd (h _ hm).1 (by decide)

mutual
theorem even_calm {emoji : Bytes → Bytes} : ∀ n : Node, All (Even emoji) n → All Calm n
  | .mk k a kids, h => by
    unfold All at h ⊢
    refine ⟨?_, evens_calm kids h.2⟩
    have := h.1
    cases k <;> first | exact this.elim | trivial | exact narrow_calm this.1 | exact narrow_calm this
theorem evens_calm {emoji : Bytes → Bytes} : ∀ ns : List Node, Alls (Even emoji) ns → Alls Calm ns
  | [], _ => by unfold Alls; trivial
  | n :: ns, h => by
    unfold Alls at h ⊢
    exact ⟨even_calm n h.1, evens_calm ns h.2⟩
end

/-! ### Lines -/

/-- The places from column `c` on, with their bars. -/
def Frame.tot (f : Frame) : Nat → Nat → Nat
  | 0, _ => 0
  | n + 1, c => f.inner c + 3 + f.tot n (c + 1)

theorem tot_add (f : Frame) : ∀ a b c, f.tot (a + b) c = f.tot a c + f.tot b (c + a)
  | 0, b, c => by simp [Frame.tot]
  | a + 1, b, c => by
    have e : a + 1 + b = (a + b) + 1 := by omega
    rw [e, Frame.tot, Frame.tot, tot_add f a b (c + 1)]
    have : c + 1 + a = c + (a + 1) := by omega
    rw [this]
    omega

theorem sum_range_succ (g : Nat → Nat) : ∀ n, ((List.range (n + 1)).map g).sum = g 0 + ((List.range n).map fun k => g (k + 1)).sum := by
  intro n
  rw [List.range_succ_eq_map]
  simp [Function.comp_def]

theorem tot_sum (f : Frame) : ∀ n c, ((List.range n).map fun k => f.inner (c + k)).sum + 3 * n = f.tot n c
  | 0, _ => rfl
  | n + 1, c => by
    rw [sum_range_succ, Frame.tot, ← tot_sum f n (c + 1)]
    have : (fun k => f.inner (c + (k + 1))) = fun k => f.inner (c + 1 + k) := by
      funext k
      rw [show c + (k + 1) = c + 1 + k by omega]
    simp only [Nat.add_zero, this]
    omega

theorem room_tot (f : Frame) {c span : Nat} (h1 : 1 ≤ span) (h2 : c + span ≤ f.vis) : f.room c span + 3 = f.tot span c := by
  unfold Frame.room
  rw [Nat.min_eq_left (by omega), ← tot_sum]
  split <;> omega

theorem width_bars (f : Frame) {sep right : Bytes} (h1 : width sep = 1) (h2 : width right = 1) : ∀ n c, width (f.bars sep right n c) = f.tot n c
  | 0, _ => rfl
  | n + 1, c => by
    unfold Frame.bars Frame.tot
    rw [width_append, width_append, width_lines, width_bars f h1 h2 n (c + 1)]
    split <;> omega

theorem bars_line (f : Frame) {sep right : Bytes} (h1 : (10 : Byte) ∉ sep) (h2 : (10 : Byte) ∉ right) : ∀ n c, (10 : Byte) ∉ f.bars sep right n c
  | 0, _ => by simp [Frame.bars]
  | n + 1, c => by
    unfold Frame.bars
    simp only [List.mem_append, not_or]
    refine ⟨⟨?_, by split <;> assumption⟩, bars_line f h1 h2 n (c + 1)⟩
    intro hm
    obtain ⟨l, hl, hc⟩ := List.mem_flatten.1 hm
    rw [List.eq_of_mem_replicate hl] at hc
    exact absurd hc (by decide)

theorem no_line_spaces (n : Nat) : (10 : Byte) ∉ List.replicate n c!" " := by
  intro hm
  exact absurd (List.eq_of_mem_replicate hm) (by decide)

theorem split_cols {a b v : Nat} (h : a + b ≤ v) : v - a = b + (v - (a + b)) := by omega

theorem cell_sum {l room p t : Nat} (h1 : p ≤ room) (h2 : l ≤ room - p) : 1 + l + p + (1 + (room - p - l)) + 1 + t = room + 3 + t := by omega

/-- All cells of a frame fit: they end before its end, are wide enough, and even. -/
structure Frame.Fits (f : Frame) (emoji : Bytes → Bytes) : Prop where
  border : Shows f.border []
  indent : ∃ n, f.indent = spaces n
  cell : ∀ r c s, f.grid r c = some s → s.owner = true → 1 ≤ s.span ∧ c + s.span ≤ f.vis ∧ plainWidth s.cell ≤ f.room c s.span ∧ Alls (Even emoji) s.cell.kids ∧ s.cell.kind = .cell

section
variable {o : Opt} (ho : Quiet o) {f : Frame} (hf : f.Fits o.emoji)
include hf

theorem shows_edge {left sep right nl : Bytes} (h1 : (27 : Byte) ∉ left) (h2 : (27 : Byte) ∉ sep) (h3 : (27 : Byte) ∉ right) (h4 : (27 : Byte) ∉ nl) :
    Shows (f.edge left sep right nl) (f.indent ++ left ++ f.bars sep right f.vis 0 ++ nl) := by
  obtain ⟨n, hn⟩ := hf.indent
  unfold Frame.edge
  have := (((((shows_calm (s := f.indent) (by rw [hn]; exact calm_spaces n)).append hf.border).append (shows_calm h1)).append (shows_calm (calm_bars f h2 h3 f.vis 0))).append (shows_calm h4)).append shows_reset
  simpa using this

theorem shows_bar : Shows f.bar b!"│" := by
  have := (hf.border.append (shows_calm (s := b!"│") (by decide))).append shows_reset
  exact this

theorem shows_blank (c : Nat) : Shows (f.blank c) (List.replicate (f.inner c + 2) c!" " ++ b!"│") := by
  have := ((shows_calm (s := b!" ") (by decide)).append (shows_calm (s := List.replicate (f.inner c + 1) c!" ") (calm_replicate (by decide)))).append (shows_bar hf)
  unfold Frame.blank
  rw [List.replicate_succ (n := f.inner c + 1)]
  exact this

/-- What stands before a cell. -/
def Frame.lead (f : Frame) (c : Nat) (s : Slot) : Nat :=
  match f.align c s.cell with
  | .right => f.room c s.span - plainWidth s.cell
  | .center => (f.room c s.span - plainWidth s.cell) / 2
  | _ => 0

include ho in
theorem shows_cell (header : Bool) (c : Nat) (s : Slot) (hs : Alls Calm s.cell.kids) :
    Shows (f.cell o header c s) (List.replicate (1 + f.lead c s) c!" " ++ seens o.emoji s.cell.kids ++ List.replicate (1 + (f.room c s.span - plainWidth s.cell - f.lead c s)) c!" " ++ b!"│") := by
  have hi := shows_inlines ho s.cell.kids hs
  have ha : Shows (if header then style o.wide b!"b" else []) [] := by
    split
    · exact shows_style _ (by decide +kernel) (by decide +kernel)
    · exact shows_calm (by simp)
  have hb : Shows (if header then reset else []) [] := by
    split
    · exact shows_reset
    · exact shows_calm (by simp)
  have := (((((shows_calm (s := List.replicate (1 + f.lead c s) c!" ") (calm_replicate (by decide))).append ha).append hi).append hb).append
    (shows_calm (s := List.replicate (1 + (f.room c s.span - plainWidth s.cell - f.lead c s)) c!" ") (calm_replicate (by decide)))).append (shows_bar hf)
  simp only [List.append_nil] at this
  exact this

theorem lead_le (c : Nat) (s : Slot) : f.lead c s ≤ f.room c s.span - plainWidth s.cell := by
  unfold Frame.lead
  split <;> omega

include ho in
theorem line_width (header : Bool) (r : Nat) : ∀ n c, c ≤ f.vis → f.vis - c ≤ n → ∃ v, Shows (f.line o header r n c) v ∧ (10 : Byte) ∉ v ∧ width v = f.tot (f.vis - c) c
  | 0, c, h1, h2 => ⟨[], shows_calm (s := []) (by simp), by simp, by rw [show f.vis - c = 0 by omega]; rfl⟩
  | n + 1, c, h1, h2 => by
    unfold Frame.line
    have blank : c < f.vis → ∃ v, Shows (f.blank c ++ f.line o header r n (c + 1)) v ∧ (10 : Byte) ∉ v ∧ width v = f.tot (f.vis - c) c := by
      intro hc
      obtain ⟨v, hv, hl, hw⟩ := line_width header r n (c + 1) (by omega) (by omega)
      refine ⟨_, (shows_blank hf c).append hv, ?_, ?_⟩
      · simp only [List.mem_append, not_or]
        exact ⟨⟨no_line_spaces _, by decide⟩, hl⟩
      · rw [width_append, width_append, width_spaces, hw, show f.vis - c = (f.vis - (c + 1)) + 1 by omega, Frame.tot]
        have : width b!"│" = 1 := by decide
        omega
    split
    · rename_i hc
      cases hs : f.grid r c with
      | none => exact blank hc
      | some s =>
        simp only
        split
        · rename_i hown
          obtain ⟨g1, g2, g3, g4, g5⟩ := hf.cell r c s hs hown
          obtain ⟨v, hv, hl, hw⟩ := line_width header r n (c + s.span) g2 (by omega)
          have he := even_seens _ g4
          have hp : plainWidth s.cell = plainWidths s.cell.kids := by
            cases hsc : s.cell with
            | mk k a kids =>
              rw [hsc] at g5
              simp only [Node.kind] at g5
              subst g5
              rfl
          refine ⟨_, (shows_cell ho hf header c s (evens_calm _ g4)).append hv, ?_, ?_⟩
          · simp only [List.mem_append, not_or]
            exact ⟨⟨⟨⟨no_line_spaces _, narrow_line he.1⟩, no_line_spaces _⟩, by decide⟩, hl⟩
          · rw [width_append, width_append, width_append, width_append, width_spaces, width_spaces, width_narrow he.1, he.2, ← hp, hw]
            have : width b!"│" = 1 := by decide
            have hroom := room_tot f g1 g2
            have hlead := lead_le hf c s
            rw [show f.vis - c = s.span + (f.vis - (c + s.span)) from split_cols g2, tot_add, ← hroom, this]
            exact cell_sum g3 hlead
        · exact blank hc
    · exact ⟨[], shows_calm (s := []) (by simp), by simp, by rw [show f.vis - c = 0 by omega]; rfl⟩

/-- The places of all lines of a table. -/
def Frame.size (f : Frame) : Nat := Spec.width f.indent + 1 + f.tot f.vis 0

theorem indent_line : (10 : Byte) ∉ f.indent := by
  obtain ⟨n, hn⟩ := hf.indent
  rw [hn]
  exact no_line_spaces _

theorem edge_line {left sep right nl : Bytes} (h1 : (27 : Byte) ∉ left ∧ (10 : Byte) ∉ left ∧ width left = 1) (h2 : (27 : Byte) ∉ sep ∧ (10 : Byte) ∉ sep ∧ width sep = 1)
    (h3 : (27 : Byte) ∉ right ∧ (10 : Byte) ∉ right ∧ width right = 1) (h4 : (27 : Byte) ∉ nl) : ∃ l, Shows (f.edge left sep right nl) (l ++ nl) ∧ (10 : Byte) ∉ l ∧ width l = f.size := by
  refine ⟨_, shows_edge hf h1.1 h2.1 h3.1 h4, ?_, ?_⟩
  · simp only [List.mem_append, not_or]
    exact ⟨⟨indent_line hf, h1.2.1⟩, bars_line f h2.2.1 h3.2.1 _ _⟩
  · rw [width_append, width_append, width_bars f h2.2.2 h3.2.2, h1.2.2]
    rfl

include ho in
/-- The lines of a row. -/
theorem row_lines (r : Nat) : ∃ ls : List Bytes, Shows (f.row o r) (ls.flatMap (· ++ b!"\n")) ∧ ∀ l ∈ ls, (10 : Byte) ∉ l ∧ width l = f.size := by
  obtain ⟨l, hl, h1, h2⟩ := edge_line hf (left := b!"├") (sep := b!"┼") (right := b!"┤") (nl := b!"\n") (by decide) (by decide) (by decide) (by decide)
  unfold Frame.row
  split
  · refine ⟨[l], by simpa using hl, by simp [h1, h2]⟩
  · obtain ⟨v, hv, h3, h4⟩ := line_width ho hf (r = 0) r f.vis 0 (Nat.zero_le _) (by omega)
    obtain ⟨n, hn⟩ := hf.indent
    have hrow := (((shows_calm (s := f.indent) (by rw [hn]; exact calm_spaces n)).append (shows_bar hf)).append hv).append (shows_calm (s := b!"\n") (by decide))
    have hw : (10 : Byte) ∉ f.indent ++ b!"│" ++ v ∧ width (f.indent ++ b!"│" ++ v) = f.size := by
      refine ⟨?_, ?_⟩
      · simp only [List.mem_append, not_or]
        exact ⟨⟨indent_line hf, by decide⟩, h3⟩
      · rw [width_append, width_append, h4]
        rfl
    split
    · refine ⟨[f.indent ++ b!"│" ++ v, l], ?_, ?_⟩
      · simpa using hrow.append hl
      · intro x hx
        simp only [List.mem_cons, List.not_mem_nil, or_false] at hx
        rcases hx with rfl | rfl
        · exact hw
        · exact ⟨h1, h2⟩
    · refine ⟨[f.indent ++ b!"│" ++ v], ?_, ?_⟩
      · simpa using hrow
      · intro x hx
        rw [List.mem_singleton.1 hx]
        exact hw

include ho in
theorem rows_lines : ∀ rs : List Nat, ∃ ls : List Bytes, Shows (rs.flatMap (f.row o)) (ls.flatMap (· ++ b!"\n")) ∧ ∀ l ∈ ls, (10 : Byte) ∉ l ∧ width l = f.size
  | [] => ⟨[], shows_calm (s := []) (by simp), by simp⟩
  | r :: rs => by
    obtain ⟨l1, h1, h2⟩ := row_lines ho hf r
    obtain ⟨l2, h3, h4⟩ := rows_lines rs
    refine ⟨l1 ++ l2, ?_, ?_⟩
    · rw [List.flatMap_cons, List.flatMap_append]
      exact h1.append h3
    · intro l hl
      rcases List.mem_append.1 hl with hl | hl
      · exact h2 l hl
      · exact h4 l hl

end

end Verif.Term
