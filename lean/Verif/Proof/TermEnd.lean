/- Lemmas about where styles end, and about the prose of a document on a terminal. -/
import Verif.Proof.Term

namespace Verif.Term
open Spec TermStyle.Spec
open TermStyle (style reset exec_append effect_reset)
open Embed (find)

/-! ### Where styles end -/

/-- A terminal that begins plain ends plain. -/
def Plainly (out : Bytes) : Prop := (exec (ready {}) out).1 = ready {}

theorem Plainly.append {a b : Bytes} (ha : Plainly a) (hb : Plainly b) : Plainly (a ++ b) := by
  unfold Plainly at *
  rw [exec_append]
  simp only [ha, hb]

theorem plainly_calm : ∀ {s : Bytes}, (27 : Byte) ∉ s → Plainly s
  | [], _ => rfl
  | c :: r, h => by
    have := plainly_calm (s := r) fun hx => h (List.mem_cons_of_mem _ hx)
    have hc : c ≠ 27 := fun he => h (he ▸ List.mem_cons_self ..)
    have h1 : step (ready {}) c = (ready {}, [.shown c {}]) := by simp [step, ready, hc]
    unfold Plainly at *
    simp only [exec, h1, this]

theorem plainly_reset {a v : Bytes} (h : Shows a v) : Plainly (a ++ reset) := by
  unfold Plainly
  obtain ⟨s', e, h1, _, _⟩ := h {}
  rw [exec_append, h1]
  simp [effect_reset s']

mutual
theorem plainly_inline {o : Opt} (hq : Quiet o) : ∀ n : Node, All Calm n → All NoInline n → Plainly (inline o n)
  | .mk k a kids, h, hn => by
    have hs := shows_inline hq (.mk k a kids) h
    unfold All at h hn
    obtain ⟨hk, h⟩ := h
    obtain ⟨hnk, hn⟩ := hn
    have ih := plainly_inlines hq kids h hn
    have is := shows_inlines hq kids h
    cases k with
    | text s =>
      have ht := ltlt_calm (o.emoji s).length (hq.emoji s hk)
      simp only [inline]
      cases hc : nodeStyle o.theme a with
      | none => simpa using plainly_calm ht
      | some st =>
        obtain ⟨f, hf⟩ := node_effect hq hc
        exact plainly_reset ((shows_effect hf).append (shows_calm ht))
    | soft => exact plainly_calm (s := b!"\n") (by decide)
    | hard => exact plainly_calm (s := b!"  \n") (by decide)
    | code s =>
      simp only [inline]
      exact plainly_reset ((shows_or hq a hq.codeSpan (shows_style o.wide (s := b!"b white on_intense_black") (by decide +kernel) (by decide +kernel))).append (shows_calm hk))
    | emph =>
      have := (shows_style o.wide (s := b!"i") (by decide +kernel) (by decide +kernel)).append is
      simp only [inline]
      cases hc : nodeStyle o.theme a with
      | none => simpa using plainly_reset this
      | some st =>
        obtain ⟨f, hf⟩ := node_effect hq hc
        simpa using plainly_reset ((shows_effect hf).append this)
    | strong =>
      have := (shows_style o.wide (s := b!"b") (by decide +kernel) (by decide +kernel)).append is
      simp only [inline]
      cases hc : nodeStyle o.theme a with
      | none => simpa using plainly_reset this
      | some st =>
        obtain ⟨f, hf⟩ := node_effect hq hc
        simpa using plainly_reset ((shows_effect hf).append this)
    | link url =>
      simp only [inline]
      refine Plainly.append (plainly_reset ((shows_or hq a hq.linkText (shows_style o.wide (s := b!"u b blue") (by decide +kernel) (by decide +kernel))).append is)) ?_
      split
      · exact plainly_calm (by simp)
      · exact plainly_reset (((((shows_calm (s := b!" ") (by decide)).append (shows_getD hq.linkUrl (shows_style o.wide (s := b!"cyan") (by decide +kernel) (by decide +kernel)))).append
            (shows_calm (s := b!"(") (by decide))).append (shows_calm hk)).append (shows_calm (s := b!")") (by decide)))
    | image url =>
      simp only [inline]
      refine (((plainly_calm (by decide)).append ih).append (plainly_calm (by decide))).append ?_
      split
      · exact plainly_calm (by simp)
      · exact ((plainly_calm (by decide)).append (plainly_calm hk)).append (plainly_calm (by decide))
    | html s => exact hnk.elim
    | _ => simp only [inline]; exact ih
theorem plainly_inlines {o : Opt} (hq : Quiet o) : ∀ ns : List Node, Alls Calm ns → Alls NoInline ns → Plainly (inlines o ns)
  | [], _, _ => rfl
  | n :: ns, h, hn => by
    unfold Alls at h hn
    exact (plainly_inline hq n h.1 hn.1).append (plainly_inlines hq ns h.2 hn.2)
end

section
variable {o : Opt} (hq : Quiet o) {f : Frame} (hb : Shows f.border []) (hi : (27 : Byte) ∉ f.indent)

include hb hi in
theorem plainly_edge {left sep right nl : Bytes} (h1 : (27 : Byte) ∉ left) (h2 : (27 : Byte) ∉ sep) (h3 : (27 : Byte) ∉ right) (h4 : (27 : Byte) ∉ nl) : Plainly (f.edge left sep right nl) :=
  plainly_reset (((((shows_calm hi).append hb).append (shows_calm h1)).append (shows_calm (calm_bars _ h2 h3 _ _))).append (shows_calm h4))

include hb in
theorem plainly_bar : Plainly f.bar := plainly_reset (hb.append (shows_calm (s := b!"│") (by decide)))

include hb in
theorem plainly_blank (c : Nat) : Plainly (f.blank c) := ((plainly_calm (s := b!" ") (by decide)).append (plainly_calm (calm_replicate (by decide)))).append (plainly_bar hb)

include hq hb in
theorem plainly_cell (header : Bool) (c : Nat) (s : Slot) (hs : Alls Calm s.cell.kids) (hn : Alls NoInline s.cell.kids) : Plainly (f.cell o header c s) := by
  unfold Frame.cell
  cases header with
  | false =>
    simp only [Bool.false_eq_true, if_false, List.append_nil]
    exact (((plainly_calm (calm_replicate (by decide))).append (plainly_inlines hq _ hs hn)).append (plainly_calm (calm_replicate (by decide)))).append (plainly_bar hb)
  | true =>
    simp only [if_true]
    exact ((plainly_reset (((shows_calm (calm_replicate (by decide))).append (shows_style _ (s := b!"b") (by decide +kernel) (by decide +kernel))).append (shows_inlines hq _ hs))).append
      (plainly_calm (calm_replicate (by decide)))).append (plainly_bar hb)

include hq hb in
theorem plainly_line (hg : ∀ r c s, f.grid r c = some s → Alls Calm s.cell.kids) (hn : ∀ r c s, f.grid r c = some s → Alls NoInline s.cell.kids) (header : Bool) (r : Nat) :
    ∀ n c, Plainly (f.line o header r n c)
  | 0, _ => rfl
  | n + 1, c => by
    unfold Frame.line
    split
    · cases hs : f.grid r c with
      | none => exact (plainly_blank hb c).append (plainly_line hg hn header r n (c + 1))
      | some s =>
        simp only
        split
        · exact (plainly_cell hq hb header c s (hg _ _ _ hs) (hn _ _ _ hs)).append (plainly_line hg hn header r n (c + s.span))
        · exact (plainly_blank hb c).append (plainly_line hg hn header r n (c + 1))
    · exact plainly_calm (by simp)

include hq hb hi in
theorem plainly_row (hg : ∀ r c s, f.grid r c = some s → Alls Calm s.cell.kids) (hn : ∀ r c s, f.grid r c = some s → Alls NoInline s.cell.kids) (r : Nat) : Plainly (f.row o r) := by
  have hedge := plainly_edge hb hi (left := b!"├") (sep := b!"┼") (right := b!"┤") (nl := b!"\n") (by decide) (by decide) (by decide) (by decide)
  unfold Frame.row
  split
  · exact hedge
  · refine ((((plainly_calm hi).append (plainly_bar hb)).append (plainly_line hq hb hg hn _ r _ 0)).append (plainly_calm (s := b!"\n") (by decide))).append ?_
    split
    · exact hedge
    · exact plainly_calm (by simp)

end

theorem plainly_flatMap {f : Nat → Bytes} (h : ∀ r, Plainly (f r)) : ∀ l : List Nat, Plainly (l.flatMap f)
  | [] => rfl
  | x :: l => by
    rw [List.flatMap_cons]
    exact (h x).append (plainly_flatMap h l)

/-- The cells of a table have no HTML if the table has none. -/
theorem table_all {P : Kind → Prop} {kids : List Node} {rows cols : Nat} {g : Grid} (hc : Alls P kids) (hg : placeRows rows cols 0 (rowsOf kids) (fun _ _ => none) = .val g) :
    ∀ r c s, g r c = some s → Alls P s.cell.kids := by
  refine placeRows_cells (P := fun n => Alls P n.kids) hg ?_ (by simp)
  intro n hn c hcm
  exact all_kids (alls_mem (all_kids (alls_mem hc n (List.mem_filter.1 hn).1)) c (List.mem_filter.1 hcm).1)

theorem plainly_table {o : Opt} (hq : Quiet o) {indent : Nat} {a : Option Bytes} {kids : List Node} {t : Bytes} (hc : Alls Calm kids) (hn : Alls NoInline kids) (h : table o indent a kids = .val t) :
    Plainly t := by
  unfold table at h
  split at h
  · cases h; rfl
  simp only at h
  split at h
  · cases h; rfl
  split at h
  · cases hg : placeRows (rowsOf kids).length (colsOf (rowsOf kids)) 0 (rowsOf kids) fun _ _ => none with
    | ub => rw [hg] at h; cases h
    | val g =>
      rw [hg, C.val_bind] at h
      split at h
      · cases h; rfl
      · cases h
        exact ((plainly_edge (shows_border hq) (calm_spaces _) (by decide) (by decide) (by decide) (by decide)).append
          (plainly_flatMap (plainly_row hq (shows_border hq) (calm_spaces _) (table_all hc hg) (table_all hn hg)) _)).append
            (plainly_edge (shows_border hq) (calm_spaces _) (by decide) (by decide) (by decide) (by decide))
  · cases h

theorem plainly_padded {out : Bytes} (h : Plainly out) : Plainly (padded out) := by
  unfold padded
  repeat' split
  all_goals first | exact h | exact h.append (plainly_calm (by decide))

theorem plainly_htmlBlock {o : Opt} {indent : Nat} {out s r : Bytes} (h : htmlBlock o indent out s = .val r) (hs : (27 : Byte) ∉ s) (hv : Plainly out) : Plainly r := by
  unfold htmlBlock at h
  split at h
  · cases h
    exact (hv.append (plainly_calm (defs_calm _ _ _ _ _ _ hs))).append (plainly_calm (by decide))
  split at h
  · cases h1 : calloutTitle (calloutType o indent s).isSome s with
    | ub => simp only [h1, C.ub_bind] at h; cases h
    | val t =>
      simp only [h1, C.val_bind] at h
      cases h2 : calloutContent s with
      | ub => simp only [h2, C.ub_bind] at h; cases h
      | val c =>
        simp only [h2, C.val_bind] at h
        cases h
        have hty : Plainly ((calloutType o indent s).getD []) := by
          unfold calloutType
          cases hf : find b!"callout-" s with
          | none => rfl
          | some x =>
            obtain ⟨x1, x2⟩ := x
            simp only
            split
            · rfl
            · rename_i t ht
              refine plainly_reset (((((shows_calm (calm_spaces _)).append (shows_style _ (s := b!"b yellow") (by decide +kernel) (by decide +kernel))).append (shows_calm (s := b!"[") (by decide))).append
                (shows_calm ?_)).append (shows_calm (s := b!"]") (by decide)))
              exact fun hm => (find_calm hf hs).2 ((List.takeWhile_prefix _).sublist.mem hm)
        exact ((hv.append hty).append (plainly_calm (title_calm h1 hs))).append (plainly_calm (calloutContent_calm h2 hs))
  · cases h
    exact plainly_padded (hv.append (plainly_calm (plainHtml_calm _ _ _ hs)))

theorem shows_marker {o : Opt} (hq : Quiet o) : (27 : Byte) ∉ o.theme.quoteMarker.getD b!">" := by
  cases h : o.theme.quoteMarker with
  | none => decide
  | some m => exact hq.marker m h

theorem plainly_quoteMark {o : Opt} (hq : Quiet o) (indent : Nat) : Plainly (quoteMark o indent) :=
  plainly_reset ((((shows_calm (calm_spaces _)).append (shows_style _ (s := b!"yellow") (by decide +kernel) (by decide +kernel))).append (shows_calm (shows_marker hq))).append (shows_calm (s := b!" ") (by decide)))

theorem shows_quoteColour {o : Opt} (hq : Quiet o) : Shows (style o.wide (o.theme.quoteColour.getD (if o.wide then b!"i 38;5;250" else b!"i white"))) [] := by
  refine shows_getD hq.quoteColour ?_
  split
  · exact (shows_grey _).2
  · exact shows_style _ (by decide +kernel) (by decide +kernel)

theorem plainly_quoted {o : Opt} (hq : Quiet o) (indent : Nat) : ∀ {ns : List Node}, Alls Calm ns → Plainly (quoted o indent ns)
  | [], _ => rfl
  | n :: ns, h => by
    unfold Alls at h
    unfold quoted
    refine Plainly.append ?_ (plainly_quoted hq indent h.2)
    split
    · exact (plainly_calm (by decide)).append (plainly_quoteMark hq indent)
    · exact plainly_reset ((shows_quoteColour hq).append (shows_inline hq n h.1))

theorem shows_headStyle {o : Opt} (hq : Quiet o) (level : Nat) : Shows (style o.wide (headStyle o.theme level)) [] := by
  unfold headStyle
  refine shows_getD ?_ ?_
  · intro s hs
    split at hs
    · exact hq.head level s hs
    · cases hs
  · repeat' split
    all_goals exact shows_style _ (by decide +kernel) (by decide +kernel)

theorem mark_calm (bullet : Bool) (number : Nat) : (27 : Byte) ∉ (if bullet then b!"* " else Man.decimal number ++ b!"." ++ b!" ") := by
  split
  · decide
  · simp only [List.mem_append, not_or]; exact ⟨⟨decimal_calm _, by decide⟩, by decide⟩

theorem shows_listMarker {o : Opt} (hq : Quiet o) : Shows (style o.wide (o.theme.listMarker.getD b!"b intense_red")) [] :=
  shows_getD hq.listMarker (shows_style _ (by decide +kernel) (by decide +kernel))

theorem plainly_itemMark {o : Opt} (hq : Quiet o) (indent : Nat) (bullet : Bool) (number : Nat) : Plainly (itemMark o indent bullet number) :=
  plainly_reset (((shows_calm (calm_spaces _)).append (shows_listMarker hq)).append (shows_calm (mark_calm bullet number)))

theorem plainly_codeBlock {o : Opt} (hq : Quiet o) (indent : Nat) {info s : Bytes} (h1 : (27 : Byte) ∉ info) (h2 : (27 : Byte) ∉ s) : Plainly (codeBlock o indent info s) := by
  unfold codeBlock
  rw [hq.colour]
  exact (plainly_reset (((((((shows_calm (calm_spaces _)).append (shows_getD hq.codeBlock (shows_style _ (s := b!"white on_black") (by decide +kernel) (by decide +kernel)))).append (shows_calm (s := b!"```") (by decide))).append (shows_calm h1)).append
    (shows_calm (s := b!"\n") (by decide))).append (shows_calm h2)).append (shows_calm (s := b!"\n```") (by decide)))).append (plainly_calm (by decide))

section
variable {o : Opt} (hq : Quiet o)
include hq

mutual
theorem plainly_block : ∀ (n : Node) (indent : Nat) (inList : Bool) (x r : Bytes), All Calm n → All NoInline n → Plainly x → block o indent inList x n = .val r → Plainly r
  | .mk k a kids, indent, inList, x, r, hc, hn, h, hr => by
    unfold All at hc hn
    obtain ⟨hk, hc⟩ := hc
    obtain ⟨_, hn⟩ := hn
    cases k with
    | table =>
      simp only [block] at hr
      cases ht : table o indent a kids with
      | ub => rw [ht] at hr; cases hr
      | val t =>
        rw [ht, C.val_bind, C.val.injEq] at hr
        exact hr ▸ h.append (plainly_table hq hc hn ht)
    | para =>
      simp only [block, C.val.injEq] at hr
      rw [← hr]
      refine ((h.append (plainly_calm (calm_spaces _))).append (plainly_inlines hq kids hc hn)).append (plainly_calm ?_)
      split <;> decide
    | heading level =>
      simp only [block, C.val.injEq] at hr
      rw [← hr]
      have := plainly_reset (((shows_calm (calm_spaces indent)).append (shows_headStyle hq level)).append (shows_inlines hq kids hc))
      have := (h.append this).append (plainly_calm (s := b!"\n\n") (by decide))
      simpa using this
    | list bullet start =>
      simp only [block] at hr
      cases ht : items o indent bullet (if start = 0 then 1 else start) x kids with
      | ub => rw [ht] at hr; cases hr
      | val t =>
        rw [ht, C.val_bind, C.val.injEq] at hr
        exact hr ▸ (plainly_items kids indent bullet _ x t hc hn h ht).append (plainly_calm (by decide))
    | item => simp only [block] at hr; exact plainly_blocks kids indent true x r hc hn h hr
    | quote => simp only [block] at hr; exact plainly_quotes kids indent x r hc hn h hr
    | codeBlock info s =>
      simp only [block, C.val.injEq] at hr
      exact hr ▸ h.append (plainly_codeBlock hq indent hk.1 hk.2)
    | htmlBlock s => simp only [block] at hr; exact plainly_htmlBlock hr hk h
    | rule =>
      simp only [block, C.val.injEq] at hr
      exact hr ▸ (h.append (plainly_calm (calm_spaces _))).append (plainly_calm (by decide))
    | _ => simp only [block] at hr; exact plainly_blocks kids indent false x r hc hn h hr
theorem plainly_blocks : ∀ (ns : List Node) (indent : Nat) (inList : Bool) (x r : Bytes), Alls Calm ns → Alls NoInline ns → Plainly x → blocks o indent inList x ns = .val r → Plainly r
  | [], _, _, _, _, _, _, h, hr => by
    simp only [blocks, C.val.injEq] at hr
    exact hr ▸ h
  | n :: ns, indent, inList, x, r, hc, hn, h, hr => by
    unfold Alls at hc hn
    simp only [blocks] at hr
    cases ht : block o indent inList x n with
    | ub => rw [ht] at hr; cases hr
    | val t =>
      rw [ht, C.val_bind] at hr
      exact plainly_blocks ns indent inList t r hc.2 hn.2 (plainly_block n indent inList x t hc.1 hn.1 h ht) hr
theorem plainly_items : ∀ (ns : List Node) (indent : Nat) (bullet : Bool) (number : Nat) (x r : Bytes), Alls Calm ns → Alls NoInline ns → Plainly x → items o indent bullet number x ns = .val r → Plainly r
  | [], _, _, _, _, _, _, _, h, hr => by
    simp only [items, C.val.injEq] at hr
    exact hr ▸ h
  | n :: ns, indent, bullet, number, x, r, hc, hn, h, hr => by
    unfold Alls at hc hn
    simp only [items] at hr
    cases ht : block o (indent + 1) true (x ++ itemMark o indent bullet number) n with
    | ub => rw [ht] at hr; cases hr
    | val t =>
      rw [ht, C.val_bind] at hr
      exact plainly_items ns indent bullet (number + 1) t r hc.2 hn.2 (plainly_block n (indent + 1) true _ t hc.1 hn.1 (h.append (plainly_itemMark hq indent bullet number)) ht) hr
theorem plainly_quotes : ∀ (ns : List Node) (indent : Nat) (x r : Bytes), Alls Calm ns → Alls NoInline ns → Plainly x → quotes o indent x ns = .val r → Plainly r
  | [], _, _, _, _, _, h, hr => by
    simp only [quotes, C.val.injEq] at hr
    exact hr ▸ h
  | n :: ns, indent, x, r, hc, hn, h, hr => by
    unfold Alls at hc hn
    unfold quotes at hr
    simp only at hr
    split at hr
    · rename_i a kids
      have := hc.1
      unfold All at this
      rw [C.val_bind] at hr
      refine plainly_quotes ns indent _ r hc.2 hn.2 (((h.append (plainly_quoteMark hq indent)).append (plainly_quoted hq indent this.2)).append (plainly_calm ?_)) hr
      split <;> decide
    · cases ht : block o indent false (x ++ quoteMark o indent) n with
      | ub => rw [ht] at hr; cases hr
      | val t =>
        rw [ht, C.val_bind] at hr
        exact plainly_quotes ns indent t r hc.2 hn.2 (plainly_block n indent false _ t hc.1 hn.1 (h.append (plainly_quoteMark hq indent)) ht) hr
end

end

end Verif.Term
