/- Lemmas about the prose of a document on a terminal. -/
import Verif.Proof.TermEnd

namespace Verif.Term
open Spec TermStyle.Spec
open TermStyle (style reset exec_append effect_reset)

theorem shows_quoteMark {o : Opt} (hq : Quiet o) (indent : Nat) : ∃ w, Shows (quoteMark o indent) w :=
  ⟨_, ((((shows_calm (calm_spaces _)).append (shows_style _ (s := b!"yellow") (by decide +kernel) (by decide +kernel))).append (shows_calm (shows_marker hq))).append (shows_calm (s := b!" ") (by decide))).append shows_reset⟩

theorem shows_quoted {o : Opt} (hq : Quiet o) (indent : Nat) : ∀ {ns : List Node}, Alls Calm ns → Alls (Plain o.emoji) ns → ∃ w, Shows (quoted o indent ns) w ∧ (readAll o.emoji ns).Sublist w
  | [], _, _ => ⟨[], shows_calm (s := []) (by simp), by simp [readAll]⟩
  | n :: ns, h, hp => by
    unfold Alls at h hp
    obtain ⟨w, hw, hs⟩ := shows_quoted hq indent h.2 hp.2
    unfold quoted readAll
    cases n with
    | mk k a kids =>
      by_cases hk : k = .soft
      · subst hk
        obtain ⟨u, hu⟩ := shows_quoteMark hq indent
        refine ⟨_, ((shows_calm (s := b!"\n") (by decide)).append hu).append hw, ?_⟩
        have e : reads o.emoji (.mk .soft a kids) = b!"\n" := by simp [reads]
        rw [e]
        exact (List.sublist_append_left _ _).append hs
      · refine ⟨_, Spec.Shows.append (v := reads o.emoji (.mk k a kids)) ?_ hw, (List.Sublist.refl _).append hs⟩
        have : Shows (style o.wide (o.theme.quoteColour.getD (if o.wide then b!"i 38;5;250" else b!"i white")) ++ inline o (.mk k a kids) ++ reset) (reads o.emoji (.mk k a kids)) := by
          rw [← seen_reads _ hp.1]
          simpa using ((shows_quoteColour hq).append (shows_inline hq _ h.1)).append shows_reset
        split
        · rename_i hks
          exact absurd hks hk
        · exact this

section
variable {o : Opt} (hq : Quiet o)
include hq

theorem shows_table {indent : Nat} {a : Option Bytes} {kids : List Node} {t : Bytes} (hc : Alls Calm kids) (h : table o indent a kids = .val t) : ∃ w, Shows t w := by
  rcases same_table hq hq rfl indent a hc with ⟨h1, _⟩ | ⟨x, y, h1, _, v, hv, _⟩
  · rw [h] at h1; cases h1
  · rw [h] at h1
    cases h1
    exact ⟨v, hv⟩

mutual
theorem prose_block : ∀ (n : Node) (indent : Nat) (inList : Bool) (x r v : Bytes), All Calm n → All (Plain o.emoji) n → Shows x v → block o indent inList x n = .val r →
    ∃ w, Shows r (v ++ w) ∧ (prose o.emoji n).Sublist w
  | .mk k a kids, indent, inList, x, r, v, hc, hp, h, hr => by
    unfold All at hc hp
    obtain ⟨hk, hc⟩ := hc
    obtain ⟨_, hp⟩ := hp
    have hi := shows_inlines hq kids hc
    rw [seens_reads kids hp] at hi
    cases k with
    | table =>
      simp only [block] at hr
      cases ht : table o indent a kids with
      | ub => rw [ht] at hr; cases hr
      | val t =>
        rw [ht, C.val_bind, C.val.injEq] at hr
        obtain ⟨w, hw⟩ := shows_table hq hc ht
        exact ⟨w, hr ▸ h.append hw, by simp [prose]⟩
    | para =>
      simp only [block, C.val.injEq] at hr
      have hl : Shows (if inList then b!"\n" else b!"\n\n") (if inList then b!"\n" else b!"\n\n") := shows_calm (by split <;> decide)
      refine ⟨spaces indent ++ (readAll o.emoji kids ++ (if inList then b!"\n" else b!"\n\n")), ?_, ?_⟩
      · rw [← hr]
        simpa using ((h.append (shows_calm (calm_spaces indent))).append hi).append hl
      · simp only [prose]
        exact (List.sublist_append_left _ _).trans (List.sublist_append_right _ _)
    | heading level =>
      simp only [block, C.val.injEq] at hr
      refine ⟨spaces indent ++ (readAll o.emoji kids ++ b!"\n\n"), ?_, ?_⟩
      · rw [← hr]
        simpa using ((((h.append (shows_calm (calm_spaces indent))).append (shows_headStyle hq level)).append hi).append shows_reset).append (shows_calm (s := b!"\n\n") (by decide))
      · simp only [prose]
        exact (List.sublist_append_left _ _).trans (List.sublist_append_right _ _)
    | list bullet start =>
      simp only [block] at hr
      cases ht : items o indent bullet (if start = 0 then 1 else start) x kids with
      | ub => rw [ht] at hr; cases hr
      | val t =>
        rw [ht, C.val_bind, C.val.injEq] at hr
        obtain ⟨w, hw, hs⟩ := prose_items kids indent bullet _ x t v hc hp h ht
        refine ⟨w ++ b!"\n", ?_, ?_⟩
        · rw [← hr, ← List.append_assoc]
          exact hw.append (shows_calm (by decide))
        · simp only [prose]
          exact hs.trans (List.sublist_append_left _ _)
    | item => simp only [block] at hr; simp only [prose]; exact prose_blocks kids indent true x r v hc hp h hr
    | quote => simp only [block] at hr; simp only [prose]; exact prose_quotes kids indent x r v hc hp h hr
    | codeBlock info s =>
      simp only [block, C.val.injEq] at hr
      have := (((((((((h.append (shows_calm (calm_spaces indent))).append (shows_getD hq.codeBlock (shows_style _ (s := b!"white on_black") (by decide +kernel) (by decide +kernel)))).append (shows_calm (s := b!"```") (by decide))).append (shows_calm hk.1)).append
        (shows_calm (s := b!"\n") (by decide))).append (shows_calm hk.2)).append (shows_calm (s := b!"\n```") (by decide))).append shows_reset).append (shows_calm (s := b!"\n\n") (by decide)))
      refine ⟨spaces indent ++ b!"```" ++ info ++ b!"\n" ++ (s ++ (b!"\n```" ++ b!"\n\n")), ?_, ?_⟩
      · rw [← hr]
        unfold codeBlock
        rw [hq.colour]
        simpa using this
      · simp only [prose]
        exact (List.sublist_append_left _ _).trans (List.sublist_append_right _ _)
    | htmlBlock s =>
      simp only [block] at hr
      obtain ⟨w, hw⟩ := shows_htmlBlock hr hk h
      exact ⟨w, hw, by simp [prose]⟩
    | rule =>
      simp only [block, C.val.injEq] at hr
      refine ⟨spaces indent ++ b!"----------------------------------------\n\n", ?_, by simp [prose]⟩
      rw [← hr, ← List.append_assoc]
      exact (h.append (shows_calm (calm_spaces _))).append (shows_calm (by decide))
    | _ => simp only [block] at hr; simp only [prose]; exact prose_blocks kids indent false x r v hc hp h hr
theorem prose_blocks : ∀ (ns : List Node) (indent : Nat) (inList : Bool) (x r v : Bytes), Alls Calm ns → Alls (Plain o.emoji) ns → Shows x v → blocks o indent inList x ns = .val r →
    ∃ w, Shows r (v ++ w) ∧ (proseAll o.emoji ns).Sublist w
  | [], _, _, _, _, _, _, _, h, hr => by
    simp only [blocks, C.val.injEq] at hr
    exact ⟨[], by rw [List.append_nil]; exact hr ▸ h, by simp [proseAll]⟩
  | n :: ns, indent, inList, x, r, v, hc, hp, h, hr => by
    unfold Alls at hc hp
    simp only [blocks] at hr
    cases ht : block o indent inList x n with
    | ub => rw [ht] at hr; cases hr
    | val t =>
      rw [ht, C.val_bind] at hr
      obtain ⟨w1, hw1, hs1⟩ := prose_block n indent inList x t v hc.1 hp.1 h ht
      obtain ⟨w2, hw2, hs2⟩ := prose_blocks ns indent inList t r _ hc.2 hp.2 hw1 hr
      exact ⟨w1 ++ w2, by rw [← List.append_assoc]; exact hw2, by simp only [proseAll]; exact hs1.append hs2⟩
theorem prose_items : ∀ (ns : List Node) (indent : Nat) (bullet : Bool) (number : Nat) (x r v : Bytes), Alls Calm ns → Alls (Plain o.emoji) ns → Shows x v →
    items o indent bullet number x ns = .val r → ∃ w, Shows r (v ++ w) ∧ (proseAll o.emoji ns).Sublist w
  | [], _, _, _, _, _, _, _, _, h, hr => by
    simp only [items, C.val.injEq] at hr
    exact ⟨[], by rw [List.append_nil]; exact hr ▸ h, by simp [proseAll]⟩
  | n :: ns, indent, bullet, number, x, r, v, hc, hp, h, hr => by
    unfold Alls at hc hp
    simp only [items] at hr
    cases ht : block o (indent + 1) true (x ++ itemMark o indent bullet number) n with
    | ub => rw [ht] at hr; cases hr
    | val t =>
      rw [ht, C.val_bind] at hr
      have hm := (((shows_calm (calm_spaces indent)).append (shows_listMarker hq)).append (shows_calm (mark_calm bullet number))).append shows_reset
      obtain ⟨w1, hw1, hs1⟩ := prose_block n (indent + 1) true _ t _ hc.1 hp.1 (h.append hm) ht
      obtain ⟨w2, hw2, hs2⟩ := prose_items ns indent bullet (number + 1) t r _ hc.2 hp.2 hw1 hr
      refine ⟨_, by rw [List.append_assoc, List.append_assoc] at hw2; exact hw2, ?_⟩
      simp only [proseAll]
      exact (hs1.append hs2).trans (List.sublist_append_right _ _)
theorem prose_quotes : ∀ (ns : List Node) (indent : Nat) (x r v : Bytes), Alls Calm ns → Alls (Plain o.emoji) ns → Shows x v → quotes o indent x ns = .val r →
    ∃ w, Shows r (v ++ w) ∧ (proseAll o.emoji ns).Sublist w
  | [], _, _, _, _, _, _, h, hr => by
    simp only [quotes, C.val.injEq] at hr
    exact ⟨[], by rw [List.append_nil]; exact hr ▸ h, by simp [proseAll]⟩
  | n :: ns, indent, x, r, v, hc, hp, h, hr => by
    unfold Alls at hc hp
    unfold quotes at hr
    simp only at hr
    obtain ⟨u, hu⟩ := shows_quoteMark hq indent
    split at hr
    · rename_i a kids
      have h1 := hc.1
      have h2 := hp.1
      unfold All at h1 h2
      rw [C.val_bind] at hr
      obtain ⟨w1, hw1, hs1⟩ := shows_quoted hq indent h1.2 h2.2
      obtain ⟨e, hl, hr⟩ : ∃ e : Bytes, (27 : Byte) ∉ e ∧ quotes o indent (x ++ quoteMark o indent ++ quoted o indent kids ++ e) ns = .val r := by
        refine ⟨_, ?_, hr⟩
        split <;> decide
      obtain ⟨w2, hw2, hs2⟩ := prose_quotes ns indent _ r _ hc.2 hp.2 (((h.append hu).append hw1).append (shows_calm hl)) hr
      refine ⟨u ++ (w1 ++ (e ++ w2)), by simpa using hw2, ?_⟩
      simp only [proseAll, prose]
      exact (hs1.append (hs2.trans (List.sublist_append_right _ _))).trans (List.sublist_append_right _ _)
    · cases ht : block o indent false (x ++ quoteMark o indent) n with
      | ub => rw [ht] at hr; cases hr
      | val t =>
        rw [ht, C.val_bind] at hr
        obtain ⟨w1, hw1, hs1⟩ := prose_block n indent false _ t _ hc.1 hp.1 (h.append hu) ht
        obtain ⟨w2, hw2, hs2⟩ := prose_quotes ns indent t r _ hc.2 hp.2 hw1 hr
        refine ⟨u ++ (w1 ++ w2), by simpa using hw2, ?_⟩
        simp only [proseAll]
        exact (hs1.append hs2).trans (List.sublist_append_right _ _)
end

end

end Verif.Term
