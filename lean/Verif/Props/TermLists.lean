/- C287 and a part of C279: levels of lists and of quotes on a terminal. -/
import Verif.Proof.TermBlocks
import Verif.Spec.TermLists

namespace Verif.Term
open Term.Spec TermStyle.Spec Blocks
open TermStyle (style reset)

namespace Lists

theorem Shown.blank {emoji : Bytes → Bytes} {l : List (Nat × List Node)} {b v : Bytes} (hb : ∀ c ∈ b, c = c!"\n")
    (h : Shown emoji l v) : Shown emoji l (b ++ v) := by
  cases h with
  | nil hv => exact .nil fun c hc => (List.mem_append.1 hc).elim (hb c) (hv c)
  | @cons b' gap s d ks l hb' hg h =>
    have := Shown.cons (d := d) (ks := ks) (b := b ++ b') (fun c hc => (List.mem_append.1 hc).elim (hb c) (hb' c)) hg h
    simpa using this

theorem Shown.append {emoji : Bytes → Bytes} {l m : List (Nat × List Node)} {v w : Bytes} (h : Shown emoji l v)
    (h' : Shown emoji m w) : Shown emoji (l ++ m) (v ++ w) := by
  induction h with
  | nil hb => exact h'.blank hb
  | @cons b gap s d ks l hb hg _ ih =>
    have := Shown.cons (d := d) (ks := ks) hb hg ih
    simpa using this

mutual
theorem shows_item {o : Opt} (ho : Quiet o) (ind n : Nat) (out : Bytes) : ∀ i : Item,
    (∀ p ∈ i.levels ind, Alls Calm p.2 ∧ Alls (Plain o.emoji) p.2) →
    ∃ x v, block o (ind + 1) true (out ++ itemMark o ind true n) i.node = .val (out ++ x) ∧ Shows x v ∧
      Shown o.emoji (i.levels ind) v
  | .mk ks sub, h => by
    have hk := h (ind, ks) (by simp [Item.levels])
    have hi := shows_inlines ho ks hk.1
    rw [seens_reads ks hk.2] at hi
    have hs := (((shows_listMark ho ind true n).append (shows_calm (calm_spaces (ind + 1)))).append hi).append
      (shows_calm (s := b!"\n") (by decide))
    obtain ⟨x, v, h1, h2, h3⟩ := shows_nodes ho (ind + 1) 1
      (out ++ itemMark o ind true n ++ spaces (ind + 1) ++ inlines o ks ++ b!"\n") sub
      (fun p hp => h p (by simp only [Item.levels, List.mem_cons]; exact .inr hp))
    have hgap : ∀ c ∈ spaces (ind + 1), c = c!" " := fun c hc => List.eq_of_mem_replicate hc
    cases sub with
    | nil =>
      refine ⟨_, _, ?_, hs, ?_⟩
      · simp [Item.node, block, blocks]
      · have := Shown.cons (emoji := o.emoji) (b := []) (d := ind) (ks := ks) (l := []) (s := []) (by simp) hgap (.nil (by simp))
        simpa [Item.levels, levels, spaces] using this
    | cons j js =>
      refine ⟨_, _, ?_, (hs.append h2).append (shows_calm (s := b!"\n") (by decide)), ?_⟩
      · simp only [Item.node, List.isEmpty_cons, Bool.false_eq_true, if_false, block, blocks, C.val_bind, if_true]
        rw [h1]
        simp
      · have := Shown.cons (emoji := o.emoji) (b := []) (d := ind) (ks := ks) (by simp) hgap
          (h3.append (.nil (b := b!"\n") (by simp)))
        simpa [Item.levels, spaces] using this
theorem shows_nodes {o : Opt} (ho : Quiet o) (ind n : Nat) (out : Bytes) : ∀ is : List Item,
    (∀ p ∈ levels ind is, Alls Calm p.2 ∧ Alls (Plain o.emoji) p.2) →
    ∃ x v, items o ind true n out (nodes is) = .val (out ++ x) ∧ Shows x v ∧ Shown o.emoji (levels ind is) v
  | [], _ => ⟨[], [], by simp [items, nodes], shows_calm (by simp), .nil (by simp)⟩
  | i :: is, h => by
    obtain ⟨x, v, h1, h2, h3⟩ := shows_item ho ind n out i
      (fun p hp => h p (by simp only [levels, List.mem_append]; exact .inl hp))
    obtain ⟨y, w, g1, g2, g3⟩ := shows_nodes ho ind (n + 1) (out ++ x) is
      (fun p hp => h p (by simp only [levels, List.mem_append]; exact .inr hp))
    refine ⟨x ++ y, v ++ w, ?_, h2.append g2, ?_⟩
    · rw [nodes, items, h1]
      simp only [C.val_bind]
      rw [g1]
      simp
    · rw [levels]; exact h3.append g3
end

end Lists

open Lists

/-- C287 (part that holds): of lists with bullets, one within the other to any depth, one reads all items in
their order, each on a line of its own behind a bullet that is two columns further in for each level.
Missing: further lines of an item. -/
theorem C287_partial {o : Opt} (ho : Quiet o) (ind : Nat) (inList : Bool) (out : Bytes) (a : Option Bytes) (start : Nat)
    (is : List Item) (h : ∀ p ∈ levels ind is, Alls Calm p.2 ∧ Alls (Plain o.emoji) p.2) :
    ∃ x, block o ind inList out (.mk (.list true start) a (nodes is)) = .val (out ++ x) ∧
      Shown o.emoji (levels ind is) (text (screen x)) := by
  obtain ⟨x, v, h1, h2, h3⟩ := shows_nodes ho ind (if start = 0 then 1 else start) out is h
  refine ⟨x ++ b!"\n", ?_, ?_⟩
  · rw [block, h1]; simp
  · rw [(h2.append (shows_calm (s := b!"\n") (by decide))).screen.1]
    simpa using h3.append (.nil (b := b!"\n") (by simp))

/-- C287 (refutation): the second line of an item begins at the left edge, at whatever level it is. -/
theorem C287_line_fails {o : Opt} (ho : Quiet o) (ind : Nat) (out : Bytes) (bullet : Bool) (n : Nat) (l m : List Node)
    (hl : Alls Calm l ∧ Alls (Plain o.emoji) l) (hm : Alls Calm m ∧ Alls (Plain o.emoji) m) :
    ∃ x v, items o ind bullet n out [.mk .item none [.mk .para none (l ++ .mk .soft none [] :: m)]] = .val (out ++ x) ∧
      text (screen x) = v ++ readAll o.emoji l ++ b!"\n" ++ readAll o.emoji m ++ b!"\n" := by
  have happ : ∀ a b : List Node, inlines o (a ++ b) = inlines o a ++ inlines o b := by
    intro a b
    induction a with
    | nil => simp [inlines]
    | cons c a ih => simp [inlines, ih]
  have hi := shows_inlines ho l hl.1
  rw [seens_reads l hl.2] at hi
  have hj := shows_inlines ho m hm.1
  rw [seens_reads m hm.2] at hj
  have hs := (((((shows_listMark ho ind bullet n).append (shows_calm (calm_spaces (ind + 1)))).append hi).append
    (shows_calm (s := b!"\n") (by decide))).append hj).append (shows_calm (s := b!"\n") (by decide))
  refine ⟨_, _, ?_, hs.screen.1⟩
  simp [items, block, blocks, happ, inlines, inline]

/-- C287: a list of three levels, which meets the hypotheses; an item of two lines. -/
theorem C287_case :
    let t := fun s : Bytes => Node.mk (.text s) none []
    let is := [Item.mk [t b!"a"] [.mk [t b!"b"] [.mk [t b!"c"] []], .mk [t b!"d"] []], .mk [t b!"e"] []]
    (∃ x, block {} 0 false [] (.mk (.list true 0) none (nodes is)) = .val x ∧
      text (screen x) = b!"*   a\n  *     b\n    *       c\n\n  *     d\n\n*   e\n\n") ∧
    (∀ p ∈ levels 0 is, Alls Calm p.2 ∧ Alls (Plain id) p.2) ∧
    ∃ x, block {} 0 false [] (.mk (.list true 0) none [.mk .item none [.mk .para none [t b!"a", .mk .soft none [], t b!"b"]]]) = .val x ∧
      text (screen x) = b!"*   a\nb\n\n" := by
  refine ⟨⟨_, rfl, by decide +kernel⟩, ?_, ⟨_, rfl, by decide +kernel⟩⟩
  simp [levels, Item.levels, Alls, All, Calm, Plain]
  decide +kernel

/-- C279 (refutation): of a quote within a quote, only the first line is behind both marks; all further lines
are behind one. -/
theorem C279_nested_fails {o : Opt} (ho : Quiet o) (ind : Nat) (inList : Bool) (out : Bytes) (a b : Option Bytes)
    {ps : List (List (List Node))} (h0 : ps ≠ []) (hn : ∀ ls ∈ ps, ls ≠ []) (hb : ∀ ls ∈ ps, ∀ l ∈ ls, ∀ n ∈ l, NoBreak n)
    (hc : ∀ ls ∈ ps, ∀ l ∈ ls, Alls Calm l) (hp : ∀ ls ∈ ps, ∀ l ∈ ls, Alls (Plain o.emoji) l) :
    ∃ x, block o ind inList out (.mk .quote a [.mk .quote b (ps.map fun ls => .mk .para none (joined ls))]) = .val (out ++ x) ∧
      let mark := List.replicate (2 * ind) c!" " ++ o.theme.quoteMarker.getD b!">" ++ b!" "
      text (screen x) = mark ++ (ps.flatten.flatMap fun l => mark ++ readAll o.emoji l ++ b!"\n") ++ b!"\n" := by
  obtain ⟨x, hx, hs⟩ := shows_quotes ho ind ps h0 hn hb hc hp (out ++ quoteMark o ind)
  refine ⟨quoteMark o ind ++ x, ?_, ?_⟩
  · have : block o ind inList out (.mk .quote a [.mk .quote b (ps.map fun ls => .mk .para none (joined ls))]) =
        quotes o ind (out ++ quoteMark o ind) (paras ps) := by
      simp only [block, quotes]
      rw [show (ps.map fun ls => Node.mk .para none (joined ls)) = paras ps from rfl, hx]
      rfl
    rw [this, hx]
    simp
  · simp only
    rw [((shows_quoteMark ho ind).append hs).screen.1, ← List.append_assoc]
    congr 2
    clear hx hs hn hb hc hp h0
    induction ps with
    | nil => rfl
    | cons ls ps ih => rw [List.flatMap_cons, ih, List.flatten_cons, List.flatMap_append, marked]

/-- C279: a case of a quote within a quote. -/
theorem C279_nested_case : let p := fun s : Bytes => Node.mk .para none [.mk (.text s) none []]
    ∃ x, block {} 0 false [] (.mk .quote none [.mk .quote none [p b!"a", p b!"b"]]) = .val x ∧ text (screen x) = b!"> > a\n> b\n\n" :=
  ⟨_, rfl, by decide +kernel⟩

end Verif.Term
