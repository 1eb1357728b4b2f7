import Verif.Spec.IalTree

namespace Verif.IalTree

open Spec

theorem afterLast_none {s : Bytes} (h : c!"{" ∉ s) : Ial.afterLast c!"{" s = none := by
  induction s with
  | nil => rfl
  | cons c s ih =>
    simp only [List.mem_cons, not_or] at h
    rw [Ial.afterLast, ih h.2]
    simp only
    rw [if_neg (fun e => h.1 e.symm)]

theorem afterLast_app (p : Bytes) {t : Bytes} (h : c!"{" ∉ t) : Ial.afterLast c!"{" (p ++ c!"{" :: t) = some t := by
  induction p with
  | nil =>
    rw [List.nil_append, Ial.afterLast, afterLast_none h]
    rfl
  | cons c p ih =>
    rw [List.cons_append, Ial.afterLast, ih]

theorem opens_iff {s : Bytes} (h : opens s = true) : c!"{" ∈ s := by
  match s with
  | [] => cases h
  | [_] => cases h
  | a :: c :: l =>
    simp only [opens, Bool.and_eq_true, decide_eq_true_eq] at h
    rw [h.1]
    simp

theorem mem_dropWhile {f : Byte → Bool} {s : Bytes} {c : Byte} (h : c ∈ s.dropWhile f) : c ∈ s := by
  have := List.takeWhile_append_dropWhile (p := f) (l := s)
  rw [← this]
  exact List.mem_append_right _ h

theorem atEnd_plain {s : Bytes} (h : c!"{" ∉ s) : atEnd s = none := by
  unfold atEnd
  rw [afterLast_none h]

theorem locate_plain {s : Bytes} (h : c!"{" ∉ s) : locate s = none := by
  unfold locate
  rw [if_neg (fun e => h (mem_dropWhile (opens_iff e)))]
  exact atEnd_plain h

theorem span_brace {c t : Bytes} (h : c!"}" ∉ c) : (c ++ c!"}" :: t).takeWhile (· ≠ c!"}") = c ∧
    (c ++ c!"}" :: t).dropWhile (· ≠ c!"}") = c!"}" :: t := by
  induction c with
  | nil => simp
  | cons b c ih =>
    simp only [List.mem_cons, not_or] at h
    obtain ⟨h1, h2⟩ := ih h.2
    have hb : decide (b ≠ c!"}") = true := by simpa using fun e : b = c!"}" => h.1 e.symm
    rw [List.cons_append, List.takeWhile_cons, List.dropWhile_cons, hb]
    simp only [if_true]
    exact ⟨by rw [h1], h2⟩

theorem listAt_list {c : Bytes} (h : Content c) (t : Bytes) : listAt (c!":" :: (c ++ c!"}" :: t)) = some (c, t) := by
  obtain ⟨h1, h2⟩ := span_brace (t := t) h.2.2
  unfold listAt
  simp only
  rw [if_pos ⟨by decide, by simp⟩, if_pos trivial, h1, List.dropWhile_cons, if_pos (by decide), h2]
  rfl

theorem list_eq (c t : Bytes) : list c ++ t = c!"{" :: c!":" :: (c ++ c!"}" :: t) := by simp [list]

theorem locate_list {c : Bytes} (h : Content c) (t : Bytes) : locate (list c ++ t) = some ([], c, t) := by
  rw [list_eq]
  unfold locate
  have hs : isSpace c!"{" = false := by decide
  simp only [List.dropWhile_cons, List.takeWhile_cons, hs, Bool.false_eq_true, if_false]
  rw [if_pos (by simp [opens, opener])]
  rw [List.drop_succ_cons, List.drop_zero, listAt_list h]
  rfl

theorem atEnd_list {c : Bytes} (h : Content c) (p : Bytes) : atEnd (p ++ list c) = some (p, c, []) := by
  have e : p ++ list c = p ++ c!"{" :: (c!":" :: (c ++ c!"}" :: [])) := by simp [list]
  have hn : c!"{" ∉ c!":" :: (c ++ c!"}" :: []) := by
    simp only [List.mem_cons, List.mem_append, not_or, List.not_mem_nil, not_false_iff, and_true]
    exact ⟨by decide, h.2.1, by decide⟩
  unfold atEnd
  rw [e, afterLast_app p hn]
  simp only
  rw [listAt_list h]
  have : (p ++ c!"{" :: c!":" :: (c ++ [c!"}"])).length - (c!":" :: (c ++ [c!"}"])).length - 1 = p.length := by
    simp only [List.length_append, List.length_cons]; omega
  simp only [List.all_nil, if_true]
  rw [this, List.take_left' rfl]

theorem step_plain {A : Bytes → C (Option Bytes)} {para : Bool} {st : St} {x : Inl} (h : Plain x) :
    step A para st x = .val { st with prev := x :: st.prev } := by
  match x with
  | .text s =>
    have := locate_plain (show c!"{" ∉ s from by simpa [Plain] using h)
    unfold step
    simp only
    rw [this]
  | .elem .. => rfl
  | .brk => rfl
  | .other => rfl

theorem spans_plain {A : Bytes → C (Option Bytes)} {para : Bool} {st : St} {l : List Inl} (h : Plains l) :
    spans A para st l = .val { st with prev := l.reverse ++ st.prev } := by
  induction l generalizing st with
  | nil => rfl
  | cons x l ih =>
    rw [Plains] at h
    rw [spans, step_plain h.1, C.val_bind, ih h.2]
    simp

theorem spans_append {A : Bytes → C (Option Bytes)} {para : Bool} {st : St} {l m : List Inl} :
    spans A para st (l ++ m) = spans A para st l >>= fun st => spans A para st m := by
  induction l generalizing st with
  | nil => rfl
  | cons x l ih =>
    rw [List.cons_append, spans, spans]
    cases step A para st x with
    | ub => rfl
    | val s => simp only [C.val_bind]; exact ih

mutual
theorem inner_plain {A : Bytes → C (Option Bytes)} : ∀ {x : Inl}, Plain x → inner A x = .val (x, false)
  | .text _, _ => by rw [inner]; simp
  | .elem k d sub, h => by
    rw [Plain] at h
    rw [inner]
    split
    · rw [inners_plain h, C.val_bind]
      simp only
      rw [spans_plain h]
      simp
    · rfl
  | .brk, _ => by rw [inner]; simp
  | .other, _ => by rw [inner]; simp
theorem inners_plain {A : Bytes → C (Option Bytes)} : ∀ {l : List Inl}, Plains l → inners A l = .val (l, false)
  | [], _ => rfl
  | x :: l, h => by
    rw [Plains] at h
    rw [inners, inner_plain h.1, C.val_bind, inners_plain h.2]
    rfl
end

theorem paragraph_plain {A : Bytes → C (Option Bytes)} {d : Option Bytes} {l : List Inl} (h : Plains l) :
    paragraph A d l = .val (.para d l, false) := by
  unfold paragraph
  rw [inners_plain h, C.val_bind]
  cases l with
  | nil => rfl
  | cons x l =>
    rw [Plains] at h
    simp only
    rw [step_plain h.1, C.val_bind]
    simp only [List.isEmpty_cons, Bool.false_eq_true, if_false]
    rw [spans_plain h.2]
    simp

theorem heading_plain {A : Bytes → C (Option Bytes)} {d : Option Bytes} {l : List Inl} (h : Plains l) : heading A d l = .val none := by
  match l with
  | [] => rfl
  | .text s :: l =>
    rw [Plains, Plain] at h
    rw [heading, atEnd_plain h.1]
  | .elem .. :: l => rfl
  | .brk :: l => rfl
  | .other :: l => rfl

theorem listText_plain {l : List Inl} (h : Plains l) (d : Option Bytes) : listText (.para d l) = none := by
  match l with
  | [] => rfl
  | .text s :: m =>
    rw [Plains, Plain] at h
    have : opens (s.dropWhile isSpace) = false := by
      cases e : opens (s.dropWhile isSpace) with
      | false => rfl
      | true => exact absurd (mem_dropWhile (opens_iff e)) h.1
    match m with
    | [] => unfold listText; simp [this]
    | [.brk] => unfold listText; simp [this]
    | [.text _] => rfl
    | [.elem ..] => rfl
    | [.other] => rfl
    | .brk :: _ :: _ => rfl
    | .text _ :: _ :: _ => rfl
    | .elem .. :: _ :: _ => rfl
    | .other :: _ :: _ => rfl
  | .elem .. :: m => rfl
  | .brk :: m => rfl
  | .other :: m => rfl

theorem listText_block {b : Shape} (h : b.plain) (d : Option Bytes) (sub : List Blk) : listText (b.block d sub) = none := by
  cases b with
  | para l => exact listText_plain h d
  | heading l => rfl
  | html => rfl
  | leaf t => rfl
  | box t => rfl

theorem next_html (A : Bytes → C (Option Bytes)) (n : Nat) (l : List Blk) : next A (List.replicate n .html ++ l) = next A l := by
  induction n with
  | zero => rfl
  | succ n ih => rw [List.replicate_succ, List.cons_append, next]; exact ih

theorem next_cons {A : Bytes → C (Option Bytes)} {b : Blk} {l : List Blk} (hh : isHtml b = false) :
    next A (b :: l) = match listText b with | none => .val none | some t => extract A t := by
  cases b with
  | html => cases hh
  | _ => rfl

theorem tail_next {A : Bytes → C (Option Bytes)} {n : Nat} {c a : Bytes} (hc : Content c) (ha : A c = .val (some a)) (l : List Blk) :
    next A (tail (some (n, c)) ++ l) = .val (some a) := by
  unfold tail
  rw [List.append_assoc, next_html]
  have hl : list c = c!"{" :: c!":" :: (c ++ c!"}" :: []) := by simpa using list_eq c []
  have ht : listText (.para none [.text (list c)]) = some (list c) := by
    unfold listText
    simp only
    have e : (list c).dropWhile isSpace = list c := by rw [hl, List.dropWhile_cons, if_neg (by decide)]
    rw [e, if_pos (by rw [hl]; simp [opens, opener])]
    have e2 : (list c).drop 1 = c!":" :: (c ++ c!"}" :: []) := by rw [hl]; rfl
    rw [e2, listAt_list hc]
    simp
  rw [List.singleton_append, next_cons rfl, ht]
  simp only
  unfold extract
  have := atEnd_list hc []
  rw [List.nil_append] at this
  rw [this]
  simp only
  rw [if_neg hc.1, ha]

theorem writes_next {A : Bytes → C (Option Bytes)} : ∀ {P : Bytes → Prop} {l : List Src}, Goods P l → next A (writes l) = .val none
  | _, [], _ => rfl
  | _, .node b sub att :: l, h => by
    rw [Goods, Good] at h
    obtain ⟨⟨h1, h2, h3⟩, h4⟩ := h
    rw [writes, write]
    cases hb : isHtml (b.block none (writes sub)) with
    | false => rw [List.cons_append, next_cons hb, listText_block h1]
    | true =>
      cases b with
      | html =>
        have hatt : att = none := by
          cases att with
          | none => rfl
          | some x => exact (h3 x.1 x.2 rfl).1.elim
        subst hatt
        simp only [tail, List.cons_append, List.nil_append]
        show next A (.html :: writes l) = _
        rw [next]
        exact writes_next h4
      | para => cases hb
      | heading => cases hb
      | leaf => cases hb
      | box => cases hb

theorem here_plain {A : Bytes → C (Option Bytes)} {b : Shape} (h : b.plain) (d : Option Bytes) (sub : List Blk) (l : List Blk) (ht : b.takes) :
    here A (b.block d sub) l = claim A (b.block d sub) l := by
  cases b with
  | para s =>
    show here A (.para d s) l = _
    unfold here
    simp only
    rw [paragraph_plain h]
    rfl
  | heading s =>
    show here A (.heading d s) l = _
    unfold here
    simp only
    rw [heading_plain h]
    rfl
  | html => exact ht.elim
  | leaf t => cases ht; rfl
  | box t => cases ht; rfl

theorem here_rest {A : Bytes → C (Option Bytes)} {b : Shape} (h : b.plain) (d : Option Bytes) (sub : List Blk) (l : List Blk)
    (hn : next A l = .val none) : here A (b.block d sub) l = .val (b.block d sub, false) := by
  have hc : ∀ b, claim A b l = .val (b, false) := by
    intro b
    unfold claim
    rw [hn]
    rfl
  cases b with
  | html => rfl
  | leaf t =>
    cases t with
    | false => rfl
    | true => exact hc _
  | box t =>
    cases t with
    | false => rfl
    | true => exact hc _
  | para s => rw [here_plain h d sub l trivial, hc]
  | heading s => rw [here_plain h d sub l trivial, hc]

theorem blocks_cons (A : Bytes → C (Option Bytes)) (claimed : Bool) (b : Blk) (l : List Blk) : blocks A claimed (b :: l) =
    down A b >>= fun b' => here A b' l >>= fun x => blocks A (if isHtml b then claimed else x.2) l >>= fun m =>
      .val (if claimed && !isHtml b then m else x.1 :: m) := by
  rw [blocks]

theorem blocks_html (A : Bytes → C (Option Bytes)) (n : Nat) (claimed : Bool) (l : List Blk) :
    blocks A claimed (List.replicate n .html ++ l) = blocks A claimed l >>= fun m => .val (List.replicate n .html ++ m) := by
  induction n with
  | zero => cases h : blocks A claimed l <;> simp [h]
  | succ n ih =>
    rw [List.replicate_succ, List.cons_append, blocks_cons]
    have hd : down A .html = .val .html := rfl
    rw [hd, C.val_bind]
    show ((C.val (Blk.html, false) : C (Blk × Bool)) >>= _) = _
    rw [C.val_bind]
    simp only [isHtml, if_true, Bool.not_true, Bool.and_false, Bool.false_eq_true, if_false]
    rw [ih]
    cases blocks A claimed l <;> simp

/-- The paragraph of a list does nothing of its own. -/
theorem paragraph_list {A : Bytes → C (Option Bytes)} {c a : Bytes} (hc : Content c) (ha : A c = .val (some a)) :
    paragraph A none [.text (list c)] = .val (.para none [.text (list c)], false) := by
  unfold paragraph
  have hi : inners A [.text (list c)] = .val ([.text (list c)], false) := rfl
  rw [hi, C.val_bind]
  simp only
  have hs : step A true ⟨[], none, false⟩ (.text (list c)) = .val ⟨[.text (list c)], none, false⟩ := by
    unfold step
    simp only
    have := locate_list hc []
    rw [List.append_nil] at this
    rw [this]
    simp only
    rw [if_neg hc.1, ha]
    rfl
  rw [hs]
  rfl

theorem here_para {A : Bytes → C (Option Bytes)} {d : Option Bytes} {s : List Inl} {b : Blk} (h : paragraph A d s = .val (b, false)) (l : List Blk) :
    here A (.para d s) l = claim A b l := by
  unfold here
  simp only
  rw [h]
  rfl

theorem here_list {A : Bytes → C (Option Bytes)} {c a : Bytes} (hc : Content c) (ha : A c = .val (some a)) {l : List Blk}
    (hn : next A l = .val none) :
    here A (.para none [.text (list c)]) l = .val (.para none [.text (list c)], false) := by
  rw [here_para (paragraph_list hc ha)]
  unfold claim
  rw [hn]
  rfl

theorem setData_block {b : Shape} (h : b.takes) (a : Bytes) (d : Option Bytes) (sub : List Blk) :
    setData a (b.block d sub) = b.block (some a) sub := by
  cases b with
  | html => exact h.elim
  | _ => rfl

theorem isHtml_takes {b : Shape} (h : b.takes) (d : Option Bytes) (sub : List Blk) : isHtml (b.block d sub) = false := by
  cases b with
  | html => exact h.elim
  | _ => rfl

theorem down_block {A : Bytes → C (Option Bytes)} {b : Shape} {d : Option Bytes} {sub sub' : List Blk}
    (h : blocks A false sub = .val sub') : down A (b.block d sub) = .val (b.block d sub') := by
  cases b with
  | box t =>
    show down A (.box t d sub) = _
    rw [down, h]
    rfl
  | para s => rfl
  | heading s => rfl
  | html => rfl
  | leaf t => rfl

mutual
theorem writes_blocks {A : Bytes → C (Option Bytes)} {a : Bytes → Bytes} {P : Bytes → Prop} (hA : ∀ c, P c → A c = .val (some (a c))) :
    ∀ {l : List Src}, Goods P l → blocks A false (writes l) = .val (wants a l)
  | [], _ => rfl
  | s :: l, h => by
    rw [Goods] at h
    rw [writes, wants]
    exact write_blocks hA h.1 (writes_next h.2) (writes_blocks hA h.2)
theorem write_blocks {A : Bytes → C (Option Bytes)} {a : Bytes → Bytes} {P : Bytes → Prop} (hA : ∀ c, P c → A c = .val (some (a c))) :
    ∀ {s : Src} {l m : List Blk}, Good P s → next A l = .val none → blocks A false l = .val m → blocks A false (write s ++ l) = .val (want a s ++ m)
  | .node b sub att, l, m, h, hn, hl => by
    rw [Good] at h
    obtain ⟨h1, h2, h3⟩ := h
    rw [write, want, List.cons_append, blocks_cons, down_block (writes_blocks hA h2), C.val_bind]
    cases att with
    | none =>
      simp only [tail, gap, List.nil_append, Option.map_none]
      rw [here_rest h1 _ _ _ hn, C.val_bind]
      simp only [ite_self, Bool.false_and, Bool.false_eq_true, if_false, List.cons_append, List.nil_append]
      rw [hl, C.val_bind]
    | some x =>
      obtain ⟨n, c⟩ := x
      obtain ⟨ht, hc, hp⟩ := h3 n c rfl
      rw [here_plain h1 _ _ _ ht]
      have hcl : claim A (b.block none (wants a sub)) (tail (some (n, c)) ++ l) = .val (b.block (some (a c)) (wants a sub), true) := by
        unfold claim
        rw [tail_next hc (hA c hp), C.val_bind]
        simp only
        rw [setData_block ht]
      rw [hcl, C.val_bind, isHtml_takes ht]
      simp only [Bool.false_eq_true, if_false, Bool.false_and]
      simp only [tail, gap, List.append_assoc]
      rw [blocks_html, List.singleton_append, blocks_cons]
      have hd : down A (.para none [.text (list c)]) = .val (.para none [.text (list c)]) := rfl
      rw [hd, C.val_bind, here_list hc (hA c hp) hn, C.val_bind]
      simp only [isHtml, Bool.false_eq_true, if_false, Bool.not_false, Bool.and_self, if_true]
      rw [hl]
      simp
end

theorem txt_ne {s : Bytes} (h : s ≠ []) : txt s = [.text s] := if_neg h

theorem trimEnd_nil : Ial.trimEnd [] = [] := rfl

/-- A text behind a list. -/
theorem step_list {A : Bytes → C (Option Bytes)} {para : Bool} {c a t : Bytes} (hc : Content c) (ha : A c = .val (some a)) {k : Kind}
    {d : Option Bytes} {sub l : List Inl} {dd : Option Bytes} {f : Bool} :
    step A para ⟨.elem k d sub :: l, dd, f⟩ (.text (list c ++ t)) = .val ⟨(txt t).reverse ++ .elem k (some a) sub :: l, dd, true⟩ := by
  unfold step
  simp only
  rw [locate_list hc]
  simp only
  rw [if_neg hc.1, ha, C.val_bind]
  simp only [target]
  unfold remove txt
  by_cases ht : t = []
  · subst ht; simp [trimEnd_nil]
  · simp [ht]

theorem spans_txt {A : Bytes → C (Option Bytes)} {para : Bool} {st : St} {t : Bytes} (h : c!"{" ∉ t) :
    spans A para st (txt t) = .val { st with prev := (txt t).reverse ++ st.prev } := by
  apply spans_plain
  unfold txt
  split
  · trivial
  · exact ⟨h, trivial⟩

theorem spans_piece {A : Bytes → C (Option Bytes)} {a : Bytes → Bytes} {P : Bytes → Prop} (hA : ∀ c, P c → A c = .val (some (a c))) {para : Bool}
    {p : Piece} (h : p.Good P) (st : St) :
    spans A para st p.write = .val ⟨(p.want a).reverse ++ st.prev, st.data, st.found || p.att.isSome⟩ := by
  obtain ⟨k, sub, att, t⟩ := p
  obtain ⟨h1, h2, h3⟩ := h
  obtain ⟨prev, dd, f⟩ := st
  cases att with
  | none =>
    show spans A para _ (.elem k none sub :: txt t) = .val ⟨(.elem k none sub :: txt t).reverse ++ prev, dd, f || false⟩
    rw [spans]
    show (spans A para ⟨.elem k none sub :: prev, dd, f⟩ (txt t)) = _
    rw [spans_txt h2]
    simp
  | some c =>
    obtain ⟨hc, hp⟩ := h3 c rfl
    show spans A para _ (.elem k none sub :: txt (list c ++ t)) = .val ⟨(.elem k (some (a c)) sub :: txt t).reverse ++ prev, dd, f || true⟩
    rw [txt_ne (by simp [list]), spans]
    show (spans A para ⟨.elem k none sub :: prev, dd, f⟩ [.text (list c ++ t)]) = _
    rw [spans, step_list hc (hA c hp), C.val_bind]
    simp [spans]

theorem spans_pieces {A : Bytes → C (Option Bytes)} {a : Bytes → Bytes} {P : Bytes → Prop} (hA : ∀ c, P c → A c = .val (some (a c))) {para : Bool}
    {l : List Piece} (h : ∀ p ∈ l, p.Good P) (st : St) :
    spans A para st (l.flatMap Piece.write) =
      .val ⟨(l.flatMap (Piece.want a)).reverse ++ st.prev, st.data, st.found || l.any (·.att.isSome)⟩ := by
  induction l generalizing st with
  | nil => simp [spans]
  | cons p l ih =>
    rw [List.flatMap_cons, spans_append, spans_piece hA (h p (by simp)), C.val_bind, ih (fun q hq => h q (by simp [hq]))]
    simp [Bool.or_assoc]

theorem inners_append {A : Bytes → C (Option Bytes)} {l m l' m' : List Inl} {f g : Bool} (hl : inners A l = .val (l', f))
    (hm : inners A m = .val (m', g)) : inners A (l ++ m) = .val (l' ++ m', f || g) := by
  induction l generalizing l' f with
  | nil =>
    cases hl
    simpa using hm
  | cons x l ih =>
    rw [inners] at hl
    rw [List.cons_append, inners]
    cases hx : inner A x with
    | ub => rw [hx] at hl; cases hl
    | val y =>
      rw [hx] at hl
      cases hl2 : inners A l with
      | ub => rw [hl2] at hl; cases hl
      | val z =>
        rw [hl2] at hl
        obtain ⟨y1, y2⟩ := y
        obtain ⟨z1, z2⟩ := z
        cases hl
        simp only [C.val_bind]
        rw [ih hl2]
        simp [Bool.or_assoc]

theorem inners_text (A : Bytes → C (Option Bytes)) (t : Bytes) : inners A (txt t) = .val (txt t, false) := by
  unfold txt
  split <;> rfl

theorem inners_pieces {A : Bytes → C (Option Bytes)} {P : Bytes → Prop} {l : List Piece} (h : ∀ p ∈ l, p.Good P) :
    inners A (l.flatMap Piece.write) = .val (l.flatMap Piece.write, false) := by
  induction l with
  | nil => rfl
  | cons p l ih =>
    rw [List.flatMap_cons]
    refine inners_append (f := false) (g := false) ?_ (ih (fun q hq => h q (by simp [hq])))
    obtain ⟨h1, h2, h3⟩ := h p (by simp)
    unfold Piece.write
    have he : inners A [.elem p.k none p.sub] = .val ([.elem p.k none p.sub], false) := inners_plain (by simp only [Plains, Plain]; exact ⟨h1, trivial⟩)
    exact inners_append (f := false) (g := false) he (inners_text A _)

/-- The loop, when the first child stays. -/
theorem paragraph_of {A : Bytes → C (Option Bytes)} {d : Option Bytes} {l : List Inl} {f : Bool} {st : St}
    (hi : inners A l = .val (l, f)) (hs : spans A true ⟨[], d, false⟩ l = .val st)
    (hh : ∀ x m st', l = x :: m → step A true ⟨[], d, false⟩ x = .val st' → st'.prev ≠ []) :
    paragraph A d l = .val (.para st.data st.prev.reverse, f || st.found) := by
  unfold paragraph
  rw [hi, C.val_bind]
  cases l with
  | nil => cases hs; simp
  | cons x m =>
    simp only
    rw [spans] at hs
    cases hx : step A true ⟨[], d, false⟩ x with
    | ub => rw [hx] at hs; cases hs
    | val st' =>
      rw [hx, C.val_bind] at hs
      rw [C.val_bind]
      have := hh x m st' rfl hx
      rw [if_neg (by simpa using this), hs]
      rfl

theorem paragraph_pieces {A : Bytes → C (Option Bytes)} {a : Bytes → Bytes} {P : Bytes → Prop} (hA : ∀ c, P c → A c = .val (some (a c)))
    {l : List Piece} (h : ∀ p ∈ l, p.Good P) (d : Option Bytes) {t : Bytes} (ht : c!"{" ∉ t) :
    paragraph A d (txt t ++ l.flatMap Piece.write) = .val (.para d (txt t ++ l.flatMap (Piece.want a)), l.any (·.att.isSome)) := by
  have hs : spans A true ⟨[], d, false⟩ (txt t ++ l.flatMap Piece.write) =
      .val ⟨(l.flatMap (Piece.want a)).reverse ++ (txt t).reverse, d, l.any (·.att.isSome)⟩ := by
    rw [spans_append, spans_txt ht, C.val_bind, spans_pieces hA h]
    simp
  rw [paragraph_of (inners_append (inners_text A t) (inners_pieces h)) hs]
  · simp
  · intro x m st' e hx
    unfold txt at e
    by_cases htt : t = []
    · rw [if_pos htt] at e
      cases l with
      | nil => cases e
      | cons p l =>
        simp only [List.flatMap_cons, Piece.write, List.nil_append, List.cons_append, List.cons.injEq] at e
        rw [← e.1] at hx
        cases hx
        simp
    · rw [if_neg htt] at e
      simp only [List.cons_append, List.cons.injEq] at e
      rw [← e.1, step_plain (show Plain (.text t) from ht)] at hx
      cases hx
      simp

theorem dropWhile_none {p : Byte → Bool} {s : Bytes} (h : s.dropWhile p = []) : s.takeWhile p = s := by
  have := List.takeWhile_append_dropWhile (p := p) (l := s)
  rw [h, List.append_nil] at this
  exact this

theorem takeWhile_app {p : Byte → Bool} {s t : Bytes} : (s.dropWhile p = [] → (s ++ t).takeWhile p = s ++ t.takeWhile p ∧ (s ++ t).dropWhile p = t.dropWhile p) ∧
    (s.dropWhile p ≠ [] → (s ++ t).dropWhile p = s.dropWhile p ++ t) := by
  induction s with
  | nil => exact ⟨fun _ => ⟨rfl, rfl⟩, fun h => (h rfl).elim⟩
  | cons c s ih =>
    rw [List.cons_append, List.dropWhile_cons, List.dropWhile_cons, List.takeWhile_cons]
    cases p c with
    | true =>
      simp only [if_true]
      exact ⟨fun h => ⟨by rw [(ih.1 h).1]; rfl, (ih.1 h).2⟩, ih.2⟩
    | false => exact ⟨fun h => by simp at h, fun _ => by simp⟩

/-- A list at the end of a text. -/
theorem locate_end {c t : Bytes} (hc : Content c) (ht : c!"{" ∉ t) : locate (t ++ list c) = some (t, c, []) := by
  have hl : list c = c!"{" :: c!":" :: (c ++ c!"}" :: []) := by simpa using list_eq c []
  have hs : isSpace c!"{" = false := by decide
  by_cases h : t.dropWhile isSpace = []
  · obtain ⟨e1, e2⟩ := takeWhile_app (t := list c).1 h
    unfold locate
    rw [e1, e2, hl]
    simp only [List.dropWhile_cons, List.takeWhile_cons, hs, Bool.false_eq_true, if_false, List.append_nil]
    rw [if_pos (by simp [opens, opener]), List.drop_succ_cons, List.drop_zero, listAt_list hc]
    rfl
  · have e := takeWhile_app (t := list c).2 h
    unfold locate
    rw [e, if_neg]
    · exact atEnd_list hc t
    · intro ho
      cases hd : t.dropWhile isSpace with
      | nil => exact h hd
      | cons x u =>
        have hx : x ∈ t := mem_dropWhile (f := isSpace) (by rw [hd]; simp)
        have : x = c!"{" := by
          rw [hd, List.cons_append] at ho
          cases hu : u ++ list c with
          | nil => rw [hu] at ho; cases ho
          | cons y v =>
            rw [hu] at ho
            simp only [opens, Bool.and_eq_true, decide_eq_true_eq] at ho
            exact ho.1
        exact ht (this ▸ hx)

theorem target_texts {a : Bytes} {t l : List Inl} (ht : ∀ x ∈ t, ∃ s, x = .text s) : target a (t ++ l) = (target a l).map (t ++ ·) := by
  induction t with
  | nil => simp
  | cons x t ih =>
    obtain ⟨s, rfl⟩ := ht x (by simp)
    rw [List.cons_append, target, ih (fun y hy => ht y (by simp [hy]))]
    cases target a l <;> rfl

theorem target_ends {a : Bytes} {l : List Inl} (h : Ends l) : target a l.reverse = none := by
  obtain ⟨m, t, rfl, _, ht, hm⟩ := h
  rw [List.reverse_append, target_texts (fun x hx => ht x (by simpa using hx))]
  rcases hm with rfl | ⟨n, rfl⟩
  · rfl
  · rw [List.reverse_append]
    rfl

theorem remove_end {t : Bytes} (st : St) : remove t [] st = { st with prev := (txt (Ial.trimEnd t)).reverse ++ st.prev } := by
  unfold remove txt
  simp only [if_true]
  split <;> simp

theorem paragraph_end {A : Bytes → C (Option Bytes)} {c a t : Bytes} (hc : Content c) (ha : A c = .val (some a)) {l : List Inl} (hl : Ends l)
    (ht : c!"{" ∉ t) (hn : l ≠ [] ∨ Ial.trimEnd t ≠ []) (d : Option Bytes) :
    paragraph A d (l ++ [.text (t ++ list c)]) = .val (.para (some a) (l ++ txt (Ial.trimEnd t)), true) := by
  have hp : Plains l := by obtain ⟨m, u, rfl, h, _⟩ := hl; exact h
  have hstep : ∀ dd f, (l ≠ [] ∨ t ≠ []) → step A true ⟨l.reverse, dd, f⟩ (.text (t ++ list c)) =
      .val ⟨(txt (Ial.trimEnd t)).reverse ++ l.reverse, some a, true⟩ := by
    intro dd f hne
    unfold step
    simp only
    rw [locate_end hc ht]
    simp only
    rw [if_neg hc.1, ha, C.val_bind]
    simp only
    rw [target_ends hl]
    simp only
    rw [if_pos, remove_end]
    rcases hne with h | h
    · simp [h]
    · simp [h]
  have hne : l ≠ [] ∨ t ≠ [] := hn.imp id (fun h e => h (by rw [e]; rfl))
  have hs : spans A true ⟨[], d, false⟩ (l ++ [.text (t ++ list c)]) = .val ⟨(txt (Ial.trimEnd t)).reverse ++ l.reverse, some a, true⟩ := by
    rw [spans_append, spans_plain hp, C.val_bind, spans]
    simp only [List.append_nil]
    rw [hstep d false hne, C.val_bind]
    rfl
  rw [paragraph_of (inners_append (inners_plain hp) (m := [.text (t ++ list c)]) (m' := [.text (t ++ list c)]) (g := false) rfl) hs]
  · simp
  · intro x m st' e hx
    cases l with
    | nil =>
      simp only [List.nil_append, List.cons.injEq] at e
      rw [← e.1] at hx
      have h2 := hstep d false hne
      rw [List.reverse_nil] at h2
      rw [h2] at hx
      cases hx
      have : Ial.trimEnd t ≠ [] := by
        rcases hn with h | h
        · exact (h rfl).elim
        · exact h
      simp [txt_ne this]
    | cons y l =>
      simp only [List.cons_append, List.cons.injEq] at e
      rw [Plains] at hp
      rw [← e.1, step_plain hp.1] at hx
      cases hx
      simp

theorem heading_end {A : Bytes → C (Option Bytes)} {c a t : Bytes} (hc : Content c) (ha : A c = .val (some a)) (l : List Inl) (d : Option Bytes) :
    heading A d (.text (t ++ list c) :: l) = .val (some (.heading (some (d.getD [] ++ a)) (.text (Ial.trimEnd t) :: l))) := by
  rw [heading, atEnd_list hc]
  simp only
  rw [if_neg hc.1, ha]
  rfl

/-- A list behind an element and some text. -/
theorem paragraph_gap {A : Bytes → C (Option Bytes)} {c a t : Bytes} (hc : Content c) (ha : A c = .val (some a)) {k : Kind} {sub : List Inl}
    (hs : Plains sub) (ht : c!"{" ∉ t) (d : Option Bytes) :
    paragraph A d [.elem k none sub, .text (t ++ list c)] = .val (.para d (.elem k (some a) sub :: txt (Ial.trimEnd t)), true) := by
  have he : inners A [.elem k none sub] = .val ([.elem k none sub], false) := inners_plain (by simp only [Plains, Plain]; exact ⟨hs, trivial⟩)
  have hstep : step A true ⟨[.elem k none sub], d, false⟩ (.text (t ++ list c)) =
      .val ⟨(txt (Ial.trimEnd t)).reverse ++ [.elem k (some a) sub], d, true⟩ := by
    unfold step
    simp only
    rw [locate_end hc ht]
    simp only
    rw [if_neg hc.1, ha, C.val_bind]
    simp only [target]
    rw [remove_end]
  have hsp : spans A true ⟨[], d, false⟩ [.elem k none sub, .text (t ++ list c)] = .val ⟨(txt (Ial.trimEnd t)).reverse ++ [.elem k (some a) sub], d, true⟩ := by
    rw [spans]
    show spans A true ⟨[.elem k none sub], d, false⟩ [.text (t ++ list c)] = _
    rw [spans, hstep]
    rfl
  have hi : inners A [.elem k none sub, .text (t ++ list c)] = .val ([.elem k none sub, .text (t ++ list c)], false) :=
    inners_append (m := [.text (t ++ list c)]) (m' := [.text (t ++ list c)]) (g := false) he rfl
  rw [paragraph_of hi hsp]
  · simp
  · intro x m st' e hx
    simp only [List.cons.injEq] at e
    rw [← e.1] at hx
    cases hx
    simp

/-! ### Released nodes -/

theorem step_ne {A : Bytes → C (Option Bytes)} (hA : ∀ c, A c ≠ .ub) (para : Bool) (st : St) (x : Inl) : step A para st x ≠ .ub := by
  unfold step
  split
  · split
    · nofun
    · split
      · nofun
      · rename_i c _ _ _
        cases h : A c with
        | ub => exact absurd h (hA c)
        | val o =>
          rw [C.val_bind]
          cases o with
          | none => nofun
          | some a =>
            simp only
            split
            · nofun
            · split <;> nofun
  · nofun

theorem spans_ne {A : Bytes → C (Option Bytes)} (hA : ∀ c, A c ≠ .ub) (para : Bool) (st : St) (l : List Inl) : spans A para st l ≠ .ub := by
  induction l generalizing st with
  | nil => nofun
  | cons x l ih =>
    rw [spans]
    cases h : step A para st x with
    | ub => exact absurd h (step_ne hA _ _ _)
    | val s => exact ih s

mutual
theorem inner_ne {A : Bytes → C (Option Bytes)} (hA : ∀ c, A c ≠ .ub) : ∀ x : Inl, inner A x ≠ .ub
  | .text _ => nofun
  | .brk => nofun
  | .other => nofun
  | .elem k d sub => by
    rw [inner]
    split
    · cases h : inners A sub with
      | ub => exact absurd h (inners_ne hA sub)
      | val y =>
        rw [C.val_bind]
        simp only
        cases h2 : spans A false ⟨[], none, false⟩ y.1 with
        | ub => exact absurd h2 (spans_ne hA _ _ _)
        | val z => nofun
    · nofun
theorem inners_ne {A : Bytes → C (Option Bytes)} (hA : ∀ c, A c ≠ .ub) : ∀ l : List Inl, inners A l ≠ .ub
  | [] => nofun
  | x :: l => by
    rw [inners]
    cases h : inner A x with
    | ub => exact absurd h (inner_ne hA x)
    | val y =>
      rw [C.val_bind]
      simp only
      cases h2 : inners A l with
      | ub => exact absurd h2 (inners_ne hA l)
      | val z => nofun
end

/-- The first child goes to the first child. -/
theorem inners_cons {A : Bytes → C (Option Bytes)} {x : Inl} {l m : List Inl} {f : Bool} (h : inners A (x :: l) = .val (m, f)) :
    ∃ y m' g, inner A x = .val (y, g) ∧ m = y :: m' := by
  rw [inners] at h
  cases hx : inner A x with
  | ub => rw [hx] at h; cases h
  | val y =>
    rw [hx, C.val_bind] at h
    simp only at h
    cases h2 : inners A l with
    | ub => rw [h2] at h; cases h
    | val z =>
      rw [h2, C.val_bind] at h
      obtain ⟨z1, z2⟩ := z
      obtain ⟨y1, y2⟩ := y
      simp only [C.val.injEq, Prod.mk.injEq] at h
      exact ⟨y1, z1, y2, rfl, h.1.symm⟩

theorem inner_starts {A : Bytes → C (Option Bytes)} {x y : Inl} {g : Bool} (h : inner A x = .val (y, g)) :
    y = x ∨ ∃ k d s, y = .elem k d s := by
  match x with
  | .text _ => rw [show inner A _ = .val (_, false) from rfl] at h; cases h; exact .inl rfl
  | .brk => rw [show inner A _ = .val (_, false) from rfl] at h; cases h; exact .inl rfl
  | .other => rw [show inner A _ = .val (_, false) from rfl] at h; cases h; exact .inl rfl
  | .elem k d sub =>
    rw [inner] at h
    split at h
    · cases h1 : inners A sub with
      | ub => rw [h1] at h; cases h
      | val z =>
        rw [h1, C.val_bind] at h
        simp only at h
        cases h2 : spans A false ⟨[], none, false⟩ z.1 with
        | ub => rw [h2] at h; cases h
        | val w =>
          rw [h2, C.val_bind] at h
          simp only [C.val.injEq, Prod.mk.injEq] at h
          exact .inr ⟨_, _, _, h.1.symm⟩
    · simp only [C.val.injEq, Prod.mk.injEq] at h
      exact .inl h.1.symm

theorem locate_prefix {s p c r : Bytes} (h : locate s = some (p, c, r)) : p <+: s := by
  unfold locate at h
  split at h
  · cases h1 : listAt ((s.dropWhile isSpace).drop 1) with
    | none => rw [h1] at h; cases h
    | some x =>
      rw [h1] at h
      simp only [Option.map_some, Option.some.injEq, Prod.mk.injEq] at h
      rw [← h.1]
      exact List.takeWhile_prefix _
  · unfold atEnd at h
    split at h
    · cases h
    · split at h
      · cases h
      · split at h
        · simp only [Option.some.injEq, Prod.mk.injEq] at h
          rw [← h.1]
          exact List.take_prefix _ _
        · cases h

theorem trimEnd_white {p : Bytes} (h : Ial.trimEnd p = []) : ∀ c ∈ p, isSpace c = true := by
  unfold Ial.trimEnd at h
  rw [List.reverse_eq_nil_iff] at h
  have := dropWhile_none h
  intro c hc
  have := List.all_eq_true.mp (List.all_takeWhile (p := isSpace) (l := p.reverse)) c (by rw [this]; simpa using hc)
  exact this

/-- The first child is released only if it begins with white space. -/
theorem step_first {A : Bytes → C (Option Bytes)} {d : Option Bytes} {x : Inl} {st : St} (h : step A true ⟨[], d, false⟩ x = .val st)
    (hx : Starts [x]) : st.prev ≠ [] := by
  match x, hx with
  | .brk, _ => cases h; simp
  | .other, _ => cases h; simp
  | .elem .., _ => cases h; simp
  | .text s, hx =>
    unfold step at h
    simp only at h
    cases hl : locate s with
    | none => rw [hl] at h; cases h; simp
    | some y =>
      obtain ⟨p, c, r⟩ := y
      rw [hl] at h
      simp only at h
      split at h
      · cases h; simp
      · cases hA : A c with
        | ub => rw [hA] at h; cases h
        | val o =>
          rw [hA, C.val_bind] at h
          cases o with
          | none => cases h; simp
          | some a =>
            simp only [target] at h
            split at h
            · rename_i hp
              simp only [C.val.injEq] at h
              rw [← h]
              have hp' : p ≠ [] := by
                intro e
                subst e
                simp at hp
              unfold remove
              simp only
              have hnew : (if r = [] then Ial.trimEnd p else p ++ r) ≠ [] := by
                split
                · intro e
                  obtain ⟨u, hu⟩ := locate_prefix hl
                  cases p with
                  | nil => exact hp' rfl
                  | cons b p =>
                    have hb := trimEnd_white e b (by simp)
                    rw [List.cons_append] at hu
                    rw [← hu] at hx
                    have : isSpace b = false := hx
                    rw [hb] at this
                    cases this
                · simp [hp']
              rw [if_neg hnew]
              simp
            · cases h; simp

theorem starts_head {x : Inl} {l : List Inl} (h : Starts (x :: l)) : Starts [x] := by
  match x, h with
  | .text [], _ => trivial
  | .text (c :: s), h => exact h
  | .brk, _ => trivial
  | .other, _ => trivial
  | .elem .., _ => trivial

theorem paragraph_ne {A : Bytes → C (Option Bytes)} (hA : ∀ c, A c ≠ .ub) (d : Option Bytes) {l : List Inl} (h : Starts l) :
    paragraph A d l ≠ .ub := by
  unfold paragraph
  cases hi : inners A l with
  | ub => exact absurd hi (inners_ne hA l)
  | val z =>
    obtain ⟨m, f⟩ := z
    rw [C.val_bind]
    simp only
    cases l with
    | nil => cases hi; nofun
    | cons x l =>
      obtain ⟨y, m', g, h1, rfl⟩ := inners_cons hi
      simp only
      cases hs : step A true ⟨[], d, false⟩ y with
      | ub => exact absurd hs (step_ne hA _ _ _)
      | val st =>
        have hne : st.prev ≠ [] := by
          refine step_first hs ?_
          rcases inner_starts h1 with rfl | ⟨_, _, _, rfl⟩
          · exact starts_head h
          · trivial
        rw [C.val_bind, if_neg (by simpa using hne)]
        cases h2 : spans A true st m' with
        | ub => exact absurd h2 (spans_ne hA _ _ _)
        | val w => nofun

theorem extract_ne {A : Bytes → C (Option Bytes)} (hA : ∀ c, A c ≠ .ub) (t : Bytes) : extract A t ≠ .ub := by
  unfold extract
  split
  · nofun
  · split
    · nofun
    · exact hA _

theorem next_ne {A : Bytes → C (Option Bytes)} (hA : ∀ c, A c ≠ .ub) (l : List Blk) : next A l ≠ .ub := by
  induction l with
  | nil => nofun
  | cons b l ih =>
    cases hb : isHtml b with
    | true => cases b <;> first | (cases hb; done) | exact ih
    | false =>
      rw [next_cons hb]
      split
      · nofun
      · exact extract_ne hA _

theorem claim_ne {A : Bytes → C (Option Bytes)} (hA : ∀ c, A c ≠ .ub) (b : Blk) (l : List Blk) : claim A b l ≠ .ub := by
  unfold claim
  cases h : next A l with
  | ub => exact absurd h (next_ne hA l)
  | val o => cases o <;> nofun

theorem heading_ne {A : Bytes → C (Option Bytes)} (hA : ∀ c, A c ≠ .ub) (d : Option Bytes) (l : List Inl) : heading A d l ≠ .ub := by
  unfold heading
  split
  · split
    · nofun
    · split
      · nofun
      · rename_i c _ _ _
        cases h : A c with
        | ub => exact absurd h (hA c)
        | val o => cases o <;> nofun
  · nofun

theorem here_ne {A : Bytes → C (Option Bytes)} (hA : ∀ c, A c ≠ .ub) {b : Blk} (hb : ∀ d s, b = .para d s → Starts s) (l : List Blk) :
    here A b l ≠ .ub := by
  unfold here
  split
  · rename_i d s
    cases h : paragraph A d s with
    | ub => exact absurd h (paragraph_ne hA d (hb d s rfl))
    | val y =>
      rw [C.val_bind]
      simp only
      split
      · nofun
      · exact claim_ne hA _ _
  · rename_i d s
    cases h : heading A d s with
    | ub => exact absurd h (heading_ne hA d s)
    | val y =>
      rw [C.val_bind]
      cases y with
      | none => exact claim_ne hA _ _
      | some b => nofun
  · exact claim_ne hA _ _
  · exact claim_ne hA _ _
  · nofun

mutual
theorem down_ne {A : Bytes → C (Option Bytes)} (hA : ∀ c, A c ≠ .ub) : ∀ {b : Blk}, Calm b → ∃ b', down A b = .val b' ∧ ∀ d s, b' = .para d s → Starts s
  | .para d s, h => ⟨_, rfl, fun _ _ e => by cases e; exact h⟩
  | .heading .., _ => ⟨_, rfl, fun _ _ e => by cases e⟩
  | .html, _ => ⟨_, rfl, fun _ _ e => by cases e⟩
  | .leaf .., _ => ⟨_, rfl, fun _ _ e => by cases e⟩
  | .box t d l, h => by
    rw [Calm] at h
    rw [down]
    cases hb : blocks A false l with
    | ub => exact absurd hb (blocks_ne hA false h)
    | val m => exact ⟨_, rfl, fun _ _ e => by cases e⟩
theorem blocks_ne {A : Bytes → C (Option Bytes)} (hA : ∀ c, A c ≠ .ub) (claimed : Bool) : ∀ {l : List Blk}, Calms l → blocks A claimed l ≠ .ub
  | [], _ => nofun
  | b :: l, h => by
    rw [Calms] at h
    rw [blocks_cons]
    obtain ⟨b', h1, h2⟩ := down_ne hA h.1
    rw [h1, C.val_bind]
    cases h3 : here A b' l with
    | ub => exact absurd h3 (here_ne hA h2 l)
    | val y =>
      rw [C.val_bind]
      cases h4 : blocks A (if isHtml b then claimed else y.2) l with
      | ub => exact absurd h4 (blocks_ne hA _ h.2)
      | val m => nofun
end

theorem trimEnd_blank {p : Bytes} (h : ∀ c ∈ p, isSpace c = true) : Ial.trimEnd p = [] := by
  unfold Ial.trimEnd
  rw [List.reverse_eq_nil_iff]
  have h : ∀ c ∈ p.reverse, isSpace c = true := fun c hc => h c (by simpa using hc)
  generalize p.reverse = q at h
  induction q with
  | nil => rfl
  | cons c q ih =>
    rw [List.dropWhile_cons, if_pos (h c (by simp))]
    exact ih (fun x hx => h x (by simp [hx]))

theorem paragraph_ub {A : Bytes → C (Option Bytes)} {c a p : Bytes} (hc : Content c) (ha : A c = .val (some a)) (hp : p ≠ [])
    (hw : ∀ c ∈ p, isSpace c = true) (d : Option Bytes) {l : List Inl} (hl : Plains l) : paragraph A d (.text (p ++ list c) :: l) = .ub := by
  have hb : c!"{" ∉ p := fun h => by have := hw _ h; revert this; decide
  have hi : inners A (.text (p ++ list c) :: l) = .val (.text (p ++ list c) :: l, false) := by
    have := inners_append (A := A) (l := [.text (p ++ list c)]) (f := false) rfl (inners_plain hl)
    exact this
  unfold paragraph
  rw [hi, C.val_bind]
  simp only
  have hs : step A true ⟨[], d, false⟩ (.text (p ++ list c)) = .val ⟨[], some a, true⟩ := by
    unfold step
    simp only
    rw [locate_end hc hb]
    simp only
    rw [if_neg hc.1, ha, C.val_bind]
    simp only [target]
    rw [if_pos (by simp [hp]), remove_end, trimEnd_blank hw]
    rfl
  rw [hs]
  rfl

/-! ### Texts -/

theorem afterLast_tail {c t : Bytes} (hc : Content c) (ht : t.all isSpace = true) : atEnd (list c ++ t) = some ([], c, t) := by
  have hn : c!"{" ∉ c!":" :: (c ++ c!"}" :: t) := by
    simp only [List.mem_cons, List.mem_append, not_or]
    refine ⟨by decide, hc.2.1, by decide, fun h => ?_⟩
    have := List.all_eq_true.mp ht _ h
    revert this
    decide
  unfold atEnd
  rw [list_eq]
  have := afterLast_app [] hn
  rw [List.nil_append] at this
  rw [this]
  simp only
  rw [listAt_list hc]
  simp only [ht, if_true]
  simp

/-- A paragraph that only begins with a list. -/
theorem next_lost {A : Bytes → C (Option Bytes)} {c a : Bytes} (hc : Content c) (ha : A c = .val (some a)) (t : Bytes) (d : Option Bytes)
    (l : List Blk) : next A (.para d [.text (list c ++ t)] :: l) = .val (some a) := by
  rw [next_cons rfl]
  have ht : listText (.para d [.text (list c ++ t)]) = some (if t.all isSpace then list c ++ t else list c) := by
    unfold listText
    simp only
    have e : (list c ++ t).dropWhile isSpace = list c ++ t := by rw [list_eq, List.dropWhile_cons, if_neg (by decide)]
    rw [e, if_pos (by rw [list_eq]; simp [opens, opener])]
    have e2 : (list c ++ t).drop 1 = c!":" :: (c ++ c!"}" :: t) := by rw [list_eq]; rfl
    rw [e2, listAt_list hc]
    simp only [Option.map_some, Option.some.injEq]
    split
    · rfl
    · rw [show (list c ++ t).length - t.length = (list c).length by simp]
      exact List.take_left' rfl
  rw [ht]
  simp only
  unfold extract
  by_cases hw : t.all isSpace = true
  · rw [if_pos hw, afterLast_tail hc hw]
    simp only
    rw [if_neg hc.1, ha]
  · rw [if_neg hw]
    have := atEnd_list hc []
    rw [List.nil_append] at this
    rw [this]
    simp only
    rw [if_neg hc.1, ha]

theorem listText_free {b : Blk} (h : Free b) : listText b = none := by
  match b, h with
  | .para d l, h => exact listText_plain h d
  | .heading .., _ => rfl
  | .html, _ => rfl
  | .leaf .., _ => rfl
  | .box .., _ => rfl

theorem next_free {A : Bytes → C (Option Bytes)} : ∀ {l : List Blk}, Frees l → next A l = .val none
  | [], _ => rfl
  | b :: l, h => by
    rw [Frees] at h
    cases hb : isHtml b with
    | true =>
      cases b with
      | html => rw [next]; exact next_free h.2
      | _ => cases hb
    | false => rw [next_cons hb, listText_free h.1]

theorem here_free {A : Bytes → C (Option Bytes)} {b : Blk} {l : List Blk} (hb : Free b) (hl : Frees l) : here A b l = .val (b, false) := by
  have hc : ∀ b, claim A b l = .val (b, false) := by
    intro b
    unfold claim
    rw [next_free hl]
    rfl
  match b, hb with
  | .para d s, h =>
    unfold here
    simp only
    rw [paragraph_plain h]
    exact hc _
  | .heading d s, h =>
    unfold here
    simp only
    rw [heading_plain h]
    exact hc _
  | .html, _ => rfl
  | .leaf true _, _ => exact hc _
  | .leaf false _, _ => rfl
  | .box true .., _ => exact hc _
  | .box false .., _ => rfl

mutual
theorem down_free {A : Bytes → C (Option Bytes)} : ∀ {b : Blk}, Free b → down A b = .val b
  | .para .., _ => rfl
  | .heading .., _ => rfl
  | .html, _ => rfl
  | .leaf .., _ => rfl
  | .box t d l, h => by
    rw [Free] at h
    rw [down, blocks_free h]
    rfl
theorem blocks_free {A : Bytes → C (Option Bytes)} : ∀ {l : List Blk}, Frees l → blocks A false l = .val l
  | [], _ => rfl
  | b :: l, h => by
    rw [Frees] at h
    rw [blocks_cons, down_free h.1, C.val_bind, here_free h.1 h.2, C.val_bind]
    simp only [ite_self]
    rw [blocks_free h.2]
    rfl
end

end Verif.IalTree
