import Verif.Spec.Images
import Verif.Proof.Escape

namespace Verif.Images

open Spec

theorem span_at {p : Byte → Bool} {s t : Bytes} {c : Byte} (h : ∀ x ∈ s, p x = true) (hc : p c = false) :
    (s ++ c :: t).takeWhile p = s ∧ (s ++ c :: t).dropWhile p = c :: t := by
  induction s with
  | nil => simp [hc]
  | cons x s ih =>
    obtain ⟨h1, h2⟩ := ih (fun y hy => h y (by simp [hy]))
    rw [List.cons_append, List.takeWhile_cons, List.dropWhile_cons, h x (by simp)]
    simp only [if_true]
    exact ⟨by rw [h1], h2⟩

theorem span_all {p : Byte → Bool} {s : Bytes} (h : ∀ x ∈ s, p x = true) : s.takeWhile p = s ∧ s.dropWhile p = [] := by
  induction s with
  | nil => exact ⟨rfl, rfl⟩
  | cons x s ih =>
    obtain ⟨h1, h2⟩ := ih (fun y hy => h y (by simp [hy]))
    rw [List.takeWhile_cons, List.dropWhile_cons, h x (by simp)]
    simp only [if_true]
    exact ⟨by rw [h1], h2⟩

theorem bracket_span {s t : Bytes} (h : c!"]" ∉ s) : (s ++ c!"]" :: t).takeWhile (· ≠ c!"]") = s ∧ (s ++ c!"]" :: t).dropWhile (· ≠ c!"]") = c!"]" :: t :=
  span_at (fun x hx => by simpa using fun e : x = c!"]" => h (e ▸ hx)) (by decide)

theorem inside_span {s t : Bytes} (h : Inside s) : (s ++ c!")" :: t).takeWhile (fun c => c ≠ c!")" && c ≠ c!"\n") = s ∧
    (s ++ c!")" :: t).dropWhile (fun c => c ≠ c!")" && c ≠ c!"\n") = c!")" :: t :=
  span_at (fun x hx => by
    simp only [Bool.and_eq_true, decide_eq_true_eq]
    exact ⟨fun e => h.1 (e ▸ hx), fun e => h.2 (e ▸ hx)⟩) (by decide)

theorem inside_append {s t : Bytes} (h : Inside s) (h' : Inside t) : Inside (s ++ t) :=
  ⟨by simp [h.1, h'.1], by simp [h.2, h'.2]⟩

theorem inside_blank {s : Bytes} (h : Inside s) : Inside (c!" " :: s) := inside_append (s := b!" ") ⟨by decide, by decide⟩ h

theorem cut_none {f : Bytes → Tail} {u : Bytes} (h1 : c!" " ∉ u) (h2 : c!"\t" ∉ u) : cut f u = none := by
  induction u with
  | nil => rfl
  | cons c u ih =>
    simp only [List.mem_cons, not_or] at h1 h2
    have hb : blank c = false := by
      unfold blank
      simp only [Bool.or_eq_false_iff, decide_eq_false_iff_not]
      exact ⟨fun e => h1.1 e.symm, fun e => h2.1 e.symm⟩
    rw [cut, hb, ih h1.2 h2.2]
    rfl

theorem cut_at {f : Bytes → Tail} {u t : Bytes} (h1 : c!" " ∉ u) (h2 : c!"\t" ∉ u) {b : Bool} (ht : cut f (c!" " :: t) = some ([], c!" " :: t, b)) :
    cut f (u ++ c!" " :: t) = some (u, c!" " :: t, b) := by
  induction u with
  | nil => exact ht
  | cons c u ih =>
    simp only [List.mem_cons, not_or] at h1 h2
    have hb : blank c = false := by
      unfold blank
      simp only [Bool.or_eq_false_iff, decide_eq_false_iff_not]
      exact ⟨fun e => h1.1 e.symm, fun e => h2.1 e.symm⟩
    rw [List.cons_append, cut, hb, ih h1.2 h2.2]
    rfl

theorem cut_head {f : Bytes → Tail} {c : Byte} {s : Bytes} (hc : blank c = false) : cut f (c!" " :: c :: s) =
    match f (c :: s) with
    | .attrs => some ([], c!" " :: c :: s, true)
    | .title => some ([], c!" " :: c :: s, false)
    | .no => (cut f (c :: s)).map fun x => (c!" " :: x.1, x.2) := by
  rw [cut]
  have hd : (c :: s).dropWhile blank = c :: s := by rw [List.dropWhile_cons, hc]; rfl
  rw [hd, if_pos (by simp [blank])]
  cases f (c :: s) <;> rfl

theorem quote_not_blank {c : Byte} (h : c ∈ b!"\"'(") : blank c = false := by
  revert h
  exact forall_byte (p := fun c => c ∈ b!"\"'(" → blank c = false) (by decide +kernel) c

theorem encode_eq (E : Env) (u : Bytes) : encode E u = .val (imgAddr E.urls u) := by
  unfold encode imgAddr addr
  split <;> rename_i h
  · rw [Escape.ialUrlEncode_eq]
  · rfl

/-! ### Links -/

theorem link_eq {E : Env} {l u : Bytes} {t : Option Bytes} (hu : Address u) (ht : ∀ x, t = some x → Inside x ∧ ∃ c s, x = c :: s ∧ c ∈ b!"\"'(")
    (r : Bytes) : link E l (u ++ titled t ++ c!")" :: r) =
      .val (some ⟨(Piece.link l u t).want E.urls, none, false, r⟩) := by
  obtain ⟨h1, h2, h3, h4⟩ := hu
  have henc : encodeLink E u = .val (addr E.urls u) := by
    unfold encodeLink addr
    split
    · exact Escape.ialUrlEncode_eq u
    · rfl
  have hin : Inside (u ++ titled t) := by
    cases t with
    | none => simpa [titled] using h2
    | some x => exact inside_append h2 (inside_blank (ht x rfl).1)
  have hcut : splitLink (u ++ titled t) = (u, titled t) := by
    unfold splitLink
    cases t with
    | none => simp only [titled, List.append_nil]; rw [cut_none h3 h4]
    | some x =>
      obtain ⟨c, s, rfl, hc⟩ := (ht x rfl).2
      simp only [titled]
      rw [cut_at h3 h4 (b := false)]
      rw [cut_head (quote_not_blank hc)]
      have : linkTail (c :: s) = .title := by
        unfold linkTail
        rw [if_pos]
        simpa using hc
      rw [this]
  unfold link
  obtain ⟨e1, e2⟩ := inside_span (t := r) hin
  simp only [e1, e2]
  rw [hcut]
  simp only
  rw [if_neg h1, henc]
  simp [Piece.want]

/-! ### Images -/

theorem inside_cut {E : Env} (hE : E.imgs = true) {f : Bytes → Ial.Attrs} {u : Bytes} {t : Tl} (hu : Address u) (ht : t.Good f E) :
    splitImage E.imgs (u ++ t.write) = (u, t.left, t.text) := by
  unfold splitImage
  obtain ⟨h1, h2, h3, h4⟩ := hu
  cases t with
  | no => simp only [Tl.write, List.append_nil]; rw [cut_none h3 h4]; rfl
  | attrs w =>
    obtain ⟨hi, ⟨c, s, rfl, hc⟩, _⟩ := ht
    simp only [List.mem_cons, List.not_mem_nil, or_false, not_or] at hc
    have hb : blank c = false := by simp [blank, hc]
    have htl : imageTail true (c :: s) = .attrs := by
      unfold imageTail
      split
      · rfl
      · simp [hc, onlyTitle]
    simp only [Tl.write, Tl.left, hE]
    rw [cut_at h3 h4 (b := true) (by rw [cut_head hb, htl])]
    simp only
    have e1 : (c!" " :: c :: s).takeWhile blank = b!" " := by
      rw [List.takeWhile_cons, if_pos (by decide), List.takeWhile_cons, hb]; rfl
    have e2 : (c!" " :: c :: s).dropWhile blank = c :: s := by
      rw [List.dropWhile_cons, if_pos (by decide), List.dropWhile_cons, hb]; rfl
    rw [e1, e2]
    rfl
  | title t =>
    obtain ⟨hi, q, x, hq, hx, rfl⟩ := ht
    have hb : blank q = false := quote_not_blank (by rcases hq with rfl | rfl <;> decide)
    have hs : (x ++ [q]).dropWhile (· ≠ q) = [q] :=
      (span_at (s := x) (t := []) (c := q) (p := (· ≠ q)) (fun y hy => by simpa using fun e : y = q => hx (e ▸ hy)) (by simp)).2
    have htl : imageTail true (q :: (x ++ [q])) = .title := by
      unfold imageTail
      have hr : retina (q :: (x ++ [q])) = false := by
        unfold retina
        split
        · rename_i e
          simp only [List.cons.injEq] at e
          rcases hq with rfl | rfl <;> simp [← e.1]
        · rfl
      rw [hr]
      simp only [Bool.false_eq_true, if_false, if_true]
      split
      · rfl
      · rw [if_pos]
        unfold onlyTitle
        simp only
        rw [hs]
        rcases hq with rfl | rfl <;> simp
    simp only [Tl.write, Tl.left, hE, List.cons_append]
    rw [cut_at h3 h4 (b := false) (by rw [cut_head hb, htl])]
    simp [Tl.text]

/-- What can be behind an image that has no list. -/
def NoList (s : Bytes) : Prop := ∀ t, s.dropWhile blank ≠ c!"{" :: t

theorem listBehind_no {E : Env} {a : Option Ial.Attrs} {s : Bytes} (h : NoList s) : listBehind E a s = .val (a, s) := by
  unfold listBehind
  split
  · rename_i b u e
    rw [if_neg]
    simp only [Bool.and_eq_true, decide_eq_true_eq, not_and]
    intro h1
    exact absurd e (by rw [h1.2]; exact h u)
  · rfl

theorem listBehind_yes {E : Env} (hE : E.imgs = true) {a : Option Ial.Attrs} {c s : Bytes} (hc : Content c) {l : Ial.Attrs} (hl : E.ial c = .val l)
    (hn : l.attrs ≠ []) : listBehind E a (b!"{" ++ c ++ b!"}" ++ s) = .val (some (match a with | none => l | some a => Ial.merge a l), s) := by
  obtain ⟨h1, d, t, rfl, hd⟩ := hc
  have hdw : (b!"{" ++ (d :: t) ++ b!"}" ++ s).dropWhile blank = c!"{" :: ((d :: t) ++ c!"}" :: s) := by
    simp [blank]
  obtain ⟨e1, e2⟩ := span_at (p := (· ≠ c!"}")) (s := d :: t) (t := s) (c := c!"}") (fun x hx => by simpa using fun e : x = c!"}" => h1 (e ▸ hx)) (by decide)
  unfold listBehind
  rw [hdw]
  simp only [hE]
  rw [if_pos (by simp)]
  simp only [e1, e2]
  have hcol : d ≠ c!":" := by
    rcases hd with h | h
    · rintro rfl; revert h; decide
    · rintro rfl; revert h; decide
  have hcond : (d = c!"#" || d = c!"." || blank d || alpha d) = true := by
    rcases hd with h | h
    · simp only [List.mem_cons, List.not_mem_nil, or_false] at h
      rcases h with rfl | rfl <;> rfl
    · simp [h]
  rw [if_neg hcol, if_pos hcond, if_neg (by simp), hl]
  simp only [C.val_bind]
  have : none? l = false := by simp [none?, hn]
  rw [this]
  simp
  cases a <;> rfl

theorem image_eq {E : Env} (hE : E.imgs = true) {f g : Bytes → Ial.Attrs} {p : Pic} (hp : p.Good f g E) (ix : Nat) {r : Bytes} (hr : NoList r) :
    inlineImage E ix p.alt (p.url ++ p.tail.write) (braced p.list ++ r) =
      .val ⟨(Piece.image p).want E.urls, (if (p.attrs f g).isSome ∨ Media.isVideo p.url then
        some ⟨imgAddr E.urls p.url, (p.attrs f g).getD Ial.empty, some ix, none⟩ else none), true, r⟩ := by
  obtain ⟨h1, h2, h3, h4, h5⟩ := hp
  have hw : wildcard p.url = false := by
    unfold wildcard
    cases h : b!".*".isSuffixOf p.url with
    | false => rfl
    | true => exact absurd (List.isSuffixOf_iff_suffix.mp h) h3
  unfold inlineImage
  rw [inside_cut hE h2 h4]
  simp only
  rw [if_neg h2.1]
  have ha : attrsFor E p.tail.text = .val (p.tail.text.map f) := by
    cases ht : p.tail with
    | no => rfl
    | attrs w => rw [ht] at h4; unfold attrsFor; simp only [Tl.text]; rw [h4.2.2]; rfl
    | title t => rfl
  rw [ha, C.val_bind]
  have hb : listBehind E (p.tail.text.map f) (braced p.list ++ r) =
      .val (p.attrs f g, r) := by
    unfold Pic.attrs
    cases hl : p.list with
    | none =>
      simp only [braced, List.nil_append]
      rw [listBehind_no hr]
      cases p.tail <;> rfl
    | some c =>
      obtain ⟨k1, k2, k3⟩ := h5 c hl
      simp only [braced]
      rw [listBehind_yes hE k1 k2 k3]
      cases p.tail <;> rfl
  rw [hb, C.val_bind]
  simp only [hw, Bool.and_false, Bool.false_eq_true, if_false, Bool.or_false]
  rw [encode_eq, C.val_bind]
  simp only [Piece.want, Bool.or_eq_true]

/-! ### The main loop -/

theorem turns_cons (E : Env) (n : Nat) (bang : Bool) (ix : Nat) (es : List Entry) (c : Byte) (s : Bytes) :
    turns E (n + 1) bang ix es (c :: s) = turn E bang ix c s >>= fun t =>
      turns E n (((c :: s).take ((c :: s).length - t.rest.length)).getLast? = some c!"!") (if t.image then ix + 1 else ix) (t.entry.toList ++ es) t.rest >>= fun x =>
        .val (t.out ++ x.1, x.2) := rfl

/-- What a turn does with the bytes `x` in front of `r`. -/
theorem turns_step {E : Env} {n : Nat} {bang : Bool} {ix : Nat} {es es' : List Entry} {x r out : Bytes} {t : Turn} {c : Byte} {s : Bytes}
    (hx : x ++ r = c :: s) (ht : turn E bang ix c s = .val t) (hr : t.rest = r)
    (hl : x.getLast? ≠ some c!"!")
    (h : turns E n false (if t.image then ix + 1 else ix) (t.entry.toList ++ es) r = .val (out, es')) :
    turns E (n + 1) bang ix es (x ++ r) = .val (t.out ++ out, es') := by
  rw [hx, turns_cons, ht, C.val_bind, hr, ← hx]
  have : (x ++ r).take ((x ++ r).length - r.length) = x := by
    rw [List.length_append, Nat.add_sub_cancel]
    exact List.take_left' rfl
  rw [this]
  have hb : decide (x.getLast? = some c!"!") = false := by simpa using hl
  rw [hb, h]
  rfl

theorem turn_plain {E : Env} {bang : Bool} {ix : Nat} {c : Byte} {s : Bytes} (h1 : c ≠ c!"[") (h2 : c = c!"!" → s.head? ≠ some c!"[") :
    turn E bang ix c s = .val ⟨[c], none, false, s⟩ := by
  unfold turn
  rw [if_neg, if_neg h1]
  simp only [Bool.and_eq_true, decide_eq_true_eq, not_and]
  exact fun e => h2 e

/-- More turns make no difference. -/
theorem text_turns {E : Env} {t : Bytes} (h1 : c!"[" ∉ t) (h2 : t.getLast? ≠ some c!"!") {n ix : Nat} {es es' : List Entry} {r out : Bytes}
    (h : turns E n false ix es r = .val (out, es')) : ∀ bang, (t = [] → bang = false) → turns E (n + t.length) bang ix es (t ++ r) = .val (t ++ out, es') := by
  induction t with
  | nil => intro b hb; rw [hb rfl]; exact h
  | cons c t ih =>
    intro b _
    simp only [List.mem_cons, not_or] at h1
    have hturn : turn E b ix c (t ++ r) = .val ⟨[c], none, false, t ++ r⟩ := by
      apply turn_plain (fun e => h1.1 e.symm)
      rintro rfl
      cases t with
      | nil => exact absurd rfl h2
      | cons d t =>
        simp only [List.cons_append, List.head?_cons, ne_eq, Option.some.injEq]
        exact fun e => h1.2 (by simp [e])
    rw [List.cons_append, List.length_cons, ← Nat.add_assoc, turns_cons, hturn, C.val_bind]
    simp only [Option.toList_none, List.nil_append, Bool.false_eq_true, if_false]
    have ht2 : t ≠ [] → t.getLast? ≠ some c!"!" := by
      intro hne
      cases t with
      | nil => exact absurd rfl hne
      | cons d t => simpa [List.getLast?_cons_cons] using h2
    have hlast : (c :: (t ++ r)).take ((c :: (t ++ r)).length - (t ++ r).length) = [c] := by
      have : (c :: (t ++ r)).length - (t ++ r).length = 1 := by simp only [List.length_cons]; omega
      rw [this]; rfl
    rw [hlast]
    by_cases hne : t = []
    · subst hne
      have hc : c ≠ c!"!" := by simpa using h2
      have : decide (([c] : Bytes).getLast? = some c!"!") = false := by simpa using hc
      rw [this]
      have := ih h1.2 (by simp) false (fun _ => rfl)
      simp only [List.nil_append, List.length_nil, Nat.add_zero] at this ⊢
      rw [this]
      rfl
    · rw [ih h1.2 (ht2 hne) _ (fun e => absurd e hne)]
      rfl

/-- What is written can stand behind an image. -/
theorem noList_write {f g : Bytes → Ial.Attrs} {E : Env} : ∀ {l : List Piece}, (∀ p ∈ l, p.Good f g E) → NoList (l.flatMap Piece.write)
  | [], _ => by intro t; simp
  | p :: l, h => by
    have ih := noList_write (l := l) (fun q hq => h q (by simp [hq]))
    have hp := h p (by simp)
    rw [List.flatMap_cons]
    cases p with
    | text t =>
      obtain ⟨h1, h2, h3⟩ := hp
      show NoList (t ++ _)
      clear h1 h3 h
      induction t with
      | nil => exact ih
      | cons c t iht =>
        simp only [List.mem_cons, not_or] at h2
        intro u
        rw [List.cons_append, List.dropWhile_cons]
        split
        · exact iht h2.2 u
        · intro e
          simp only [List.cons.injEq] at e
          exact h2.1 e.1.symm
    | link l u t =>
      intro v
      simp [Piece.write, blank]
    | image p =>
      intro v
      simp [Piece.write, blank]

theorem turns_pieces {f g : Bytes → Ial.Attrs} {E : Env} (hE : E.imgs = true) : ∀ {l : List Piece} {n ix : Nat} {es : List Entry},
    (∀ p ∈ l, p.Good f g E) → (l.flatMap Piece.write).length ≤ n →
    turns E n false ix es (l.flatMap Piece.write) =
      .val (l.flatMap (Piece.want E.urls), (entries f g E.urls ix (pics l)).reverse ++ es)
  | [], n, _, _, _, _ => by
    cases n <;> rfl
  | p :: l, n, ix, es, h, hn => by
    have hl : ∀ q ∈ l, q.Good f g E := fun q hq => h q (by simp [hq])
    have hp := h p (by simp)
    rw [List.flatMap_cons, List.length_append] at hn
    rw [List.flatMap_cons, List.flatMap_cons]
    cases p with
    | text t =>
      obtain ⟨h1, h2, h3⟩ := hp
      have ih := turns_pieces hE (n := n - t.length) (ix := ix) (es := es) hl (by simp only [Piece.write] at hn; omega)
      have := text_turns h1 h3 ih false (fun _ => rfl)
      have e : n - t.length + t.length = n := by simp only [Piece.write] at hn; omega
      rw [e] at this
      exact this
    | link la u t =>
      obtain ⟨h1, h2, h3, h4⟩ := hp
      obtain ⟨m, rfl⟩ : ∃ m, n = m + 1 := ⟨n - 1, by simp only [Piece.write, List.length_append, List.length_cons] at hn; omega⟩
      have ih := turns_pieces hE (n := m) (ix := ix) (es := es) hl (by simp only [Piece.write, List.length_append, List.length_cons] at hn; omega)
      have hw : (Piece.link la u t).write ++ l.flatMap Piece.write =
          c!"[" :: (la ++ c!"]" :: c!"(" :: (u ++ titled t ++ c!")" :: l.flatMap Piece.write)) := by
        simp [Piece.write]
      refine turns_step (t := ⟨(Piece.link la u t).want E.urls, none, false, l.flatMap Piece.write⟩) hw ?_ rfl ?_ ih
      · unfold turn
        rw [if_neg (by simp), if_pos rfl]
        obtain ⟨e1, e2⟩ := bracket_span (t := c!"(" :: (u ++ titled t ++ c!")" :: l.flatMap Piece.write)) h1
        simp only [e1, e2]
        have hpre : (decide (1 < la.length) && b!"![".isPrefixOf la) = false := by
          cases hh : b!"![".isPrefixOf la with
          | false => simp
          | true => exact absurd (List.isPrefixOf_iff_prefix.mp hh) h2
        rw [if_neg (by simp), if_pos (by rw [hpre]; rfl), link_eq h3 h4]
        rfl
      · show (b!"[" ++ la ++ b!"](" ++ u ++ titled t ++ [c!")"]).getLast? ≠ _
        rw [List.getLast?_concat]
        decide
    | image p =>
      have hlen : 0 < n := by simp only [Piece.write, List.length_append, List.length_cons] at hn; omega
      obtain ⟨m, rfl⟩ : ∃ m, n = m + 1 := ⟨n - 1, by omega⟩
      have ih := turns_pieces hE (n := m) (ix := ix + 1)
        (es := (if (p.attrs f g).isSome ∨ Media.isVideo p.url then [⟨imgAddr E.urls p.url, (p.attrs f g).getD Ial.empty, some ix, none⟩] else []) ++ es)
        hl (by simp only [Piece.write, List.length_append, List.length_cons] at hn; omega)
      have hin : Inside (p.url ++ p.tail.write) := by
        refine inside_append hp.2.1.2.1 ?_
        have := hp.2.2.2.1
        cases ht : p.tail with
        | no => exact ⟨by simp [Tl.write], by simp [Tl.write]⟩
        | attrs w => rw [ht] at this; exact inside_blank this.1
        | title w => rw [ht] at this; exact inside_blank this.1
      have hw : (Piece.image p).write ++ l.flatMap Piece.write =
          c!"!" :: (c!"[" :: (p.alt ++ c!"]" :: c!"(" :: ((p.url ++ p.tail.write) ++ c!")" :: (braced p.list ++ l.flatMap Piece.write)))) := by
        simp [Piece.write]
      have hih : (entries f g E.urls (ix + 1) (pics l)).reverse ++
          ((if (p.attrs f g).isSome ∨ Media.isVideo p.url then [⟨imgAddr E.urls p.url, (p.attrs f g).getD Ial.empty, some ix, none⟩] else []) ++ es) =
          (entries f g E.urls ix (pics (.image p :: l))).reverse ++ es := by
        show _ = (entries f g E.urls ix (p :: pics l)).reverse ++ es
        rw [entries, List.reverse_append]
        split <;> simp
      rw [hih] at ih
      refine turns_step (t := ⟨(Piece.image p).want E.urls, (if (p.attrs f g).isSome ∨ Media.isVideo p.url then
        some ⟨imgAddr E.urls p.url, (p.attrs f g).getD Ial.empty, some ix, none⟩ else none), true, l.flatMap Piece.write⟩) hw ?_ rfl ?_ ?_
      · unfold turn
        rw [if_pos (by simp)]
        obtain ⟨e1, e2⟩ := bracket_span (t := c!"(" :: ((p.url ++ p.tail.write) ++ c!")" :: (braced p.list ++ l.flatMap Piece.write))) hp.1
        obtain ⟨e3, e4⟩ := inside_span (t := braced p.list ++ l.flatMap Piece.write) hin
        simp only [List.drop_succ_cons, List.drop_zero, e1, e2, e3, e4]
        simp only [if_true]
        exact image_eq hE hp ix (noList_write hl)
      · unfold Piece.write
        simp only
        cases hlist : p.list with
        | none =>
          show (b!"![" ++ p.alt ++ b!"](" ++ p.url ++ p.tail.write ++ [c!")"] ++ []).getLast? ≠ _
          rw [List.append_nil, List.getLast?_concat]
          decide
        | some c =>
          show (b!"![" ++ p.alt ++ b!"](" ++ p.url ++ p.tail.write ++ b!")" ++ (b!"{" ++ c ++ [c!"}"])).getLast? ≠ _
          rw [← List.append_assoc, List.getLast?_concat]
          decide
      · have : (if (p.attrs f g).isSome ∨ Media.isVideo p.url then
          some (⟨imgAddr E.urls p.url, (p.attrs f g).getD Ial.empty, some ix, none⟩ : Entry) else none).toList =
          if (p.attrs f g).isSome ∨ Media.isVideo p.url then [⟨imgAddr E.urls p.url, (p.attrs f g).getD Ial.empty, some ix, none⟩] else [] := by
          split <;> rfl
        simp only [this, if_true]
        exact ih

/-! ### Without references -/

theorem expand_none {es : List Entry} (h : ∀ e ∈ es, e.ref = none) : ∀ {n w room : Nat} {s : Bytes}, s.length ≤ n → s.length ≤ room →
    expand es n w room s = (s, false)
  | n, w, room, [], _, _ => by cases n <;> rfl
  | 0, _, _, _ :: _, h1, _ => by simp at h1
  | n + 1, w, room, c :: s, h1, h2 => by
    have hf : ∀ name, findRef es name = none := by
      intro name
      unfold findRef
      rw [List.find?_eq_none]
      intro e he
      rw [h e he]
      simp
    have hh : (if (c = c!"!" && s.head? = some c!"[") = true then
        (reference (s.drop 1)).bind fun x => (findRef es x.2.1).map fun e => (inlined x.1 e, x.2.2) else none) = none := by
      split
      · simp only [hf, Option.map_none]
        cases reference (s.drop 1) <;> rfl
      · rfl
    rw [expand]
    simp only [hh]
    simp only [List.length_cons] at h1 h2
    rw [if_pos (by omega), expand_none h (by omega) (by omega)]

theorem entries_ref {f g : Bytes → Ial.Attrs} {urls : Bool} : ∀ {l : List Pic} {n : Nat}, ∀ e ∈ entries f g urls n l, e.ref = none
  | [], _, e, h => by simp [entries] at h
  | p :: l, n, e, h => by
    rw [entries, List.mem_append] at h
    rcases h with h | h
    · split at h
      · simp only [List.mem_cons, List.not_mem_nil, or_false] at h
        rw [h]
      · simp at h
    · exact entries_ref e h

theorem preprocess_pieces {f g : Bytes → Ial.Attrs} {E : Env} (hE : E.imgs = true) {l : List Piece} (h : ∀ p ∈ l, p.Good f g E) :
    preprocess E (l.flatMap Piece.write) = .val (l.flatMap (Piece.want E.urls), (entries f g E.urls 0 (pics l)).reverse) := by
  unfold preprocess
  rw [turns_pieces hE h (Nat.le_refl _), C.val_bind]
  simp only [List.append_nil]
  have hr : ∀ e ∈ (entries f g E.urls 0 (pics l)).reverse, e.ref = none := fun e he => entries_ref e (by simpa using he)
  rw [expand_none hr (Nat.le_refl _) (by omega)]
  simp only [Bool.false_eq_true, if_false, ite_self]

/-! ### The images of the document -/

theorem entries_pos {f g : Bytes → Ial.Attrs} {urls : Bool} : ∀ {l : List Pic} {n : Nat}, ∀ e ∈ entries f g urls n l, ∃ k, e.pos = some k ∧ n ≤ k
  | [], _, e, h => by simp [entries] at h
  | p :: l, n, e, h => by
    rw [entries, List.mem_append] at h
    rcases h with h | h
    · split at h
      · simp only [List.mem_cons, List.not_mem_nil, or_false] at h
        rw [h]
        exact ⟨n, rfl, Nat.le_refl _⟩
      · simp at h
    · obtain ⟨k, h1, h2⟩ := entries_pos e h
      exact ⟨k, h1, by omega⟩

theorem apply_cons (es : List Entry) (p : Nat) (url : Bytes) (l : List Bytes) : apply es p (url :: l) =
    match es.find? fun e => e.pos = some p && e.url = url with
    | some e => some e.attrs :: apply (es.eraseP fun e => e.pos = some p && e.url = url) (p + 1) l
    | none => (es.find? fun e => e.pos = none && e.url = url).map (·.attrs) :: apply es p l := rfl

theorem apply_entries {f g : Bytes → Ial.Attrs} {urls : Bool} : ∀ {l : List Pic} {n : Nat}, (∀ p ∈ l, (p.attrs f g).isSome ∨ Media.isVideo p.url = true) →
    apply (entries f g urls n l).reverse n (l.map fun p => imgAddr urls p.url) = l.map fun p => some ((p.attrs f g).getD Ial.empty)
  | [], _, _ => rfl
  | p :: l, n, h => by
    have hp := h p (by simp)
    have ih := apply_entries (urls := urls) (l := l) (n := n + 1) (fun q hq => h q (by simp [hq]))
    rw [entries, if_pos hp, List.reverse_append]
    simp only [List.map_cons, List.reverse_cons, List.reverse_nil, List.nil_append]
    have hno : ∀ e ∈ (entries f g urls (n + 1) l).reverse, ¬ ((e.pos = some n && e.url = imgAddr urls p.url) = true) := by
      intro e he
      obtain ⟨k, h1, h2⟩ := entries_pos e (by simpa using he)
      rw [h1]
      simp only [Bool.and_eq_true, decide_eq_true_eq, Option.some.injEq, not_and]
      intro h3
      omega
    rw [apply_cons, List.find?_append, List.find?_eq_none.mpr hno, List.eraseP_append_right _ hno]
    simp only [List.find?_cons, decide_true, Bool.and_self, Option.none_or, List.eraseP_cons, cond_true, List.append_nil]
    rw [ih]

/-! ### References -/

/-- The reference `![alt][name]`. -/
def refText (alt name : Bytes) : Bytes := b!"![" ++ alt ++ b!"][" ++ name ++ b!"]"

theorem reference_eq {alt name r : Bytes} (h1 : c!"]" ∉ alt) (h2 : c!"]" ∉ name) (h3 : name.head? ≠ some c!"[") :
    reference (alt ++ b!"][" ++ name ++ b!"]" ++ r) = some (alt, trim name, r) := by
  have e : alt ++ b!"][" ++ name ++ b!"]" ++ r = alt ++ c!"]" :: (c!"[" :: (name ++ c!"]" :: r)) := by simp
  obtain ⟨e1, e2⟩ := bracket_span (t := c!"[" :: (name ++ c!"]" :: r)) h1
  obtain ⟨e3, e4⟩ := bracket_span (t := r) h2
  unfold reference
  rw [e, e1, e2]
  simp only
  rw [if_pos (by simp)]
  simp only [e3, e4]
  rw [if_neg h3]
  rfl

theorem expand_plain {es : List Entry} {t : Bytes} (ht : c!"!" ∉ t) : ∀ {n w room : Nat} {r : Bytes}, t.length ≤ n → t.length ≤ room →
    expand es n w room (t ++ r) = (t ++ (expand es (n - t.length) (w + t.length) (room - t.length) r).1, (expand es (n - t.length) (w + t.length) (room - t.length) r).2) := by
  induction t with
  | nil => intro n w room r _ _; rfl
  | cons c t ih =>
    intro n w room r h1 h2
    simp only [List.length_cons] at h1 h2
    obtain ⟨m, rfl⟩ : ∃ m, n = m + 1 := ⟨n - 1, by omega⟩
    simp only [List.mem_cons, not_or] at ht
    rw [List.cons_append, expand]
    rw [if_neg (by simp only [Bool.and_eq_true, decide_eq_true_eq, not_and]; exact fun e => absurd e.symm ht.1)]
    simp only
    rw [if_pos (by omega), ih ht.2 (by omega) (by omega)]
    have e1 : m + 1 - (c :: t).length = m - t.length := by simp only [List.length_cons]; omega
    have e2 : w + (c :: t).length = w + 1 + t.length := by simp only [List.length_cons]; omega
    have e3 : room - (c :: t).length = room - 1 - t.length := by simp only [List.length_cons]; omega
    rw [e1, e2, e3]
    rfl

/-- Text for which there is no room. -/
theorem expand_full {es : List Entry} {t : Bytes} (ht : c!"!" ∉ t) : ∀ {n w room : Nat}, t.length ≤ n → expand es n w room t = (t.take room, false) := by
  induction t with
  | nil => intro n w room _; cases n <;> simp [expand]
  | cons c t ih =>
    intro n w room h1
    simp only [List.length_cons] at h1
    obtain ⟨m, rfl⟩ : ∃ m, n = m + 1 := ⟨n - 1, by omega⟩
    simp only [List.mem_cons, not_or] at ht
    rw [expand]
    rw [if_neg (by simp only [Bool.and_eq_true, decide_eq_true_eq, not_and]; exact fun e => absurd e.symm ht.1)]
    simp only
    cases room with
    | zero =>
      rw [if_neg (by omega), ih ht.2 (by omega)]
      simp
    | succ k =>
      rw [if_pos (by omega), ih ht.2 (by omega)]
      simp

theorem expand_ref {es : List Entry} {alt name r : Bytes} {e : Entry} (h1 : c!"]" ∉ alt) (h2 : c!"]" ∉ name) (h3 : name.head? ≠ some c!"[")
    (he : findRef es (trim name) = some e) (n w room : Nat) :
    expand es (n + 1) w room (refText alt name ++ r) =
      (inlined alt e ++ (expand es n (w + (inlined alt e).length)
        ((if room < (inlined alt e).length then (w + (inlined alt e).length + 1) * 2 - w else room) - (inlined alt e).length) r).1, true) := by
  have hx : refText alt name ++ r = c!"!" :: (c!"[" :: (alt ++ b!"][" ++ name ++ b!"]" ++ r)) := by simp [refText]
  rw [hx, expand]
  rw [if_pos (by simp)]
  simp only [List.drop_succ_cons, List.drop_zero]
  rw [reference_eq h1 h2 h3]
  simp only [Option.bind_some, he, Option.map_some]

/-! ### Room for the output -/

theorem byte_room (c : Byte) : (Escape.ialUrlByte c).length ≤ 3 := by
  unfold Escape.ialUrlByte
  split <;> simp [Escape.hex2]

theorem addr_room (urls : Bool) (u : Bytes) : (addr urls u).length ≤ 3 * u.length := by
  unfold addr
  split
  · induction u with
    | nil => simp
    | cons c u ih =>
      have := byte_room c
      simp only [List.flatMap_cons, List.length_append, List.length_cons]
      omega
  · omega

theorem cut_split {f : Bytes → Tail} : ∀ {s u w : Bytes} {b : Bool}, cut f s = some (u, w, b) → s = u ++ w
  | [], _, _, _, h => by simp [cut] at h
  | c :: s, u, w, b, h => by
    rw [cut] at h
    have hrec : ∀ x, cut f s = some x → (c :: x.1, x.2) = (u, w, b) → c :: s = u ++ w := by
      rintro ⟨x1, x2, x3⟩ hx e
      simp only [Prod.mk.injEq] at e
      have := cut_split hx
      rw [← e.1, ← e.2.1, this]
      rfl
    split at h
    · split at h
      · cases h; rfl
      · cases h; rfl
      · cases hx : cut f s with
        | none => rw [hx] at h; cases h
        | some x => rw [hx] at h; exact hrec x hx (Option.some.inj h)
    · cases hx : cut f s with
      | none => rw [hx] at h; cases h
      | some x => rw [hx] at h; exact hrec x hx (Option.some.inj h)

theorem span_len (p : UInt8 → Bool) (s : Bytes) : (s.takeWhile p).length + (s.dropWhile p).length = s.length := by
  have := congrArg List.length (List.takeWhile_append_dropWhile (p := p) (l := s))
  rwa [List.length_append] at this

theorem splitImage_room {imgs : Bool} {s u w : Bytes} {a : Option Bytes} (h : splitImage imgs s = (u, w, a)) : u.length + w.length ≤ s.length := by
  unfold splitImage at h
  split at h
  · rename_i x y hc
    have := congrArg List.length (cut_split hc)
    have h2 := span_len blank y
    simp only [Prod.mk.injEq] at h
    rw [← h.1, ← h.2.1]
    simp only [List.length_append] at this
    omega
  · rename_i hc
    have := congrArg List.length (cut_split hc)
    simp only [List.length_append] at this
    split at h
    · simp only [Prod.mk.injEq] at h
      rw [← h.1, ← h.2.1]
      omega
    · simp only [Prod.mk.injEq] at h
      rw [← h.1, ← h.2.1]
      simp
  · simp only [Prod.mk.injEq] at h
    rw [← h.1, ← h.2.1]
    simp

theorem splitDef_room {imgs : Bool} {s u w : Bytes} {a : Option Bytes} (h : splitDef imgs s = (u, w, a)) : u.length + w.length ≤ s.length := by
  unfold splitDef at h
  split at h
  · rename_i hc
    have := congrArg List.length (cut_split hc)
    simp only [Prod.mk.injEq] at h
    rw [← h.1, ← h.2.1]
    simp only [List.length_append] at this
    omega
  · rename_i hc
    have := congrArg List.length (cut_split hc)
    simp only [Prod.mk.injEq] at h
    rw [← h.1, ← h.2.1]
    simp only [List.length_append] at this
    omega
  · simp only [Prod.mk.injEq] at h
    rw [← h.1, ← h.2.1]
    simp

theorem splitLink_room {s u w : Bytes} (h : splitLink s = (u, w)) : u.length + w.length ≤ s.length := by
  unfold splitLink at h
  split at h
  · rename_i hc
    have := congrArg List.length (cut_split hc)
    simp only [Prod.mk.injEq] at h
    rw [← h.1, ← h.2]
    simp only [List.length_append] at this
    omega
  · simp only [Prod.mk.injEq] at h
    rw [← h.1, ← h.2]
    simp

theorem bind_val {α β : Type} {x : C α} {f : α → C β} {b : β} (h : (x >>= f) = .val b) : ∃ a, x = .val a ∧ f a = .val b := by
  cases x with
  | ub => cases h
  | val a => exact ⟨a, rfl, h⟩

theorem behind {E : Env} {a a' : Option Ial.Attrs} {content rest r : Bytes}
    (h : (if content = [] then .val (a, rest)
      else do
        let l ← E.ial content
        let l ← if none? l then E.image content else .val l
        .val (if none? l then a else some (match a with | none => l | some a => Ial.merge a l), rest)) = C.val (a', r)) : r = rest := by
  split at h
  · cases h; rfl
  · obtain ⟨l, -, h⟩ := bind_val h
    simp only at h
    split at h <;> obtain ⟨l', -, h⟩ := bind_val h <;> simp only [C.val.injEq, Prod.mk.injEq] at h <;> exact h.2.symm

theorem listBehind_room {E : Env} {a a' : Option Ial.Attrs} {s r : Bytes} (h : listBehind E a s = .val (a', r)) : r.length ≤ s.length := by
  unfold listBehind at h
  split at h
  · rename_i b u e
    split at h
    · have h1 := span_len blank s
      have h2 := span_len (· ≠ c!"}") u
      rw [e] at h1
      simp only [List.length_cons] at h1
      have h3 : ((u.dropWhile (· ≠ c!"}")).drop 1).length ≤ s.length := by
        have := List.length_drop (i := 1) (l := u.dropWhile (· ≠ c!"}"))
        simp only [this]
        have h4 := Nat.le_of_lt_succ (Nat.lt_succ_of_le (Nat.le_add_left (u.dropWhile (· ≠ c!"}")).length (u.takeWhile (· ≠ c!"}")).length))
        rw [h2] at h4
        omega
      rw [behind h]
      exact h3
    · cases h; exact Nat.le_refl _
  · cases h; exact Nat.le_refl _

theorem inlineImage_room {E : Env} {ix : Nat} {alt inside s : Bytes} {t : Turn} (h : inlineImage E ix alt inside s = .val t) :
    t.out.length + 3 * t.rest.length ≤ 3 * (alt.length + inside.length + s.length + 5) ∧
      t.rest.length < alt.length + inside.length + s.length + 5 := by
  unfold inlineImage at h
  obtain ⟨u, w, a⟩ : Bytes × Bytes × Option Bytes := splitImage E.imgs inside
  generalize hsp : splitImage E.imgs inside = x at h
  obtain ⟨u, w, a⟩ := x
  have h1 := splitImage_room hsp
  simp only at h
  split at h
  · cases h
    simp only [List.length_append, List.length_cons, List.length_nil]
    omega
  · obtain ⟨b, -, h⟩ := bind_val h
    obtain ⟨⟨b', r⟩, h2, h⟩ := bind_val h
    have h3 := listBehind_room h2
    simp only at h
    rw [encode_eq, C.val_bind] at h
    simp only [C.val.injEq] at h
    have h4 : (imgAddr E.urls u).length ≤ 3 * u.length := addr_room _ _
    rw [← h]
    simp only [List.length_append, List.length_cons, List.length_nil]
    omega

theorem newline_room (s : Bytes) : (newline s).1.length + (newline s).2.length = s.length := by
  unfold newline
  repeat' split
  all_goals simp <;> try omega

theorem definition_room {E : Env} {name s : Bytes} {t : Turn} (h : definition E name s = .val (some t)) :
    t.out.length + 3 * t.rest.length ≤ 3 * (name.length + s.length + 3) ∧ t.rest.length < name.length + s.length + 3 := by
  unfold definition at h
  have h1 := span_len blank s
  have h2 := span_len (!eol ·) (s.dropWhile blank)
  have h3 := newline_room ((s.dropWhile blank).dropWhile (!eol ·))
  simp only at h
  generalize s.takeWhile blank = gap at h h1
  generalize s.dropWhile blank = s' at h h1 h2 h3
  generalize s'.takeWhile (!eol ·) = line at h h2
  generalize newline (s'.dropWhile (!eol ·)) = y at h h3
  obtain ⟨nl, rest⟩ := y
  generalize hsp : splitDef E.imgs line = x at h
  obtain ⟨u, w, a⟩ := x
  have h4 := splitDef_room hsp
  simp only at h h3
  split at h
  · cases h
  · obtain ⟨b, -, h⟩ := bind_val h
    have h5 : (imgAddr E.urls u).length ≤ 3 * u.length := addr_room _ _
    split at h
    · simp only [C.val.injEq, Option.some.injEq] at h
      rw [← h]
      simp only [List.length_append, List.length_cons, List.length_nil]
      split <;> simp <;> omega
    · rw [encode_eq, C.val_bind] at h
      split at h
      · simp only [C.val.injEq, Option.some.injEq] at h
        rw [← h]
        simp only [List.length_nil]
        omega
      · simp only [C.val.injEq, Option.some.injEq] at h
        rw [← h]
        simp only [List.length_append, List.length_cons, List.length_nil]
        omega

theorem link_room {E : Env} {name s : Bytes} {t : Turn} (h : link E name s = .val (some t)) :
    t.out.length + 3 * t.rest.length ≤ 3 * (name.length + s.length + 3) ∧ t.rest.length < name.length + s.length + 3 := by
  unfold link at h
  have h1 := span_len (fun c => c ≠ c!")" && c ≠ c!"\n") s
  simp only at h
  generalize hsp : splitLink (s.takeWhile fun c => c ≠ c!")" && c ≠ c!"\n") = x at h
  obtain ⟨u, w⟩ := x
  have h4 := splitLink_room hsp
  simp only at h
  split at h
  · cases h
  · have h5 : encodeLink E u = .val (addr E.urls u) := by
      unfold encodeLink addr
      split
      · exact Escape.ialUrlEncode_eq u
      · rfl
    have h6 := addr_room E.urls u
    rw [h5, C.val_bind] at h
    simp only [C.val.injEq, Option.some.injEq] at h
    rw [← h]
    by_cases hc : (s.dropWhile fun c => c ≠ c!")" && c ≠ c!"\n").head? = some c!")"
    · simp only [hc, decide_true, if_true, List.length_append, List.length_cons, List.length_nil, List.length_drop]
      cases hd : s.dropWhile fun c => c ≠ c!")" && c ≠ c!"\n" with
      | nil => rw [hd] at hc; cases hc
      | cons x y =>
        rw [hd] at h1
        simp only [List.length_cons] at h1 ⊢
        omega
    · simp only [hc, decide_false, Bool.false_eq_true, if_false, List.length_append, List.length_cons, List.length_nil]
      omega

theorem turn_room {E : Env} {bang : Bool} {ix : Nat} {c : Byte} {s : Bytes} {t : Turn} (h : turn E bang ix c s = .val t) :
    t.out.length + 3 * t.rest.length ≤ 3 * (s.length + 1) ∧ t.rest.length < s.length + 1 := by
  unfold turn at h
  split at h
  · rename_i hc
    cases s with
    | nil => simp at hc
    | cons d s =>
      simp only [List.drop_succ_cons, List.drop_zero] at h
      have h1 := span_len (· ≠ c!"]") s
      split at h
      · rename_i x e u hd
        rw [hd] at h1
        simp only [List.length_cons] at h1
        split at h
        · have h2 := span_len (fun c => c ≠ c!")" && c ≠ c!"\n") u
          split at h
          · rename_i y v hv
            rw [hv] at h2
            simp only [List.length_cons] at h2
            split at h
            · have h3 := inlineImage_room h
              simp only [List.length_cons]
              omega
            · cases h
              simp only [List.length_cons, List.length_nil]; omega
          · cases h
            simp only [List.length_cons, List.length_nil]; omega
        · cases h
          simp only [List.length_cons, List.length_nil]
          omega
      · cases h
        simp only [List.length_cons, List.length_nil]
        omega
  · split at h
    · have h1 := span_len (· ≠ c!"]") s
      simp only at h
      split at h
      · rename_i x d u hd
        rw [hd] at h1
        simp only [List.length_cons] at h1
        split at h
        · obtain ⟨o, ho, h⟩ := bind_val h
          cases o with
          | none =>
            cases h
            simp only [Option.getD_none, List.length_cons, List.length_nil]
            omega
          | some t' =>
            simp only [Option.getD_some, C.val.injEq] at h
            subst h
            have := definition_room ho
            omega
        · split at h
          · obtain ⟨o, ho, h⟩ := bind_val h
            cases o with
            | none =>
              cases h
              simp only [Option.getD_none, List.length_cons, List.length_nil]
              omega
            | some t' =>
              simp only [Option.getD_some, C.val.injEq] at h
              subst h
              have := link_room ho
              omega
          · cases h
            simp only [Option.getD_none, List.length_cons, List.length_nil]
            omega
      · cases h
        simp only [List.length_cons, List.length_nil]
        omega
    · cases h
      simp only [List.length_cons, List.length_nil]
      omega

theorem turns_room {E : Env} : ∀ {n : Nat} {bang : Bool} {ix : Nat} {es es' : List Entry} {s out : Bytes},
    turns E n bang ix es s = .val (out, es') → out.length ≤ 3 * s.length
  | n, _, _, _, _, [], out, h => by cases n <;> cases h <;> simp
  | 0, _, _, _, _, _ :: _, out, h => by cases h; simp
  | n + 1, bang, ix, es, es', c :: s, out, h => by
    rw [turns_cons] at h
    obtain ⟨t, ht, h⟩ := bind_val h
    obtain ⟨⟨o, e⟩, h1, h⟩ := bind_val h
    have h2 := turns_room h1
    have h3 := turn_room ht
    simp only [C.val.injEq, Prod.mk.injEq] at h
    rw [← h.1, List.length_append, List.length_cons]
    omega

/-- Turns that are left do nothing: there is one for each byte. -/
theorem turns_enough {E : Env} : ∀ {n : Nat} {bang : Bool} {ix : Nat} {es : List Entry} {s : Bytes}, s.length ≤ n →
    turns E n bang ix es s = turns E s.length bang ix es s
  | n, bang, ix, es, s, h => by
    induction n using Nat.strongRecOn generalizing bang ix es s with
    | _ n ih =>
      cases s with
      | nil => cases n <;> rfl
      | cons c s =>
        simp only [List.length_cons] at h
        obtain ⟨m, rfl⟩ : ∃ m, n = m + 1 := ⟨n - 1, by omega⟩
        rw [List.length_cons, turns_cons, turns_cons]
        cases ht : turn E bang ix c s with
        | ub => rfl
        | val t =>
          have := (turn_room ht).2
          simp only [C.val_bind]
          have e1 := fun b i e => ih m (by omega) (bang := b) (ix := i) (es := e) (s := t.rest) (by omega)
          have e2 := fun b i e => ih s.length (by omega) (bang := b) (ix := i) (es := e) (s := t.rest) (by omega)
          rw [e1, e2]

/-! ### References, and documents whose first image has no attributes -/

theorem part_inlined (alt name : Bytes) (e : Entry) : (Part.ref alt name e).want = inlined alt e := rfl

theorem expand_parts {es : List Entry} : ∀ {l : List Part} {n w room : Nat}, (∀ p ∈ l, p.Good es) → (l.flatMap Part.write).length ≤ n →
    (l.flatMap Part.want).length ≤ room → expand es n w room (l.flatMap Part.write) = (l.flatMap Part.want, l.any Part.isRef)
  | [], n, _, _, _, _, _ => by cases n <;> rfl
  | .text t :: l, n, w, room, h, hn, hr => by
    simp only [List.flatMap_cons, Part.write, Part.want, List.length_append] at hn hr ⊢
    have ht : c!"!" ∉ t := h (.text t) (by simp)
    rw [expand_plain ht (by omega) (by omega), expand_parts (fun p hp => h p (by simp [hp])) (by omega) (by omega)]
    rfl
  | .ref alt name e :: l, n, w, room, h, hn, hr => by
    obtain ⟨h1, h2, h3, h4⟩ : (Part.ref alt name e).Good es := h _ (by simp)
    simp only [List.flatMap_cons, part_inlined, List.length_append] at hn hr ⊢
    have hw : (Part.ref alt name e).write = refText alt name := rfl
    have hl : 1 ≤ (refText alt name).length := by
      unfold refText
      simp only [List.length_append, List.length_cons]
      omega
    rw [hw] at hn ⊢
    obtain ⟨m, rfl⟩ : ∃ m, n = m + 1 := ⟨n - 1, by omega⟩
    rw [expand_ref h1 h2 h3 h4 m w room, if_neg (by omega), expand_parts (fun p hp => h p (by simp [hp])) (by omega) (by omega)]
    rfl

theorem apply_later {es : List Entry} {n : Nat} (h : ∀ e ∈ es, ∃ k, e.pos = some k ∧ n < k) : ∀ (l : List Bytes), apply es n l = l.map fun _ => none
  | [] => rfl
  | u :: l => by
    have h1 : ∀ e ∈ es, ¬ ((e.pos = some n && e.url = u) = true) := by
      intro e he
      obtain ⟨k, hk, hlt⟩ := h e he
      rw [hk]
      simp only [Bool.and_eq_true, decide_eq_true_eq, Option.some.injEq, not_and]
      intro h3
      omega
    have h2 : ∀ e ∈ es, ¬ ((e.pos = none && e.url = u) = true) := by
      intro e he
      obtain ⟨k, hk, hlt⟩ := h e he
      rw [hk]
      simp
    rw [apply_cons, List.find?_eq_none.mpr h1, List.find?_eq_none.mpr h2]
    simp only [Option.map_none, List.map_cons]
    rw [apply_later h l]

theorem open_image {E : Env} {alt u : Bytes} (h1 : c!"]" ∉ alt) (h2 : c!"[" ∉ alt) (h3 : Inside u) (h4 : c!"[" ∉ u) (h5 : u.getLast? ≠ some c!"!") :
    preprocess E (b!"![" ++ alt ++ b!"](" ++ u) = .val (b!"[" ++ alt ++ b!"](" ++ u, []) := by
  have e : b!"![" ++ alt ++ b!"](" ++ u = c!"!" :: (c!"[" :: (alt ++ c!"]" :: (c!"(" :: u))) := by simp
  obtain ⟨e1, e2⟩ := bracket_span (t := c!"(" :: u) h1
  have e3 := (span_all (p := fun c => c ≠ c!")" && c ≠ c!"\n") (s := u) (by
    intro x hx
    simp only [Bool.and_eq_true, decide_eq_true_eq, ne_eq]
    exact ⟨fun e => h3.1 (e ▸ hx), fun e => h3.2 (e ▸ hx)⟩)).2
  have t1 : turn E false 0 c!"!" (c!"[" :: (alt ++ c!"]" :: (c!"(" :: u))) = .val ⟨[], none, false, c!"[" :: (alt ++ c!"]" :: (c!"(" :: u))⟩ := by
    unfold turn
    rw [if_pos (by simp)]
    simp only [List.drop_succ_cons, List.drop_zero]
    rw [e2]
    simp only
    rw [if_pos trivial, e3]
  have t2 : turn E true 0 c!"[" (alt ++ c!"]" :: (c!"(" :: u)) = .val ⟨[c!"["], none, false, alt ++ c!"]" :: (c!"(" :: u)⟩ := by
    unfold turn
    rw [if_neg (by simp), if_pos rfl, e2]
    simp only
    rw [if_neg (by simp), if_neg (by simp)]
    rfl
  have hl : (alt ++ c!"]" :: (c!"(" :: u)).getLast? ≠ some c!"!" := by
    cases u with
    | nil => simp
    | cons x y => simpa using h5
  have hm : c!"[" ∉ alt ++ c!"]" :: (c!"(" :: u) := by
    simp only [List.mem_append, List.mem_cons, not_or]
    exact ⟨h2, by decide, by decide, h4⟩
  have key : turns E (b!"![" ++ alt ++ b!"](" ++ u).length false 0 [] (b!"![" ++ alt ++ b!"](" ++ u) = .val (b!"[" ++ alt ++ b!"](" ++ u, []) := by
    rw [e, List.length_cons, turns_cons, t1, C.val_bind]
    simp only [List.length_cons, Nat.add_sub_cancel_left, Option.toList_none, List.nil_append, Bool.false_eq_true, if_false]
    rw [show decide ((List.take 1 (c!"!" :: (c!"[" :: (alt ++ c!"]" :: (c!"(" :: u))))).getLast? = some c!"!") = true by simp]
    have h6 := text_turns hm hl (E := E) (n := 0) (ix := 0) (es := []) (r := []) (show turns E 0 false 0 [] [] = .val ([], []) from rfl) false (fun _ => rfl)
    rw [List.append_nil, Nat.zero_add] at h6
    have h7 : turns E ((alt ++ c!"]" :: (c!"(" :: u)).length + 1) true 0 [] (c!"[" :: (alt ++ c!"]" :: (c!"(" :: u))) = _ :=
      turns_step (x := b!"[") rfl t2 rfl (by decide) h6
    rw [h7, C.val_bind]
    simp
  unfold preprocess
  rw [key, C.val_bind]
  simp

end Verif.Images
