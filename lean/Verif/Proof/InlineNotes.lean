import Verif.Model.InlineNotes
import Verif.Spec.InlineNotes
import Verif.Proof.DropBuf

namespace Verif.InlineNotes
open DropBuf (Tok)

theorem decimal_number (n : Nat) : Man.decimal n = number n := by
  have hd : ∀ k, k < 10 → (Nat.digitChar k).toUInt8 = UInt8.ofNat (48 + k) := by
    intro k hk
    match k, hk with
    | 0, _ | 1, _ | 2, _ | 3, _ | 4, _ | 5, _ | 6, _ | 7, _ | 8, _ | 9, _ => decide
  induction n using Nat.strongRecOn with
  | _ n ih =>
    rw [Man.decimal, number, Nat.toDigits_eq_if (by decide)]
    by_cases h : n < 10
    · rw [if_pos h, if_pos h]; simp [hd n h]
    · rw [if_neg h, if_neg h, ih (n / 10) (by omega)]
      simp [number, hd (n % 10) (by omega)]

theorem matching_length {d : Nat} {s b r : Bytes} (h : matching d s = some (b, r)) : r.length < s.length := by
  induction s generalizing d b r with
  | nil => simp [matching] at h
  | cons c t ih =>
    rw [matching] at h
    split at h
    · obtain ⟨⟨b', r'⟩, h1, h2⟩ := Option.map_eq_some_iff.1 h
      have := ih h1
      simp at h2; simp [← h2.2]; omega
    · split at h
      · split at h
        · simp at h; simp [h.2]
        · obtain ⟨⟨b', r'⟩, h1, h2⟩ := Option.map_eq_some_iff.1 h
          have := ih h1
          simp at h2; simp [← h2.2]; omega
      · obtain ⟨⟨b', r'⟩, h1, h2⟩ := Option.map_eq_some_iff.1 h
        have := ih h1
        simp at h2; simp [← h2.2]; omega

theorem spaced_length {s b r : Bytes} (h : spaced s = some (b, r)) : r.length < s.length := by
  unfold spaced at h
  simp only at h
  split at h
  · rename_i c t e
    split at h
    · simp at h
      have := congrArg List.length e
      simp at this
      rw [← h.2]; omega
    · cases h
  · cases h

theorem note_length {s b r : Bytes} (h : note s = some (b, r)) : r.length < s.length := by
  unfold note at h
  split at h
  · split at h
    · rename_i x e
      cases h
      have := matching_length e
      simp at this; omega
    · cases h
  · split at h
    · have := spaced_length h
      simp at this; omega
    · cases h

theorem loop_fuel {n m : Nat} {b s : Bool} {k : Nat} {x : Bytes} (hn : x.length ≤ n) (hm : x.length ≤ m) : loop n b s k x = loop m b s k x := by
  induction n generalizing m b s k x with
  | zero =>
    have : x = [] := List.length_eq_zero_iff.1 (by omega)
    subst this
    cases m <;> simp [loop]
  | succ n ih =>
    cases x with
    | nil => cases m <;> simp [loop]
    | cons c t =>
      simp at hn hm
      obtain ⟨m, rfl⟩ : ∃ m', m = m' + 1 := ⟨m - 1, by omega⟩
      rw [loop, loop]
      split
      · rw [ih (by omega : t.length ≤ n) (by omega : t.length ≤ m)]
      · split
        · rw [ih (by omega : t.length ≤ n) (by omega : t.length ≤ m)]
        · split
          · rw [ih (by omega : t.length ≤ n) (by omega : t.length ≤ m)]
          · cases hnote : note (c :: t) with
            | none => simp only [ih (by omega : t.length ≤ n) (by omega : t.length ≤ m)]
            | some r =>
              obtain ⟨body, rest⟩ := r
              have := note_length hnote
              simp at this
              simp only [ih (by omega : rest.length ≤ n) (by omega : rest.length ≤ m)]

/-- What the loop writes when there is room, and the footnotes. -/
def res (b s : Bool) (k : Nat) (x : Bytes) : Bytes × List Bytes :=
  ((loop x.length b s k x).1.flatMap Tok.out, (loop x.length b s k x).2)

/-- One more byte. -/
def push (c : Byte) (r : Bytes × List Bytes) : Bytes × List Bytes := (c :: r.1, r.2)

theorem res_nil (b s : Bool) (k : Nat) : res b s k [] = ([], []) := by simp [res, loop]

theorem res_triple {b s : Bool} {k : Nat} {c : Byte} {t : Bytes} (h : b!"```" <+: c :: t ∨ b!"~~~" <+: c :: t) :
    res b s k (c :: t) = push c (res (!b) s k t) := by
  simp only [res, List.length_cons, loop, if_pos h, push]; rfl

theorem res_tick {s : Bool} {k : Nat} {t : Bytes} (h : ¬ b!"```" <+: c!"`" :: t) :
    res false s k (c!"`" :: t) = push c!"`" (res false (!s) k t) := by
  have h' : ¬ (b!"```" <+: c!"`" :: t ∨ b!"~~~" <+: c!"`" :: t) := by
    rintro (h1 | h1)
    · exact h h1
    · simp at h1
  simp only [res, List.length_cons, loop, if_neg h', if_pos (And.intro rfl rfl), push]; rfl

theorem res_code {b s : Bool} {k : Nat} {c : Byte} {t : Bytes} (h : ¬ b!"```" <+: c :: t) (h2 : ¬ b!"~~~" <+: c :: t)
    (hb : b = true ∨ (c ≠ c!"`" ∧ s = true)) : res b s k (c :: t) = push c (res b s k t) := by
  have h' : ¬ (b!"```" <+: c :: t ∨ b!"~~~" <+: c :: t) := by rintro (h1 | h1) <;> contradiction
  have h3 : ¬ (c = c!"`" ∧ b = false) := by rcases hb with rfl | ⟨e, rfl⟩ <;> simp_all
  have h4 : b = true ∨ s = true := by rcases hb with rfl | ⟨e, rfl⟩ <;> simp
  simp only [res, List.length_cons, loop, if_neg h', if_neg h3, if_pos h4, push]; rfl

theorem res_byte {k : Nat} {c : Byte} {t : Bytes} (h : c ≠ c!"`") (h2 : ¬ b!"~~~" <+: c :: t) (hn : note (c :: t) = none) :
    res false false k (c :: t) = push c (res false false k t) := by
  have h' : ¬ (b!"```" <+: c :: t ∨ b!"~~~" <+: c :: t) := by
    rintro (h1 | h1)
    · rw [List.cons_prefix_cons] at h1; exact h h1.1.symm
    · contradiction
  have h3 : ¬ (c = c!"`" ∧ false = false) := by simp_all
  simp only [res, List.length_cons, loop, if_neg h', if_neg h3, hn, push]; simp [Tok.out, h]

theorem res_note {k : Nat} {c : Byte} {t body rest : Bytes} (h : c ≠ c!"`") (h2 : c ≠ c!"~") (hn : note (c :: t) = some (body, rest)) :
    res false false k (c :: t) = (reference (k + 1) ++ (res false false (k + 1) rest).1, body :: (res false false (k + 1) rest).2) := by
  have h' : ¬ (b!"```" <+: c :: t ∨ b!"~~~" <+: c :: t) := by
    rintro (h1 | h1)
    · rw [List.cons_prefix_cons] at h1; exact h h1.1.symm
    · rw [List.cons_prefix_cons] at h1; exact h2 h1.1.symm
  have h3 : ¬ (c = c!"`" ∧ false = false) := by simp_all
  have hl := note_length hn
  simp at hl
  simp only [res, List.length_cons, loop, if_neg h', if_neg h3, hn]
  rw [loop_fuel (show rest.length ≤ t.length by omega) (Nat.le_refl _)]
  simp [Tok.out, h]

/-- Several more bytes. -/
def pushes (w : Bytes) (r : Bytes × List Bytes) : Bytes × List Bytes := (w ++ r.1, r.2)

theorem pushes_cons (c : Byte) (w : Bytes) (r : Bytes × List Bytes) : push c (pushes w r) = pushes (c :: w) r := rfl
theorem pushes_append (v w : Bytes) (r : Bytes × List Bytes) : pushes v (pushes w r) = pushes (v ++ w) r := by simp [pushes]

/-- Copying outside code. -/
theorem copy_text {k : Nat} (t rest : Bytes)
    (h : ∀ s, s <:+ t → s ≠ [] → s.head? ≠ some c!"`" ∧ ¬ b!"~~~" <+: s ++ rest ∧ note (s ++ rest) = none) :
    res false false k (t ++ rest) = pushes t (res false false k rest) := by
  induction t with
  | nil => rfl
  | cons c t ih =>
    obtain ⟨h1, h2, h3⟩ := h (c :: t) (List.suffix_refl _) (by simp)
    rw [List.cons_append] at h2 h3
    rw [List.cons_append, res_byte (by simpa using h1) h2 h3, ih fun s hs hn => h s (hs.trans (List.suffix_cons _ _)) hn, pushes_cons]

/-- Copying inside code. -/
theorem copy_code {b s : Bool} {k : Nat} (t rest : Bytes) (hb : b = true ∨ (c!"`" ∉ t ∧ s = true))
    (h : ∀ s, s <:+ t → s ≠ [] → ¬ b!"```" <+: s ++ rest ∧ ¬ b!"~~~" <+: s ++ rest) :
    res b s k (t ++ rest) = pushes t (res b s k rest) := by
  induction t with
  | nil => rfl
  | cons c t ih =>
    obtain ⟨h1, h2⟩ := h (c :: t) (List.suffix_refl _) (by simp)
    rw [List.cons_append] at h1 h2
    rw [List.cons_append, res_code h1 h2 (by
      rcases hb with hb | ⟨e, hs⟩
      · exact .inl hb
      · exact .inr ⟨fun e' => e (by simp [e']), hs⟩), ih (by
      rcases hb with hb | ⟨e, hs⟩
      · exact .inl hb
      · exact .inr ⟨fun e' => e (by simp [e']), hs⟩) fun s hs hn => h s (hs.trans (List.suffix_cons _ _)) hn, pushes_cons]

/-- A word that begins in a text cannot go on across a byte that it does not have. -/
theorem pre_stop {w s r : Bytes} {d : Byte} (h : w <+: s ++ d :: r) (hd : d ∉ w) : w <+: s := by
  rcases List.prefix_or_prefix_of_prefix h (List.prefix_append s _) with h1 | h1
  · exact h1
  · obtain ⟨u, rfl⟩ := h1
    cases u with
    | nil => simp
    | cons e u =>
      rw [List.prefix_append_right_inj, List.cons_prefix_cons] at h
      exact absurd (by simp [h.1]) hd

/-- A word that begins in a text is in the text, or the end of the text is one of its letters other than the last. -/
theorem pre_last {w s r : Bytes} {a : Byte} (h : w <+: s ++ r) (hs : s ≠ []) (ha : ∀ d ∈ w.dropLast, d = a) (hl : s.getLast? ≠ some a) : w <+: s := by
  rcases List.prefix_or_prefix_of_prefix h (List.prefix_append s _) with h1 | h1
  · exact h1
  · obtain ⟨u, rfl⟩ := h1
    cases u with
    | nil => simp
    | cons e u =>
      exfalso
      rcases List.eq_nil_or_concat s with rfl | ⟨s', x, rfl⟩
      · exact hs rfl
      · simp only [List.concat_eq_append] at *
        have := ha x (by rw [List.dropLast_append_of_ne_nil (by simp)]; simp)
        simp [this] at hl

theorem infix_of {w s t : Bytes} (h : w <+: s) (hs : s <:+ t) : w <:+: t := by
  obtain ⟨u, rfl⟩ := h
  obtain ⟨v, rfl⟩ := hs
  exact ⟨v, u, by simp⟩

theorem suffix_last {s t : Bytes} (h : s <:+ t) (hs : s ≠ []) : s.getLast? = t.getLast? := by
  obtain ⟨u, rfl⟩ := h
  rw [List.getLast?_append]
  cases hl : s.getLast? with
  | none => simp at hl; contradiction
  | some x => rfl

theorem note_none {s : Bytes} (h1 : ¬ b!"^[" <+: s) (h2 : ¬ b!"[^" <+: s) : note s = none := by
  simp only [note, if_neg h1, if_neg h2]

theorem suffix_head {s t : Bytes} {c : Byte} (h : s <:+ t) (hs : s.head? = some c) : c ∈ t := by
  cases s with
  | nil => simp at hs
  | cons d s => simp at hs; subst hs; exact h.subset (by simp)

theorem text_ok {t : Bytes} (h : (Piece.text t).Ok) (rest : Bytes) {k : Nat} :
    res false false k (t ++ rest) = pushes t (res false false k rest) := by
  obtain ⟨_, ⟨h1, h2, h3, h4⟩, l1, l2, l3⟩ := h
  apply copy_text
  intro s hs hn
  have hl := suffix_last hs hn
  rw [← hl] at l1 l2 l3
  exact ⟨fun e => h1 (suffix_head hs e), fun e => h2 (infix_of (pre_last e hn (by decide) l3) hs),
    note_none (fun e => h3 (infix_of (pre_last e hn (by decide) l1) hs)) (fun e => h4 (infix_of (pre_last e hn (by decide) l2) hs))⟩

theorem one_ok {c : Byte} (hc : c ≠ c!"`") (hd : c ≠ c!"~") (rest : Bytes) {k : Nat} (hn : note (c :: rest) = none) :
    res false false k (c :: rest) = pushes [c] (res false false k rest) :=
  res_byte hc (fun e => hd (List.cons_prefix_cons.1 e).1.symm) hn

theorem takeWhile_stop {p : Byte → Bool} {a : Bytes} {c : Byte} {t : Bytes} (h : ∀ x ∈ a, p x = true) (hc : p c = false) :
    (a ++ c :: t).takeWhile p = a := by
  induction a with
  | nil => simp [hc]
  | cons x a ih => rw [List.cons_append, List.takeWhile_cons, if_pos (h x (by simp)), ih fun y hy => h y (by simp [hy])]

theorem spaced_eq {a rest : Bytes} (h1 : c!"]" ∉ a) (h2 : c!"\n" ∉ a) :
    spaced (a ++ c!"]" :: rest) = if a.any isSpace = true then some (a, rest) else none := by
  unfold spaced
  have : (a ++ c!"]" :: rest).takeWhile (fun c => c != c!"]" && c != c!"\n") = a := by
    apply takeWhile_stop
    · intro x hx
      have e1 : x ≠ c!"]" := fun e => h1 (e ▸ hx)
      have e2 : x ≠ c!"\n" := fun e => h2 (e ▸ hx)
      simp at e1 e2
      simp [e1, e2]
    · decide
  simp only [this, List.drop_left]
  simp

theorem ref_ok {name : Bytes} (h : (Piece.ref name).Ok) (rest : Bytes) {k : Nat} :
    res false false k ((Piece.ref name).source ++ rest) = pushes (Piece.ref name).source (res false false k rest) := by
  obtain ⟨⟨h1, h2, h3, h4⟩, h5, h6, h7⟩ := h
  have hs : (Piece.ref name).source ++ rest = c!"[" :: c!"^" :: (name ++ c!"]" :: rest) := by simp [Piece.source]
  have hnl : c!"\n" ∉ name := fun e => by have := h7 _ e; revert this; decide
  have hsp : spaced (name ++ c!"]" :: rest) = none := by
    rw [spaced_eq h6 hnl, if_neg]
    simp only [List.any_eq_true, not_exists, not_and]
    intro x hx; simp [h7 x hx]
  have n1 : note (c!"[" :: c!"^" :: (name ++ c!"]" :: rest)) = none := by
    simp only [note, if_neg (show ¬ b!"^[" <+: c!"[" :: c!"^" :: (name ++ c!"]" :: rest) by simp),
      if_pos (show b!"[^" <+: c!"[" :: c!"^" :: (name ++ c!"]" :: rest) by simp)]
    exact hsp
  have n2 : note (c!"^" :: (name ++ c!"]" :: rest)) = none := by
    apply note_none
    · intro e
      rw [List.cons_prefix_cons] at e
      have := pre_stop e.2 (by decide)
      cases name with
      | nil => simp at this
      | cons d name =>
        simp only [List.cons_prefix_cons] at this
        exact h5 (by simp [← this.1])
    · simp
  rw [hs, one_ok (by decide) (by decide) _ n1, one_ok (by decide) (by decide) _ n2, copy_text name (c!"]" :: rest),
    one_ok (by decide) (by decide) rest (note_none (by simp) (by simp)), pushes_append, pushes_append, pushes_append]
  · simp [Piece.source]
  · intro s hs hn
    exact ⟨fun e => h1 (suffix_head hs e), fun e => h2 (infix_of (pre_stop e (by decide)) hs),
      note_none (fun e => h3 (infix_of (pre_stop e (by decide)) hs)) (fun e => h4 (infix_of (pre_stop e (by decide)) hs))⟩

theorem matching_append {a : Bytes} (h : Balanced a) (d : Nat) (hd : 1 ≤ d) (r : Bytes) :
    matching d (a ++ r) = (matching d r).map fun x => (a ++ x.1, x.2) := by
  induction h generalizing d r with
  | nil => simp
  | other h1 h2 _ ih => rw [List.cons_append, matching, if_neg h1, if_neg h2, ih d hd]; simp [Function.comp_def]
  | @group a t _ _ iha iht =>
    have hs : b!"[" ++ a ++ b!"]" ++ t ++ r = c!"[" :: (a ++ c!"]" :: (t ++ r)) := by simp
    rw [hs, matching, if_pos rfl, iha (d + 1) (by omega), matching, if_neg (by decide), if_pos rfl, if_neg (by omega), Nat.add_sub_cancel, iht d hd]
    simp [Function.comp_def]

theorem caret_ok {t : Bytes} (h : Balanced t) (rest : Bytes) {k : Nat} :
    res false false k ((Piece.caret t).source ++ rest) =
      (reference (k + 1) ++ (res false false (k + 1) rest).1, t :: (res false false (k + 1) rest).2) := by
  have hs : (Piece.caret t).source ++ rest = c!"^" :: c!"[" :: (t ++ c!"]" :: rest) := by simp [Piece.source]
  rw [hs]
  apply res_note (by decide) (by decide)
  have hm : matching 1 (t ++ c!"]" :: rest) = some (t, rest) := by
    rw [matching_append h 1 (by omega), matching, if_neg (by decide), if_pos rfl, if_pos (by omega)]; simp
  simp only [note, if_pos (show b!"^[" <+: c!"^" :: c!"[" :: (t ++ c!"]" :: rest) by simp), List.drop_succ_cons, List.drop_zero, hm]

theorem spaced_ok {t : Bytes} (h : (Piece.spaced t).Ok) (rest : Bytes) {k : Nat} :
    res false false k ((Piece.spaced t).source ++ rest) =
      (reference (k + 1) ++ (res false false (k + 1) rest).1, t :: (res false false (k + 1) rest).2) := by
  obtain ⟨h1, h2, c, hc, hsp⟩ := h
  have hs : (Piece.spaced t).source ++ rest = c!"[" :: c!"^" :: (t ++ c!"]" :: rest) := by simp [Piece.source]
  rw [hs]
  apply res_note (by decide) (by decide)
  simp only [note, if_neg (show ¬ b!"^[" <+: c!"[" :: c!"^" :: (t ++ c!"]" :: rest) by simp),
    if_pos (show b!"[^" <+: c!"[" :: c!"^" :: (t ++ c!"]" :: rest) by simp), List.drop_succ_cons, List.drop_zero]
  rw [spaced_eq h1 h2, if_pos (List.any_eq_true.2 ⟨c, hc, hsp⟩)]

theorem span_ok {t : Bytes} (h : (Piece.span t).Ok) (rest : Bytes) (hr : ¬ b!"``" <+: rest) {k : Nat} :
    res false false k ((Piece.span t).source ++ rest) = pushes (Piece.span t).source (res false false k rest) := by
  obtain ⟨h1, h2, h3⟩ := h
  have hs : (Piece.span t).source ++ rest = c!"`" :: (t ++ c!"`" :: rest) := by simp [Piece.source]
  rw [hs, res_tick, copy_code t (c!"`" :: rest) (.inr ⟨h2, by rfl⟩), res_tick]
  · simp [Piece.source, push, pushes]
  · intro e
    rw [List.cons_prefix_cons] at e
    exact hr e.2
  · intro s hs hn
    refine ⟨fun e => ?_, fun e => h3 (infix_of (pre_stop e (by decide)) hs)⟩
    cases s with
    | nil => exact hn rfl
    | cons c s =>
      rw [List.cons_append, List.cons_prefix_cons] at e
      exact h2 (suffix_head hs (by simp [e.1]))
  · cases t with
    | nil => exact absurd rfl h1
    | cons c t =>
      simp only [List.cons_append, List.cons_prefix_cons, true_and, not_and]
      intro e
      exact absurd (by simp [e]) h2

theorem fence_ok {f : Byte} {t : Bytes} (h : (Piece.fence f t).Ok) (rest : Bytes) {k : Nat} :
    res false false k ((Piece.fence f t).source ++ rest) = pushes (Piece.fence f t).source (res false false k rest) := by
  obtain ⟨hf, h0, h1, h2, h3, h4⟩ := h
  have hs : (Piece.fence f t).source ++ rest = f :: f :: f :: (t ++ f :: f :: f :: c!"\n" :: rest) := by simp [Piece.source]
  have hin : res true false k (t ++ f :: f :: f :: c!"\n" :: rest) = pushes t (res true false k (f :: f :: f :: c!"\n" :: rest)) := by
    apply copy_code _ _ (.inl rfl)
    intro s hq hn
    have hl := suffix_last hq hn
    rw [← hl] at h2
    rcases hf with rfl | rfl
    · exact ⟨fun e => h3 (infix_of (pre_last e hn (by decide) h2) hq), fun e => h4 (infix_of (pre_stop e (by decide)) hq)⟩
    · exact ⟨fun e => h3 (infix_of (pre_stop e (by decide)) hq), fun e => h4 (infix_of (pre_last e hn (by decide) h2) hq)⟩
  have hnl : res false false k (c!"\n" :: rest) = pushes [c!"\n"] (res false false k rest) :=
    one_ok (by decide) (by decide) rest (note_none (by simp) (by simp))
  cases t with
  | nil => exact absurd rfl h0
  | cons c t =>
    have hc : c ≠ f := by simpa using h1
    rw [hs, res_triple (by rcases hf with rfl | rfl <;> simp), Bool.not_false,
      res_code (by rcases hf with rfl | rfl <;> simp_all [eq_comm]) (by rcases hf with rfl | rfl <;> simp_all [eq_comm]) (.inl rfl),
      res_code (by rcases hf with rfl | rfl <;> simp_all [eq_comm]) (by rcases hf with rfl | rfl <;> simp_all [eq_comm]) (.inl rfl), hin,
      res_triple (by rcases hf with rfl | rfl <;> simp), Bool.not_true]
    rcases hf with rfl | rfl
    · rw [res_tick (by simp), res_tick (by simp), Bool.not_false, Bool.not_true, hnl]
      simp [push, pushes, Piece.source]
    · rw [res_byte (by decide) (by simp) (note_none (by simp) (by simp)), res_byte (by decide) (by simp) (note_none (by simp) (by simp)), hnl]
      simp [push, pushes, Piece.source]

/-- What follows code between backticks. -/
theorem after_span {ps : List Piece} {t : Bytes} (h : ∀ p ∈ ps, p.Ok) (ha : Apart (.span t :: ps)) : ¬ b!"``" <+: ps.flatMap Piece.source := by
  cases ps with
  | nil => simp
  | cons p ps =>
    have hp := h p (by simp)
    intro e
    rw [List.flatMap_cons] at e
    cases p with
    | text t =>
      obtain ⟨h0, ⟨h1, _⟩, _⟩ := hp
      cases t with
      | nil => exact h0 rfl
      | cons c t =>
        simp only [Piece.source, List.cons_append, List.cons_prefix_cons] at e
        exact h1 (by simp [e.1])
    | caret t => simp [Piece.source] at e
    | spaced t => simp [Piece.source] at e
    | ref t => simp [Piece.source] at e
    | span t =>
      obtain ⟨h0, h1, _⟩ := hp
      cases t with
      | nil => exact h0 rfl
      | cons c t =>
        simp [Piece.source, List.cons_prefix_cons] at e
        exact h1 (by simp [e])
    | fence f t => simp [Apart] at ha

theorem Apart.tail {p : Piece} {ps : List Piece} (h : Apart (p :: ps)) : Apart ps := by
  unfold Apart at h
  split at h
  · exact h.elim
  · rename_i e; cases e; exact h
  · rename_i e; cases e

theorem res_page (ps : List Piece) (h : ∀ p ∈ ps, p.Ok) (ha : Apart ps) (k : Nat) :
    res false false k (ps.flatMap Piece.source) = (body k ps, notes ps) := by
  induction ps generalizing k with
  | nil => simp [res_nil, body, notes]
  | cons p ps ih =>
    have hp := h p (by simp)
    have ih := ih (fun q hq => h q (by simp [hq])) ha.tail
    rw [List.flatMap_cons]
    cases p with
    | text t => rw [show (Piece.text t).source = t from rfl, text_ok hp, ih]; simp [pushes, body, notes, Piece.source]
    | caret t => rw [caret_ok hp, ih]; simp [body, notes, reference, decimal_number]
    | spaced t => rw [spaced_ok hp, ih]; simp [body, notes, reference, decimal_number]
    | ref t => rw [ref_ok hp, ih]; simp [pushes, body, notes]
    | span t => rw [span_ok hp _ (after_span (fun q hq => h q (by simp [hq])) ha), ih]; simp [pushes, body, notes]
    | fence f t => rw [fence_ok hp, ih]; simp [pushes, body, notes]

theorem definitions_out (k : Nat) (ts : List Bytes) : (definitions k ts).flatMap Tok.out = defs k ts := by
  induction ts generalizing k with
  | nil => rfl
  | cons t ts ih => simp [definitions, defs, ih, Tok.out, decimal_number]

theorem loop_reserve (n : Nat) (b s : Bool) (k : Nat) (x : Bytes) : ∀ t ∈ (loop n b s k x).1, ∀ a e, t ≠ .reserve a e := by
  induction n generalizing b s k x with
  | zero => simp [loop]
  | succ n ih =>
    cases x with
    | nil => simp [loop]
    | cons c t =>
      rw [loop]
      split
      · intro u hu; rcases List.mem_cons.1 hu with rfl | hu
        · simp
        · exact ih _ _ _ _ u hu
      · split
        · intro u hu; rcases List.mem_cons.1 hu with rfl | hu
          · simp
          · exact ih _ _ _ _ u hu
        · split
          · intro u hu; rcases List.mem_cons.1 hu with rfl | hu
            · simp
            · exact ih _ _ _ _ u hu
          · split
            · intro u hu; rcases List.mem_cons.1 hu with rfl | hu
              · simp
              · exact ih _ _ _ _ u hu
            · intro u hu; rcases List.mem_cons.1 hu with rfl | hu
              · simp
              · exact ih _ _ _ _ u hu

theorem definitions_reserve (k : Nat) (ts : List Bytes) : ∀ t ∈ definitions k ts, ∀ a e, t ≠ .reserve a e := by
  induction ts generalizing k with
  | nil => simp [definitions]
  | cons x ts ih =>
    intro u hu
    rw [definitions, List.mem_append] at hu
    rcases hu with hu | hu
    · simp at hu
      rcases hu with rfl | rfl | rfl <;> simp
    · exact ih _ u hu

theorem process_page (ps : List Piece) (h : ∀ p ∈ ps, p.Ok) (ha : Apart ps)
    (hr : (expected ps).length < 3 * (ps.flatMap Piece.source).length) : process (ps.flatMap Piece.source) = .val (expected ps) := by
  have hres := res_page ps h ha 0
  rw [res, Prod.mk.injEq] at hres
  obtain ⟨e1, e2⟩ := hres
  have hout : ((loop (ps.flatMap Piece.source).length false false 0 (ps.flatMap Piece.source)).1 ++
      if (loop (ps.flatMap Piece.source).length false false 0 (ps.flatMap Piece.source)).2 = [] then []
      else .chunk b!"\n\n" :: definitions 0 (loop (ps.flatMap Piece.source).length false false 0 (ps.flatMap Piece.source)).2).flatMap Tok.out = expected ps := by
    rw [List.flatMap_append, e1, e2, expected]
    split
    · rfl
    · rw [List.flatMap_cons, definitions_out]; rfl
  unfold process
  simp only
  rw [DropBuf.run_fits _ (by rw [hout]; omega), hout]
  intro t ht
  rcases List.mem_append.1 ht with ht | ht
  · exact loop_reserve _ _ _ _ _ t ht
  · split at ht
    · simp at ht
    · rcases List.mem_cons.1 ht with rfl | ht
      · simp
      · exact definitions_reserve _ _ t ht

theorem number_mono {i n : Nat} (h : i ≤ n) : (number i).length ≤ (number n).length := by
  simp only [number, List.length_map]
  exact (Nat.length_toDigits_le_iff (by decide) Nat.length_toDigits_pos).2
    (Nat.lt_of_le_of_lt h ((Nat.length_toDigits_le_iff (by decide) Nat.length_toDigits_pos).1 (Nat.le_refl _)))

/-- Bytes in footnotes. -/
def inside (ts : List Bytes) : Nat := (ts.map List.length).sum

theorem source_length (ps : List Piece) : (ps.flatMap Piece.source).length = outside ps + inside (notes ps) + 3 * (notes ps).length := by
  induction ps with
  | nil => rfl
  | cons p ps ih =>
    rw [List.flatMap_cons, List.length_append, ih]
    cases p <;> simp [outside, notes, Piece.source, inside] <;> omega

theorem body_length (ps : List Piece) (k N : Nat) (h : k + (notes ps).length ≤ N) :
    (body k ps).length ≤ outside ps + (notes ps).length * (5 + (number N).length) := by
  induction ps generalizing k with
  | nil => simp [body]
  | cons p ps ih =>
    cases p with
    | caret t =>
      have hm := number_mono (show k + 1 ≤ N by simp [notes] at h; omega)
      have := ih (k + 1) (by simp [notes] at h; omega)
      simp only [body, notes, outside, List.length_append, List.length_cons, List.length_nil, Nat.succ_mul]
      omega
    | spaced t =>
      have hm := number_mono (show k + 1 ≤ N by simp [notes] at h; omega)
      have := ih (k + 1) (by simp [notes] at h; omega)
      simp only [body, notes, outside, List.length_append, List.length_cons, List.length_nil, Nat.succ_mul]
      omega
    | _ =>
      have := ih k (by simpa [notes] using h)
      simp only [body, notes, outside, List.length_append]
      omega

theorem defs_length (ts : List Bytes) (k N : Nat) (h : k + ts.length ≤ N) :
    (defs k ts).length ≤ inside ts + ts.length * (8 + (number N).length) := by
  induction ts generalizing k with
  | nil => simp [defs]
  | cons t ts ih =>
    have hm := number_mono (show k + 1 ≤ N by simp at h; omega)
    have := ih (k + 1) (by simp at h; omega)
    simp only [defs, inside, List.length_append, List.length_cons, List.length_nil, Nat.succ_mul, List.map_cons, List.sum_cons] at *
    omega

theorem inside_ge (ts : List Bytes) (m : Nat) (h : ∀ t ∈ ts, m ≤ t.length) : ts.length * m ≤ inside ts := by
  induction ts with
  | nil => simp [inside]
  | cons t ts ih =>
    have := ih fun x hx => h x (by simp [hx])
    have := h t (by simp)
    simp only [inside, List.length_cons, List.map_cons, List.sum_cons, Nat.succ_mul] at *
    omega

theorem room (ps : List Piece) (h : ∀ t ∈ notes ps, 2 + (number (notes ps).length).length ≤ t.length) (ho : 2 ≤ outside ps) :
    (expected ps).length < 3 * (ps.flatMap Piece.source).length := by
  rw [source_length, expected, List.length_append]
  have h1 := body_length ps 0 (notes ps).length (by omega)
  have h2 := defs_length (notes ps) 0 (notes ps).length (by omega)
  have h3 := inside_ge _ _ h
  generalize (number (notes ps).length).length = d at *
  rw [Nat.mul_add] at h1 h2 h3
  generalize (notes ps).length * d = e at *
  have h4 : (if notes ps = [] then ([] : Bytes) else b!"\n\n" ++ defs 0 (notes ps)).length ≤ 2 + (defs 0 (notes ps)).length := by
    split <;> simp; omega
  omega

end Verif.InlineNotes
