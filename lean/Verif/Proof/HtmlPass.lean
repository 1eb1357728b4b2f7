/- Lemmas on the passes over HTML. -/
import Verif.Model.HtmlPass
import Verif.Spec.HtmlPass
import Verif.Proof.MetaParse

namespace Verif.HtmlPass
open Spec MetaParse Transforms

/-! ### Header levels -/

theorem idx_split {c : Byte} {l : Bytes} {i : Nat} (h : idx c l = some i) :
    l = l.take i ++ c :: l.drop (i + 1) ∧ c ∉ l.take i ∧ i < l.length := by
  obtain ⟨hi, h1, h2⟩ := List.findIdx?_eq_some_iff_getElem.1 h
  refine ⟨?_, ?_, hi⟩
  · have h3 : l[i] = c := by simpa using h1
    rw [← h3, ← List.drop_eq_getElem_cons hi, List.take_append_drop]
  · intro hm
    obtain ⟨j, hj, he⟩ := List.mem_iff_getElem.1 hm
    have hj' : j < i := by simp at hj; omega
    have := h2 j hj'
    rw [List.getElem_take] at he
    simp [he] at this

theorem newLevel_eq {b l : Nat} (hb : 1 ≤ b) (hl : Level l) : newLevel b l = min 6 (l + b - 1) := by
  unfold newLevel
  have := hl.1
  simp only []
  split
  · omega
  · split <;> omega

theorem digit_level {d : Byte} (h1 : 49 ≤ d) (h2 : d ≤ 54) : Level (d.toNat - 48) ∧ d = .ofNat (48 + (d.toNat - 48)) := by
  have h1 : 49 ≤ d.toNat := h1
  have h2 : d.toNat ≤ 54 := h2
  refine ⟨⟨by omega, by omega⟩, ?_⟩
  have : 48 + (d.toNat - 48) = d.toNat := by omega
  rw [this]; simp

theorem level_digit {l : Nat} (h : Level l) : (49 : Byte) ≤ .ofNat (48 + l) ∧ (.ofNat (48 + l) : Byte) ≤ 54 ∧
    (UInt8.ofNat (48 + l)).toNat - 48 = l := by
  obtain ⟨h1, h2⟩ := h
  have : l = 1 ∨ l = 2 ∨ l = 3 ∨ l = 4 ∨ l = 5 ∨ l = 6 := by omega
  rcases this with rfl | rfl | rfl | rfl | rfl | rfl <;> decide

theorem headingAt_close {l : Nat} (t : Bytes) (h : Level l) : headingAt (closeTag l ++ t) = some (true, l) := by
  obtain ⟨h1, h2, h3⟩ := level_digit h
  show headingAt (60 :: 47 :: 104 :: _ :: 62 :: t) = _
  simp only [headingAt]
  rw [if_pos ⟨h1, h2⟩, h3]

theorem headingAt_open {l : Nat} {a : Bytes} (t : Bytes) (h : Level l) (ha : Attrs a) :
    headingAt (openTag l a ++ t) = some (false, l) := by
  obtain ⟨h1, h2, h3⟩ := level_digit h
  rcases ha.1 with rfl | ⟨c, r, rfl, hc⟩
  · show headingAt (60 :: 104 :: _ :: 62 :: t) = _
    simp only [headingAt]
    rw [if_pos ⟨h1, h2, .inl trivial⟩, h3]
  · have : openTag l (c :: r) ++ t = 60 :: 104 :: .ofNat (48 + l) :: c :: (r ++ (62 :: t)) := by simp [openTag]
    rw [this]
    simp only [headingAt]
    rw [if_pos ⟨h1, h2, .inr hc⟩, h3]

theorem idx_open {l : Nat} {a : Bytes} (t : Bytes) (h : Level l) (ha : Attrs a) :
    idx 62 (openTag l a ++ t) = some (3 + a.length) := by
  have h1 : openTag l a ++ t = (b!"<h" ++ [.ofNat (48 + l)] ++ a) ++ 62 :: t := by simp [openTag]
  have h2 : (62 : Byte) ∉ b!"<h" ++ [.ofNat (48 + l)] ++ a := by
    obtain ⟨_, h2, _⟩ := level_digit h
    simp only [List.mem_append, not_or]
    refine ⟨⟨by decide, ?_⟩, ha.2⟩
    rw [List.mem_singleton]
    intro h'
    rw [← h'] at h2
    revert h2; decide
  rw [h1, idx_append h2]
  simp
  omega

theorem idx_close {l : Nat} (t : Bytes) (h : Level l) : idx 62 (closeTag l ++ t) = some 4 := by
  have h1 : closeTag l ++ t = (b!"</h" ++ [.ofNat (48 + l)]) ++ 62 :: t := by simp [closeTag]
  have h2 : (62 : Byte) ∉ b!"</h" ++ [.ofNat (48 + l)] := by
    obtain ⟨_, h2, _⟩ := level_digit h
    simp only [List.mem_append, not_or]
    refine ⟨by decide, ?_⟩
    rw [List.mem_singleton]
    intro h'
    rw [← h'] at h2
    revert h2; decide
  rw [h1, idx_append h2]
  rfl

theorem headingAt_some {s : Bytes} {cl : Bool} {l n : Nat} (h : headingAt s = some (cl, l)) (hn : idx 62 s = some n) :
    Level l ∧ ((cl = true ∧ n = 4 ∧ ∃ t, s = closeTag l ++ t) ∨
      (cl = false ∧ ∃ a t, Attrs a ∧ n = 3 + a.length ∧ s = openTag l a ++ t)) := by
  unfold headingAt at h
  split at h
  · rename_i d t
    split at h
    · rename_i hd
      cases h
      obtain ⟨h1, h2⟩ := digit_level hd.1 hd.2
      refine ⟨h1, .inl ⟨rfl, ?_, t, by simp [closeTag, ← h2]⟩⟩
      have : (60 :: 47 :: 104 :: d :: 62 :: t : Bytes) = closeTag (d.toNat - 48) ++ t := by simp [closeTag, ← h2]
      rw [this, idx_close _ h1] at hn
      cases hn; rfl
    · cases h
  · rename_i d c t
    split at h
    · rename_i hd
      cases h
      obtain ⟨h1, h2⟩ := digit_level hd.1 hd.2.1
      obtain ⟨h3, h4, h5⟩ := idx_split hn
      have hn3 : 3 ≤ n := by
        have hd' : d ≠ 62 := fun e => by have := hd.2.1; rw [e] at this; revert this; decide
        rcases Nat.lt_or_ge n 3 with hlt | hge
        · exfalso
          have : (60 :: 104 :: d :: c :: t : Bytes)[n]? = some 62 := by
            rw [h3, List.getElem?_append_right (by rw [List.length_take]; omega), List.length_take,
              Nat.min_eq_left (by omega), Nat.sub_self]
            rfl
          have hnn : n = 0 ∨ n = 1 ∨ n = 2 := by omega
          rcases hnn with rfl | rfl | rfl <;> simp at this
          exact hd' this
        · exact hge
      refine ⟨h1, .inr ⟨rfl, ((60 :: 104 :: d :: c :: t : Bytes).take n).drop 3,
        (60 :: 104 :: d :: c :: t : Bytes).drop (n + 1), ?_, ?_, ?_⟩⟩
      · refine ⟨?_, fun hm => h4 (List.drop_subset _ _ hm)⟩
        obtain ⟨m, rfl⟩ : ∃ m, n = 3 + m := ⟨n - 3, by omega⟩
        cases m with
        | zero => left; rfl
        | succ m =>
          right
          refine ⟨c, t.take m, ?_, ?_⟩
          · rw [show 3 + (m + 1) = m + 4 from by omega]
            simp
          · rcases hd.2.2 with rfl | h
            · exfalso
              apply h4
              rw [show 3 + (m + 1) = m + 4 from by omega]
              simp
            · exact h
      · simp only [List.length_drop, List.length_take]; omega
      · conv => lhs; rw [h3]
        obtain ⟨m, rfl⟩ : ∃ m, n = m + 3 := ⟨n - 3, by omega⟩
        simp [openTag, ← h2]
    · cases h
  · cases h

theorem tagHere_iff (s : Bytes) : TagHere s ↔ ∃ cl l n, headingAt s = some (cl, l) ∧ idx 62 s = some n := by
  constructor
  · rintro (⟨l, a, t, h1, h2, rfl⟩ | ⟨l, t, h1, rfl⟩)
    · exact ⟨_, _, _, headingAt_open t h1 h2, idx_open t h1 h2⟩
    · exact ⟨_, _, _, headingAt_close t h1, idx_close t h1⟩
  · rintro ⟨cl, l, n, h1, h2⟩
    obtain ⟨h3, ⟨_, _, t, h⟩ | ⟨_, a, t, h4, _, h⟩⟩ := headingAt_some h1 h2
    · exact .inr ⟨l, t, h3, h⟩
    · exact .inl ⟨l, a, t, h3, h4, h⟩

theorem openTag_length (l : Nat) (a : Bytes) : (openTag l a).length = a.length + 4 := by
  simp [openTag]
theorem closeTag_length (l : Nat) : (closeTag l).length = 5 := rfl

theorem writeTag_close (cap : Nat) (out t : Bytes) (l nl : Nat) (h : out.length + 14 ≤ cap) :
    writeTag cap out (closeTag l ++ t) true nl 4 = .val (cap, out ++ closeTag nl) := by
  unfold writeTag
  simp only []
  rw [if_neg (show ¬ cap - out.length < 4 + 10 by omega)]
  simp only [if_true]
  rw [puts_val (by simp; omega)]
  rfl

theorem writeTag_open (cap : Nat) (out t a : Bytes) (l nl : Nat) (h : out.length + a.length + 14 ≤ cap) :
    writeTag cap out (openTag l a ++ t) false nl (3 + a.length) = .val (cap, out ++ openTag nl a) := by
  unfold writeTag
  simp only []
  rw [if_neg (show ¬ cap - out.length < 3 + a.length + 10 by omega)]
  simp only [Bool.false_eq_true, if_false]
  rw [puts_val (by simp; omega), C.val_bind]
  have h1 : ((openTag l a ++ t).drop 3).take (3 + a.length - 3) = a := by
    rw [Nat.add_sub_cancel_left]
    simp [openTag]
  rw [h1]
  have h2 : (if 3 + a.length - 3 > 0 ∧ cap - (out ++ [60, 104, UInt8.ofNat (48 + nl)]).length ≥ 3 + a.length - 3
      then puts cap (out ++ [60, 104, .ofNat (48 + nl)]) a else .val (out ++ [60, 104, .ofNat (48 + nl)])) =
      .val (out ++ [60, 104, .ofNat (48 + nl)] ++ a) := by
    by_cases ha : a.length = 0
    · rw [if_neg (by omega), List.eq_nil_of_length_eq_zero ha, List.append_nil]
    · rw [if_pos (by simp; omega), puts_val (by simp; omega)]
  rw [h2, C.val_bind, put_val (by simp; omega)]
  simp [openTag]

theorem copyTag_eq (cap : Nat) (out p t : Bytes) (h : out.length + p.length < cap) :
    copyTag cap out (p ++ t) p.length = .val (cap, out ++ p) := by
  unfold copyTag
  rw [if_pos (by omega)]
  simp only [List.take_left]
  rw [puts_val (by omega)]
  rfl

theorem adjustLoop_spec (b : Nat) (hb : 1 ≤ b) : ∀ (n : Nat) (s : Bytes), s.length ≤ n → ∀ cap out,
    out.length + s.length + 1024 ≤ cap → ∃ o, adjustLoop b cap out s = .val (out ++ o) ∧ Leveled b s o := by
  intro n
  induction n with
  | zero =>
    intro s hs cap out hc
    obtain rfl : s = [] := by cases s <;> simp_all
    unfold adjustLoop
    exact ⟨[], by simp [finish_val (show out.length < cap by omega)], .nil⟩
  | succ n ih =>
    intro s hs cap out hc
    match s with
    | [] =>
      unfold adjustLoop
      exact ⟨[], by simp [finish_val (show out.length < cap by omega)], .nil⟩
    | c :: t =>
      simp only [List.length_cons] at hs hc
      have hput : put cap out c = .val (out ++ [c]) := put_val (by omega)
      have hother : ¬ TagHere (c :: t) → ∃ o, adjustLoop b cap (out ++ [c]) t = .val (out ++ o) ∧
          Leveled b (c :: t) o := by
        intro hn
        obtain ⟨o, h1, h2⟩ := ih t (by omega) cap (out ++ [c]) (by simp; omega)
        exact ⟨c :: o, by rw [h1]; simp, .other hn h2⟩
      unfold adjustLoop
      split
      · rename_i hh
        unfold copyChar
        rw [if_pos (by omega)]
        simp only [hput, C.val_bind]
        refine hother fun htag => ?_
        obtain ⟨_, _, _, h, _⟩ := (tagHere_iff _).1 htag
        rw [hh] at h; cases h
      · rename_i cl l hh
        split
        · rename_i hi
          rw [if_pos (by omega), hput, C.val_bind]
          refine hother fun htag => ?_
          obtain ⟨_, _, _, _, h⟩ := (tagHere_iff _).1 htag
          rw [hi] at h; cases h
        · rename_i m hm
          obtain ⟨hl, ⟨rfl, rfl, u, hu⟩ | ⟨rfl, a, u, ha, rfl, hu⟩⟩ := headingAt_some hh hm
          · have hlen : (closeTag l ++ u).length = t.length + 1 := by rw [← hu]; simp
            have hlu : u.length + 5 = t.length + 1 := by
              rw [List.length_append, closeTag_length] at hlen; omega
            have hdrop : (c :: t).drop (4 + 1) = u := by rw [hu]; exact List.drop_left' rfl
            have key : (if newLevel b l ≠ l then writeTag cap out (c :: t) true (newLevel b l) 4
                else copyTag cap out (c :: t) (4 + 1)) = .val (cap, out ++ closeTag (min 6 (l + b - 1))) := by
              rw [hu]
              split
              · rw [writeTag_close _ _ _ _ _ (by omega), newLevel_eq hb hl]
              · rename_i hne
                rw [← newLevel_eq hb hl, Decidable.not_not.1 hne]
                exact copyTag_eq cap out (closeTag l) u (by rw [closeTag_length]; omega)
            rw [key, C.val_bind, hdrop]
            obtain ⟨o, h1, h2⟩ := ih u (by omega) cap (out ++ closeTag (min 6 (l + b - 1)))
              (by rw [List.length_append, closeTag_length]; omega)
            refine ⟨closeTag (min 6 (l + b - 1)) ++ o, by simp only [h1, List.append_assoc], ?_⟩
            rw [hu]; exact .closeTag hl h2
          · have hlen : (openTag l a ++ u).length = t.length + 1 := by rw [← hu]; simp
            have hlu : a.length + 4 + u.length = t.length + 1 := by
              rw [List.length_append, openTag_length] at hlen; omega
            have hdrop : (c :: t).drop (3 + a.length + 1) = u := by
              rw [hu]; exact List.drop_left' (by rw [openTag_length]; omega)
            have key : (if newLevel b l ≠ l then writeTag cap out (c :: t) false (newLevel b l) (3 + a.length)
                else copyTag cap out (c :: t) (3 + a.length + 1)) =
                .val (cap, out ++ openTag (min 6 (l + b - 1)) a) := by
              rw [hu]
              split
              · rw [writeTag_open _ _ _ _ _ _ (by omega), newLevel_eq hb hl]
              · rename_i hne
                rw [← newLevel_eq hb hl, Decidable.not_not.1 hne]
                have := copyTag_eq cap out (openTag l a) u (by rw [openTag_length]; omega)
                rw [openTag_length] at this
                rw [show 3 + a.length + 1 = a.length + 4 from by omega]
                exact this
            rw [key, C.val_bind, hdrop]
            obtain ⟨o, h1, h2⟩ := ih u (by omega) cap (out ++ openTag (min 6 (l + b - 1)) a)
              (by rw [List.length_append, openTag_length]; omega)
            refine ⟨openTag (min 6 (l + b - 1)) a ++ o, by simp only [h1, List.append_assoc], ?_⟩
            rw [hu]; exact .openTag hl ha h2

theorem Spec.Leveled.length {b : Nat} {s o : Bytes} (h : Leveled b s o) : o.length = s.length := by
  induction h with
  | nil => rfl
  | openTag _ _ _ ih => simp [openTag_length, ih]
  | closeTag _ _ ih => simp [closeTag_length, ih]
  | other _ _ ih => simp [ih]

theorem openTag_inj {l l' : Nat} {a a' t t' : Bytes} (h : Level l) (h' : Level l') (ha : Attrs a) (ha' : Attrs a')
    (e : openTag l a ++ t = openTag l' a' ++ t') : l = l' ∧ a = a' ∧ t = t' := by
  have h1 := headingAt_open t h ha
  rw [e, headingAt_open t' h' ha'] at h1
  have h2 := idx_open t h ha
  rw [e, idx_open t' h' ha'] at h2
  have hl : l' = l := by simpa using h1
  have hlen : a'.length = a.length := by simp at h2; omega
  subst hl
  obtain ⟨e1, e2⟩ := List.append_inj e (by rw [openTag_length, openTag_length, hlen])
  refine ⟨rfl, ?_, e2⟩
  simpa [openTag] using e1

theorem Spec.Leveled.unique {b : Nat} {s o : Bytes} (h : Leveled b s o) : ∀ {o'}, Leveled b s o' → o' = o := by
  induction h with
  | nil => intro o' h'; generalize hs : ([] : Bytes) = s at h'; cases h' <;> first | rfl | cases hs
  | @openTag l a t o hl ha _ ih =>
    intro o' h'
    generalize hs : Spec.openTag l a ++ t = s at h'
    cases h' with
    | nil => cases hs
    | openTag hl' ha' h' =>
      obtain ⟨rfl, rfl, rfl⟩ := openTag_inj hl hl' ha ha' hs
      rw [ih h']
    | closeTag hl' h' =>
      have h1 := headingAt_open t hl ha
      rw [hs, headingAt_close _ hl'] at h1
      cases h1
    | other hn _ => exact absurd (hs ▸ .inl ⟨l, a, t, hl, ha, rfl⟩) hn
  | @closeTag l t o hl _ ih =>
    intro o' h'
    generalize hs : Spec.closeTag l ++ t = s at h'
    cases h' with
    | nil => cases hs
    | openTag hl' ha' h' =>
      have h1 := headingAt_close t hl
      rw [hs, headingAt_open _ hl' ha'] at h1
      cases h1
    | @closeTag l' t' o' hl' h' =>
      have h1 := headingAt_close t hl
      rw [hs, headingAt_close _ hl'] at h1
      simp only [Option.some.injEq, Prod.mk.injEq, true_and] at h1
      subst h1
      have := List.append_cancel_left hs
      subst this
      rw [ih h']
    | other hn _ => exact absurd (hs ▸ .inr ⟨l, t, hl, rfl⟩) hn
  | @other c t o hn _ ih =>
    intro o' h'
    generalize hs : c :: t = s at h'
    cases h' with
    | nil => cases hs
    | openTag hl' ha' h' => exact absurd (.inl ⟨_, _, _, hl', ha', hs⟩) hn
    | closeTag hl' h' => exact absurd (.inr ⟨_, _, hl', hs⟩) hn
    | other _ h' => cases hs; rw [ih h']

/-! ### White space in tags -/

theorem startsTag_iff (c : Byte) (t : Bytes) : startsTag c t = true ↔ Opens c t := by
  cases t with
  | nil => simp [startsTag, Opens]
  | cons d t => simp [startsTag, Opens, and_assoc]

/-- The result from each of the three states. -/
theorem cleanLoop_spec (cap : Nat) : ∀ (n : Nat) (s : Bytes), s.length ≤ n →
    (∀ out last, out.length + s.length < cap → last = false →
      ∃ o, cleanLoop cap false last out s = .val (out ++ o) ∧ Outside s o) ∧
    (∀ out, out.length + s.length < cap →
      ∃ o, cleanLoop cap true false out s = .val (out ++ o) ∧ Inside s o) ∧
    (∀ out w, out.length + s.length + 1 < cap → w ≠ [] → (∀ c ∈ w, isSpace c = true) →
      ∃ o, cleanLoop cap true true (out ++ [32]) s = .val (out ++ o) ∧ Inside (w ++ s) o) := by
  intro n
  induction n with
  | zero =>
    intro s hs
    obtain rfl : s = [] := by cases s <;> simp_all
    refine ⟨fun out last h _ => ⟨[], ?_, .nil⟩, fun out h => ⟨[], ?_, .nil⟩, fun out w h h1 h2 => ⟨[32], ?_, ?_⟩⟩
    · rw [cleanLoop, finish_val (by simpa using h), List.append_nil]
    · rw [cleanLoop, finish_val (by simpa using h), List.append_nil]
    · rw [cleanLoop, finish_val (by simpa using h)]
    · rw [List.append_nil]; exact .trail h1 h2
  | succ n ih =>
    intro s hs
    match s with
    | [] => exact (ih [] (by simp))
    | c :: t =>
      simp only [List.length_cons] at hs ⊢
      obtain ⟨i1, i2, i3⟩ := ih t (by omega)
      have hsp : ∀ c : Byte, c = 60 ∨ c = 62 → isSpace c = false := by
        rintro c (rfl | rfl) <;> decide
      have hop : Opens c t → c = 60 := fun h => h.1
      refine ⟨fun out last hc hl => ?_, fun out hc => ?_, fun out w hc hw1 hw2 => ?_⟩
      · subst hl
        unfold cleanLoop
        by_cases h1 : startsTag c t = true
        · rw [if_pos h1, put_val (by omega), C.val_bind]
          obtain ⟨o, h2, h3⟩ := i2 (out ++ [c]) (by simp; omega)
          exact ⟨c :: o, by rw [h2]; simp, .enter ((startsTag_iff c t).1 h1) h3⟩
        · rw [if_neg h1]
          obtain ⟨o, h2, h3⟩ := i1 (out ++ [c]) false (by simp; omega) rfl
          refine ⟨c :: o, ?_, .char (fun h => h1 ((startsTag_iff c t).2 h)) h3⟩
          by_cases h4 : c = 62
          · rw [if_pos h4]
            simp only [Bool.false_and, Bool.false_eq_true, if_false]
            rw [put_val (by omega), C.val_bind, h2]; simp
          · rw [if_neg h4]
            simp only [Bool.false_and, Bool.false_eq_true, if_false]
            rw [put_val (by omega), C.val_bind, h2]; simp
      · unfold cleanLoop
        by_cases h1 : startsTag c t = true
        · rw [if_pos h1, put_val (by omega), C.val_bind]
          obtain ⟨o, h2, h3⟩ := i2 (out ++ [c]) (by simp; omega)
          have hc60 := hop ((startsTag_iff c t).1 h1)
          exact ⟨c :: o, by rw [h2]; simp, .char (hsp c (.inl hc60)) (by rw [hc60]; decide) h3⟩
        · rw [if_neg h1]
          by_cases h4 : c = 62
          · rw [if_pos h4]
            simp only [Bool.false_and, Bool.false_eq_true, if_false]
            rw [put_val (by omega), C.val_bind]
            obtain ⟨o, h2, h3⟩ := i1 (out ++ [c]) false (by simp; omega) rfl
            refine ⟨c :: o, by rw [h2]; simp, ?_⟩
            subst h4
            exact .close (w := []) (by simp) h3
          · rw [if_neg h4]
            by_cases h5 : isSpace c = true
            · rw [if_pos (by simp [h5])]
              simp only [Bool.not_false, if_true]
              rw [put_val (by omega), C.val_bind]
              exact i3 out [c] (by omega) (by simp) (by simpa using h5)
            · rw [if_neg (by simp [h5]), put_val (by omega), C.val_bind]
              obtain ⟨o, h2, h3⟩ := i2 (out ++ [c]) (by simp; omega)
              exact ⟨c :: o, by rw [h2]; simp, .char (by simpa using h5) h4 h3⟩
      · unfold cleanLoop
        have hnext : isSpace c = false → c ≠ 62 → (∃ o, cleanLoop cap true false (out ++ [32] ++ [c]) t =
            .val (out ++ [32] ++ [c] ++ o) ∧ Inside t o) →
            ∃ o, cleanLoop cap true false (out ++ [32] ++ [c]) t = .val (out ++ o) ∧ Inside (w ++ c :: t) o := by
          rintro h1 h2 ⟨o, h3, h4⟩
          exact ⟨32 :: c :: o, by rw [h3]; simp, .space hw1 hw2 h1 h2 (.char h1 h2 h4)⟩
        by_cases h1 : startsTag c t = true
        · rw [if_pos h1, put_val (by simp; omega), C.val_bind]
          have hc60 := hop ((startsTag_iff c t).1 h1)
          exact hnext (hsp c (.inl hc60)) (by rw [hc60]; decide) (i2 _ (by simp; omega))
        · rw [if_neg h1]
          by_cases h4 : c = 62
          · rw [if_pos h4]
            simp only [Bool.true_and, List.getLast?_append, List.getLast?_singleton, Option.some_or, BEq.rfl,
              if_true, List.dropLast_concat]
            rw [put_val (by omega), C.val_bind]
            obtain ⟨o, h2, h3⟩ := i1 (out ++ [c]) false (by simp; omega) rfl
            refine ⟨c :: o, by rw [h2]; simp, ?_⟩
            subst h4
            exact .close hw2 h3
          · rw [if_neg h4]
            by_cases h5 : isSpace c = true
            · rw [if_pos (by simp [h5])]
              simp only [Bool.not_true, Bool.false_eq_true, if_false]
              obtain ⟨o, h2, h3⟩ := i3 out (w ++ [c]) (by omega) (by simp) (by
                intro d hd
                rcases List.mem_append.1 hd with h | h
                · exact hw2 d h
                · rw [List.mem_singleton.1 h]; exact h5)
              exact ⟨o, h2, by simpa using h3⟩
            · rw [if_neg (by simp [h5]), put_val (by simp; omega), C.val_bind]
              exact hnext (by simpa using h5) h4 (i2 _ (by simp; omega))

theorem clean_spec (s : Bytes) : ∃ o, clean s = .val o ∧ Outside s o := by
  obtain ⟨o, h1, h2⟩ := (cleanLoop_spec (s.length + 1) s.length s (Nat.le_refl _)).1 [] false (by simp) rfl
  exact ⟨o, h1, h2⟩

/-- What a tag starts with does not change what opens it. -/
theorem opens_head {c : Byte} {t o : Bytes} (h : t.head? = o.head? ∨
    (∀ d, t.head? = some d → d ∉ b!"/!?") ∧ (∀ d, o.head? = some d → d ∉ b!"/!?")) : Opens c t ↔ Opens c o := by
  rcases h with h | ⟨h1, h2⟩
  · unfold Opens; rw [h]
  · exact ⟨fun h => ⟨h.1, h2⟩, fun h => ⟨h.1, h1⟩⟩

theorem outside_head {s o : Bytes} (h : Outside s o) : s.head? = o.head? := by
  cases h <;> rfl

theorem space_mem {c : Byte} (h : isSpace c = true) : c ∉ b!"/!?" := by
  intro hm
  simp only [List.mem_cons, List.not_mem_nil, or_false] at hm
  rcases hm with rfl | rfl | rfl <;> revert h <;> decide

theorem head_white {w : Bytes} (r : Bytes) (hw : w ≠ []) (h : ∀ c ∈ w, isSpace c = true) :
    ∀ d, (w ++ r).head? = some d → d ∉ b!"/!?" := by
  intro d hd
  cases w with
  | nil => exact absurd rfl hw
  | cons a w =>
    simp at hd
    subst hd
    exact space_mem (h a (by simp))

theorem inside_head {s o : Bytes} (h : Inside s o) : s.head? = o.head? ∨
    (∀ d, s.head? = some d → d ∉ b!"/!?") ∧ (∀ d, o.head? = some d → d ∉ b!"/!?") := by
  cases h with
  | nil => exact .inl rfl
  | char => exact .inl rfl
  | @close w t o hw h =>
    cases w with
    | nil => exact .inl rfl
    | cons a w => exact .inr ⟨head_white _ (by simp) hw, by simp⟩
  | space hw h => exact .inr ⟨head_white _ hw h, by simp⟩
  | @trail w hw h => exact .inr ⟨by simpa using head_white [] hw h, by simp⟩

theorem inside_char {d : Byte} {t o : Bytes} (h : Inside (d :: t) o) (h1 : isSpace d = false) (h2 : d ≠ 62) :
    ∃ o', o = d :: o' := by
  generalize hs : d :: t = s at h
  cases h with
  | nil => cases hs
  | char => cases hs; exact ⟨_, rfl⟩
  | @close w u o hw h =>
    cases w with
    | nil => cases hs; exact absurd rfl h2
    | cons a w => cases hs; rw [hw d (by simp)] at h1; cases h1
  | @space w d' u o hw h =>
    cases w with
    | nil => exact absurd rfl hw
    | cons a w => cases hs; rw [h d (by simp)] at h1; cases h1
  | @trail w hw h =>
    cases hs; rw [h d (by simp)] at h1; cases h1

mutual
theorem Spec.Outside.again {s o : Bytes} (h : Outside s o) : Outside o o := by
  match h with
  | .nil => exact .nil
  | .char hn h => exact .char (fun h' => hn ((opens_head (.inl (outside_head h))).2 h')) h.again
  | .enter ho h => exact .enter ((opens_head (inside_head h)).1 ho) h.again
theorem Spec.Inside.again {s o : Bytes} (h : Inside s o) : Inside o o := by
  match h with
  | .nil => exact .nil
  | .char h1 h2 h => exact .char h1 h2 h.again
  | .close _ h => exact .close (w := []) (by simp) h.again
  | .space _ _ h1 h2 h =>
    have h3 := h.again
    obtain ⟨o', rfl⟩ := inside_char h h1 h2
    exact .space (w := [32]) (by simp) (by simp; decide) h1 h2 h3
  | .trail _ _ => exact .trail (by simp) (by simp; decide)
end

theorem white_split {w w' : Bytes} {d d' : Byte} {t t' : Bytes} (hw : ∀ c ∈ w, isSpace c = true)
    (hw' : ∀ c ∈ w', isSpace c = true) (hd : isSpace d = false) (hd' : isSpace d' = false)
    (e : w ++ d :: t = w' ++ d' :: t') : w = w' ∧ d = d' ∧ t = t' := by
  induction w generalizing w' with
  | nil =>
    cases w' with
    | nil => cases e; exact ⟨rfl, rfl, rfl⟩
    | cons a w' => cases e; rw [hw' d (by simp)] at hd; cases hd
  | cons a w ih =>
    cases w' with
    | nil => cases e; rw [hw d' (by simp)] at hd'; cases hd'
    | cons a' w' =>
      simp only [List.cons_append, List.cons.injEq] at e
      obtain ⟨h1, h2, h3⟩ := ih (fun c hc => hw c (by simp [hc])) (fun c hc => hw' c (by simp [hc])) e.2
      exact ⟨by rw [e.1, h1], h2, h3⟩

theorem white_none {w w' : Bytes} {d : Byte} {t : Bytes} (hw : ∀ c ∈ w, isSpace c = true)
    (hd : isSpace d = false) (e : w = w' ++ d :: t) : False := by
  have := hw d (by rw [e]; simp)
  rw [hd] at this; cases this

theorem gt_not_space : isSpace (62 : Byte) = false := by decide

mutual
theorem Spec.Outside.unique {s o o' : Bytes} (h : Outside s o) (h' : Outside s o') : o' = o := by
  match h with
  | .nil => generalize hs : ([] : Bytes) = s at h'; cases h' <;> first | rfl | cases hs
  | .char hn h =>
    generalize hs : _ :: _ = s at h'
    cases h' with
    | nil => cases hs
    | char _ h' => cases hs; rw [h.unique h']
    | enter ho _ => cases hs; exact absurd ho hn
  | .enter ho h =>
    generalize hs : _ :: _ = s at h'
    cases h' with
    | nil => cases hs
    | char hn _ => cases hs; exact absurd ho hn
    | enter _ h' => cases hs; rw [h.unique h']
theorem Spec.Inside.unique {s o o' : Bytes} (h : Inside s o) (h' : Inside s o') : o' = o := by
  match h with
  | .nil =>
    generalize hs : ([] : Bytes) = s at h'
    cases h' with
    | nil => rfl
    | char => cases hs
    | close => simp at hs
    | space => simp at hs
    | trail hw => exact absurd hs.symm hw
  | .char h1 h2 h =>
    generalize hs : _ :: _ = s at h'
    cases h' with
    | nil => cases hs
    | char _ _ h' => cases hs; rw [h.unique h']
    | close hw' _ =>
      obtain ⟨_, e, _⟩ := white_split (w := []) (by simp) hw' h1 gt_not_space hs
      exact absurd e h2
    | space hw hw' hd =>
      obtain ⟨e, _, _⟩ := white_split (w := []) (by simp) hw' h1 hd hs
      exact absurd e.symm hw
    | trail hw hw' => exact (white_none (w' := []) hw' h1 hs.symm).elim
  | .close hw h =>
    generalize hs : _ ++ _ :: _ = s at h'
    cases h' with
    | nil => simp at hs
    | char h1 h2 _ =>
      obtain ⟨_, e, _⟩ := white_split (w' := []) hw (by simp) gt_not_space h1 hs
      exact absurd e.symm h2
    | close hw' h' =>
      obtain ⟨_, _, e⟩ := white_split hw hw' gt_not_space gt_not_space hs
      subst e
      rw [h.unique h']
    | space _ hw' hd hd' =>
      obtain ⟨_, e, _⟩ := white_split hw hw' gt_not_space hd hs
      exact absurd e.symm hd'
    | trail _ hw' => exact (white_none hw' gt_not_space hs.symm).elim
  | .space hn hw h1 h2 h =>
    generalize hs : _ ++ _ :: _ = s at h'
    cases h' with
    | nil => simp at hs
    | char h3 _ _ =>
      obtain ⟨e, _, _⟩ := white_split (w' := []) hw (by simp) h1 h3 hs
      exact absurd e hn
    | close hw' h' =>
      obtain ⟨_, e, _⟩ := white_split hw hw' h1 gt_not_space hs
      exact absurd e h2
    | space _ hw' hd hd' h' =>
      obtain ⟨_, e1, e2⟩ := white_split hw hw' h1 hd hs
      subst e1 e2
      rw [h.unique h']
    | trail _ hw' => exact (white_none hw' h1 hs.symm).elim
  | .trail hn hw =>
    cases h' with
    | nil => exact absurd rfl hn
    | char h1 _ _ => exact (white_none (w' := []) hw h1 rfl).elim
    | close => exact (white_none hw gt_not_space rfl).elim
    | space _ _ hd => exact (white_none hw hd rfl).elim
    | trail => rfl
end

mutual
/-- The bytes that are not white space stay, in order. -/
theorem Spec.Outside.solid {s o : Bytes} (h : Outside s o) :
    o.filter (fun c => !isSpace c) = s.filter (fun c => !isSpace c) ∧ o.length ≤ s.length := by
  match h with
  | .nil => exact ⟨rfl, Nat.le_refl _⟩
  | .char _ h => exact ⟨by rw [List.filter_cons, List.filter_cons, h.solid.1], by simpa using h.solid.2⟩
  | .enter _ h => exact ⟨by rw [List.filter_cons, List.filter_cons, h.solid.1], by simpa using h.solid.2⟩
theorem Spec.Inside.solid {s o : Bytes} (h : Inside s o) :
    o.filter (fun c => !isSpace c) = s.filter (fun c => !isSpace c) ∧ o.length ≤ s.length := by
  have hf : ∀ w : Bytes, (∀ c ∈ w, isSpace c = true) → w.filter (fun c => !isSpace c) = [] := fun w hw => by
    rw [List.filter_eq_nil_iff]; intro c hc; simp [hw c hc]
  have h32 : isSpace (32 : Byte) = true := by decide
  match h with
  | .nil => exact ⟨rfl, Nat.le_refl _⟩
  | .char _ _ h => exact ⟨by rw [List.filter_cons, List.filter_cons, h.solid.1], by simpa using h.solid.2⟩
  | .close hw h =>
    refine ⟨?_, by have := h.solid.2; simp; omega⟩
    rw [List.filter_append, hf _ hw, List.nil_append, List.filter_cons, List.filter_cons, h.solid.1]
  | .space hn hw _ _ h =>
    refine ⟨?_, ?_⟩
    · rw [List.filter_append, hf _ hw, List.nil_append, List.filter_cons, if_neg (by simp [h32]), h.solid.1]
    · have := h.solid.2
      have := List.length_pos_iff.2 hn
      simp at *; omega
  | .trail hn hw =>
    refine ⟨by rw [hf _ hw]; rfl, ?_⟩
    have := List.length_pos_iff.2 hn
    simp; omega
end

/-! ### Newlines between tags -/

theorem isGap_iff (c : Byte) : isGap c = true ↔ c ∈ b!" \t\n\r" := by
  simp [isGap, or_assoc]

theorem newlines_eq (w : Bytes) : newlines w = lineEnds w := by
  induction w with
  | nil => rfl
  | cons c w ih =>
    unfold newlines lineEnds at *
    rw [List.filter_cons, List.count_cons, List.count_cons]
    by_cases h1 : c = 10
    · subst h1; simp [ih]; omega
    · by_cases h2 : c = 13
      · subst h2; simp [ih]; omega
      · simp [h1, h2, ih]

theorem lineEnds_le (w : Bytes) : lineEnds w ≤ w.length := by
  rw [← newlines_eq]; exact List.length_filter_le _ _

theorem gap_split {w r : Bytes} (hw : Gap w) : (w ++ 60 :: r).takeWhile isGap = w ∧
    (w ++ 60 :: r).dropWhile isGap = 60 :: r := by
  have h : ∀ c ∈ w, isGap c = true := fun c hc => (isGap_iff c).2 (hw c hc)
  rw [List.takeWhile_append_of_pos h, List.dropWhile_append_of_pos h]
  exact ⟨by simp [isGap], by simp [isGap]⟩

theorem gapHere_iff (t : Bytes) : GapHere t ↔
    newlines (t.takeWhile isGap) > 0 ∧ (t.dropWhile isGap).headD 0 = 60 := by
  constructor
  · rintro ⟨w, r, rfl, h1, h2⟩
    obtain ⟨h3, h4⟩ := gap_split (r := r) h1
    rw [h3, h4, newlines_eq]
    exact ⟨h2, rfl⟩
  · rintro ⟨h1, h2⟩
    cases hd : t.dropWhile isGap with
    | nil => rw [hd] at h2; cases h2
    | cons d r =>
      rw [hd] at h2
      have h2 : d = 60 := h2
      refine ⟨t.takeWhile isGap, r, ?_, ?_, by rw [← newlines_eq]; exact h1⟩
      · rw [← h2, ← hd, List.takeWhile_append_dropWhile]
      · intro c hc
        exact (isGap_iff c).1 (List.all_eq_true.1 List.all_takeWhile c hc)

theorem trailing_cons (c : Byte) (t : Bytes) : trailing (c :: t) =
    if trailing t = t.length then t.length + (if c = 62 then 1 else 0) else trailing t := by
  unfold trailing
  rw [List.reverse_cons, List.takeWhile_append, List.length_reverse]
  split
  · by_cases hc : c = 62 <;> simp [hc]
  · rfl

theorem trailing_le (t : Bytes) : trailing t ≤ t.length := by
  unfold trailing
  have := (List.takeWhile_sublist (l := t.reverse) (· == c!">")).length_le
  simpa using this

theorem trailing_other {c : Byte} {t : Bytes} (h : c ≠ 62) : trailing (c :: t) = trailing t := by
  rw [trailing_cons, if_neg h]
  split <;> omega

theorem trailing_app {c : Byte} (w : Bytes) {t : Bytes} (h : c ≠ 62) : trailing (w ++ c :: t) = trailing t := by
  induction w with
  | nil => exact trailing_other h
  | cons d w ih =>
    rw [List.cons_append, trailing_cons, ih, if_neg]
    have := trailing_le t
    simp; omega

theorem trailing_two (d : Byte) (t : Bytes) : trailing (62 :: d :: t) % 2 = trailing t % 2 := by
  by_cases h : d = 62
  · subst h
    rw [trailing_cons, trailing_cons]
    have := trailing_le t
    by_cases h1 : trailing t = t.length
    · rw [if_pos h1]; simp; omega
    · rw [if_neg h1, if_neg (by simp; omega)]
  · have := trailing_app [62] (t := t) h
    rw [show (62 :: d :: t : Bytes) = [62] ++ d :: t from rfl, this]

theorem collapseLoop_spec (cap : Nat) : ∀ (n : Nat) (s : Bytes), s.length ≤ n → ∀ out,
    out.length + s.length < cap →
    (trailing s % 2 = 1 → collapseLoop cap out s = .ub) ∧
    (trailing s % 2 = 0 → ∃ o, collapseLoop cap out s = .val (out ++ o) ∧ Collapsed s o) := by
  intro n
  induction n with
  | zero =>
    intro s hs out hc
    obtain rfl : s = [] := by cases s <;> simp_all
    refine ⟨fun h => by simp [trailing] at h, fun _ => ⟨[], ?_, .nil⟩⟩
    unfold collapseLoop
    rw [finish_val (by simpa using hc), List.append_nil]
  | succ n ih =>
    intro s hs out hc
    match s with
    | [] => exact ih [] (by simp) out hc
    | c :: t =>
      simp only [List.length_cons] at hs hc
      unfold collapseLoop
      by_cases h62 : c = 62
      · subst h62
        rw [if_pos rfl, put_val (by omega), C.val_bind]
        by_cases hg : GapHere t
        · rw [if_pos ((gapHere_iff t).1 hg)]
          obtain ⟨w, r, rfl, h1, h2⟩ := hg
          obtain ⟨h3, h4⟩ := gap_split (r := r) h1
          have hle := lineEnds_le w
          have hlen : (w ++ 60 :: r).length = w.length + r.length + 1 := by simp; omega
          rw [h3, h4, newlines_eq]
          have hmin : (if lineEnds w ≥ 2 then 2 else 1) = min 2 (lineEnds w) := by split <;> omega
          rw [hmin, puts_val (by simp only [List.length_append, List.length_replicate, List.length_singleton]; omega),
            C.val_bind]
          obtain ⟨i1, i2⟩ := ih (60 :: r) (by simp; omega) (out ++ [62] ++ List.replicate (min 2 (lineEnds w)) 10)
            (by simp only [List.length_append, List.length_replicate, List.length_nil, List.length_cons]; omega)
          have ht : trailing (62 :: (w ++ 60 :: r)) = trailing (60 :: r) := by
            rw [trailing_other (c := 60) (t := r) (by decide)]
            exact trailing_app (62 :: w) (c := 60) (t := r) (by decide)
          rw [ht]
          refine ⟨i1, fun h => ?_⟩
          obtain ⟨o, h5, h6⟩ := i2 h
          exact ⟨62 :: (List.replicate (min 2 (lineEnds w)) 10 ++ o), by rw [h5]; simp, .gap h1 h2 h6⟩
        · rw [if_neg (fun h => hg ((gapHere_iff t).2 h))]
          cases t with
          | nil => exact ⟨fun _ => rfl, fun h => by simp [trailing] at h⟩
          | cons d u =>
            simp only [List.length_cons] at hs hc
            simp only []
            rw [put_val (by simp; omega), C.val_bind, trailing_two]
            obtain ⟨i1, i2⟩ := ih u (by omega) (out ++ [62] ++ [d]) (by simp; omega)
            refine ⟨i1, fun h => ?_⟩
            obtain ⟨o, h5, h6⟩ := i2 h
            exact ⟨62 :: d :: o, by rw [h5]; simp, .pass hg h6⟩
      · rw [if_neg h62, put_val (by omega), C.val_bind, trailing_other h62]
        obtain ⟨i1, i2⟩ := ih t (by omega) (out ++ [c]) (by simp; omega)
        refine ⟨i1, fun h => ?_⟩
        obtain ⟨o, h5, h6⟩ := i2 h
        exact ⟨c :: o, by rw [h5]; simp, .char h62 h6⟩

theorem Spec.Collapsed.onlyGaps {s o : Bytes} (h : Collapsed s o) : OnlyGaps s o := by
  induction h with
  | nil => exact .nil
  | char _ _ ih => exact .char ih
  | @gap w t o h1 h2 _ ih =>
    refine .gap h1 (fun c hc => ?_) ?_ ih
    · rw [(List.mem_replicate.1 hc).2]; decide
    · have := lineEnds_le w
      simp; omega
  | pass _ _ ih => exact .char (.char ih)

theorem Spec.OnlyGaps.length {s o : Bytes} (h : OnlyGaps s o) : o.length ≤ s.length := by
  induction h with
  | nil => simp
  | char _ ih => simpa using ih
  | gap _ _ h _ ih => simp at *; omega

theorem Spec.Collapsed.unique {s o : Bytes} (h : Collapsed s o) : ∀ {o'}, Collapsed s o' → o' = o := by
  have hsplit : ∀ {w w' r r' : Bytes}, Gap w → Gap w' → w ++ 60 :: r = w' ++ 60 :: r' → w = w' ∧ r = r' := by
    intro w w' r r' h h' e
    have h1 := gap_split (r := r) h
    have h2 := gap_split (r := r') h'
    rw [e] at h1
    exact ⟨h1.1.symm.trans h2.1, by have := h1.2.symm.trans h2.2; simpa using this⟩
  induction h with
  | nil => intro o' h'; generalize hs : ([] : Bytes) = s at h'; cases h' <;> first | rfl | cases hs
  | char hc _ ih =>
    intro o' h'
    generalize hs : _ :: _ = s at h'
    cases h' with
    | nil => cases hs
    | char _ h' => cases hs; rw [ih h']
    | gap => cases hs; exact absurd rfl hc
    | pass => cases hs; exact absurd rfl hc
  | @gap w t o h1 h2 _ ih =>
    intro o' h'
    generalize hs : _ :: _ = s at h'
    cases h' with
    | nil => cases hs
    | char hc => cases hs; exact absurd rfl hc
    | gap h1' _ h' =>
      simp only [List.cons.injEq, true_and] at hs
      obtain ⟨rfl, rfl⟩ := hsplit h1 h1' hs
      rw [ih h']
    | pass hn _ =>
      simp only [List.cons.injEq, true_and] at hs
      exact absurd (hs ▸ ⟨w, t, rfl, h1, h2⟩) hn
  | pass hn _ ih =>
    intro o' h'
    generalize hs : _ :: _ = s at h'
    cases h' with
    | nil => cases hs
    | char hc => cases hs; exact absurd rfl hc
    | gap h1' h2' h' =>
      simp only [List.cons.injEq, true_and] at hs
      exact absurd (hs ▸ ⟨_, _, rfl, h1', h2'⟩) hn
    | pass _ h' => cases hs; rw [ih h']

/-! ### Blank lines in tables -/

/-- A pattern without a newline that starts in front of one lies in front of it. -/
theorem prefix_before_newline {p y rest : Bytes} (hp : (10 : Byte) ∉ p) (hy : y.getLast? = some 10)
    (h : p <+: y ++ rest) : p <+: y := by
  rcases Nat.lt_or_ge y.length p.length with hlt | hge
  · exfalso
    have h1 : y <+: p := List.prefix_of_prefix_length_le (List.prefix_append _ _) h (by omega)
    exact hp (h1.subset (List.mem_of_getLast? hy))
  · exact List.prefix_of_prefix_length_le h (List.prefix_append _ _) hge

theorem tableOpen_iff (s : Bytes) : TableOpen s ↔
    (b!"<table".isPrefixOf s && (s.getD 6 0 == 62 || s.getD 6 0 == 32)) = true := by
  constructor
  · rintro ⟨t, rfl | rfl⟩ <;> simp
  · intro h
    simp only [Bool.and_eq_true, List.isPrefixOf_iff_prefix] at h
    obtain ⟨⟨t, rfl⟩, h⟩ := h
    cases t with
    | nil => simp at h
    | cons c t =>
      have h : c = 62 ∨ c = 32 := by simpa using h
      rcases h with rfl | rfl
      · exact ⟨t, .inl rfl⟩
      · exact ⟨t, .inr rfl⟩

theorem tableClose_iff (s : Bytes) : TableClose s ↔ b!"</table>".isPrefixOf s = true := by
  rw [List.isPrefixOf_iff_prefix]
  exact ⟨fun ⟨t, h⟩ => ⟨t, h.symm⟩, fun ⟨t, h⟩ => ⟨t, h.symm⟩⟩

theorem tableFlag_eq (f : Bool) (s : Bytes) : tableFlag f s = true ↔
    TableOpen s ∨ ¬ TableClose s ∧ f = true := by
  unfold tableFlag
  by_cases h1 : TableOpen s
  · rw [if_pos ((tableOpen_iff s).1 h1)]; simp [h1]
  · rw [if_neg (fun h => h1 ((tableOpen_iff s).2 h))]
    by_cases h2 : TableClose s
    · rw [if_pos ((tableClose_iff s).1 h2)]; simp [h1, h2]
    · rw [if_neg (fun h => h2 ((tableClose_iff s).2 h))]; simp [h1, h2]

/-- The last table tag that starts in `done` is an opening one. -/
def Flag (done rest : Bytes) : Prop :=
  ∃ a b, done = a ++ b ∧ b ≠ [] ∧ TableOpen (b ++ rest) ∧ ∀ x y, b = x ++ y → y ≠ [] → ¬ TableClose (y ++ rest)

theorem open_not_close {s : Bytes} (h : TableOpen s) : ¬ TableClose s := by
  rintro ⟨t, rfl⟩
  obtain ⟨u, h | h⟩ := h <;> simp at h

theorem flag_step (done : Bytes) (c : Byte) (t : Bytes) :
    Flag (done ++ [c]) t ↔ TableOpen (c :: t) ∨ ¬ TableClose (c :: t) ∧ Flag done (c :: t) := by
  constructor
  · rintro ⟨a, b, h1, h2, h3, h4⟩
    obtain ⟨b', d, rfl⟩ : ∃ b' d, b = b' ++ [d] := ⟨b.dropLast, b.getLast h2, (List.dropLast_concat_getLast h2).symm⟩
    rw [← List.append_assoc] at h1
    obtain ⟨h5, h6⟩ := List.append_inj' h1 rfl
    obtain rfl : c = d := by simpa using h6
    by_cases hb : b' = []
    · subst hb; left; simpa using h3
    · right
      refine ⟨fun h => h4 b' [c] rfl (by simp) (by simpa using h), a, b', h5, hb, by simpa using h3, ?_⟩
      rintro x y rfl hy hcl
      exact h4 x (y ++ [c]) (by simp) (by simp) (by simpa using hcl)
  · rintro (h | ⟨h, a, b, rfl, h2, h3, h4⟩)
    · refine ⟨done, [c], rfl, by simp, h, ?_⟩
      rintro x y hxy hy
      have hx : x = [] := by
        cases x with
        | nil => rfl
        | cons a x => simp at hxy; exact absurd hxy.2.2 hy
      subst hx
      rw [List.nil_append] at hxy
      subst hxy
      exact open_not_close h
    · refine ⟨a, b ++ [c], by simp, by simp, by simpa using h3, ?_⟩
      rintro x y hxy hy
      obtain ⟨y', d, rfl⟩ : ∃ y' d, y = y' ++ [d] := ⟨y.dropLast, y.getLast hy, (List.dropLast_concat_getLast hy).symm⟩
      rw [← List.append_assoc] at hxy
      obtain ⟨h5, h6⟩ := List.append_inj' hxy rfl
      obtain rfl : c = d := by simpa using h6
      by_cases hy' : y' = []
      · subst hy'; simpa using h
      · have := h4 x y' h5 hy'
        simpa using this

/-- Bytes other than `<` do not matter. -/
theorem flag_plain (done w rest : Bytes) (hw : ∀ c ∈ w, c ≠ 60) : Flag (done ++ w) rest ↔ Flag done (w ++ rest) := by
  induction w generalizing done with
  | nil => simp
  | cons c w ih =>
    have h1 := ih (done ++ [c]) fun d hd => hw d (by simp [hd])
    rw [List.append_assoc, List.singleton_append] at h1
    rw [h1, flag_step]
    have hc := hw c (by simp)
    have ho : ¬ TableOpen (c :: (w ++ rest)) := by
      rintro ⟨u, h | h⟩ <;> exact hc (List.cons.inj h).1
    have hcl : ¬ TableClose (c :: (w ++ rest)) := by
      rintro ⟨u, h⟩; exact hc (List.cons.inj h).1
    simp [ho, hcl]

/-- At the start of a line it is a matter of the text before. -/
theorem flag_line (pre rest : Bytes) (hp : pre = [] ∨ pre.getLast? = some 10) : Flag pre rest ↔ InTable pre := by
  have hlast : ∀ {a b : Bytes}, pre = a ++ b → b ≠ [] → b.getLast? = some 10 := by
    rintro a b h hb
    rcases hp with rfl | hp
    · simp at h; exact absurd h.2 hb
    · rw [h, List.getLast?_append, List.getLast?_eq_some_getLast hb] at hp
      rw [List.getLast?_eq_some_getLast hb]; simpa using hp
  have hopen : ∀ {b : Bytes}, b.getLast? = some 10 → TableOpen (b ++ rest) → TableOpen b := by
    rintro b hb ⟨u, h | h⟩
    · obtain ⟨v, hv⟩ := prefix_before_newline (p := b!"<table>") (by decide) hb ⟨u, h.symm⟩
      exact ⟨v, .inl hv.symm⟩
    · obtain ⟨v, hv⟩ := prefix_before_newline (p := b!"<table ") (by decide) hb ⟨u, h.symm⟩
      exact ⟨v, .inr hv.symm⟩
  have hclose : ∀ {b : Bytes}, b.getLast? = some 10 → TableClose (b ++ rest) → TableClose b := by
    rintro b hb ⟨u, h⟩
    obtain ⟨v, hv⟩ := prefix_before_newline (p := b!"</table>") (by decide) hb ⟨u, h.symm⟩
    exact ⟨v, hv.symm⟩
  constructor
  · rintro ⟨a, b, h1, h2, h3, h4⟩
    refine ⟨a, b, h1, hopen (hlast h1 h2) h3, ?_⟩
    rintro x y hxy ⟨u, hu⟩
    refine h4 x y hxy (by rw [hu]; simp) ⟨u ++ rest, by rw [hu]; simp⟩
  · rintro ⟨a, b, h1, ⟨u, hu⟩, h4⟩
    have hb : b ≠ [] := by rintro rfl; simp at hu
    refine ⟨a, b, h1, hb, ⟨u ++ rest, by rcases hu with rfl | rfl <;> simp⟩, ?_⟩
    intro x y hxy hy hc
    refine h4 x y hxy (hclose (hlast (a := a ++ x) (by rw [h1, hxy]; simp) hy) hc)

theorem blank_mem (c : Byte) : (c != 32 && c != 9 && c != 13) = false ↔ c ∈ b!" \t\r" := by
  simp only [List.mem_cons, List.not_mem_nil, or_false, Bool.and_eq_false_iff, bne_eq_false_iff_eq]
  exact ⟨fun h => by rcases h with (h | h) | h <;> simp [h], fun h => by rcases h with h | h | h <;> simp [h]⟩

theorem blankLoop_spec (cap : Nat) (s : Bytes) : ∀ (pre line out : Bytes) (blank flag : Bool),
    (10 : Byte) ∉ line → (pre = [] ∨ pre.getLast? = some 10) → (blank = true ↔ ∀ c ∈ line, c ∈ b!" \t\r") →
    (flag = true ↔ Flag (pre ++ line) s) → out.length + line.length + s.length < cap →
    ∃ o, blankLoop cap flag blank line out s = .val (out ++ o) ∧ Deleted pre (line ++ s) o := by
  induction s with
  | nil =>
    intro pre line out blank flag h1 h2 h3 h4 h5
    simp only [List.length_nil, Nat.add_zero] at h5
    refine ⟨line, ?_, by rw [List.append_nil]; exact .rest h1⟩
    rw [blankLoop, puts_val (by omega), C.val_bind, finish_val (by simpa using h5)]
  | cons c t ih =>
    intro pre line out blank flag h1 h2 h3 h4 h5
    simp only [List.length_cons] at h5
    rw [blankLoop]
    have hflag : tableFlag flag (c :: t) = true ↔ Flag (pre ++ line ++ [c]) t := by
      rw [tableFlag_eq, flag_step, h4]
    have e : line ++ c :: t = (line ++ [c]) ++ t := by simp
    by_cases hc : c = 10
    · subst hc
      rw [if_pos rfl]
      have hline : IsLine (line ++ [10]) := ⟨line, rfl, h1⟩
      have hpre' : (pre ++ (line ++ [10])) = [] ∨ (pre ++ (line ++ [10])).getLast? = some 10 := .inr (by simp)
      have hflag' : tableFlag flag (10 :: t) = true ↔ Flag (pre ++ (line ++ [10]) ++ []) t := by
        rw [hflag]; simp
      have hblank : blank = true ↔ BlankLine (line ++ [10]) := by
        rw [h3]
        constructor
        · exact fun h => ⟨line, rfl, h⟩
        · rintro ⟨w, hw, h⟩
          obtain ⟨hw, _⟩ := List.append_inj' hw rfl
          rw [hw]; exact h
      have hin : blank = true → (tableFlag flag (10 :: t) = true ↔ InTable pre) := by
        intro hb
        rw [hflag, List.append_assoc, flag_plain, flag_line _ _ h2]
        intro d hd
        rcases List.mem_append.1 hd with hd | hd
        · have := h3.1 hb d hd
          rintro rfl; revert this; decide
        · rw [List.mem_singleton.1 hd]; decide
      by_cases hdel : (tableFlag flag (10 :: t) && blank) = true
      · rw [if_pos hdel]
        rw [Bool.and_eq_true] at hdel
        obtain ⟨o, i1, i2⟩ := ih (pre ++ (line ++ [10])) [] out true _ (by simp) hpre' (by simp) hflag'
          (by simp; omega)
        refine ⟨o, i1, ?_⟩
        rw [e]
        exact .drop hline (hblank.1 hdel.2) ((hin hdel.2).1 hdel.1) i2
      · rw [if_neg hdel, puts_val (by simp; omega), C.val_bind]
        obtain ⟨o, i1, i2⟩ := ih (pre ++ (line ++ [10])) [] (out ++ (line ++ [10])) true _ (by simp) hpre' (by simp)
          hflag' (by simp; omega)
        refine ⟨line ++ [10] ++ o, by rw [i1]; simp, ?_⟩
        rw [e]
        refine .keep hline ?_ i2
        rintro ⟨hb, hi⟩
        have hb := hblank.2 hb
        exact hdel (by rw [Bool.and_eq_true]; exact ⟨(hin hb).2 hi, hb⟩)
    · rw [if_neg hc]
      obtain ⟨o, i1, i2⟩ := ih pre (line ++ [c]) out (if c != 32 && c != 9 && c != 13 then false else blank)
        (tableFlag flag (c :: t))
        (by simp only [List.mem_append, not_or, List.mem_singleton]; exact ⟨h1, fun h => hc h.symm⟩) h2
        (by
          by_cases hb : (c != 32 && c != 9 && c != 13) = true
          · rw [if_pos hb]
            constructor
            · intro h; cases h
            · intro h
              have := (blank_mem c).2 (h c (by simp))
              rw [hb] at this; cases this
          · rw [if_neg hb, h3]
            have hb := (blank_mem c).1 (by simpa using hb)
            constructor
            · intro h d hd
              rcases List.mem_append.1 hd with hd | hd
              · exact h d hd
              · rw [List.mem_singleton.1 hd]; exact hb
            · exact fun h d hd => h d (by simp [hd]))
        (by rw [hflag]; simp)
        (by simp; omega)
      exact ⟨o, i1, by rw [e]; exact i2⟩

theorem line_split {l l' t t' : Bytes} (h : IsLine l) (h' : IsLine l') (e : l ++ t = l' ++ t') : l = l' ∧ t = t' := by
  obtain ⟨w, rfl, hw⟩ := h
  obtain ⟨w', rfl, hw'⟩ := h'
  have e1 := idx_append (b := t) hw
  have e2 := idx_append (b := t') hw'
  simp only [List.append_assoc, List.singleton_append] at e
  rw [e, e2] at e1
  have : w'.length = w.length := by simpa using e1
  obtain ⟨e3, e4⟩ := List.append_inj e this.symm
  exact ⟨by rw [e3], (List.cons.inj e4).2⟩

theorem Spec.Deleted.unique {pre s o : Bytes} (h : Deleted pre s o) : ∀ {o'}, Deleted pre s o' → o' = o := by
  have hno : ∀ {l t : Bytes}, IsLine l → (10 : Byte) ∉ l ++ t → False := by
    rintro l t ⟨w, rfl, _⟩ h
    exact h (by simp)
  induction h with
  | rest hr =>
    intro o' h'
    cases h' with
    | rest => rfl
    | drop hl => exact (hno hl hr).elim
    | keep hl => exact (hno hl hr).elim
  | @drop pre l t o hl hb hi _ ih =>
    intro o' h'
    generalize hs : l ++ t = s at h'
    cases h' with
    | rest hr => rw [← hs] at hr; exact (hno hl hr).elim
    | drop hl' _ _ h' => obtain ⟨rfl, rfl⟩ := line_split hl hl' hs; exact ih h'
    | keep hl' hn => obtain ⟨rfl, rfl⟩ := line_split hl hl' hs; exact absurd ⟨hb, hi⟩ hn
  | @keep pre l t o hl hn _ ih =>
    intro o' h'
    generalize hs : l ++ t = s at h'
    cases h' with
    | rest hr => rw [← hs] at hr; exact (hno hl hr).elim
    | drop hl' hb hi => obtain ⟨rfl, rfl⟩ := line_split hl hl' hs; exact absurd ⟨hb, hi⟩ hn
    | keep hl' _ h' => obtain ⟨rfl, rfl⟩ := line_split hl hl' hs; rw [ih h']

/-! ### Empty paragraphs -/

theorem isEmptyContent_spec : ∀ (n : Nat) (s : Bytes), s.length ≤ n → isEmptyContent s = true → Void s := by
  intro n
  induction n with
  | zero =>
    intro s hn _
    obtain rfl : s = [] := by simpa using hn
    exact .nil
  | succ n ih =>
    intro s hn h
    cases s with
    | nil => exact .nil
    | cons c t =>
      rw [isEmptyContent] at h
      split at h
      · rename_i hp
        obtain ⟨u, hu⟩ := List.isPrefixOf_iff_prefix.1 hp
        rw [← hu] at h ⊢
        rw [← hu] at hn
        rw [List.drop_left' (by rfl)] at h
        exact .entity (ih _ (by simp at hn ⊢; omega) h)
      · split at h
        · split at h
          · rename_i hp
            obtain ⟨u, hu⟩ := List.isPrefixOf_iff_prefix.1 hp
            rw [← hu] at h ⊢
            rw [← hu] at hn
            rw [List.drop_left' (by rfl)] at h
            exact .utf8 (ih _ (by simp at hn ⊢; omega) h)
          · cases h
        · rename_i hc
          refine .blank ?_ (ih _ (by simp at hn; omega) h)
          simp only [List.mem_cons, List.not_mem_nil, or_false]
          apply Decidable.byContradiction
          intro hn
          simp only [not_or] at hn
          exact hc ⟨hn.1, hn.2.1, hn.2.2.1, hn.2.2.2⟩

theorem Spec.Void.empty {s : Bytes} (h : Void s) : isEmptyContent s = true := by
  induction h with
  | nil => rw [isEmptyContent]
  | @blank c t hc _ ih =>
    rw [isEmptyContent]
    simp only [List.mem_cons, List.not_mem_nil, or_false] at hc
    rw [if_neg, if_neg, ih]
    · rintro ⟨h1, h2, h3, h4⟩
      rcases hc with h | h | h | h <;> contradiction
    · intro hp
      obtain ⟨u, hu⟩ := List.isPrefixOf_iff_prefix.1 hp
      have := (List.cons.inj hu).1
      subst this
      revert hc; decide
  | @entity t _ ih =>
    show isEmptyContent (38 :: _) = true
    rw [isEmptyContent, if_pos (by simp)]
    exact ih
  | @utf8 t _ ih =>
    show isEmptyContent (0xE2 :: ([0x80, 0x8B] ++ t)) = true
    rw [isEmptyContent, if_neg (by simp), if_pos (by decide), if_pos (by simp)]
    exact ih

theorem Spec.Void.no_tag {s : Bytes} (h : Void s) : (60 : Byte) ∉ s := by
  induction h with
  | nil => simp
  | blank hc _ ih =>
    rintro (_ | ⟨_, h⟩)
    · revert hc; decide
    · exact ih h
  | entity _ ih => simp only [List.mem_append, not_or]; exact ⟨by decide, ih⟩
  | utf8 _ ih => simp only [List.mem_append, not_or]; exact ⟨by decide, ih⟩

theorem strstr_para {w r : Bytes} (hw : (60 : Byte) ∉ w) : strstr (w ++ b!"</p>" ++ r) b!"</p>" = some w.length := by
  induction w with
  | nil => show strstr (60 :: 47 :: 112 :: 62 :: r) _ = _; rw [strstr]; simp
  | cons c w ih =>
    have hc : ¬ c = 60 := fun h => hw (by simp [h])
    show strstr (c :: (w ++ b!"</p>" ++ r)) _ = _
    rw [strstr, ih (fun h => hw (by simp [h]))]
    rw [if_neg]
    · simp
    · intro hp
      obtain ⟨u, hu⟩ := List.isPrefixOf_iff_prefix.1 hp
      exact hc (List.cons.inj hu).1.symm

theorem emptyPara_of {w r : Bytes} (hw : w ≠ []) (hv : Void w) :
    emptyPara (b!"<p>" ++ w ++ b!"</p>" ++ r) = some r := by
  have h1 : strstr (b!"<p>" ++ w ++ b!"</p>" ++ r) b!"</p>" = some (w.length + 3) := by
    show strstr (60 :: 112 :: 62 :: (w ++ b!"</p>" ++ r)) _ = _
    rw [strstr, if_neg (by simp), strstr, if_neg (by simp), strstr, if_neg (by simp), strstr_para hv.no_tag]
    simp
  have h2 : 0 < w.length := List.length_pos_iff.2 hw
  have h3 : ((b!"<p>" ++ w ++ b!"</p>" ++ r).drop 3).take (w.length + 3 - 3) = w := by
    show List.take _ (w ++ b!"</p>" ++ r) = w
    rw [List.append_assoc, Nat.add_sub_cancel, List.take_left]
  have h4 : (b!"<p>" ++ w ++ b!"</p>" ++ r).drop (w.length + 3 + 4) = r :=
    List.drop_left' (by simp)
  unfold emptyPara
  rw [if_pos (by simp), h1]
  simp only [h3, h4, hv.empty]
  rw [if_pos (by simpa using h2)]

theorem emptyPara_some {s r : Bytes} (h : emptyPara s = some r) :
    ∃ w, w ≠ [] ∧ Void w ∧ s = b!"<p>" ++ w ++ b!"</p>" ++ r := by
  unfold emptyPara at h
  split at h
  · rename_i hp
    obtain ⟨u, rfl⟩ := List.isPrefixOf_iff_prefix.1 hp
    split at h
    · cases h
    · rename_i i hi
      split at h
      · rename_i hc
        rw [Bool.and_eq_true] at hc
        have hpos : 3 < i := by have := of_decide_eq_true hc.2; omega
        cases h
        have hv := isEmptyContent_spec _ _ (Nat.le_refl _) hc.1
        have hs := (strstr_some hi).1
        have hle := strstr_le hi
        refine ⟨_, ?_, hv, ?_⟩
        · intro h0
          have := congrArg List.length h0
          simp only [List.length_take, List.length_drop, List.length_nil, List.length_append, List.length_cons] at this hle
          omega
        · rw [List.drop_left' (by rfl)] at hv ⊢
          obtain ⟨j, rfl⟩ : ∃ j, i = j + 3 := ⟨i - 3, by omega⟩
          have h1 : (b!"<p>" ++ u).take (j + 3) = b!"<p>" ++ u.take j := by simp
          rw [h1] at hs
          rw [Nat.add_sub_cancel]
          exact hs
      · cases h
  · cases h

theorem paraLoop_spec (cap : Nat) : ∀ (n : Nat) (s out : Bytes), s.length ≤ n → out.length + s.length < cap →
    ∃ o, paraLoop cap out s = .val (out ++ o) ∧ Stripped s o := by
  intro n
  induction n with
  | zero =>
    intro s out hn hc
    obtain rfl : s = [] := by simpa using hn
    exact ⟨[], by rw [paraLoop, finish_val (by simpa using hc)]; simp, .nil⟩
  | succ n ih =>
    intro s out hn hc
    cases s with
    | nil => exact ⟨[], by rw [paraLoop, finish_val (by simpa using hc)]; simp, .nil⟩
    | cons c t =>
      rw [paraLoop]
      split
      · rename_i r hr
        have hlen := emptyPara_length hr
        obtain ⟨w, hw, hv, e⟩ := emptyPara_some hr
        obtain ⟨o, h1, h2⟩ := ih r out (by omega) (by omega)
        exact ⟨o, h1, by rw [e]; exact .para hw hv h2⟩
      · rename_i hr
        simp only [List.length_cons] at hn hc
        rw [if_pos (by omega), put_val (by omega), C.val_bind]
        obtain ⟨o, h1, h2⟩ := ih t (out ++ [c]) (by omega) (by simp; omega)
        refine ⟨c :: o, by rw [h1]; simp, .char ?_ h2⟩
        rintro ⟨w, t', hw, hv, e⟩
        rw [e, emptyPara_of hw hv] at hr
        cases hr

theorem Spec.Stripped.unique {s o : Bytes} (h : Stripped s o) : ∀ {o'}, Stripped s o' → o' = o := by
  induction h with
  | nil => intro o' h'; cases h'; rfl
  | @para w t o hw hv _ ih =>
    intro o' h'
    generalize hs : b!"<p>" ++ w ++ b!"</p>" ++ t = s at h'
    cases h' with
    | nil => simp at hs
    | para hw' hv' h' =>
      have h1 := emptyPara_of (r := t) hw hv
      rw [hs, emptyPara_of hw' hv'] at h1
      cases h1
      exact ih h'
    | char hn => rw [← hs] at hn; exact absurd ⟨w, t, hw, hv, rfl⟩ hn
  | @char c t o hn _ ih =>
    intro o' h'
    generalize hs : c :: t = s at h'
    cases h' with
    | nil => cases hs
    | para hw hv => rw [hs] at hn; exact absurd ⟨_, _, hw, hv, rfl⟩ hn
    | char _ h' => cases hs; rw [ih h']

/-! ### Shifting -/

theorem shiftOnce_spec (cap : Nat) (s : Bytes) : ∀ (st : Bool) (out : Bytes), out.length + 2 * s.length < cap →
    shiftOnce cap st out s = .val (out ++ shifted 1 st s) := by
  induction s with
  | nil =>
    intro st out h
    rw [shiftOnce, finish_val (by simpa using h)]; simp [shifted]
  | cons c t ih =>
    intro st out h
    simp only [List.length_cons] at h
    rw [shiftOnce]
    by_cases hc : (st && c == 35) = true
    · rw [if_pos hc, puts_val (by simp; omega), C.val_bind, ih _ _ (by simp; omega)]
      simp only [Bool.and_eq_true, beq_iff_eq] at hc
      obtain ⟨rfl, rfl⟩ := hc
      rw [shifted, if_pos ⟨rfl, rfl⟩]
      simp
    · rw [if_neg hc, put_val (by omega), C.val_bind, ih _ _ (by simp; omega)]
      simp only [Bool.and_eq_true, beq_iff_eq] at hc
      rw [shifted, if_neg hc]
      simp

/-- A header starts in the text; `st` says that a line starts here. -/
def hdr : Bool → Bytes → Bool
  | _, [] => false
  | st, c :: t => (st && c == 35) || hdr (c == 10) t

theorem hdr_iff (s : Bytes) : ∀ st, hdr st s = true ↔
    (st = true ∧ ∃ t, s = 35 :: t) ∨ ∃ a t, s = a ++ 10 :: 35 :: t := by
  induction s with
  | nil => intro st; simp [hdr]
  | cons c t ih =>
    intro st
    rw [hdr, Bool.or_eq_true, ih, Bool.and_eq_true, beq_iff_eq, beq_iff_eq]
    constructor
    · rintro (⟨h, rfl⟩ | ⟨rfl, u, rfl⟩ | ⟨a, u, rfl⟩)
      · exact .inl ⟨h, t, rfl⟩
      · exact .inr ⟨[], u, rfl⟩
      · exact .inr ⟨c :: a, u, rfl⟩
    · rintro (⟨h, u, hu⟩ | ⟨a, u, hu⟩)
      · exact .inl ⟨h, (List.cons.inj hu).1⟩
      · cases a with
        | nil =>
          have := List.cons.inj hu
          exact .inr (.inl ⟨this.1, u, this.2⟩)
        | cons d a => exact .inr (.inr ⟨a, u, (List.cons.inj hu).2⟩)

theorem hdr_shifted (s : Bytes) : ∀ st, hdr st (shifted 1 st s) = hdr st s := by
  induction s with
  | nil => intro st; rfl
  | cons c t ih =>
    intro st
    rw [shifted]
    split
    · rename_i h
      obtain ⟨rfl, rfl⟩ := h
      simp [hdr]
    · rename_i h
      rw [List.nil_append, hdr, hdr, ih]

theorem shifted_same (n : Nat) (s : Bytes) : ∀ st, hdr st s = false → shifted n st s = s := by
  induction s with
  | nil => intro st _; rfl
  | cons c t ih =>
    intro st h
    rw [hdr, Bool.or_eq_false_iff] at h
    rw [shifted, if_neg, ih _ h.2]
    · rfl
    · rintro ⟨rfl, rfl⟩; simp at h

theorem shifted_nul (n : Nat) (s : Bytes) : ∀ st, (0 : Byte) ∉ s → (0 : Byte) ∉ shifted n st s := by
  induction s with
  | nil => intro st _; simp [shifted]
  | cons c t ih =>
    intro st h
    simp only [List.mem_cons, not_or] at h
    rw [shifted]
    simp only [List.mem_append, List.mem_cons, not_or]
    refine ⟨?_, h.1, ih _ h.2⟩
    split
    · simp [List.mem_replicate]
    · simp

/-- Once a `#` has been doubled in place, the loop reads what it has just written. -/
theorem shiftAgain_run (cap : Nat) : ∀ (n i : Nat) (mem : Bytes), cap - i ≤ n → mem[i]? = some 35 →
    shiftAgain cap false mem i (i + 1) = .ub := by
  intro n
  induction n with
  | zero =>
    intro i mem hn hm
    rw [shiftAgain, hm]
    simp only []
    rw [dif_neg (by omega)]
  | succ n ih =>
    intro i mem hn hm
    rw [shiftAgain, hm]
    simp only []
    by_cases hi : i < cap
    · rw [dif_pos hi, if_neg (by decide), if_neg (by decide)]
      unfold store
      have hlt : i < mem.length := (List.getElem?_eq_some_iff.1 hm).1
      by_cases hs : i + 1 < cap ∧ i + 1 ≤ mem.length
      · rw [if_pos hs, C.val_bind]
        exact ih (i + 1) _ (by omega) (by
          rw [List.getElem?_append_right (by simp; omega)]
          simp [Nat.min_eq_left hs.2])
      · rw [if_neg hs]; rfl
    · rw [dif_neg hi]

theorem store_same {cap : Nat} {mem : Bytes} {i : Nat} {c : Byte} (h : mem[i]? = some c) (hi : i < cap) :
    store cap mem i c = .val mem := by
  obtain ⟨hlt, rfl⟩ := List.getElem?_eq_some_iff.1 h
  unfold store
  rw [if_pos ⟨hi, by omega⟩, ← List.drop_eq_getElem_cons hlt, List.take_append_drop]

theorem shiftAgain_spec (cap : Nat) (rest : Bytes) : ∀ (done : Bytes) (st : Bool), (0 : Byte) ∉ rest →
    done.length + rest.length < cap →
    shiftAgain cap st (done ++ rest ++ [0]) done.length done.length =
      if hdr st rest then .ub else .val (done ++ rest ++ [0]) := by
  induction rest with
  | nil =>
    intro done st _ hc
    have hm : (done ++ [] ++ [0])[done.length]? = some (0 : Byte) := by simp
    rw [shiftAgain, hm]
    simp only []
    simp only [List.length_nil, Nat.add_zero] at hc
    rw [dif_pos hc, if_pos trivial, store_same hm hc]
    simp [hdr]
  | cons c t ih =>
    intro done st h0 hc
    simp only [List.mem_cons, not_or] at h0
    simp only [List.length_cons] at hc
    have hm : (done ++ c :: t ++ [0])[done.length]? = some c := by simp
    rw [shiftAgain, hm]
    simp only []
    rw [dif_pos (by omega), if_neg (fun h => h0.1 h.symm), hdr]
    by_cases hh : (st && c == 35) = true
    · rw [if_pos hh, hh, Bool.true_or, if_pos rfl]
      simp only [Bool.and_eq_true, beq_iff_eq] at hh
      obtain ⟨rfl, rfl⟩ := hh
      rw [store_same hm (by omega), C.val_bind]
      unfold store
      rw [if_pos ⟨by omega, by simp⟩, C.val_bind]
      apply shiftAgain_run cap _ _ _ (Nat.le_refl _)
      rw [List.getElem?_append_right (by simp)]
      simp only [List.length_take]
      rw [Nat.min_eq_left (by simp)]
      simp
    · rw [if_neg hh, store_same hm (by omega), C.val_bind]
      have := ih (done ++ [c]) (c == 10) h0.2 (by simp; omega)
      simp only [List.append_assoc, List.singleton_append, List.length_append, List.length_singleton] at this
      simp only [List.append_assoc, List.cons_append] at this ⊢
      rw [this, Bool.eq_false_iff.2 hh, Bool.false_or]

theorem shiftLevels_spec (cap n : Nat) (s : Bytes) (h0 : (0 : Byte) ∉ s) (hc : s.length < cap) :
    shiftLevels cap n (s ++ [0]) = if hdr true s ∧ n ≠ 0 then .ub else .val (s ++ [0]) := by
  induction n with
  | zero => simp [shiftLevels]
  | succ n ih =>
    have := shiftAgain_spec cap s [] true h0 (by simpa using hc)
    rw [shiftLevels]
    simp only [List.nil_append, List.length_nil] at this
    rw [this]
    by_cases hh : hdr true s = true
    · simp [hh]
    · rw [if_neg hh, C.val_bind, ih]
      simp [hh]

theorem takeWhile_nul {s t : Bytes} (h : (0 : Byte) ∉ s) : (s ++ 0 :: t).takeWhile (· != 0) = s := by
  induction s with
  | nil => rfl
  | cons c s ih =>
    simp only [List.mem_cons, not_or] at h
    rw [List.cons_append, List.takeWhile_cons, if_pos (by simpa using fun e => h.1 e.symm), ih h.2]

theorem shifted_length_le (s : Bytes) : ∀ st, (shifted 1 st s).length ≤ 2 * s.length := by
  induction s with
  | nil => intro st; simp [shifted]
  | cons c t ih =>
    intro st
    have := ih (c == 10)
    rw [shifted]
    split <;> simp <;> omega

theorem shift_zero (s : Bytes) : shift s 0 = .val s := by simp [shift]

theorem shift_succ (s : Bytes) (n : Nat) (h0 : (0 : Byte) ∉ s) :
    shift s (n + 1) = if hdr true s ∧ n ≠ 0 then .ub else .val (shifted 1 true s) := by
  have hcap : 2 * s.length < s.length * (n + 1 + 1) + 1 := by
    have := Nat.mul_le_mul_left s.length (show 2 ≤ n + 1 + 1 by omega)
    omega
  unfold shift
  rw [if_neg (by omega)]
  simp only []
  have h1 := shiftOnce_spec (s.length * (n + 1 + 1) + 1) s true [] (by simpa using hcap)
  rw [List.nil_append] at h1
  have hl := shifted_length_le s true
  rw [h1, C.val_bind, Nat.add_sub_cancel, shiftLevels_spec _ _ _ (shifted_nul 1 s true h0) (by omega), hdr_shifted]
  split
  · rfl
  · rw [C.val_bind, takeWhile_nul (shifted_nul 1 s true h0)]

end Verif.HtmlPass
