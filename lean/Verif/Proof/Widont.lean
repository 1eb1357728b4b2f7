import Verif.Model.Widont
import Verif.Spec.Widont
import Verif.Proof.Embed

namespace Verif.Widont
open Text.Spec (joined)
open Embed (find find_eq find_some find_none)
open InlineNotes (takeWhile_stop)

def Tok.out : Tok → Bytes
  | .chunk _ w => w
  | .near c => [c]
  | .byte c => [c]

/-- A token that asks for enough room. -/
def Tok.Fair : Tok → Prop
  | .chunk extra w => w.length < extra
  | _ => True

/-! ### The buffer -/

theorem write_eq {s : St} {k : Tok} (hk : k.Fair) (hs : s.out.length ≤ s.cap) :
    ∃ cap, s.write k = .val { cap := cap, out := s.out ++ k.out } ∧ s.cap ≤ cap ∧ (s.out ++ k.out).length ≤ cap ∧
      ((∀ c, k ≠ .byte c) → (s.out ++ k.out).length < cap) := by
  have key : ∀ (b : Bool) (extra : Nat) (w : Bytes), (b = true → s.cap ≤ (s.out.length + extra) * 2 ∧ w.length < extra) → (b = false → s.out.length + w.length ≤ s.cap) →
      (match puts (if b then (s.out.length + extra) * 2 else s.cap) s.out w with
        | .ub => C.ub
        | .val o => C.val (St.mk (if b then (s.out.length + extra) * 2 else s.cap) o)) = .val ⟨if b then (s.out.length + extra) * 2 else s.cap, s.out ++ w⟩ ∧
      s.cap ≤ (if b then (s.out.length + extra) * 2 else s.cap) ∧ (s.out ++ w).length ≤ (if b then (s.out.length + extra) * 2 else s.cap) ∧
      (s.out.length + w.length < s.cap ∨ b = true → (s.out ++ w).length < (if b then (s.out.length + extra) * 2 else s.cap)) := by
    intro b extra w h1 h2
    cases b with
    | true =>
      obtain ⟨a1, a2⟩ := h1 rfl
      simp only [↓reduceIte]
      rw [puts_val (by omega)]
      simp
      omega
    | false =>
      have := h2 rfl
      simp only [Bool.false_eq_true, ↓reduceIte]
      rw [puts_val (by omega)]
      simp
      omega
  cases k with
  | chunk extra w =>
    unfold Tok.Fair at hk
    obtain ⟨a1, a2, a3, a4⟩ := key (decide (w.length ≥ s.cap - s.out.length)) extra w (by intro h; simp at h; omega) (by intro h; simp at h; omega)
    refine ⟨_, a1, a2, a3, fun _ => a4 ?_⟩
    by_cases h : w.length ≥ s.cap - s.out.length
    · exact .inr (by simpa using h)
    · exact .inl (by omega)
  | near c =>
    obtain ⟨a1, a2, a3, a4⟩ := key (decide (s.cap - s.out.length < 10)) 100 [c] (by intro h; simp at h; simp; omega) (by intro h; simp at h; simp; omega)
    refine ⟨_, a1, a2, a3, fun _ => a4 ?_⟩
    by_cases h : s.cap - s.out.length < 10
    · exact .inr (by simpa using h)
    · exact .inl (by simp; omega)
  | byte c =>
    obtain ⟨a1, a2, a3, a4⟩ := key (decide (s.cap - s.out.length = 0)) 100 [c] (by intro h; simp at h; simp; omega) (by intro h; simp at h; simp; omega)
    exact ⟨_, a1, a2, a3, fun h => absurd rfl (h c)⟩

theorem writeAll_eq (s : St) (ks : List Tok) (hk : ∀ k ∈ ks, k.Fair) (hs : s.out.length ≤ s.cap) :
    ∃ cap, writeAll s ks = .val { cap := cap, out := s.out ++ ks.flatMap Tok.out } ∧ s.cap ≤ cap ∧ (s.out ++ ks.flatMap Tok.out).length ≤ cap ∧
      (∀ k ∈ ks.getLast?, (∀ c, k ≠ .byte c) → (s.out ++ ks.flatMap Tok.out).length < cap) := by
  induction ks generalizing s with
  | nil => exact ⟨s.cap, by simp [writeAll], Nat.le_refl _, by simpa using hs, by simp⟩
  | cons k ks ih =>
    obtain ⟨cap, a1, a2, a3, a4⟩ := write_eq (hk k (by simp)) hs
    obtain ⟨cap', b1, b2, b3, b4⟩ := ih ⟨cap, s.out ++ k.out⟩ (fun x hx => hk x (by simp [hx])) a3
    simp only [List.append_assoc] at b1 b3 b4
    refine ⟨cap', ?_, Nat.le_trans a2 b2, ?_, ?_⟩
    · rw [writeAll, a1]
      simp only []
      rw [b1, List.flatMap_cons]
    · rw [List.flatMap_cons]; exact b3
    · cases ks with
      | nil =>
        intro x hx hb
        simp at hx
        subst hx
        have := a4 hb
        simp at this b2 ⊢
        omega
      | cons k' ks =>
        rw [List.getLast?_cons_cons, List.flatMap_cons]
        exact b4

/-! ### Headings -/

theorem copy_joins (start n : Nat) (b : Bool) (s : Bytes) : Joins s ((copy start n b s).flatMap Tok.out) := by
  induction s generalizing n b with
  | nil => exact .nil
  | cons c t ih =>
    rw [copy]
    split
    · exact .same c (ih _ _)
    · split
      · exact .same c (ih _ _)
      · split
        · exact .same c (ih _ _)
        · split
          · rename_i h; exact .nbsp h.2 (ih _ _)
          · exact .same c (ih _ _)

theorem joins_refl (s : Bytes) : Joins s s := by
  induction s with
  | nil => exact .nil
  | cons c s ih => exact .same c ih

theorem heading_joins (s : Bytes) : Joins s ((heading s).flatMap Tok.out) := by
  unfold heading
  simp only []
  split
  · exact copy_joins _ _ _ _
  · simpa [Tok.out] using joins_refl s

theorem copy_fair (start n : Nat) (b : Bool) (s : Bytes) : ∀ k ∈ copy start n b s, k.Fair ∧ ∀ c, k ≠ .byte c := by
  induction s generalizing n b with
  | nil => simp [copy]
  | cons c t ih =>
    rw [copy]
    split
    · exact List.forall_mem_cons.2 ⟨⟨trivial, by simp⟩, ih _ _⟩
    · split
      · exact List.forall_mem_cons.2 ⟨⟨trivial, by simp⟩, ih _ _⟩
      · split
        · exact List.forall_mem_cons.2 ⟨⟨trivial, by simp⟩, ih _ _⟩
        · split
          · exact List.forall_mem_cons.2 ⟨⟨by simp [Tok.Fair], by simp⟩, ih _ _⟩
          · exact List.forall_mem_cons.2 ⟨⟨trivial, by simp⟩, ih _ _⟩

theorem heading_fair (s : Bytes) : ∀ k ∈ heading s, k.Fair := by
  unfold heading
  simp only []
  split
  · exact fun k hk => (copy_fair _ _ _ _ k hk).1
  · simp [Tok.Fair]

/-! ### Words -/

/-- Words backwards, the last one first. -/
def back : List Bytes → Bytes
  | [] => []
  | [w] => w.reverse
  | w :: v :: r => w.reverse ++ c!" " :: back (v :: r)

theorem joined_snoc (ws : List Bytes) (w : Bytes) (h : ws ≠ []) : joined c!" " (ws ++ [w]) = joined c!" " ws ++ c!" " :: w := by
  induction ws with
  | nil => exact absurd rfl h
  | cons x xs ih =>
    cases xs with
    | nil => rfl
    | cons y ys =>
      have := ih (by simp)
      simp only [List.cons_append] at this ⊢
      rw [joined, this, joined]
      simp

theorem joined_reverse (rs : List Bytes) : (joined c!" " rs.reverse).reverse = back rs := by
  induction rs with
  | nil => rfl
  | cons w r ih =>
    rw [List.reverse_cons]
    cases r with
    | nil => simp [joined, back]
    | cons v r =>
      rw [joined_snoc _ _ (by simp), back, ← ih]
      simp

/-- Bytes of a word. -/
def Solid (w : Bytes) : Prop := w ≠ [] ∧ ∀ c ∈ w, blank c = false

theorem words_word (len : Nat) (w t : Bytes) (hw : Solid w) (s : W) (hl : t.length + w.length ≤ len) :
    words len (w.reverse ++ t) s = words len t { s with wend := if s.wstart = len then t.length + w.length else s.wend, wstart := t.length } := by
  have key : ∀ (u : Bytes), u ≠ [] → (∀ c ∈ u, blank c = false) → ∀ s : W, t.length + u.length ≤ len →
      words len (u ++ t) s = words len t { s with wend := if s.wstart = len then t.length + u.length else s.wend, wstart := t.length } := by
    intro u
    induction u with
    | nil => intro h; exact absurd rfl h
    | cons c u ih =>
      intro _ hc s hl
      rw [List.cons_append, words, if_neg (by simp [hc c (by simp)])]
      cases u with
      | nil =>
        simp only [List.nil_append, List.length_cons, List.length_nil]
      | cons d u =>
        have hlt : ((d :: u) ++ t).length ≠ len := by simp at hl ⊢; omega
        rw [ih (by simp) (fun x hx => hc x (by simp [hx])) _ (by simp at hl ⊢; omega)]
        simp only [if_neg hlt]
        congr 2
        split <;> simp <;> omega
  have := key w.reverse (by simpa using hw.1) (by simpa using hw.2) s (by simpa using hl)
  simpa using this

/-- Where the last words begin: behind the words in front. -/
def startOf (rs : List Bytes) : Nat := if rs = [] then 0 else (back rs).length + 1

theorem back_cons (w : Bytes) (r : List Bytes) : back (w :: r) = w.reverse ++ (if r = [] then [] else c!" " :: back r) := by
  cases r <;> simp [back]

theorem back_length (w : Bytes) (r : List Bytes) : (back (w :: r)).length = w.length + startOf r := by
  rw [back_cons]
  unfold startOf
  split <;> simp

/-- The search from a blank on, when some words have been found that take at most ten bytes. -/
theorem words_more (len : Nat) (rs : List Bytes) (hr : rs ≠ []) (hs : ∀ w ∈ rs, Solid w) (n f : Nat) (h1 : 1 ≤ n) (h2 : n ≤ 10) (hl : (back rs).length < len) :
    ∃ a b, rs = a ++ b ∧ a ≠ [] ∧ (finishWords len (words len (back rs) { wend := (back rs).length, wstart := (back rs).length, comb := n, first := f })).first = startOf b ∧
      1 ≤ (finishWords len (words len (back rs) { wend := (back rs).length, wstart := (back rs).length, comb := n, first := f })).comb ∧
      (b = [] ∨ 10 < n + 1 + (back a).length) ∧ (a.length = 1 ∨ n + 1 + (back a.dropLast).length ≤ 10) := by
  induction rs generalizing n f with
  | nil => exact absurd rfl hr
  | cons w r ih =>
    have hw := hs w (by simp)
    have hlen := back_length w r
    have hpos : 1 ≤ w.length := by have := hw.1; cases w <;> simp_all
    rw [hlen, back_cons]
    cases r with
    | nil =>
      have e : startOf [] = 0 := rfl
      simp only [if_pos, e, Nat.add_zero]
      rw [words_word len w [] hw _ (by simp; omega)]
      refine ⟨[w], [], rfl, by simp, ?_, ?_, .inl rfl, .inl rfl⟩
      all_goals
        simp only [List.length_nil, words, finishWords]
        rw [if_neg (by omega), if_pos (by omega)]
      · exact e.symm
      · dsimp only; omega
    | cons v r =>
      have e : startOf (v :: r) = (back (v :: r)).length + 1 := by simp [startOf]
      rw [if_neg (by simp), words_word len w _ hw _ (by simp; omega)]
      simp only [e, List.length_cons]
      rw [if_neg (by omega), words, if_pos (by decide)]
      simp only []
      rw [if_pos (by omega), if_neg (by omega)]
      by_cases hb : n + 1 + (w.length + ((back (v :: r)).length + 1) - ((back (v :: r)).length + 1)) > 10
      · rw [if_pos hb]
        refine ⟨[w], v :: r, rfl, by simp, ?_, ?_, .inr ?_, .inl rfl⟩
        · unfold finishWords
          simp only []
          rw [if_neg (by omega), if_neg (by omega), e]
        · unfold finishWords
          simp only []
          rw [if_neg (by omega), if_neg (by omega)]
          dsimp only
          omega
        · simp [back]; omega
      · rw [if_neg hb]
        have hn : n + 1 + (w.length + ((back (v :: r)).length + 1) - ((back (v :: r)).length + 1)) = n + 1 + w.length := by omega
        rw [hn]
        rw [hn] at hb
        obtain ⟨a, b, ha, hne, c1, c2, c3, c4⟩ := ih (by simp) (fun x hx => hs x (by simp [hx])) (n + 1 + w.length) ((back (v :: r)).length + 1) (by omega) (by omega) (by omega)
        refine ⟨w :: a, b, by rw [ha]; rfl, by simp, c1, c2, ?_, .inr ?_⟩
        · rcases c3 with c3 | c3
          · exact .inl c3
          · refine .inr ?_
            rw [back_length]
            unfold startOf
            rw [if_neg hne]
            omega
        · rcases c4 with c4 | c4
          · obtain ⟨x, rfl⟩ := List.length_eq_one_iff.1 c4
            simp [back]
            omega
          · cases a with
            | nil => exact absurd rfl hne
            | cons x a =>
              rw [List.dropLast_cons_cons, back_length]
              unfold startOf
              split
              · omega
              · omega

theorem words_all (w : Bytes) (rs : List Bytes) (hs : ∀ x ∈ w :: rs, Solid x) :
    ∃ a b, w :: rs = a ++ b ∧ a ≠ [] ∧
      (finishWords (back (w :: rs)).length (words (back (w :: rs)).length (back (w :: rs)) { wend := (back (w :: rs)).length, wstart := (back (w :: rs)).length, comb := 0, first := (back (w :: rs)).length })).first = startOf b ∧
      1 ≤ (finishWords (back (w :: rs)).length (words (back (w :: rs)).length (back (w :: rs)) { wend := (back (w :: rs)).length, wstart := (back (w :: rs)).length, comb := 0, first := (back (w :: rs)).length })).comb ∧
      (b = [] ∨ 10 < (back a).length) ∧ (a.length ≤ 2 ∨ (back a.dropLast).length ≤ 10) := by
  have hw := hs w (by simp)
  have hpos : 1 ≤ w.length := by have := hw.1; cases w <;> simp_all
  generalize hL : (back (w :: rs)).length = len
  have hlen := back_length w rs
  rw [back_cons]
  cases rs with
  | nil =>
    have e : startOf [] = 0 := rfl
    have hll : len = w.length := by rw [← hL, hlen, e, Nat.add_zero]
    rw [if_pos rfl, words_word len w [] hw _ (by simp; omega)]
    refine ⟨[w], [], rfl, by simp, ?_, ?_, .inl rfl, .inl (by simp)⟩
    all_goals
      simp only [List.length_nil, words, finishWords]
      rw [if_pos ⟨by omega, trivial⟩]
    · exact e.symm
    · simp; omega
  | cons v r =>
    have e : startOf (v :: r) = (back (v :: r)).length + 1 := by simp [startOf]
    rw [if_neg (by simp), words_word len w _ hw _ (by simp; omega)]
    simp only [List.length_cons, if_true]
    rw [words, if_pos (by decide)]
    simp only []
    rw [if_pos (by omega), if_pos trivial]
    have hn : (back (v :: r)).length + 1 + w.length - ((back (v :: r)).length + 1) = w.length := by omega
    rw [hn]
    by_cases h10 : w.length ≤ 10
    · obtain ⟨a, b, ha, hne, c1, c2, c3, c4⟩ := words_more len (v :: r) (by simp) (fun x hx => hs x (by simp [hx])) w.length ((back (v :: r)).length + 1) hpos h10 (by omega)
      refine ⟨w :: a, b, by rw [ha]; rfl, by simp, c1, c2, ?_, ?_⟩
      · rcases c3 with c3 | c3
        · exact .inl c3
        · refine .inr ?_
          rw [back_length]
          unfold startOf
          rw [if_neg hne]
          omega
      · rcases c4 with c4 | c4
        · exact .inl (by simp [c4])
        · refine .inr ?_
          cases a with
          | nil => exact absurd rfl hne
          | cons x a =>
            rw [List.dropLast_cons_cons, back_length]
            unfold startOf
            split
            · omega
            · omega
    · have hv := hs v (by simp)
      have hpv : 1 ≤ v.length := by have := hv.1; cases v <;> simp_all
      have hlv := back_length v r
      rw [back_cons v r]
      cases r with
      | nil =>
        rw [if_pos rfl, words_word len v [] hv _ (by simp; omega)]
        refine ⟨[w], [v], rfl, by simp, ?_, ?_, .inr (by simp [back]; omega), .inl (by simp)⟩
        all_goals
          simp only [List.length_nil, words, finishWords]
          rw [if_neg (by omega), if_neg (by omega)]
        · simp [startOf, back]
        · omega
      | cons x r =>
        have e2 : startOf (x :: r) = (back (x :: r)).length + 1 := by simp [startOf]
        rw [if_neg (by simp), words_word len v _ hv _ (by simp; omega)]
        simp only [List.length_cons]
        rw [if_neg (by simp; omega), words, if_pos (by decide)]
        simp only []
        rw [if_pos (by omega), if_neg (by omega), if_pos (by omega)]
        refine ⟨[w, v], x :: r, rfl, by simp, ?_, ?_, .inr (by simp [back]; omega), .inl (by simp)⟩
        all_goals
          simp only [finishWords]
          rw [if_neg (by omega), if_neg (by omega)]
        · rw [e2]
        · simp; omega

theorem back_append (a b : List Bytes) (h : a ≠ []) : back (a ++ b) = back a ++ (if b = [] then [] else c!" " :: back b) := by
  induction a with
  | nil => exact absurd rfl h
  | cons w a ih =>
    cases a with
    | nil => rw [List.singleton_append, back_cons]; rfl
    | cons v a =>
      rw [List.cons_append, back_cons, if_neg (by simp), ih (by simp), back_cons w (v :: a), if_neg (show v :: a ≠ [] by simp)]
      simp

theorem joined_append (a b : List Bytes) (hb : b ≠ []) : joined c!" " (a ++ b) = (if a = [] then [] else joined c!" " a ++ b!" ") ++ joined c!" " b := by
  induction a with
  | nil => simp
  | cons x a ih =>
    cases a with
    | nil =>
      cases b with
      | nil => exact absurd rfl hb
      | cons y b => simp [joined]
    | cons y a =>
      simp only [List.cons_append] at ih ⊢
      rw [joined, ih]
      simp [joined]

theorem plain_eq (s : Bytes) (h : c!"<" ∉ s ∧ c!">" ∉ s) : plain false s = s := by
  induction s with
  | nil => rfl
  | cons c t ih =>
    obtain ⟨h1, h2⟩ := h
    simp only [List.mem_cons, not_or] at h1 h2
    rw [plain, if_neg (fun e => h1.1 e.symm), if_neg (fun e => h2.1 e.symm), if_neg (by simp), ih ⟨h1.2, h2.2⟩]

theorem place_eq (n : Nat) (s : Bytes) (h : c!"<" ∉ s ∧ c!">" ∉ s) (hn : n ≤ s.length) : place n false s = n := by
  induction s generalizing n with
  | nil => simp at hn; subst hn; rfl
  | cons c t ih =>
    cases n with
    | zero => rfl
    | succ n =>
      obtain ⟨h1, h2⟩ := h
      simp only [List.mem_cons, not_or] at h1 h2
      rw [place, if_neg (fun e => h1.1 e.symm), if_neg (fun e => h2.1 e.symm), if_neg (by simp), ih n ⟨h1.2, h2.2⟩ (by simpa using hn)]
      omega

/-- Blanks replaced. -/
def nb (s : Bytes) : Bytes := s.flatMap fun c => if c = c!" " ∨ c = c!"\t" then b!"&nbsp;" else [c]

theorem copy_eq (start n : Nat) (s : Bytes) (h : c!"<" ∉ s ∧ c!">" ∉ s) : (copy start n false s).flatMap Tok.out = s.take (start - n) ++ nb (s.drop (start - n)) := by
  induction s generalizing n with
  | nil => simp [copy, nb]
  | cons c t ih =>
    obtain ⟨h1, h2⟩ := h
    simp only [List.mem_cons, not_or] at h1 h2
    have ih := ih (n + 1) ⟨h1.2, h2.2⟩
    rw [copy, if_neg (fun e => h1.1 e.symm), if_neg (fun e => h2.1 e.symm), if_neg (by simp)]
    by_cases hn : n ≥ start
    · have e1 : start - n = 0 := by omega
      have e2 : start - (n + 1) = 0 := by omega
      rw [e2] at ih
      rw [e1]
      simp only [List.take_zero, List.drop_zero, List.nil_append] at ih ⊢
      split
      · rename_i hb
        rw [List.flatMap_cons, ih]
        simp [Tok.out, nb, hb.2]
      · rename_i hb
        have : ¬ (c = c!" " ∨ c = c!"\t") := fun h => hb ⟨hn, h⟩
        rw [List.flatMap_cons, ih]
        unfold nb
        rw [List.flatMap_cons, if_neg this]
        rfl
    · rw [if_neg (fun h => hn h.1), List.flatMap_cons, ih, show start - n = (start - (n + 1)) + 1 by omega]
      simp [Tok.out]

theorem nb_word {w : Bytes} (h : ∀ c ∈ w, blank c = false) : nb w = w := by
  induction w with
  | nil => rfl
  | cons c w ih =>
    have hc := h c (by simp)
    unfold nb at ih ⊢
    rw [List.flatMap_cons, ih (fun x hx => h x (by simp [hx])), if_neg]
    · rfl
    · rintro (rfl | rfl) <;> exact absurd hc (by decide)

theorem nb_joined (ws : List Bytes) (h : ∀ w ∈ ws, ∀ c ∈ w, blank c = false) : nb (joined c!" " ws) = glued ws := by
  induction ws with
  | nil => rfl
  | cons x ws ih =>
    cases ws with
    | nil => exact nb_word (h x (by simp))
    | cons y ws =>
      have := ih (fun w hw => h w (by simp [hw]))
      rw [joined, glued, ← this]
      have e : nb (x ++ c!" " :: joined c!" " (y :: ws)) = nb x ++ b!"&nbsp;" ++ nb (joined c!" " (y :: ws)) := by
        unfold nb; simp
      rw [e, nb_word (h x (by simp))]

theorem joined_mem (ws : List Bytes) (c : Byte) (h : c ∈ joined c!" " ws) : c = c!" " ∨ ∃ w ∈ ws, c ∈ w := by
  induction ws with
  | nil => simp [joined] at h
  | cons x ws ih =>
    cases ws with
    | nil => exact .inr ⟨x, by simp, h⟩
    | cons y ws =>
      rw [joined, List.mem_append, List.mem_cons] at h
      rcases h with h | h | h
      · exact .inr ⟨x, by simp, h⟩
      · exact .inl h
      · rcases ih h with h | ⟨w, h1, h2⟩
        · exact .inl h
        · exact .inr ⟨w, by simp [h1], h2⟩

theorem solid_of {ws : List Bytes} (h : Words ws) : ∀ w ∈ ws, Solid w := by
  intro w hw
  refine ⟨(h w hw).1, fun c hc => ?_⟩
  have := (h w hw).2 c hc
  simp [blank] at this ⊢
  grind

theorem heading_words (ws : List Bytes) (hw : Words ws) (hne : ws ≠ []) :
    ∃ front back, ws = front ++ back ∧ back ≠ [] ∧ Together front back ∧ (heading (joined c!" " ws)).flatMap Tok.out = kept front back := by
  obtain ⟨w, rs, hrs⟩ := List.exists_cons_of_ne_nil (show ws.reverse ≠ [] by simpa using hne)
  have hsol := solid_of hw
  obtain ⟨a, b, h1, h2, h3, h4, h5, h6⟩ := words_all w rs (fun x hx => hsol x (by rw [← hrs] at hx; simpa using hx))
  have hjr : (joined c!" " ws).reverse = back (w :: rs) := by rw [← joined_reverse, ← hrs, List.reverse_reverse]
  have hlen : (back (w :: rs)).length = (joined c!" " ws).length := by rw [← hjr, List.length_reverse]
  have hws : ws = b.reverse ++ a.reverse := by
    have := congrArg List.reverse (hrs.trans h1)
    simpa using this
  have hn : c!"<" ∉ joined c!" " ws ∧ c!">" ∉ joined c!" " ws := by
    constructor
    all_goals
      intro hm
      rcases joined_mem _ _ hm with h | ⟨x, hx1, hx2⟩
      · revert h; decide
      · exact (hw x hx1).2 _ hx2 (by decide)
  have hba : (back a).length = (joined c!" " a.reverse).length := by rw [← joined_reverse]; simp
  have hbb : (back b).length = (joined c!" " b.reverse).length := by rw [← joined_reverse]; simp
  have hdl : (back a.dropLast).length = (joined c!" " a.reverse.tail).length := by
    rw [← joined_reverse, List.length_reverse]
    congr 2
    rw [← List.tail_reverse]
  have hst : startOf b < (joined c!" " ws).length := by
    rw [← hlen, h1, back_append _ _ h2]
    obtain ⟨x, a', rfl⟩ := List.exists_cons_of_ne_nil h2
    have hx := (hsol x (by rw [hws]; simp)).1
    have : 1 ≤ (back (x :: a')).length := by rw [back_length]; cases x <;> simp_all; omega
    unfold startOf
    split
    · simp; omega
    · simp; omega
  refine ⟨b.reverse, a.reverse, hws, by simpa using h2, ⟨?_, ?_⟩, ?_⟩
  · rcases h5 with h5 | h5
    · exact .inl (by simp [h5])
    · exact .inr (by omega)
  · rcases h6 with h6 | h6
    · exact .inl (by simpa using h6)
    · exact .inr (by omega)
  · unfold heading
    rw [plain_eq _ hn]
    dsimp only
    rw [hlen] at h3 h4
    rw [hjr, h3]
    rw [if_pos ⟨by omega, by omega, by omega, by omega⟩, place_eq _ _ hn (by omega), copy_eq _ _ _ hn, Nat.sub_zero]
    have hsplit : joined c!" " ws = (if b.reverse = [] then [] else joined c!" " b.reverse ++ b!" ") ++ joined c!" " a.reverse := by
      rw [← joined_append _ _ (by simpa using h2), ← hws]
    have hpl : (if b.reverse = [] then [] else joined c!" " b.reverse ++ b!" ").length = startOf b := by
      unfold startOf
      by_cases hb : b = []
      · simp [hb]
      · rw [if_neg (by simpa using hb), if_neg hb]; simp; omega
    rw [hsplit, ← hpl, List.take_left, List.drop_left, nb_joined _ (fun x hx => (hsol x (by rw [hws]; simp at hx ⊢; exact .inr hx)).2)]
    unfold kept
    split <;> simp

/-! ### Pages -/

theorem opens_iff (s : Bytes) : opens s = true ↔ Begins s := by
  constructor
  · intro h
    match s, h with
    | a :: b :: c :: t, h =>
      simp [opens] at h
      obtain ⟨⟨⟨rfl, rfl⟩, h1⟩, h2⟩ := h
      exact ⟨c, t, by simp, h1, h2⟩
  · rintro ⟨l, t, rfl, h1, h2⟩
    simp [opens, h1, h2]

def Opens (r : Bytes) : Prop := r = [] ∨ r.head? = some c!"<"

theorem not_begins {c : Byte} {t r : Bytes} (h : ¬ Begins (c :: t)) (hr : Opens r) : ¬ Begins (c :: t ++ r) := by
  rintro ⟨l, u, e, h1, h2⟩
  match t with
  | [] =>
    rcases hr with rfl | hr
    · simp at e
    · cases r with
      | nil => simp at hr
      | cons d r => simp at hr e; rw [hr] at e; exact absurd e.2.1 (by decide)
  | [x] =>
    rcases hr with rfl | hr
    · simp at e
    · cases r with
      | nil => simp at hr
      | cons d r =>
        simp at hr e
        obtain ⟨-, -, e, -⟩ := e
        subst hr
        subst e
        exact absurd h2 (by decide)
  | x :: y :: t =>
    simp at e
    obtain ⟨rfl, rfl, rfl, -⟩ := e
    exact h ⟨y, t, by simp, h1, h2⟩

theorem Free.tail {c : Byte} {t : Bytes} (h : Free (c :: t)) : Free t := fun u hu => h u (hu.trans (List.suffix_cons _ _))

theorem text_copy {t : Bytes} (ht : Free t) {r : Bytes} (hr : Opens r) (n : Nat) : scan (t.length + n) (t ++ r) = t.map .byte ++ scan n r := by
  induction t with
  | nil => simp
  | cons c t ih =>
    have h0 := not_begins (ht _ (List.suffix_refl _)) hr
    rw [← opens_iff] at h0
    rw [show (c :: t).length + n = (t.length + n) + 1 by simp; omega, List.cons_append, scan, if_neg (by simpa using h0), ih ht.tail]
    rfl

theorem opening_split {l : Byte} {attrs : Bytes} (hl : 49 ≤ l ∧ l ≤ 54) (ha : c!">" ∉ attrs) : ∀ x ∈ b!"<h" ++ [l] ++ attrs, (x != c!">") = true := by
  intro x hx
  simp only [bne_iff_ne, ne_eq]
  rintro rfl
  simp only [List.mem_append, List.mem_cons, List.not_mem_nil, or_false] at hx
  rcases hx with ((hx | hx) | hx) | hx
  · exact absurd hx (by decide)
  · exact absurd hx (by decide)
  · subst hx; exact absurd hl (by decide)
  · exact ha hx

theorem scan_open {l : Byte} {attrs : Bytes} (hl : 49 ≤ l ∧ l ≤ 54) (ha : c!">" ∉ attrs) (rest : Bytes) (n : Nat) :
    scan (n + 1) (b!"<h" ++ [l] ++ attrs ++ b!">" ++ rest) =
      match find (b!"</h" ++ [l] ++ b!">") rest with
      | none => [.chunk ((b!"<h" ++ [l] ++ attrs ++ b!">").length + 100) (b!"<h" ++ [l] ++ attrs ++ b!">"), .chunk (rest.length + 1) rest]
      | some (text, rest) => .chunk ((b!"<h" ++ [l] ++ attrs ++ b!">").length + 100) (b!"<h" ++ [l] ++ attrs ++ b!">") ::
          (heading text ++ .chunk 6 (b!"</h" ++ [l] ++ b!">") :: scan n rest) := by
  have hall := opening_split hl ha
  have ho : opens (b!"<h" ++ [l] ++ attrs ++ b!">" ++ rest) = true := (opens_iff _).2 ⟨l, attrs ++ b!">" ++ rest, by simp, hl.1, hl.2⟩
  have hc : closing (b!"<h" ++ [l] ++ attrs ++ b!">" ++ rest) = b!"</h" ++ [l] ++ b!">" := by simp [closing]
  have e : b!"<h" ++ [l] ++ attrs ++ b!">" ++ rest = c!"<" :: (b!"h" ++ [l] ++ attrs ++ b!">" ++ rest) := by simp
  have t1 : (b!"<h" ++ [l] ++ attrs ++ b!">" ++ rest).takeWhile (· != c!">") = b!"<h" ++ [l] ++ attrs := by
    rw [show b!"<h" ++ [l] ++ attrs ++ b!">" ++ rest = (b!"<h" ++ [l] ++ attrs) ++ c!">" :: rest by simp]
    exact takeWhile_stop hall (by simp)
  have t2 : ((b!"<h" ++ [l] ++ attrs ++ b!">" ++ rest).dropWhile (· != c!">")).tail = rest := by
    rw [show b!"<h" ++ [l] ++ attrs ++ b!">" ++ rest = (b!"<h" ++ [l] ++ attrs) ++ c!">" :: rest by simp, InlineTables.dropWhile_all _ hall]
    simp
  rw [e] at ho hc t1 t2 ⊢
  rw [scan, if_pos ho, if_pos (by simp), hc]
  dsimp only
  rw [t1, t2]
  cases find (b!"</h" ++ [l] ++ b!">") rest <;> rfl

theorem close_notin (l : Byte) (hl : 49 ≤ l ∧ l ≤ 54) : c!"<" ∉ b!"/h" ++ [l] ++ b!">" := by
  simp
  rintro rfl
  exact absurd hl (by decide)

/-- What is written for a heading and the text behind it. -/
def Heading.toks (h : Heading) : List Tok :=
  .chunk (h.opening.length + 100) h.opening :: (heading h.content ++ .chunk 6 h.closing :: h.behind.map .byte)

theorem scan_heading {h : Heading} (ok : h.Ok) {r : Bytes} (hr : Opens r) (n : Nat) :
    scan (h.behind.length + n + 1) (h.source h.content ++ r) = h.toks ++ scan n r := by
  have := scan_open ok.level ok.attrs (h.content ++ (b!"</h" ++ [h.level] ++ b!">") ++ (h.behind ++ r)) (h.behind.length + n)
  have hf := (find_eq (d := c!"<") (close_notin h.level ok.level) h.content (h.behind ++ r)).2 ok.content
  have e : (c!"<" :: (b!"/h" ++ [h.level] ++ b!">") : Bytes) = b!"</h" ++ [h.level] ++ b!">" := rfl
  rw [e] at hf
  rw [hf] at this
  dsimp only at this
  rw [text_copy ok.behind hr] at this
  simp only [Heading.source, Heading.opening, Heading.closing, Heading.toks, List.append_assoc, List.cons_append, List.nil_append] at this ⊢
  rw [this]

theorem scan_tail {s : Bytes} (h : Tail s) (n : Nat) (hn : s.length ≤ n) : ∃ ks, scan n s = ks ∧ ks.flatMap Tok.out = s ∧ (∀ k ∈ ks, k.Fair) ∧ (∀ k ∈ ks, ∀ c, k ≠ .byte c) ∧ (s ≠ [] → ks ≠ []) := by
  refine ⟨_, rfl, ?_⟩
  cases h with
  | nil => cases n <;> simp [scan]
  | tag h1 h2 =>
    cases s with
    | nil => obtain ⟨l, t, e, -⟩ := h1; simp at e
    | cons c t =>
      obtain ⟨n, rfl⟩ : ∃ m, n = m + 1 := ⟨n - 1, by simp at hn; omega⟩
      rw [scan, if_pos ((opens_iff _).2 h1), if_neg h2]
      simp [Tok.out, Tok.Fair]
  | @heading l attrs rest h1 h2 h3 =>
    obtain ⟨n, rfl⟩ : ∃ m, n = m + 1 := ⟨n - 1, by simp at hn; omega⟩
    rw [scan_open h1 h2, (find_none (by simp)).2 h3]
    simp [Tok.out, Tok.Fair]

theorem tail_opens {s : Bytes} (h : Tail s) : Opens s := by
  cases h with
  | nil => exact .inl rfl
  | tag h1 _ => obtain ⟨l, t, rfl, -⟩ := h1; exact .inr (by simp)
  | heading _ _ _ => exact .inr (by simp)

theorem headings_open (hs : List Heading) {s : Bytes} (h : Opens s) : Opens ((hs.flatMap fun h => h.source h.content) ++ s) := by
  cases hs with
  | nil => exact h
  | cons x hs => exact .inr (by simp [Heading.source, Heading.opening])

theorem scan_headings (hs : List Heading) (h : ∀ x ∈ hs, x.Ok) {s : Bytes} (ht : Tail s) (n : Nat) (hn : ((hs.flatMap fun h => h.source h.content) ++ s).length ≤ n) :
    ∃ m, s.length ≤ m ∧ scan n ((hs.flatMap fun h => h.source h.content) ++ s) = hs.flatMap Heading.toks ++ scan m s := by
  induction hs generalizing n with
  | nil => exact ⟨n, by simpa using hn, by simp⟩
  | cons x hs ih =>
    rw [List.flatMap_cons, List.append_assoc] at hn ⊢
    rw [List.length_append] at hn
    have hx : (x.source x.content).length ≥ x.behind.length + 1 := by simp [Heading.source, Heading.opening]; omega
    obtain ⟨k, rfl⟩ : ∃ k, n = x.behind.length + k + 1 := ⟨n - x.behind.length - 1, by omega⟩
    obtain ⟨m, h1, h2⟩ := ih (fun y hy => h y (by simp [hy])) k (by omega)
    refine ⟨m, h1, ?_⟩
    rw [scan_heading (h x (by simp)) (headings_open hs (tail_opens ht)), h2]
    simp

theorem bytes_out (t : Bytes) : (t.map Tok.byte).flatMap Tok.out = t := by
  induction t with
  | nil => rfl
  | cons c t ih => simp [Tok.out, ih]

/-- The content after the pass. -/
def result (h : Heading) : Bytes := (heading h.content).flatMap Tok.out

theorem toks_out (h : Heading) : h.toks.flatMap Tok.out = h.source (result h) := by
  rw [Heading.toks, List.flatMap_cons, List.flatMap_append, List.flatMap_cons, bytes_out]
  simp [Tok.out, Heading.source, result]

theorem toks_fair (h : Heading) : ∀ k ∈ h.toks, k.Fair := by
  intro k hk
  simp only [Heading.toks, List.mem_cons, List.mem_append, List.mem_map] at hk
  rcases hk with rfl | hk | rfl | ⟨c, -, rfl⟩
  · simp [Tok.Fair]
  · exact heading_fair _ k hk
  · simp [Tok.Fair, Heading.closing]
  · trivial

theorem with_eq (p : Page) : p.with (p.headings.map result) = p.text ++ (p.headings.flatMap fun h => h.source (result h)) ++ p.tail := by
  unfold Page.with
  congr 2
  generalize p.headings = hs
  induction hs with
  | nil => rfl
  | cons h hs ih => rw [List.map_cons, List.zip_cons_cons, List.flatMap_cons, List.flatMap_cons, ih]

/-- The result, unless the page ends in text and the result is long. -/
theorem apply_page (p : Page) (hp : p.Ok) :
    ∃ cap, 2 * p.html.length + 1 ≤ cap ∧ (p.with (p.headings.map result)).length ≤ cap ∧ apply p.html = finish cap (p.with (p.headings.map result)) ∧
      (p.tail ≠ [] ∨ (∃ h ∈ p.headings.getLast?, h.behind = []) → (p.with (p.headings.map result)).length < cap) := by
  obtain ⟨k, hk⟩ : ∃ k, p.html.length = p.text.length + k := ⟨p.html.length - p.text.length, by simp [Page.html]⟩
  obtain ⟨m, h1, h2⟩ := scan_headings p.headings hp.headings hp.tail k (by simp only [Page.html, List.length_append] at hk ⊢; omega)
  obtain ⟨ts, h3, h4, h5, h6, h7⟩ := scan_tail hp.tail m h1
  have hs : scan p.html.length p.html = p.text.map .byte ++ (p.headings.flatMap Heading.toks ++ ts) := by
    rw [hk, Page.html, List.append_assoc, text_copy hp.text (headings_open _ (tail_opens hp.tail)), h2, h3]
  have hout : (p.text.map Tok.byte ++ (p.headings.flatMap Heading.toks ++ ts)).flatMap Tok.out = p.with (p.headings.map result) := by
    rw [List.flatMap_append, List.flatMap_append, bytes_out, h4, with_eq, List.flatMap_assoc, List.append_assoc]
    congr 3
    funext h
    exact toks_out h
  obtain ⟨cap, a1, a2, a3, a4⟩ := writeAll_eq ⟨p.html.length * 2 + 1, []⟩ (p.text.map .byte ++ (p.headings.flatMap Heading.toks ++ ts)) (by
    intro x hx
    simp only [List.mem_append, List.mem_map, List.mem_flatMap] at hx
    rcases hx with ⟨c, -, rfl⟩ | ⟨h, -, hx⟩ | hx
    · trivial
    · exact toks_fair h x hx
    · exact h5 x hx) (by simp)
  rw [hout] at a1 a3 a4
  refine ⟨cap, by simpa [Nat.mul_comm] using a2, by simpa using a3, ?_, ?_⟩
  · unfold apply
    rw [hs, a1]
    rfl
  · intro hend
    have hlast : ∃ x ∈ (p.text.map Tok.byte ++ (p.headings.flatMap Heading.toks ++ ts)).getLast?, ∀ c, x ≠ .byte c := by
      by_cases hts : ts = []
      · have ht : p.tail = [] := by
          refine Classical.byContradiction fun h => h7 h hts
        rcases hend with hend | ⟨h, hl, hb⟩
        · exact absurd ht hend
        · obtain ⟨ys, hys⟩ := List.getLast?_eq_some_iff.1 hl
          refine ⟨.chunk 6 h.closing, ?_, by simp⟩
          rw [hys, hts]
          simp [Heading.toks, hb, List.getLast?_append, List.getLast?_cons]
      · refine ⟨ts.getLast hts, ?_, h6 _ (List.getLast_mem hts)⟩
        rw [List.getLast?_append, List.getLast?_append, List.getLast?_eq_some_getLast hts]
        rfl
    obtain ⟨x, hx, hxb⟩ := hlast
    simpa using a4 x hx hxb

theorem split_at {q : Byte} {b : Bytes} (h : q ∈ b) : ∃ u v, b = u ++ q :: v ∧ q ∉ u := by
  induction b with
  | nil => simp at h
  | cons c b ih =>
    by_cases hc : c = q
    · exact ⟨[], b, by simp [hc], by simp⟩
    · obtain ⟨u, v, rfl, hu⟩ := ih (by simp at h; exact h.resolve_left (fun e => hc e.symm))
      exact ⟨c :: u, v, rfl, by simp [hu, Ne.symm hc]⟩

theorem free_nil : Free [] := by
  intro u hu
  obtain rfl := List.suffix_nil.1 hu
  rintro ⟨l, t, e, -⟩
  simp at e

/-- Every page is of this form. -/
theorem page_exists (html : Bytes) : ∃ p : Page, p.Ok ∧ p.html = html := by
  induction hn : html.length using Nat.strongRecOn generalizing html with
  | _ n ih =>
    cases html with
    | nil => exact ⟨⟨[], [], []⟩, ⟨free_nil, by simp, .nil⟩, rfl⟩
    | cons c t =>
      by_cases hB : Begins (c :: t)
      · by_cases hg : c!">" ∈ c :: t
        · obtain ⟨l, u, e, h1, h2⟩ := hB
          have hu : c!">" ∈ u := by
            rw [e] at hg
            simp only [List.mem_append, List.mem_cons, List.not_mem_nil, or_false] at hg
            rcases hg with ((hg | hg) | hg) | hg
            · exact absurd hg (by decide)
            · exact absurd hg (by decide)
            · subst hg; exact absurd h2 (by decide)
            · exact hg
          obtain ⟨attrs, rest, rfl, ha⟩ := split_at hu
          cases hf : find (b!"</h" ++ [l] ++ b!">") rest with
          | none =>
            refine ⟨⟨[], [], c :: t⟩, ⟨free_nil, by simp, ?_⟩, by simp [Page.html]⟩
            have := Tail.heading (rest := rest) ⟨h1, h2⟩ ha ((find_none (by simp)).1 hf)
            rw [e]
            simpa using this
          | some r =>
            obtain ⟨content, r⟩ := r
            have hr := find_some hf
            have hcont : ¬ b!"</h" ++ [l] ++ b!">" <:+: content := by
              rw [hr] at hf
              exact (find_eq (d := c!"<") (close_notin l ⟨h1, h2⟩) content r).1 hf
            obtain ⟨p, hp, he⟩ := ih r.length (by rw [← hn, e, hr]; simp; omega) r rfl
            refine ⟨⟨[], ⟨l, attrs, content, p.text⟩ :: p.headings, p.tail⟩, ⟨free_nil, ?_, hp.tail⟩, ?_⟩
            · intro x hx
              simp at hx
              rcases hx with rfl | hx
              · exact ⟨⟨h1, h2⟩, ha, hcont, hp.text⟩
              · exact hp.headings x hx
            · rw [e, hr, ← he]
              simp [Page.html, Heading.source, Heading.opening, Heading.closing]
        · exact ⟨⟨[], [], c :: t⟩, ⟨free_nil, by simp, .tag hB hg⟩, by simp [Page.html]⟩
      · obtain ⟨p, hp, he⟩ := ih t.length (by rw [← hn]; simp) t rfl
        refine ⟨⟨c :: p.text, p.headings, p.tail⟩, ⟨?_, hp.headings, hp.tail⟩, ?_⟩
        · intro u hu
          rw [List.suffix_cons_iff] at hu
          rcases hu with rfl | hu
          · rintro ⟨l, v, e, h1, h2⟩
            refine hB ⟨l, v ++ ((p.headings.flatMap fun h => h.source h.content) ++ p.tail), ?_, h1, h2⟩
            rw [← he, Page.html, List.append_assoc, ← List.cons_append, e]
            simp
          · exact hp.text u hu
        · rw [← he]; simp [Page.html]

end Verif.Widont
