import Verif.Spec.Highlight
import Verif.Proof.DropBuf

namespace Verif.Highlight

open Spec DropBuf

/-! ### Code -/

theorem takeWhile_all {p : Byte → Bool} (s : Bytes) : ∀ c ∈ s.takeWhile p, p c = true := by
  induction s with
  | nil => simp
  | cons c t ih =>
    rw [List.takeWhile_cons]
    split
    · intro d hd
      rcases List.mem_cons.1 hd with rfl | h
      · assumption
      · exact ih d h
    · simp

theorem dropWhile_append_all {p : Byte → Bool} : ∀ (a b : Bytes), (∀ c ∈ a, p c = true) →
    (a ++ b).dropWhile p = b.dropWhile p := by
  intro a b h
  induction a with
  | nil => rfl
  | cons c t ih =>
    rw [List.cons_append, List.dropWhile_cons, if_pos (h c (by simp)), ih fun d hd => h d (by simp [hd])]

theorem at0_cons_zero (c : Byte) (t : Bytes) : at0 (c :: t) 0 = c := rfl
theorem at0_cons_succ (c : Byte) (t : Bytes) (i : Nat) : at0 (c :: t) (i + 1) = at0 t i := by simp [at0]
theorem at0_nil (i : Nat) : at0 [] i = 0 := by simp [at0]

theorem at0_eq {s : Bytes} {i : Nat} {c : Byte} (hc : c ≠ 0) : at0 s i = c ↔ s[i]? = some c := by
  unfold at0
  rw [List.getD_eq_getElem?_getD]
  cases h : s[i]? with
  | none => simp; exact fun h => hc h.symm
  | some d => simp

theorem two_split {s : Bytes} {a b : Byte} (ha : a ≠ 0) (hb : b ≠ 0) :
    (at0 s 0 = a ∧ at0 s 1 = b) ↔ ∃ r, s = a :: b :: r := by
  match s with
  | [] => simp [at0_nil]; exact fun h => absurd h.symm ha
  | [x] => simp [at0]; exact fun _ h => absurd h.symm hb
  | x :: y :: r => simp [at0]

theorem listMarker_iff (p : Bytes) : listMarker p = true ↔ ListItem p := by
  unfold listMarker ListItem
  split
  · rename_i hb
    match p with
    | [] => simp [at0_nil] at hb
    | [b] =>
      simp only [at0_cons_succ, at0_nil]
      constructor
      · intro h; simp at h
      · rintro (⟨b', d, r, h, _⟩ | ⟨ds, d, r, h, h2, _⟩)
        · simp at h
        · match ds with
          | [] => exact absurd rfl h2
          | [_] => simp at h
          | _ :: _ :: _ => simp at h
    | b :: d :: r =>
      simp only [at0_cons_succ, at0_cons_zero] at hb ⊢
      constructor
      · intro h
        exact .inl ⟨b, d, r, rfl, hb, by simpa using h⟩
      · rintro (⟨b', d', r', h, _, h2⟩ | ⟨ds, d', r', h, h2, h3, _⟩)
        · simp at h; obtain ⟨rfl, rfl, rfl⟩ := h; simpa using h2
        · match ds with
          | [] => exact absurd rfl h2
          | x :: ds =>
            simp at h
            have := h3 b (by simp [h.1])
            rcases hb with rfl | rfl | rfl <;> simp [isDigit] at this
  · rename_i hb
    split
    · rename_i hd
      simp only []
      have hsplit : p = p.takeWhile isDigit ++ p.dropWhile isDigit := List.takeWhile_append_dropWhile.symm
      have hne : p.takeWhile isDigit ≠ [] := by
        match p with
        | [] => exact absurd hd (by decide)
        | c :: t => rw [at0_cons_zero] at hd; simp [List.takeWhile_cons, hd]
      constructor
      · intro h
        have h : at0 (p.dropWhile isDigit) 0 = c!"." ∧
            (at0 (p.dropWhile isDigit) 1 = c!" " ∨ at0 (p.dropWhile isDigit) 1 = c!"\t") := by simpa using h
        right
        rcases h with ⟨h1, h2 | h2⟩
        · obtain ⟨r, hr⟩ := (two_split (by decide) (by decide)).1 ⟨h1, h2⟩
          exact ⟨_, c!" ", r, by rw [← hr]; exact hsplit, hne, takeWhile_all p, .inl rfl⟩
        · obtain ⟨r, hr⟩ := (two_split (by decide) (by decide)).1 ⟨h1, h2⟩
          exact ⟨_, c!"\t", r, by rw [← hr]; exact hsplit, hne, takeWhile_all p, .inr rfl⟩
      · rintro (⟨b, d, r, rfl, h, _⟩ | ⟨ds, d, r, rfl, h2, h3, h4⟩)
        · exact absurd h hb
        · have : (ds ++ c!"." :: d :: r).dropWhile isDigit = c!"." :: d :: r := by
            rw [dropWhile_append_all _ _ h3, List.dropWhile_cons, if_neg (by decide)]
          rw [this]
          simpa [at0] using h4
    · rename_i hd
      constructor
      · intro h; simp at h
      · rintro (⟨b, d, r, rfl, h, _⟩ | ⟨ds, d, r, rfl, h2, h3, h4⟩)
        · exact absurd h hb
        · exfalso
          match ds with
          | [] => exact h2 rfl
          | x :: ds => exact hd (by rw [List.cons_append, at0_cons_zero]; exact h3 x (by simp))

theorem indentedCode_iff (s : Bytes) : indentedCode s = true ↔ IndentedCode s := by
  unfold indentedCode IndentedCode
  split
  · rename_i h
    have h := (at0_eq (by decide)).1 h
    match s with
    | [] => simp at h
    | c :: t =>
      simp at h
      subst h
      rw [List.drop_one, List.tail_cons, Bool.not_eq_true', ← Bool.not_eq_true, listMarker_iff]
      constructor
      · intro h; exact .inl ⟨t, rfl, h⟩
      · rintro (⟨r, h, h2⟩ | ⟨n, r, hn, h, _⟩)
        · simp at h; subst h; exact h2
        · match n with
          | n + 1 => rw [List.replicate_succ] at h; simp at h
  · rename_i ht
    split
    · rename_i h
      constructor
      · simp
      · rintro (⟨r, rfl, _⟩ | ⟨n, r, hn, rfl, _⟩)
        · exact absurd (at0_cons_zero _ _) ht
        · exfalso
          match n, hn with
          | n + 4, _ => simp [List.replicate_succ, at0] at h
    · rename_i h
      have h : at0 s 0 = c!" " ∧ at0 s 1 = c!" " ∧ at0 s 2 = c!" " ∧ at0 s 3 = c!" " := by
        simp only [ne_eq, not_or, Decidable.not_not] at h; exact h
      obtain ⟨u, rfl⟩ : ∃ u, s = List.replicate 4 c!" " ++ u := by
        match s with
        | [] => simp [at0] at h
        | [a] => simp [at0] at h
        | [a, b] => simp [at0] at h
        | [a, b, c] => simp [at0] at h
        | a :: b :: c :: d :: u =>
          simp [at0] at h
          obtain ⟨rfl, rfl, rfl, rfl⟩ := h
          exact ⟨u, rfl⟩
      rw [List.drop_left' (by simp), Bool.not_eq_true', ← Bool.not_eq_true, listMarker_iff]
      have hu : u = u.takeWhile (· == c!" ") ++ u.dropWhile (· == c!" ") := List.takeWhile_append_dropWhile.symm
      have hrep : ∃ m, u.takeWhile (· == c!" ") = List.replicate m c!" " := by
        refine ⟨_, List.eq_replicate_of_mem ?_⟩
        intro b hb
        have := takeWhile_all u b hb
        simpa using this
      have hhead : (u.dropWhile (· == c!" ")).head? ≠ some c!" " := by
        intro h
        have := List.head?_dropWhile_not (· == c!" ") u
        rw [h] at this
        simp at this
      constructor
      · intro hl
        obtain ⟨m, hm⟩ := hrep
        refine .inr ⟨4 + m, u.dropWhile (· == c!" "), by omega, ?_, hhead, hl⟩
        rw [← List.replicate_append_replicate, List.append_assoc, ← hm, ← hu]
      · rintro (⟨r, h, _⟩ | ⟨n, r, hn, h, hh, hl⟩)
        · simp [List.replicate_succ] at h
        · obtain ⟨m, rfl⟩ : ∃ m, n = 4 + m := ⟨n - 4, by omega⟩
          rw [← List.replicate_append_replicate, List.append_assoc] at h
          have h := List.append_cancel_left h
          rw [h, dropWhile_append_all _ _ (by intro c hc; simp [List.eq_of_mem_replicate hc])]
          have : r.dropWhile (· == c!" ") = r := by
            cases r with
            | nil => rfl
            | cons c r =>
              rw [List.dropWhile_cons, if_neg]
              simp at hh ⊢; exact hh
          rw [this]; exact hl

theorem prefix_three (s : Bytes) : (b!"```" <+: s) ↔ at0 s 0 = c!"`" ∧ at0 s 1 = c!"`" ∧ at0 s 2 = c!"`" := by
  match s with
  | [] => simp [at0]
  | [a] => simp [at0]
  | [a, b] => simp [at0]
  | a :: b :: c :: u => simp [at0]; exact ⟨fun h => ⟨h.1.symm, h.2.1.symm, h.2.2.symm⟩, fun h => ⟨h.1.symm, h.2.1.symm, h.2.2.symm⟩⟩

theorem prefix_one (s : Bytes) : (b!"`" <+: s) ↔ at0 s 0 = c!"`" := by
  match s with
  | [] => simp [at0]
  | a :: u => simp [at0]; exact eq_comm

theorem code_update (r : Rule) (k : Flags) (before : Option Byte) (s : Bytes) : Code r k before s (k.update r before s) := by
  have hf : (k.update r before s).fence = if b!"```" <+: s then !k.fence else k.fence := by
    rw [show (if b!"```" <+: s then !k.fence else k.fence) =
      if (at0 s 0 = c!"`" ∧ at0 s 1 = c!"`" ∧ at0 s 2 = c!"`") then !k.fence else k.fence by
        simp only [prefix_three]]
    unfold Flags.update
    simp only []
    by_cases h1 : at0 s 0 = c!"`" <;> by_cases h2 : at0 s 1 = c!"`" ∧ at0 s 2 = c!"`"
    all_goals simp only [h1, h2, if_true, if_false, and_self, and_false, true_and, false_and]
    all_goals repeat' split
    all_goals first | rfl | simp_all
  have hi : (k.update r before s).inline = if b!"`" <+: s ∧ ¬ b!"```" <+: s ∧ k.fence = false then !k.inline else k.inline := by
    rw [show (if b!"`" <+: s ∧ ¬ b!"```" <+: s ∧ k.fence = false then !k.inline else k.inline) =
      if (at0 s 0 = c!"`" ∧ ¬ (at0 s 0 = c!"`" ∧ at0 s 1 = c!"`" ∧ at0 s 2 = c!"`") ∧ k.fence = false) then !k.inline else k.inline by
        simp only [prefix_three, prefix_one]]
    unfold Flags.update
    simp only []
    by_cases h1 : at0 s 0 = c!"`" <;> by_cases h2 : at0 s 1 = c!"`" ∧ at0 s 2 = c!"`"
    all_goals simp only [h1, h2, if_true, if_false, and_self, and_false, true_and, false_and]
    all_goals repeat' split
    all_goals first | rfl | simp_all
  refine ⟨?_, hf, hi⟩
  split
  · rename_i h
    have : (k.update r before s).indent = indentedCode s := by
      unfold Flags.update
      rw [if_pos h]
      simp only []
      repeat' split
      all_goals rfl
    rw [this]; exact indentedCode_iff s
  · rename_i h
    unfold Flags.update
    rw [if_neg h]
    simp only []
    repeat' split
    all_goals rfl

theorem code_unique {r : Rule} {k k' k'' : Flags} {before : Option Byte} {s : Bytes} (h : Code r k before s k')
    (h' : Code r k before s k'') : k' = k'' := by
  have h1 := h.fence.trans h'.fence.symm
  have h2 := h.inline.trans h'.inline.symm
  have h3 : k'.indent = k''.indent := by
    have a := h.indent
    have b := h'.indent
    split at a
    · rename_i hc
      rw [if_pos hc] at b
      have := a.trans b.symm
      cases hx : k'.indent <;> cases hy : k''.indent <;> simp_all
    · rename_i hc
      rw [if_neg hc] at b
      rw [a, b]
  cases k'; cases k''; simp_all

/-! ### Closing markers -/

/-- What the passes need to know about their marker. -/
structure Good (r : Rule) : Prop where
  mem : r.mark ∈ r.bad
  nz : r.mark ≠ 0
  bz : ∀ b ∈ r.bad, b ≠ 0
  nl : r.mark ≠ c!"\n" ∧ r.mark ≠ c!"\r"

theorem good_highlight : Good highlightRule := ⟨by decide, by decide, by decide, by decide⟩
theorem good_insert (a) : Good (insertRule a) := ⟨by simp [insertRule], by simp [insertRule], by simp [insertRule], by simp [insertRule]⟩

theorem bad_head {r : Rule} (hg : Good r) (z : Bytes) : at0 z 0 ∉ r.bad ↔ ∀ b ∈ r.bad, z.head? ≠ some b := by
  cases z with
  | nil => simp [at0_nil]; exact fun h => hg.bz 0 h rfl
  | cons c z => simp [at0_cons_zero]; exact ⟨fun h b hb e => h (e ▸ hb), fun h hc => h c hc rfl⟩

/-- `n` is the length of the shortest text in `s` that may end, `p` having been read before. -/
def Closes (r : Rule) (p s : Bytes) (n : Nat) : Prop :=
  ∃ y after, s = y ++ twice r ++ after ∧ y.length = n ∧ c!"\n" ∉ y ∧ c!"\r" ∉ y ∧ Ends r (p ++ y) after ∧
    ∀ y' z, s = y' ++ twice r ++ z → y'.length < n → ¬ Ends r (p ++ y') z

theorem findClose_iff {r : Rule} (hg : Good r) : ∀ (s p : Bytes) (n : Nat),
    findClose r p.getLast? s = some n ↔ Closes r p s n := by
  intro s
  induction s with
  | nil =>
    intro p n
    constructor
    · intro h; simp [findClose] at h
    · rintro ⟨y, after, h, _⟩; simp [twice] at h
  | cons c t ih =>
    intro p n
    rw [findClose]
    split
    · rename_i hnl
      constructor
      · intro h; simp at h
      · rintro ⟨y, after, h, _, h1, h2, _⟩
        exfalso
        cases y with
        | nil =>
          simp [twice] at h
          rcases hnl with rfl | rfl
          · exact hg.nl.1 h.1.symm
          · exact hg.nl.2 h.1.symm
        | cons d y =>
          simp at h
          rw [← h.1] at h1 h2
          rcases hnl with rfl | rfl
          · simp at h1
          · simp at h2
    · rename_i hnl
      split
      · rename_i hm
        obtain ⟨hc, h0, h1, hp1, hp2, hp3⟩ := hm
        subst hc
        have ht : ∃ after, t = r.mark :: after := by
          cases t with
          | nil => exact absurd h0.symm hg.nz
          | cons d t => exact ⟨t, by rw [at0_cons_zero] at h0; rw [h0]⟩
        obtain ⟨after, rfl⟩ := ht
        rw [at0_cons_succ] at h1
        have hE : Ends r (p ++ []) after := ⟨by simpa using hp1, by simpa using hp2, by simpa using hp3, (bad_head hg _).1 h1⟩
        constructor
        · intro h
          simp at h
          subst h
          exact ⟨[], after, rfl, rfl, by simp, by simp, hE, fun y' z _ h => by simp at h⟩
        · rintro ⟨y, a, h, hl, _, _, _, hf⟩
          have : n = 0 := by
            refine Decidable.byContradiction fun hn => hf [] after rfl (by simp; omega) hE
          rw [this]
      · rename_i hm
        have hne : ∀ z, c :: t = twice r ++ z → ¬ Ends r p z := by
          rintro z h ⟨e1, e2, e3, e4⟩
          simp [twice] at h
          obtain ⟨rfl, rfl⟩ := h
          exact hm ⟨rfl, at0_cons_zero _ _, by rw [at0_cons_succ]; exact (bad_head hg _).2 e4, e1, e2, e3⟩
        have hih := fun m => ih (p ++ [c]) m
        rw [List.getLast?_concat] at hih
        constructor
        · intro h
          cases hf : findClose r (some c) t with
          | none => rw [hf] at h; simp at h
          | some m =>
            rw [hf] at h
            simp at h
            subst h
            obtain ⟨y, after, h1, h2, h3, h4, h5, h6⟩ := (hih m).1 hf
            refine ⟨c :: y, after, by simp [h1], by simp [h2], ?_, ?_, by simpa using h5, ?_⟩
            · simp only [not_or] at hnl
              simp only [List.mem_cons, not_or]
              exact ⟨fun h => hnl.1 h.symm, h3⟩
            · simp only [not_or] at hnl
              simp only [List.mem_cons, not_or]
              exact ⟨fun h => hnl.2 h.symm, h4⟩
            · intro y' z h hl
              cases y' with
              | nil => rw [List.append_nil]; exact hne z h
              | cons d y' =>
                simp at h hl
                obtain ⟨rfl, h⟩ := h
                have := h6 y' z (by simpa using h) (by omega)
                simpa using this
        · rintro ⟨y, after, h1, h2, h3, h4, h5, h6⟩
          cases y with
          | nil => exact absurd (by simpa using h5) (hne after h1)
          | cons d y =>
            simp at h1 h2 h3 h4
            obtain ⟨rfl, h1⟩ := h1
            have : findClose r (some c) t = some y.length := by
              rw [hih]
              refine ⟨y, after, by simpa using h1, rfl, h3.2, h4.2, by simpa using h5, ?_⟩
              intro y' z h hl
              have := h6 (c :: y') z (by simp [h]) (by simp; omega)
              simpa using this
            rw [this]
            simp [← h2]

/-- Marked text starts here, with `n` bytes. -/
theorem start_iff {r : Rule} (hg : Good r) (before : Option Byte) (c : Byte) (t : Bytes) (n : Nat) :
    (validStart r before (c :: t) = true ∧ findClose r none (t.drop 1) = some n) ↔
    ∃ x after, c :: t = twice r ++ x ++ twice r ++ after ∧ Span r before x after ∧ x.length = n := by
  have hcl := findClose_iff hg (t.drop 1) [] n
  rw [List.getLast?_nil] at hcl
  rw [hcl]
  simp only [validStart, decide_eq_true_eq]
  constructor
  · rintro ⟨⟨h1, h2, h3, h4, h5, h6, h7, h8, h9, h10, h11⟩, y, after, g1, g2, g3, g4, g5, g6⟩
    rw [at0_cons_zero] at h2
    subst h2
    rw [at0_cons_succ] at h3
    obtain ⟨u, rfl⟩ : ∃ u, t = r.mark :: u := by
      cases t with
      | nil => exact absurd h3.symm hg.nz
      | cons d u => rw [at0_cons_zero] at h3; exact ⟨u, by rw [h3]⟩
    rw [List.drop_one, List.tail_cons] at g1
    simp only [at0_cons_succ] at h4 h5 h6 h7 h8 h9 h10
    refine ⟨y, after, ?_, ⟨h1, h11, ?_, ⟨g3, g4⟩, by simpa using g5, ?_⟩, g2⟩
    · rw [g1]; simp [twice]
    · cases y with
      | nil =>
        exfalso
        rw [g1] at h4
        simp [twice, at0] at h4
        exact h4 hg.mem
      | cons d y =>
        rw [g1] at h4 h5 h6 h7 h8 h9 h10
        simp only [List.cons_append, at0_cons_zero] at h4 h5 h6 h7 h8 h9 h10
        exact ⟨d, y, rfl, h4, h5, h6, h7, h8, h9, h10⟩
    · intro y' z hh hl
      have := g6 y' z (by rw [← hh]; simp [g1]) (by simpa [g2] using hl)
      simpa using this
  · rintro ⟨x, after, h, hs, hl⟩
    obtain ⟨d, y, rfl, h4, h5, h6, h7, h8, h9, h10⟩ := hs.opens
    simp [twice] at h
    obtain ⟨rfl, rfl⟩ := h
    refine ⟨⟨hs.notCritic, at0_cons_zero _ _, ?_, ?_⟩, ?_⟩
    · rw [at0_cons_succ, at0_cons_zero]
    · simp only [at0_cons_succ, at0_cons_zero]
      exact ⟨h4, h5, h6, h7, h8, h9, h10, hs.fresh⟩
    · refine ⟨d :: y, after, by simp [twice], hl, hs.oneLine.1, hs.oneLine.2, by simpa using hs.ends, ?_⟩
      intro y' z hh hl'
      have := hs.first y' z (by simpa [twice] using hh) (by omega)
      simpa using this

theorem span_unique {r : Rule} (hg : Good r) {before : Option Byte} {x after x' after' : Bytes}
    (h : Span r before x after) (h' : Span r before x' after')
    (he : twice r ++ x ++ twice r ++ after = twice r ++ x' ++ twice r ++ after') : x = x' ∧ after = after' := by
  have key : ∀ {x after x' after'}, Span r before x after → Span r before x' after' →
      twice r ++ x ++ twice r ++ after = twice r ++ x' ++ twice r ++ after' → ¬ x.length < x'.length := by
    intro x after x' after' h h' he hl
    refine h'.first x after ?_ hl h.ends
    simp only [List.append_assoc] at he ⊢
    exact (List.append_cancel_left he).symm
  have hl : x.length = x'.length := by
    have a := key h h' he
    have b := key h' h he.symm
    omega
  simp only [List.append_assoc] at he
  have he := List.append_cancel_left he
  obtain ⟨rfl, he⟩ := List.append_inj he hl
  exact ⟨rfl, List.append_cancel_left (List.append_cancel_left he)⟩

/-! ### Attribute lists -/

theorem strchr_iff {c : Byte} : ∀ {s : Bytes} {n : Nat}, strchr c s = some n ↔ c ∉ s.take n ∧ s[n]? = some c := by
  intro s
  induction s with
  | nil => intro n; simp [strchr]
  | cons d t ih =>
    intro n
    rw [strchr]
    split
    · rename_i h
      subst h
      cases n with
      | zero => simp
      | succ n => simp
    · rename_i h
      cases n with
      | zero => simp [h]
      | succ n =>
        rw [List.take_succ_cons, List.getElem?_cons_succ, List.mem_cons, not_or]
        constructor
        · intro hh
          cases hs : strchr c t with
          | none => rw [hs] at hh; simp at hh
          | some m =>
            rw [hs] at hh
            simp at hh
            subst hh
            exact ⟨⟨fun e => h e.symm, (ih.1 hs).1⟩, (ih.1 hs).2⟩
        · rintro ⟨⟨_, h1⟩, h2⟩
          rw [ih.2 ⟨h1, h2⟩]; rfl

theorem findIal_iff (text ial rest : Bytes) : findIal text = some (ial, rest) ↔ ∃ gap, Ial text gap ial rest := by
  have hsplit : text = text.takeWhile (fun c => c == c!" " || c == c!"\t") ++ text.dropWhile (fun c => c == c!" " || c == c!"\t") :=
    List.takeWhile_append_dropWhile.symm
  constructor
  · intro h
    unfold findIal at h
    split at h
    · simp at h
    · rename_i c t hd
      split at h
      · rename_i hc
        subst hc
        cases hs : strchr c!"}" t with
        | none => rw [hs] at h; simp at h
        | some n =>
          rw [hs] at h
          simp at h
          obtain ⟨rfl, rfl⟩ := h
          obtain ⟨h1, h2⟩ := strchr_iff.1 hs
          refine ⟨text.takeWhile (fun c => c == c!" " || c == c!"\t"), ?_, ?_, h1⟩
          · conv => lhs; rw [hsplit, hd]
            have : t = t.take n ++ c!"}" :: t.drop (n + 1) := by
              obtain ⟨hlt, hget⟩ := List.getElem?_eq_some_iff.1 h2
              rw [← hget, ← List.drop_eq_getElem_cons hlt, List.take_append_drop]
            conv => lhs; rw [this]
            simp
          · intro c hc
            have := takeWhile_all text c hc
            simpa using this
      · simp at h
  · rintro ⟨gap, rfl, hgap, hi⟩
    unfold findIal
    have : (gap ++ b!"{" ++ ial ++ b!"}" ++ rest).dropWhile (fun c => c == c!" " || c == c!"\t") =
        c!"{" :: (ial ++ c!"}" :: rest) := by
      have e : gap ++ b!"{" ++ ial ++ b!"}" ++ rest = gap ++ (c!"{" :: (ial ++ c!"}" :: rest)) := by simp
      rw [e, dropWhile_append_all _ _ (by intro c hc; simpa using hgap c hc), List.dropWhile_cons, if_neg (by decide)]
    rw [this]
    have hn : strchr c!"}" (ial ++ c!"}" :: rest) = some ial.length :=
      strchr_iff.2 ⟨by rw [List.take_left]; exact hi, by simp⟩
    simp [hn]

theorem ial_unique {t gap ial rest gap' ial' rest' : Bytes} (h : Ial t gap ial rest) (h' : Ial t gap' ial' rest') :
    gap = gap' ∧ ial = ial' ∧ rest = rest' := by
  have e := (findIal_iff t ial rest).2 ⟨_, h⟩
  rw [(findIal_iff t ial' rest').2 ⟨_, h'⟩] at e
  simp at e
  obtain ⟨rfl, rfl⟩ := e
  refine ⟨?_, rfl, rfl⟩
  have := h.1.symm.trans h'.1
  simp only [List.append_assoc] at this
  exact List.append_cancel_right this

/-! ### The loop -/

/-- What is written for a segment. -/
def toks (r : Rule) : Seg → List Tok
  | .plain c => [.byte c]
  | .marked x => [.chunk r.openTag, .chunk x, .chunk r.closeTag]
  | .styled x _ ial => styled r ((r.attrs ial).getD []) x

theorem rd_room {c : Byte} {t mem : Bytes} (h : mem ≠ [] ∨ t ≠ []) : ∃ b, rd (c :: t ++ 0 :: mem) 2 = .val b := by
  unfold rd
  have : 2 < (c :: t ++ 0 :: mem).length := by
    rcases h with h | h
    · have := List.length_pos_iff.2 h; simp; omega
    · have := List.length_pos_iff.2 h; simp; omega
  rw [List.getElem?_eq_getElem this]
  exact ⟨_, rfl⟩

theorem span_length {r : Rule} {before : Option Byte} {x after : Bytes} (h : Span r before x after) : 0 < x.length := by
  obtain ⟨c, y, rfl, _⟩ := h.opens
  simp

/-- One round, in terms of the specification. -/
theorem round_none {r : Rule} (hg : Good r) {k : Flags} {before : Option Byte} {c : Byte} {t : Bytes}
    (h : (if !k.fence && !k.inline && !k.indent && validStart r before (c :: t) then findClose r none (t.drop 1) else none) = none) :
    ¬ (Free k ∧ ∃ x after, c :: t = twice r ++ x ++ twice r ++ after ∧ Span r before x after) := by
  rintro ⟨⟨h1, h2, h3⟩, x, after, he, hs⟩
  have := (start_iff hg before c t x.length).2 ⟨x, after, he, hs, rfl⟩
  rw [if_pos (by simp [h1, h2, h3, this.1]), this.2] at h
  simp at h

theorem round_some {r : Rule} (hg : Good r) {k : Flags} {before : Option Byte} {c : Byte} {t : Bytes} {n : Nat}
    (h : (if !k.fence && !k.inline && !k.indent && validStart r before (c :: t) then findClose r none (t.drop 1) else none) = some n) :
    Free k ∧ ∃ x after, c :: t = twice r ++ x ++ twice r ++ after ∧ Span r before x after ∧
      (t.drop 1).take n = x ∧ t.drop (1 + n + 2) = after := by
  split at h
  · rename_i hc
    simp only [Bool.and_eq_true, Bool.not_eq_true'] at hc
    obtain ⟨⟨⟨h1, h2⟩, h3⟩, h4⟩ := hc
    obtain ⟨x, after, he, hs, hl⟩ := (start_iff hg before c t n).1 ⟨h4, h⟩
    refine ⟨⟨h1, h2, h3⟩, x, after, he, hs, ?_, ?_⟩
    · simp [twice] at he
      rw [he.2, List.drop_one, List.tail_cons, ← hl, List.take_left]
    · simp [twice] at he
      rw [he.2, ← hl]
      have e : r.mark :: (x ++ r.mark :: r.mark :: after) = (r.mark :: x ++ [r.mark, r.mark]) ++ after := by simp
      rw [e]
      exact List.drop_left' (by simp; omega)
  · simp at h

theorem tokens_spec {r : Rule} (hg : Good r) {mem : Bytes} (hm : mem ≠ []) : ∀ n k before s, s.length ≤ n →
    ∃ d, Reads r k before s d ∧ tokens r mem n before k s = .val (d.flatMap (toks r)) := by
  intro n
  induction n with
  | zero =>
    intro k before s h
    have : s = [] := by simpa using h
    subst this
    exact ⟨[], .nil, rfl⟩
  | succ n ih =>
    intro k before s h
    cases s with
    | nil => exact ⟨[], .nil, rfl⟩
    | cons c t =>
      rw [tokens]
      obtain ⟨b, hb⟩ := rd_room (c := c) (t := t) (.inl hm)
      rw [hb, C.val_bind]
      have hcode := code_update r k before (c :: t)
      generalize k.update r before (c :: t) = k' at hcode
      simp only []
      cases hr : (if !k'.fence && !k'.inline && !k'.indent && validStart r before (c :: t) then findClose r none (t.drop 1) else none) with
      | none =>
        obtain ⟨d, hd, ht⟩ := ih k' (some c) t (by simp at h; omega)
        simp only [ht, C.val_bind]
        exact ⟨.plain c :: d, .plain hcode (round_none hg hr) hd, rfl⟩
      | some len =>
        obtain ⟨hfree, x, after, he, hs, hx, ha⟩ := round_some hg hr
        simp only [hx, ha]
        rw [he] at hcode ⊢
        have hlen := congrArg List.length he
        simp only [List.length_append, List.length_cons, twice, List.length_nil] at hlen
        have h : t.length + 1 ≤ n + 1 := by simpa using h
        cases hi : findIal after with
        | none =>
          obtain ⟨d, hd, ht⟩ := ih k' (some r.mark) after (by omega)
          simp only [ht, C.val_bind]
          refine ⟨.marked x :: d, .marked hcode hfree hs ?_ hd, rfl⟩
          intro gap ial rest hh
          rw [(findIal_iff ..).2 ⟨gap, hh⟩] at hi
          simp at hi
        | some p =>
          obtain ⟨ial, rest⟩ := p
          obtain ⟨gap, hial⟩ := (findIal_iff ..).1 hi
          simp only []
          cases hat : r.attrs ial with
          | none =>
            obtain ⟨d, hd, ht⟩ := ih k' (some r.mark) after (by omega)
            simp only [ht, C.val_bind]
            refine ⟨.marked x :: d, .marked hcode hfree hs ?_ hd, rfl⟩
            intro gap' ial' rest' hh
            rw [← (ial_unique hial hh).2.1]; exact hat
          | some a =>
            have hl2 := congrArg List.length hial.1
            simp only [List.length_append, List.length_cons, List.length_nil] at hl2
            obtain ⟨d, hd, ht⟩ := ih k' (some c!"}") rest (by omega)
            simp only [ht, C.val_bind]
            refine ⟨.styled x gap ial :: d, .styled hcode hfree hs hial hat hd, ?_⟩
            simp [toks, hat]

theorem reads_unique {r : Rule} (hg : Good r) {k : Flags} {before : Option Byte} {s : Bytes} {d : List Seg}
    (h : Reads r k before s d) : ∀ {d'}, Reads r k before s d' → d = d' := by
  induction h with
  | nil => 
    intro d' h'
    generalize hs : ([] : Bytes) = s at h'
    cases h' with
    | nil => rfl
    | plain => simp at hs
    | marked => simp [twice] at hs
    | styled => simp [twice] at hs
  | plain hc hn _ ih =>
    intro d' h'
    rename_i k k' before c t d _
    generalize hs : c :: t = s at h'
    cases h' with
    | nil => simp at hs
    | plain hc' hn' h' =>
      simp at hs
      obtain ⟨rfl, rfl⟩ := hs
      have := code_unique hc hc'
      subst this
      rw [ih h']
    | marked hc' hf' hs' _ h' =>
      rw [hs] at hc hn
      have := code_unique hc hc'
      subst this
      exact absurd ⟨hf', _, _, rfl, hs'⟩ hn
    | styled hc' hf' hs' _ _ h' =>
      rw [hs] at hc hn
      have := code_unique hc hc'
      subst this
      exact absurd ⟨hf', _, _, rfl, hs'⟩ hn
  | marked hc hf hs hi _ ih =>
    intro d' h'
    rename_i k k' before x after d _
    generalize he : twice r ++ x ++ twice r ++ after = s at h'
    cases h' with
    | nil => simp [twice] at he
    | plain hc' hn' h' =>
      rw [he] at hc
      have := code_unique hc hc'
      subst this
      exact absurd ⟨hf, _, _, he.symm, hs⟩ hn'
    | marked hc' hf' hs' _ h' =>
      obtain ⟨rfl, rfl⟩ := span_unique hg hs hs' he
      have := code_unique hc hc'
      subst this
      rw [ih h']
    | styled hc' hf' hs' hi' ha' h' =>
      obtain ⟨rfl, rfl⟩ := span_unique hg hs hs' he
      rw [hi _ _ _ hi'] at ha'
      simp at ha'
  | styled hc hf hs hi ha _ ih =>
    intro d' h'
    rename_i k k' before x after gap ial rest d a _
    generalize he : twice r ++ x ++ twice r ++ after = s at h'
    cases h' with
    | nil => simp [twice] at he
    | plain hc' hn' h' =>
      rw [he] at hc
      have := code_unique hc hc'
      subst this
      exact absurd ⟨hf, _, _, he.symm, hs⟩ hn'
    | marked hc' hf' hs' hi' h' =>
      obtain ⟨rfl, rfl⟩ := span_unique hg hs hs' he
      rw [hi' _ _ _ hi] at ha
      simp at ha
    | styled hc' hf' hs' hi' ha' h' =>
      obtain ⟨rfl, rfl⟩ := span_unique hg hs hs' he
      obtain ⟨rfl, rfl, rfl⟩ := ial_unique hi hi'
      have := code_unique hc hc'
      subst this
      rw [ih h']

theorem reads_source {r : Rule} {k : Flags} {before : Option Byte} {s : Bytes} {d : List Seg}
    (h : Reads r k before s d) : d.flatMap (Seg.source r) = s := by
  induction h with
  | nil => rfl
  | plain _ _ _ ih => rw [List.flatMap_cons, ih]; rfl
  | marked _ _ _ _ _ ih => rw [List.flatMap_cons, ih]; rfl
  | styled _ _ _ hi _ _ ih => rw [List.flatMap_cons, ih, hi.1]; simp [Seg.source]

theorem toks_out (r : Rule) (e : Seg) : (toks r e).flatMap Tok.out = e.html r := by
  cases e <;> simp [toks, styled, Tok.out, Seg.html]

theorem toks_reserve (r : Rule) (e : Seg) : ∀ t ∈ toks r e, ∀ n m, t = .reserve n m → n ≤ m := by
  intro t ht n m h
  subst h
  cases e with
  | plain c => simp [toks] at ht
  | marked x => simp [toks] at ht
  | styled x gap ial => simp [toks, styled] at ht; omega

theorem process_fits {r : Rule} (hg : Good r) {mem text : Bytes} (hm : mem ≠ []) {d : List Seg} (hd : Read r text d)
    (hfit : (d.flatMap (Seg.html r)).length < text.length * 2) :
    process r mem text = .val (d.flatMap (Seg.html r)) := by
  obtain ⟨d', hd', ht⟩ := tokens_spec hg hm text.length ⟨false, false, false⟩ none text (Nat.le_refl _)
  have := reads_unique hg hd hd'
  subst this
  unfold process
  rw [ht, C.val_bind]
  have ho : (d.flatMap (toks r)).flatMap Tok.out = d.flatMap (Seg.html r) := by
    rw [List.flatMap_assoc]
    congr 1
    funext e
    exact toks_out r e
  obtain ⟨cap', h1, h2⟩ := fold_room (d.flatMap (toks r)) (text.length * 2) [] (by
    intro t h
    rw [List.mem_flatMap] at h
    obtain ⟨e, _, h⟩ := h
    exact toks_reserve r e t h) (by rw [ho]; simpa using hfit)
  unfold run
  rw [h2]
  simp only [List.nil_append, ho]
  rw [ho] at h1
  exact finish_val (by simpa using h1)

/-- Looking behind the terminator. -/
theorem tokens_ub {r : Rule} (hg : Good r) : ∀ n k before s d, s.length ≤ n → Reads r k before s d →
    (∃ c, d.getLast? = some (.plain c)) → tokens r [] n before k s = .ub := by
  intro n
  induction n with
  | zero =>
    intro k before s d h hr hl
    have : s = [] := by simpa using h
    subst this
    have := reads_unique hg hr .nil
    subst this
    simp at hl
  | succ n ih =>
    intro k before s d h hr hl
    cases s with
    | nil =>
      have := reads_unique hg hr .nil
      subst this
      simp at hl
    | cons c t =>
      rw [tokens]
      by_cases ht : t = []
      · subst ht; rfl
      · obtain ⟨b, hb⟩ := rd_room (c := c) (t := t) (mem := []) (.inr ht)
        rw [hb, C.val_bind]
        have hcode := code_update r k before (c :: t)
        generalize k.update r before (c :: t) = k' at hcode
        simp only []
        have hlast : ∀ {e : Seg} {d' : List Seg}, d = e :: d' → d' ≠ [] → ∃ c, d'.getLast? = some (.plain c) := by
          intro e d' he hne
          rw [he, List.getLast?_cons] at hl
          cases hd : d'.getLast? with
          | none => exact absurd (List.getLast?_eq_none_iff.1 hd) hne
          | some x => rw [hd] at hl; simpa using hl
        cases hx : (if !k'.fence && !k'.inline && !k'.indent && validStart r before (c :: t) then findClose r none (t.drop 1) else none) with
        | none =>
          obtain ⟨d', hd', _⟩ := tokens_spec hg (mem := [0]) (by simp) t.length k' (some c) t (Nat.le_refl _)
          have he := reads_unique hg hr (.plain hcode (round_none hg hx) hd')
          have hne : d' ≠ [] := by
            rintro rfl
            have := reads_source hd'
            exact ht this.symm
          simp only [ih k' (some c) t d' (by simp at h; omega) hd' (hlast he hne), C.ub_bind]
        | some len =>
          obtain ⟨hfree, x, after, he, hs, hx', ha⟩ := round_some hg hx
          simp only [hx', ha]
          rw [he] at hcode hr
          have hlen := congrArg List.length he
          simp only [List.length_append, List.length_cons, twice, List.length_nil] at hlen
          have h : t.length + 1 ≤ n + 1 := by simpa using h
          have hmarked : (∀ gap ial rest, Ial after gap ial rest → r.attrs ial = none) →
              tokens r [] n (some r.mark) k' after = .ub := by
            intro hno
            obtain ⟨d', hd', _⟩ := tokens_spec hg (mem := [0]) (by simp) after.length k' (some r.mark) after (Nat.le_refl _)
            have he' := reads_unique hg hr (.marked hcode hfree hs hno hd')
            have hne : d' ≠ [] := by
              rintro rfl
              rw [he'] at hl
              simp at hl
            exact ih k' (some r.mark) after d' (by omega) hd' (hlast he' hne)
          cases hi : findIal after with
          | none =>
            simp only []
            rw [hmarked, C.ub_bind]
            intro gap ial rest hh
            rw [(findIal_iff ..).2 ⟨gap, hh⟩] at hi
            simp at hi
          | some p =>
            obtain ⟨ial, rest⟩ := p
            obtain ⟨gap, hial⟩ := (findIal_iff ..).1 hi
            simp only []
            cases hat : r.attrs ial with
            | none =>
              simp only []
              rw [hmarked, C.ub_bind]
              intro gap' ial' rest' hh
              rw [← (ial_unique hial hh).2.1]; exact hat
            | some a =>
              have hl2 := congrArg List.length hial.1
              simp only [List.length_append, List.length_cons, List.length_nil] at hl2
              obtain ⟨d', hd', _⟩ := tokens_spec hg (mem := [0]) (by simp) rest.length k' (some c!"}") rest (Nat.le_refl _)
              have he' := reads_unique hg hr (.styled hcode hfree hs hial hat hd')
              have hne : d' ≠ [] := by
                rintro rfl
                rw [he'] at hl
                simp at hl
              simp only []
              rw [ih k' (some c!"}") rest d' (by omega) hd' (hlast he' hne), C.ub_bind]

/-- The last segment of a text that ends in a byte no marker ends with. -/
theorem reads_last {r : Rule} {k : Flags} {before : Option Byte} {s : Bytes} {d : List Seg} (h : Reads r k before s d)
    {b : Byte} (hb : s.getLast? = some b) (h1 : b ≠ r.mark) (h2 : b ≠ c!"}") : d.getLast? = some (.plain b) := by
  induction h with
  | nil => simp at hb
  | @plain k k' before c t d _ _ hr ih =>
    cases t with
    | nil =>
      have := reads_source hr
      cases d with
      | nil => simpa using hb
      | cons e d => cases e <;> simp [Seg.source, twice] at this
    | cons c' t =>
      rw [List.getLast?_cons_cons] at hb
      have := ih hb
      rw [List.getLast?_cons, this]; rfl
  | @marked k k' before x after d _ _ _ _ hr ih =>
    cases after with
    | nil =>
      rw [List.append_nil, List.getLast?_append] at hb
      simp [twice] at hb
      exact absurd hb.symm h1
    | cons c' t =>
      have hb' : (c' :: t).getLast? = some b := by
        rw [List.getLast?_append] at hb
        cases hc : (c' :: t).getLast? with
        | none => simp at hc
        | some x => rw [hc] at hb; simpa using hb
      have := ih hb'
      rw [List.getLast?_cons, this]; rfl
  | @styled k k' before x after gap ial rest d a _ _ _ hi _ hr ih =>
    rw [hi.1] at hb
    cases rest with
    | nil =>
      rw [List.append_nil, ← List.append_assoc, List.getLast?_append] at hb
      simp at hb
      exact absurd hb.symm h2
    | cons c' t =>
      have hb' : (c' :: t).getLast? = some b := by
        rw [← List.append_assoc, List.getLast?_append] at hb
        cases hc : (c' :: t).getLast? with
        | none => simp at hc
        | some x => rw [hc] at hb; simpa using hb
      have := ih hb'
      rw [List.getLast?_cons, this]; rfl

/-- Without the marker everything is plain. -/
theorem reads_plain {r : Rule} {k : Flags} {before : Option Byte} {s : Bytes} {d : List Seg} (h : Reads r k before s d)
    (hn : ¬ twice r <:+: s) : d = s.map .plain := by
  induction h with
  | nil => rfl
  | plain _ _ _ ih =>
    rw [List.map_cons, ← ih]
    exact fun h => hn (h.trans (List.suffix_cons _ _).isInfix)
  | marked => exact absurd (by simp only [List.append_assoc]; exact (List.prefix_append _ _).isInfix) hn
  | styled => exact absurd (by simp only [List.append_assoc]; exact (List.prefix_append _ _).isInfix) hn

theorem process_plain {r : Rule} (hg : Good r) {mem text : Bytes} (hm : mem ≠ []) (hne : text ≠ [])
    (hn : ¬ twice r <:+: text) : process r mem text = .val text := by
  obtain ⟨d, hd, _⟩ := tokens_spec hg hm text.length ⟨false, false, false⟩ none text (Nat.le_refl _)
  have hp := reads_plain hd hn
  have he : d.flatMap (Seg.html r) = text := by
    rw [hp, List.flatMap_map]
    show text.flatMap (fun c => [c]) = text
    induction text with
    | nil => rfl
    | cons c t ih => simp
  have := process_fits hg hm hd (by rw [he]; have := List.length_pos_iff.2 hne; omega)
  rw [this, he]

end Verif.Highlight
