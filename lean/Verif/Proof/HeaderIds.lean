import Verif.Model.HeaderIds
import Verif.Spec.HeaderIds
import Verif.Proof.Slug
import Verif.Proof.Utf8
import Verif.Proof.Transforms

namespace Verif.HeaderIds

open Spec Slug Utf8.Spec
open Emoji (Entry)

/-! ### Names -/

theorem nameLoop_spec (u : Bytes) (tab : List Entry) : ∀ (best : Option Bytes) (x : Bytes),
    nameLoop u best tab = some x ↔
      (best = some x ∧ ∀ e ∈ tab, e.unicode = some u → e.name.length ≤ x.length) ∨
      ((∀ b, best = some b → b.length < x.length) ∧ NameOf tab u x) := by
  induction tab with
  | nil =>
    intro best x
    simp [nameLoop, NameOf]
  | cons e es ih =>
    intro best x
    have hN : NameOf (e :: es) u x ↔
        (e.unicode = some u ∧ e.name = x ∧ ∀ e' ∈ es, e'.unicode = some u → e'.name.length ≤ x.length) ∨
        ((e.unicode = some u → e.name.length < x.length) ∧ NameOf es u x) := by
      constructor
      · rintro ⟨pre, e0, post, h1, h2, h3, h4, h5⟩
        cases pre with
        | nil =>
          simp at h1
          obtain ⟨rfl, rfl⟩ := h1
          exact .inl ⟨h2, h3, h5⟩
        | cons p pre =>
          simp at h1
          obtain ⟨rfl, rfl⟩ := h1
          exact .inr ⟨h4 e (by simp), pre, e0, post, rfl, h2, h3, fun e' he' => h4 e' (by simp [he']), h5⟩
      · rintro (⟨h1, h2, h3⟩ | ⟨h1, pre, e0, post, rfl, h2, h3, h4, h5⟩)
        · exact ⟨[], e, es, rfl, h1, h2, by simp, h3⟩
        · refine ⟨e :: pre, e0, post, rfl, h2, h3, ?_, h5⟩
          intro e' he' hu
          rcases List.mem_cons.1 he' with rfl | he'
          · exact h1 hu
          · exact h4 e' he' hu
    rw [hN]
    by_cases hu : e.unicode = some u
    · unfold nameLoop
      rw [if_pos hu]
      cases best with
      | none =>
        simp only []
        rw [ih]
        simp only [hu, true_and, forall_const, Option.some.injEq, forall_eq', reduceCtorEq, false_and, false_or,
          false_imp_iff, implies_true]
      | some b =>
        simp only []
        rw [ih]
        by_cases hb : b.length < e.name.length
        · rw [if_pos hb]
          simp only [hu, true_and, forall_const, Option.some.injEq, forall_eq', List.mem_cons, forall_eq_or_imp]
          constructor
          · rintro (⟨rfl, h⟩ | ⟨h1, h2⟩)
            · exact .inr ⟨hb, .inl ⟨rfl, h⟩⟩
            · exact .inr ⟨by omega, .inr ⟨h1, h2⟩⟩
          · rintro (⟨rfl, h1, h2⟩ | ⟨_, ⟨rfl, h2⟩ | ⟨h1, h2⟩⟩)
            · omega
            · exact .inl ⟨rfl, h2⟩
            · exact .inr ⟨h1, h2⟩
        · rw [if_neg hb]
          simp only [hu, true_and, forall_const, Option.some.injEq, forall_eq', List.mem_cons, forall_eq_or_imp]
          constructor
          · rintro (⟨rfl, h⟩ | ⟨h1, h2⟩)
            · exact .inl ⟨rfl, by omega, h⟩
            · exact .inr ⟨h1, .inr ⟨by omega, h2⟩⟩
          · rintro (⟨rfl, h1, h2⟩ | ⟨h0, ⟨rfl, h2⟩ | ⟨h1, h2⟩⟩)
            · exact .inl ⟨rfl, h2⟩
            · omega
            · exact .inr ⟨h0, h2⟩
    · unfold nameLoop
      rw [if_neg hu, ih]
      simp only [hu, false_and, false_or, false_imp_iff, true_and, List.mem_cons, forall_eq_or_imp]

theorem findName_iff (tab : List Entry) (u x : Bytes) : findName tab u = some x ↔ NameOf tab u x := by
  rw [findName, nameLoop_spec]
  simp

theorem findName_none {tab : List Entry} {u : Bytes} (h : ∀ e ∈ tab, e.unicode ≠ some u) : findName tab u = none := by
  cases hf : findName tab u with
  | none => rfl
  | some x =>
    obtain ⟨pre, e, post, rfl, h2, _⟩ := (findName_iff ..).1 hf
    exact absurd h2 (h e (by simp))

/-! ### GFM -/

/-- What becomes of the bytes at the front, and how many more than one are used up. -/
def pieceOf (tab : List Entry) (c : Byte) (t : Bytes) : Piece × Nat :=
  if c &&& 0xC0 = 0x80 then (.gone, 0)
  else if c = 0xE2 ∧ t.take 2 = [0x80, 0x94] then (.gone, 2)
  else if c = 0xE2 ∧ t.take 2 = [0x80, 0x93] then (.gone, 2)
  else if c = 0xE2 ∧ (t.take 2 = [0x80, 0x99] ∨ t.take 2 = [0x80, 0x98]) then (.gone, 2)
  else if c ≥ 0x80 ∧ utf8Len c > 0 ∧ enough (utf8Len c - 1) t then
    match findName tab ((c :: t).take (utf8Len c)) with
    | some name => (.keep name, utf8Len c - 1)
    | none =>
      match if utf8Len c = 2 then letter c (t.headD 0) else none with
      | some l => (.keep [l], utf8Len c - 1)
      | none => (.gone, utf8Len c - 1)
  else if isAlnum c then (.keep [toLower c], 0)
  else if c = 32 ∨ c = c!"-" then (.brk, 0)
  else (.gone, 0)

theorem take2_length {t : Bytes} {a b : Byte} (h : t.take 2 = [a, b]) : 2 ≤ t.length := by
  have := congrArg List.length h
  rw [List.length_take] at this
  simp at this
  omega

theorem pieceOf_le (tab : List Entry) (c : Byte) (t : Bytes) : (pieceOf tab c t).2 ≤ t.length := by
  unfold pieceOf
  split
  · simp
  split
  · rename_i h; exact take2_length h.2
  split
  · rename_i h; exact take2_length h.2
  split
  · rename_i h
    rcases h.2 with h | h <;> exact take2_length h
  split
  · rename_i h
    have h3 := h.2.2
    simp only [enough, Bool.and_eq_true, decide_eq_true_eq] at h3
    split
    · exact h3.1
    · split <;> exact h3.1
  · split
    · simp
    · split <;> simp

/-- The pieces of a text. -/
def pieces (tab : List Entry) : Bytes → List Piece
  | [] => []
  | c :: t => (pieceOf tab c t).1 :: pieces tab (t.drop (pieceOf tab c t).2)
  termination_by s => s.length
  decreasing_by simp; omega

/-- The flag that stops dashes. -/
def St.stop (st : St) : Bool := st.last || st.first

/-- Outcome of writing: the bytes are appended, or there is no room. -/
def Wrote (st : St) (p : Piece) (r : C St) : Prop :=
  (r = .ub ∧ ¬ st.out.length + (emit (some c!"-") st.stop p).length < st.cap) ∨
  ∃ st', r = .val st' ∧ st'.out = st.out ++ emit (some c!"-") st.stop p ∧
    st'.stop = next (some c!"-") st.stop p ∧
    (st.out.length + (emit (some c!"-") st.stop p).length < st.cap → st'.cap = st.cap)

theorem write_keep (st : St) (w : Bytes) (p : Bool) : Wrote st (.keep w) (st.write w false false p) := by
  unfold Wrote St.write puts
  simp only [emit, next]
  split
  · exact .inr ⟨_, rfl, rfl, rfl, fun _ => rfl⟩
  · exact .inl ⟨rfl, by omega⟩

theorem write_name (st : St) (w : Bytes) : Wrote st (.keep w) (writeName st w) := by
  unfold writeName
  simp only []
  split
  · rename_i h
    right
    unfold St.write puts
    simp only []
    rw [if_pos (by omega)]
    exact ⟨_, rfl, rfl, rfl, fun h' => by simp only [emit] at h'; omega⟩
  · exact write_keep st w st.punct

theorem wrote_gone (st : St) : Wrote st .gone (.val st) :=
  .inr ⟨st, rfl, by simp [emit], by simp [next], fun _ => rfl⟩

theorem write_plain (st : St) (c : Byte) :
    Wrote st (if isAlnum c then .keep [toLower c] else if c = 32 ∨ c = c!"-" then .brk else .gone) (gfmPlain st c) := by
  unfold gfmPlain
  split
  · exact write_keep st _ _
  split
  · split
    · rename_i h
      refine .inr ⟨st, rfl, ?_, ?_, fun _ => rfl⟩
      · simp [emit, St.stop, h]
      · simp [next, St.stop, h]
    · rename_i h
      simp only [Bool.or_eq_true, not_or, Bool.not_eq_true] at h
      unfold Wrote St.write puts
      simp only [emit, next, St.stop, h.1, h.2, Bool.or_self, Bool.false_eq_true, if_false, Option.toList,
        reduceCtorEq]
      split
      · exact .inr ⟨_, rfl, rfl, by simp, fun _ => rfl⟩
      · rename_i h'; exact .inl ⟨rfl, by simp at h' ⊢; omega⟩
  · exact wrote_gone st

theorem Wrote.bind {st : St} {p : Piece} {r : C St} (h : Wrote st p r) (k : Nat) :
    (r >>= fun s => C.val (s, k) : C (St × Nat)) = .ub ∧
        ¬ st.out.length + (emit (some c!"-") st.stop p).length < st.cap ∨
    ∃ st', (r >>= fun s => C.val (s, k) : C (St × Nat)) = .val (st', k) ∧
      st'.out = st.out ++ emit (some c!"-") st.stop p ∧ st'.stop = next (some c!"-") st.stop p ∧
      (st.out.length + (emit (some c!"-") st.stop p).length < st.cap → st'.cap = st.cap) := by
  rcases h with ⟨rfl, h⟩ | ⟨st', rfl, h⟩
  · exact .inl ⟨rfl, h⟩
  · exact .inr ⟨st', rfl, h⟩

theorem step_gfm (tab : List Entry) (st : St) (c : Byte) (t : Bytes) :
    step tab .gfm st c t = .ub ∧
        ¬ st.out.length + (emit (some c!"-") st.stop (pieceOf tab c t).1).length < st.cap ∨
    ∃ st', step tab .gfm st c t = .val (st', (pieceOf tab c t).2) ∧
      st'.out = st.out ++ emit (some c!"-") st.stop (pieceOf tab c t).1 ∧
      st'.stop = next (some c!"-") st.stop (pieceOf tab c t).1 ∧
      (st.out.length + (emit (some c!"-") st.stop (pieceOf tab c t).1).length < st.cap → st'.cap = st.cap) := by
  have gone := fun k => (wrote_gone st).bind k
  unfold step pieceOf
  by_cases h1 : c &&& 0xC0 = 0x80
  · rw [if_pos h1, if_pos h1]; exact gone 0
  rw [if_neg h1, if_neg h1]
  by_cases h2 : c = 0xE2 ∧ t.take 2 = [0x80, 0x94]
  · rw [if_pos h2, if_pos h2, if_neg (by decide)]; exact gone 2
  rw [if_neg h2, if_neg h2]
  by_cases h3 : c = 0xE2 ∧ t.take 2 = [0x80, 0x93]
  · rw [if_pos h3, if_pos h3, if_neg (by decide)]; exact gone 2
  rw [if_neg h3, if_neg h3]
  by_cases h4 : c = 0xE2 ∧ (t.take 2 = [0x80, 0x99] ∨ t.take 2 = [0x80, 0x98])
  · rw [if_pos h4, if_pos h4]; exact gone 2
  rw [if_neg h4, if_neg h4]
  simp only [gfmStep]
  by_cases h5 : c ≥ 0x80 ∧ utf8Len c > 0 ∧ enough (utf8Len c - 1) t = true
  · rw [if_pos h5, if_pos h5]
    cases findName tab ((c :: t).take (utf8Len c)) with
    | some name => exact (write_name st name).bind _
    | none =>
      simp only []
      cases (if utf8Len c = 2 then letter c (t.headD 0) else none) with
      | some l => exact (write_keep st [l] st.punct).bind _
      | none => exact gone _
  · rw [if_neg h5, if_neg h5]
    have := (write_plain st c).bind 0
    by_cases h6 : isAlnum c = true
    · rw [if_pos h6] at this ⊢; exact this
    · rw [if_neg h6] at this ⊢
      by_cases h7 : c = 32 ∨ c = c!"-"
      · rw [if_pos h7] at this ⊢; exact this
      · rw [if_neg h7] at this ⊢; exact this

theorem loop_gfm (tab : List Entry) (n : Nat) : ∀ s : Bytes, s.length ≤ n → ∀ st : St,
    loop tab .gfm st s = .ub ∧ ¬ st.out.length + (run (some c!"-") st.stop (pieces tab s)).length < st.cap ∨
    ∃ st', loop tab .gfm st s = .val st' ∧ st'.out = st.out ++ run (some c!"-") st.stop (pieces tab s) ∧
      (st.out.length + (run (some c!"-") st.stop (pieces tab s)).length < st.cap → st'.cap = st.cap) := by
  induction n with
  | zero =>
    intro s hs st
    have : s = [] := by simpa using hs
    subst this
    exact .inr ⟨st, by rw [loop], by simp [pieces, run], fun _ => rfl⟩
  | succ n ih =>
    intro s hs st
    cases s with
    | nil => exact .inr ⟨st, by rw [loop], by simp [pieces, run], fun _ => rfl⟩
    | cons c t =>
      rw [pieces, run, loop]
      rcases step_gfm tab st c t with ⟨h1, h2⟩ | ⟨st', h1, h2, h3, h4⟩
      · left
        rw [h1]
        refine ⟨rfl, ?_⟩
        rw [List.length_append]; omega
      · rw [h1]
        simp only []
        rw [if_pos (pieceOf_le tab c t)]
        simp only [List.length_cons] at hs
        have := ih (t.drop (pieceOf tab c t).2) (by rw [List.length_drop]; omega) st'
        rw [h3] at this
        rcases this with ⟨h5, h6⟩ | ⟨st2, h5, h6, h7⟩
        · left
          refine ⟨h5, ?_⟩
          intro hr
          rw [List.length_append] at hr
          have := h4 (by omega)
          rw [this, h2, List.length_append] at h6
          omega
        · right
          refine ⟨st2, h5, by rw [h6, h2, List.append_assoc], ?_⟩
          intro hr
          rw [List.length_append] at hr
          have hc := h4 (by omega)
          rw [hc, h2, List.length_append] at h7
          rw [h7 (by omega)]

theorem dropWhile_head {p : Byte → Bool} {s : Bytes} (h : ∀ c, s.head? = some c → p c = false) : s.dropWhile p = s := by
  cases s with
  | nil => rfl
  | cons c s => simp [h c (by simp)]

theorem trimGfm_run {ps : List Piece} (hf : Fine c!"-" ps) (ht : ∀ w, .keep w ∈ ps → Tidy c!"-" w) :
    trimGfm (run (some c!"-") true ps) = joined (some c!"-") ps := by
  have h1 := run_head hf
  have h2 := run_join hf
  have h3 := (joined_tidy ht).2.1
  unfold trimGfm
  rw [dropWhile_head (s := run (some c!"-") true ps) (by
    intro c hc; rw [hc] at h1; simpa using h1)]
  rw [Slug.trimEnd] at h2
  rw [← h2] at h3 ⊢
  split
  · rename_i hl
    rw [if_pos hl] at h3
    obtain ⟨a, ha⟩ := List.getLast?_eq_some_iff.1 hl
    rw [ha] at h3 ⊢
    simp only [List.dropLast_concat] at h3 ⊢
    rw [List.reverse_append, List.reverse_singleton, List.singleton_append, List.dropWhile_cons_of_pos (by simp),
      dropWhile_head, List.reverse_reverse]
    intro c hc
    rw [List.head?_reverse] at hc
    rw [hc] at h3; simpa using h3
  · rename_i hl
    rw [dropWhile_head, List.reverse_reverse]
    intro c hc
    rw [List.head?_reverse] at hc
    rw [hc] at hl; simpa using hl

/-- What the table must be like: names do not touch a dash. -/
def Names (tab : List Entry) : Prop :=
  ∀ u x, findName tab u = some x → x ≠ [] ∧ Tidy c!"-" x ∧ ∀ c ∈ x, IdByte c

theorem letter_lower {c d l : Byte} (h : letter c d = some l) : isLower l = true := by
  by_cases hc : c = 0xC3
  · subst hc
    have : ∀ d : Byte, ((letter 0xC3 d).all isLower) = true := forall_byte (by decide +kernel)
    have := this d
    rw [h] at this
    simpa using this
  · rw [letter, if_pos hc] at h; simp at h

theorem pieceOf_keep {tab : List Entry} (hN : Names tab) {c : Byte} {t w : Bytes}
    (h : (pieceOf tab c t).1 = .keep w) : w ≠ [] ∧ Tidy c!"-" w ∧ ∀ d ∈ w, IdByte d := by
  have hal : ∀ c : Byte, isAlnum c = true → toLower c ≠ c!"-" ∧ (isLower (toLower c) = true ∨ isDigit (toLower c) = true) :=
    forall_byte (by decide +kernel)
  unfold pieceOf at h
  split at h
  · simp at h
  split at h
  · simp at h
  split at h
  · simp at h
  split at h
  · simp at h
  split at h
  · split at h
    · rename_i x hx
      simp at h; subst h
      exact hN _ _ hx
    · split at h
      · rename_i l hl
        simp at h; subst h
        have : isLower l = true := by
          split at hl
          · exact letter_lower hl
          · simp at hl
        refine ⟨by simp, tidy_absent ?_, ?_⟩
        · simp; rintro rfl; revert this; decide
        · intro d hd; simp at hd; subst hd; exact .inl this
      · simp at h
  split at h
  · rename_i ha
    simp at h; subst h
    obtain ⟨h1, h2⟩ := hal c ha
    refine ⟨by simp, tidy_absent (by simpa using Ne.symm h1), ?_⟩
    intro d hd; simp at hd; subst hd
    rcases h2 with h2 | h2
    · exact .inl h2
    · exact .inr (.inl h2)
  split at h <;> simp at h

theorem pieces_keep {tab : List Entry} (hN : Names tab) (n : Nat) : ∀ s : Bytes, s.length ≤ n → ∀ w,
    .keep w ∈ pieces tab s → w ≠ [] ∧ Tidy c!"-" w ∧ ∀ d ∈ w, IdByte d := by
  induction n with
  | zero =>
    intro s hs w h
    have : s = [] := by simpa using hs
    subst this
    simp [pieces] at h
  | succ n ih =>
    intro s hs w h
    cases s with
    | nil => simp [pieces] at h
    | cons c t =>
      rw [pieces] at h
      rcases List.mem_cons.1 h with h | h
      · exact pieceOf_keep hN h.symm
      · simp only [List.length_cons] at hs
        exact ih _ (by rw [List.length_drop]; omega) w h

/-- The id in GFM format, or no room. -/
theorem generate_gfm {tab : List Entry} (hN : Names tab) (text : Bytes) :
    generate tab .gfm text = .ub ∧
        3 * text.length < (run (some c!"-") true (pieces tab text)).length ∨
    generate tab .gfm text = .val (orHeader (joined (some c!"-") (pieces tab text))) := by
  have hk := pieces_keep hN text.length text (Nat.le_refl _)
  have hf : Fine c!"-" (pieces tab text) := fun w hw => ⟨(hk w hw).1, (hk w hw).2.1.1, (hk w hw).2.1.2.1⟩
  unfold generate
  have := loop_gfm tab text.length text (Nat.le_refl _) ⟨text.length * 3 + 1, [], false, true, false⟩
  simp only [St.stop, Bool.false_or, List.nil_append, List.length_nil, Nat.zero_add] at this
  rcases this with ⟨h1, h2⟩ | ⟨st', h1, h2, h3⟩
  · left
    rw [h1]
    exact ⟨rfl, by omega⟩
  · rw [h1]
    simp only [C.val_bind, ending, finish]
    by_cases hc : st'.out.length < st'.cap
    · right
      rw [if_pos hc]
      simp only [C.val_bind, h2, trimGfm_run hf (fun w hw => (hk w hw).2.1)]
      rfl
    · left
      rw [if_neg hc]
      refine ⟨rfl, ?_⟩
      rw [h2] at hc
      apply Decidable.byContradiction
      intro hn
      rw [h3 (by omega)] at hc
      omega

/-! ### The real table -/

/-- A name that can stand in an id. -/
def okName (x : Bytes) : Bool :=
  x != [] && decide (x.head? ≠ some c!"-") && decide (x.getLast? ≠ some c!"-") && decide (¬ [c!"-", c!"-"] <:+: x) &&
    x.all fun c => isLower c || isDigit c || c == c!"-" || c == c!"_"

theorem okName_spec {x : Bytes} (h : okName x = true) : x ≠ [] ∧ Tidy c!"-" x ∧ ∀ c ∈ x, IdByte c := by
  simp only [okName, Bool.and_eq_true, bne_iff_ne, decide_eq_true_eq, List.all_eq_true, Bool.or_eq_true,
    beq_iff_eq] at h
  obtain ⟨⟨⟨⟨h1, h2⟩, h3⟩, h4⟩, h5⟩ := h
  refine ⟨h1, ⟨h2, h3, h4⟩, fun c hc => ?_⟩
  rcases h5 c hc with ((h | h) | h) | h
  · exact .inl h
  · exact .inr (.inl h)
  · exact .inr (.inr (.inl h))
  · exact .inr (.inr (.inr h))

/-- Every name is fine, or the emoji has a longer one. -/
def tableOk (tab : List Entry) : Bool :=
  tab.all fun e => okName e.name ||
    tab.any fun e' => e'.unicode == e.unicode && decide (e.name.length < e'.name.length)

theorem names_of_ok {tab : List Entry} (h : tableOk tab = true) : Names tab := by
  intro u x hx
  obtain ⟨pre, e, post, rfl, h2, rfl, h4, h5⟩ := (findName_iff ..).1 hx
  have := List.all_eq_true.1 h e (by simp)
  rw [Bool.or_eq_true] at this
  rcases this with this | this
  · exact okName_spec this
  · obtain ⟨e', he', hh⟩ := List.any_eq_true.1 this
    simp only [Bool.and_eq_true, beq_iff_eq, decide_eq_true_eq] at hh
    rw [h2] at hh
    rcases List.mem_append.1 he' with he' | he'
    · have := h4 e' he' hh.1; omega
    · rcases List.mem_cons.1 he' with rfl | he'
      · omega
      · have := h5 e' he' hh.1; omega

theorem names_table : Names Emoji.table := names_of_ok (by decide +kernel)

/-! ### Characters -/

theorem encode_small {n : Nat} (h : n < 128) : encode n = [.ofNat n] := by
  unfold encode; rw [if_pos (by omega)]

/-- The bytes of a character that is not ASCII. -/
theorem encode_shape {n : Nat} (h : Scalar n) (h128 : 128 ≤ n) : ∃ c ds, encode n = c :: ds ∧
    utf8Len c = ds.length + 1 ∧ c ≥ 0x80 ∧ ¬ (c &&& 0xC0 = 0x80) ∧ 1 ≤ ds.length ∧
    (ds.all fun d => d &&& 0xC0 == 0x80) = true := by
  have hs := Utf8.seq_encode n h
  have cont : ∀ d : Byte, Cont d → (d &&& 0xC0 == 0x80) = true := forall_byte (by unfold Cont; decide +kernel)
  have l2 : ∀ c : Byte, 0xC0 ≤ c → c ≤ 0xDF → utf8Len c = 2 ∧ c ≥ 0x80 ∧ ¬ (c &&& 0xC0 = 0x80) :=
    forall_byte (by decide +kernel)
  have l3 : ∀ c : Byte, 0xE0 ≤ c → c ≤ 0xEF → utf8Len c = 3 ∧ c ≥ 0x80 ∧ ¬ (c &&& 0xC0 = 0x80) :=
    forall_byte (by decide +kernel)
  have l4 : ∀ c : Byte, 0xF0 ≤ c → c ≤ 0xF7 → utf8Len c = 4 ∧ c ≥ 0x80 ∧ ¬ (c &&& 0xC0 = 0x80) :=
    forall_byte (by decide +kernel)
  have hlen : 2 ≤ (encode n).length := by
    unfold encode
    rw [if_neg (by omega)]
    repeat' split
    all_goals simp
  generalize encode n = u at *
  cases hs with
  | one a _ => simp at hlen
  | two a b h1 h2 h3 =>
    obtain ⟨q1, q2, q3⟩ := l2 a h1 h2
    exact ⟨a, [b], rfl, q1, q2, q3, by simp, by simpa using cont b h3⟩
  | three a b c h1 h2 h3 h4 =>
    obtain ⟨q1, q2, q3⟩ := l3 a h1 h2
    refine ⟨a, [b, c], rfl, q1, q2, q3, by simp, ?_⟩
    simp only [List.all_cons, List.all_nil, cont b h3, cont c h4, Bool.and_self]
  | four a b c d h1 h2 h3 h4 h5 =>
    obtain ⟨q1, q2, q3⟩ := l4 a h1 h2
    refine ⟨a, [b, c, d], rfl, q1, q2, q3, by simp, ?_⟩
    simp only [List.all_cons, List.all_nil, cont b h3, cont c h4, cont d h5, Bool.and_self]

theorem encode_three {n : Nat} (h : Scalar n) {d : Byte} (he : encode n = [0xE2, 0x80, d]) :
    n = 0x2000 + (d.toNat - 0x80) := by
  have ht : ∀ m, m < 256 → (UInt8.ofNat m).toNat = m := by intro m hm; simp; omega
  obtain ⟨h1, _⟩ := h
  unfold encode at he
  split at he
  · simp at he
  split at he
  · simp at he
  split at he
  · simp only [List.cons.injEq, and_true] at he
    obtain ⟨e1, e2, e3⟩ := he
    have e1 := congrArg UInt8.toNat e1
    have e2 := congrArg UInt8.toNat e2
    have e3 := congrArg UInt8.toNat e3
    rw [ht _ (by omega)] at e1 e2 e3
    simp at e1 e2
    omega
  · simp at he

/-- The tests for a dash or a quote. -/
theorem test_three {n : Nat} (h : Scalar n) {c : Byte} {ds rest : Bytes} (he : encode n = c :: ds)
    (hl : utf8Len c = ds.length + 1) (d : Byte) (m : Nat) (hm : m = 0x2000 + (d.toNat - 0x80))
    (hd : encode m = [0xE2, 0x80, d]) :
    (c = 0xE2 ∧ (ds ++ rest).take 2 = [0x80, d]) ↔ n = m := by
  constructor
  · rintro ⟨rfl, ht⟩
    have : ds.length = 2 := by
      have : utf8Len 0xE2 = 3 := by decide
      omega
    rw [List.take_append_of_le_length (by omega), List.take_of_length_le (by omega)] at ht
    subst ht
    rw [hm]; exact encode_three h he
  · rintro rfl
    rw [hd] at he
    simp only [List.cons.injEq] at he
    obtain ⟨rfl, rfl⟩ := he
    exact ⟨rfl, rfl⟩

theorem letter_latin {n : Nat} {c : Byte} {ds rest : Bytes} (h128 : 128 ≤ n) (he : encode n = c :: ds)
    (hl : utf8Len c = ds.length + 1) :
    (if utf8Len c = 2 then letter c ((ds ++ rest).headD 0) else none) = latin n := by
  by_cases h2 : n < 0x800
  · have e : encode n = [.ofNat (0xC0 + n / 64), .ofNat (0x80 + n % 64)] := by
      unfold encode; rw [if_neg (by omega), if_pos h2]
    rw [e] at he
    simp only [List.cons.injEq] at he
    obtain ⟨rfl, rfl⟩ := he
    rw [if_pos (by simpa using hl)]
    have : ∀ k : Fin 0x800, 128 ≤ k.1 →
        letter (.ofNat (0xC0 + k.1 / 64)) (.ofNat (0x80 + k.1 % 64)) = latin k.1 := by decide +kernel
    exact this ⟨n, h2⟩ h128
  · have hlen : 3 ≤ (encode n).length := by
      unfold encode
      rw [if_neg (by omega), if_neg h2]
      split <;> simp
    rw [he, List.length_cons] at hlen
    rw [if_neg (by omega)]
    unfold latin
    repeat rw [if_neg (by omega)]

theorem ofNat_toNat {n : Nat} (h : n < 256) : (UInt8.ofNat n).toNat = n := by simp; omega

theorem ofNat_eq {n m : Nat} (h : n < 256) (h' : m < 256) : UInt8.ofNat n = UInt8.ofNat m ↔ n = m := by
  constructor
  · intro e
    have := congrArg UInt8.toNat e
    rwa [ofNat_toNat h, ofNat_toNat h'] at this
  · rintro rfl; rfl

theorem small_byte {n : Nat} (h : n < 128) : ¬ (UInt8.ofNat n &&& 0xC0 = 0x80) ∧ UInt8.ofNat n ≠ 0xE2 ∧
    ¬ (UInt8.ofNat n ≥ 0x80) := by
  have : ∀ k : Fin 128, ¬ (UInt8.ofNat k.1 &&& 0xC0 = 0x80) ∧ UInt8.ofNat k.1 ≠ 0xE2 ∧ ¬ (UInt8.ofNat k.1 ≥ 0x80) := by
    decide +kernel
  exact this ⟨n, h⟩

theorem pieces_encode (tab : List Entry) {n : Nat} (h : Scalar n) (rest : Bytes) :
    pieces tab (encode n ++ rest) = gfmPiece (findName tab) n :: pieces tab rest := by
  by_cases hn : n < 128
  · obtain ⟨h1, h2, h3⟩ := small_byte hn
    rw [encode_small hn, List.singleton_append, pieces]
    have hp : pieceOf tab (.ofNat n) rest = (gfmPiece (findName tab) n, 0) := by
      unfold pieceOf gfmPiece
      rw [if_neg h1, if_neg (fun h => h2 h.1), if_neg (fun h => h2 h.1), if_neg (fun h => h2 h.1),
        if_neg (fun h => h3 h.1), if_pos hn]
      by_cases ha : isAlnum (.ofNat n) = true
      · rw [if_pos ha, if_pos ha]
      · rw [if_neg ha, if_neg ha]
        by_cases hb : n = 32 ∨ n = 45
        · rw [if_pos hb, if_pos (by rcases hb with rfl | rfl <;> decide)]
        · rw [if_neg hb, if_neg]
          rintro (h | h)
          · exact hb (.inl ((ofNat_eq (by omega) (by omega)).1 h))
          · exact hb (.inr ((ofNat_eq (by omega) (by omega)).1 h))
    rw [hp]; rfl
  · obtain ⟨c, ds, he, hl, h1, h2, h3, h4⟩ := encode_shape h (by omega)
    rw [he, List.cons_append, pieces]
    have t := fun d m => test_three h (rest := rest) he hl d m
    have hp : pieceOf tab c (ds ++ rest) = (gfmPiece (findName tab) n, ds.length) := by
      have two : ∀ a b : Byte, c = 0xE2 ∧ (ds ++ rest).take 2 = [a, b] → ds.length = 2 := by
        rintro a b ⟨rfl, _⟩
        have : utf8Len 0xE2 = 3 := by decide
        omega
      unfold pieceOf gfmPiece
      rw [if_neg h2, if_neg hn]
      by_cases q1 : n = 0x2014
      · rw [if_pos ((t 0x94 0x2014 (by decide) (by decide +kernel)).2 q1)]
        rw [two _ _ ((t 0x94 0x2014 (by decide) (by decide +kernel)).2 q1)]
        subst q1; rfl
      rw [if_neg (fun h => q1 ((t 0x94 0x2014 (by decide) (by decide +kernel)).1 h))]
      by_cases q2 : n = 0x2013
      · rw [if_pos ((t 0x93 0x2013 (by decide) (by decide +kernel)).2 q2)]
        rw [two _ _ ((t 0x93 0x2013 (by decide) (by decide +kernel)).2 q2)]
        subst q2; rfl
      rw [if_neg (fun h => q2 ((t 0x93 0x2013 (by decide) (by decide +kernel)).1 h))]
      by_cases q3 : n = 0x2019
      · have := (t 0x99 0x2019 (by decide) (by decide +kernel)).2 q3
        rw [if_pos ⟨this.1, .inl this.2⟩, two _ _ this]
        subst q3; rfl
      by_cases q4 : n = 0x2018
      · have := (t 0x98 0x2018 (by decide) (by decide +kernel)).2 q4
        rw [if_pos ⟨this.1, .inr this.2⟩, two _ _ this]
        subst q4; rfl
      rw [if_neg (by
        rintro ⟨h5, h6 | h6⟩
        · exact q3 ((t 0x99 0x2019 (by decide) (by decide +kernel)).1 ⟨h5, h6⟩)
        · exact q4 ((t 0x98 0x2018 (by decide) (by decide +kernel)).1 ⟨h5, h6⟩))]
      have hen : enough (utf8Len c - 1) (ds ++ rest) = true := by
        rw [hl, Nat.add_sub_cancel]
        unfold enough
        rw [List.take_left, h4]
        simp
      have htk : (c :: (ds ++ rest)).take (utf8Len c) = encode n := by
        rw [hl, he, List.take_succ_cons, List.take_left]
      rw [if_pos ⟨h1, by omega, hen⟩, htk, letter_latin (by omega) he hl, hl, Nat.add_sub_cancel]
      rw [if_neg (by simp [dash, quote, q1, q2, q3, q4])]
      cases findName tab (encode n) with
      | some x => rfl
      | none =>
        simp only []
        cases latin n with
        | some l => rfl
        | none => rfl
    rw [hp, List.drop_left]

theorem pieces_text (tab : List Entry) (ns : List Nat) (h : ∀ n ∈ ns, Scalar n) :
    pieces tab (ns.map encode).flatten = ns.map (gfmPiece (findName tab)) := by
  induction ns with
  | nil => simp [pieces]
  | cons n ns ih =>
    rw [List.map_cons, List.flatten_cons, pieces_encode tab (h n (by simp)), ih fun m hm => h m (by simp [hm])]
    rfl

/-! ### MMD -/

theorem write_room {st : St} {w : Bytes} {l f p : Bool} (h : st.out.length + w.length ≤ st.cap) :
    st.write w l f p = .val ⟨st.cap, st.out ++ w, l, f, p⟩ := by
  unfold St.write; rw [puts_val h]; rfl

theorem mmdChar_length (n : Nat) : (mmdChar n).length ≤ (encode n).length := by
  unfold mmdChar
  split
  · rename_i h
    rw [encode_small h]
    repeat' split
    all_goals simp
  · split <;> simp

theorem step_mmd (tab : List Entry) {n : Nat} (h : Scalar n) (rest : Bytes) (st : St)
    (hr : st.out.length + (encode n).length ≤ st.cap) :
    ∃ c ds st', encode n = c :: ds ∧ step tab .mmd st c (ds ++ rest) = .val (st', ds.length) ∧
      st'.out = st.out ++ mmdChar n ∧ st'.cap = st.cap := by
  by_cases hn : n < 128
  · obtain ⟨h1, h2, h3⟩ := small_byte hn
    have he := encode_small hn
    rw [he] at hr
    refine ⟨.ofNat n, [], ?_⟩
    unfold step mmdChar
    rw [if_neg h1, if_neg (fun h => h2 h.1), if_neg (fun h => h2 h.1), if_neg (fun h => h2 h.1), if_pos hn]
    simp only [mmdStep]
    have hd : UInt8.ofNat n = c!"-" ↔ n = 45 := ofNat_eq (m := 45) (by omega) (by omega)
    by_cases q1 : n = 45
    · subst q1
      rw [if_pos (by rfl), write_room (by simpa using hr)]
      exact ⟨_, he, rfl, rfl, rfl⟩
    rw [if_neg (fun h => q1 (hd.1 h))]
    by_cases q2 : isAlnum (.ofNat n) = true
    · rw [if_pos q2, if_pos q2, write_room (by simpa using hr)]
      exact ⟨_, he, rfl, rfl, rfl⟩
    · rw [if_neg q2, if_neg q2, if_neg q1]
      have : UInt8.ofNat n < 0x80 := by
        rw [ge_iff_le, UInt8.not_le] at h3; exact h3
      rw [if_pos this]
      exact ⟨_, he, rfl, by simp, rfl⟩
  · obtain ⟨c, ds, he, hl, h1, h2, h3, h4⟩ := encode_shape h (by omega)
    have t := fun d m => test_three h (rest := rest) he hl d m
    have two : ∀ a b : Byte, c = 0xE2 ∧ (ds ++ rest).take 2 = [a, b] → ds.length = 2 := by
      rintro a b ⟨rfl, _⟩
      have : utf8Len 0xE2 = 3 := by decide
      omega
    refine ⟨c, ds, ?_⟩
    unfold step mmdChar
    rw [if_neg h2, if_neg hn]
    by_cases q1 : n = 0x2014
    · have := (t 0x94 0x2014 (by decide) (by decide +kernel)).2 q1
      rw [if_pos this, if_pos rfl, two _ _ this]
      subst q1
      have h3' : (encode 0x2014).length = 3 := by decide +kernel
      rw [write_room (by rw [h3'] at hr; simpa using hr)]
      exact ⟨_, he, rfl, rfl, rfl⟩
    rw [if_neg (fun h => q1 ((t 0x94 0x2014 (by decide) (by decide +kernel)).1 h))]
    by_cases q2 : n = 0x2013
    · have := (t 0x93 0x2013 (by decide) (by decide +kernel)).2 q2
      rw [if_pos this, if_pos rfl, two _ _ this]
      subst q2
      have h3' : (encode 0x2013).length = 3 := by decide +kernel
      rw [write_room (by rw [h3'] at hr; simpa using hr)]
      exact ⟨_, he, rfl, rfl, rfl⟩
    rw [if_neg (fun h => q2 ((t 0x93 0x2013 (by decide) (by decide +kernel)).1 h))]
    by_cases q3 : n = 0x2019
    · have := (t 0x99 0x2019 (by decide) (by decide +kernel)).2 q3
      rw [if_pos ⟨this.1, .inl this.2⟩, two _ _ this]
      subst q3
      exact ⟨st, he, rfl, by simp [quote], rfl⟩
    by_cases q4 : n = 0x2018
    · have := (t 0x98 0x2018 (by decide) (by decide +kernel)).2 q4
      rw [if_pos ⟨this.1, .inr this.2⟩, two _ _ this]
      subst q4
      exact ⟨st, he, rfl, by simp [quote], rfl⟩
    rw [if_neg (by
      rintro ⟨h5, h6 | h6⟩
      · exact q3 ((t 0x99 0x2019 (by decide) (by decide +kernel)).1 ⟨h5, h6⟩)
      · exact q4 ((t 0x98 0x2018 (by decide) (by decide +kernel)).1 ⟨h5, h6⟩))]
    have hb : ∀ c : Byte, c ≥ 0x80 → c ≠ c!"-" ∧ isAlnum c = false ∧ ¬ c < 0x80 := forall_byte (by decide +kernel)
    obtain ⟨b1, b2, b3⟩ := hb c h1
    have htk : (c :: (ds ++ rest)).take (utf8Len c) = encode n := by
      rw [hl, he, List.take_succ_cons, List.take_left]
    simp only [mmdStep]
    rw [if_neg b1, if_neg (by simp [b2]), if_neg b3, if_pos (by omega), htk, write_room hr,
      if_neg (by simp [quote, q3, q4]), hl, Nat.add_sub_cancel]
    exact ⟨_, he, rfl, rfl, rfl⟩

theorem loop_mmd (tab : List Entry) (ns : List Nat) : (∀ n ∈ ns, Scalar n) → ∀ st : St,
    st.out.length + (ns.map encode).flatten.length < st.cap →
    ∃ st', loop tab .mmd st (ns.map encode).flatten = .val st' ∧ st'.out = st.out ++ ns.flatMap mmdChar ∧
      st'.out.length < st'.cap := by
  induction ns with
  | nil => intro _ st hr; exact ⟨st, by simp [loop], by simp, by simpa using hr⟩
  | cons n ns ih =>
    intro hs st hr
    rw [List.map_cons, List.flatten_cons, List.length_append] at hr
    obtain ⟨c, ds, st', he, h1, h2, h3⟩ := step_mmd tab (hs n (by simp)) (ns.map encode).flatten st (by omega)
    have hl := mmdChar_length n
    obtain ⟨st2, h4, h5, h6⟩ := ih (fun m hm => hs m (by simp [hm])) st'
      (by rw [h2, h3, List.length_append]; omega)
    refine ⟨st2, ?_, by rw [h5, h2]; simp, h6⟩
    rw [List.map_cons, List.flatten_cons, he, List.cons_append, loop, h1]
    simp only []
    rw [if_pos (by simp), List.drop_left, h4]

theorem generate_mmd (tab : List Entry) (ns : List Nat) (h : ∀ n ∈ ns, Scalar n) :
    generate tab .mmd (ns.map encode).flatten = .val (orHeader (ns.flatMap mmdChar)) := by
  obtain ⟨st', h1, h2, h3⟩ := loop_mmd tab ns h ⟨(ns.map encode).flatten.length * 3 + 1, [], false, true, false⟩
    (by simp only [List.length_nil]; omega)
  unfold generate
  rw [h1]
  simp only [C.val_bind, ending]
  rw [finish_val h3, C.val_bind, h2]
  rfl

/-! ### Kramdown -/

theorem dropWhile_nil_iff {p : Byte → Bool} {s : Bytes} : s.dropWhile p = [] ↔ ∀ c ∈ s, p c = true := by
  induction s with
  | nil => simp
  | cons c s ih =>
    by_cases h : p c = true
    · rw [List.dropWhile_cons_of_pos h, ih]; simp [h]
    · rw [List.dropWhile_cons_of_neg h]; simp [h]

theorem blank_text (ns : List Nat) (h : ∀ n ∈ ns, Scalar n) :
    (ns.map encode).flatten.dropWhile isBlank = [] ↔ ∀ m ∈ ns, m = 32 ∨ m = 9 ∨ m = 10 ∨ m = 13 := by
  have key : ∀ m, Scalar m → ((∀ c ∈ encode m, isBlank c = true) ↔ m = 32 ∨ m = 9 ∨ m = 10 ∨ m = 13) := by
    intro m hm
    by_cases hn : m < 128
    · rw [encode_small hn]
      have : ∀ k : Fin 128, isBlank (UInt8.ofNat k.1) = true ↔ k.1 = 32 ∨ k.1 = 9 ∨ k.1 = 10 ∨ k.1 = 13 := by
        decide +kernel
      simpa using this ⟨m, hn⟩
    · obtain ⟨c, ds, he, _, h1, _⟩ := encode_shape hm (by omega)
      rw [he]
      have hb : ∀ c : Byte, c ≥ 0x80 → isBlank c = false := forall_byte (by decide +kernel)
      constructor
      · intro h; have := h c (by simp); rw [hb c h1] at this; simp at this
      · omega
  rw [dropWhile_nil_iff]
  constructor
  · intro hh m hm
    refine (key m (h m hm)).1 fun c hc => hh c ?_
    exact List.mem_flatten.2 ⟨_, List.mem_map.2 ⟨m, hm, rfl⟩, hc⟩
  · intro hh c hc
    obtain ⟨u, hu, hcu⟩ := List.mem_flatten.1 hc
    obtain ⟨m, hm, rfl⟩ := List.mem_map.1 hu
    exact (key m (h m hm)).2 (hh m hm) c hcu

/-- What is still to be written. -/
def kr (punct : Bool) (ns : List Nat) : Bytes := kramdown (if punct then dropBlank ns else ns)

theorem step_kram (tab : List Entry) {n : Nat} {ns : List Nat} (h : ∀ m ∈ n :: ns, Scalar m) (st : St)
    (hr : st.out.length < st.cap) :
    ∃ c ds st', encode n = c :: ds ∧ step tab .kramdown st c (ds ++ (ns.map encode).flatten) = .val (st', ds.length) ∧
      st'.out ++ kr st'.punct ns = st.out ++ kr st.punct (n :: ns) ∧ st'.cap = st.cap ∧
      st'.out.length ≤ st.out.length + 1 := by
  have h0 := h n (by simp)
  by_cases hn : n < 128
  · obtain ⟨h1, h2, h3⟩ := small_byte hn
    have he := encode_small hn
    refine ⟨.ofNat n, [], ?_⟩
    unfold step
    rw [if_neg h1, if_neg (fun h => h2 h.1), if_neg (fun h => h2 h.1), if_neg (fun h => h2 h.1)]
    simp only [kramStep, List.nil_append, List.length_nil]
    have hd : UInt8.ofNat n = c!"-" ↔ n = 45 := ofNat_eq (m := 45) (by omega) (by omega)
    have hd' : UInt8.ofNat n = 32 ↔ n = 32 := ofNat_eq (m := 32) (by omega) (by omega)
    have hdrop : n ≠ 32 → dropBlank (n :: ns) = n :: ns := by
      intro h32
      rw [dropBlank, if_neg (by omega), if_neg h32]
    have hkr : n ≠ 32 → kr st.punct (n :: ns) = kramdown (n :: ns) := by
      intro h32
      unfold kr; rw [hdrop h32]; simp
    have hw : ∀ c : Byte, ∀ p, st.write [c] false false p = .val ⟨st.cap, st.out ++ [c], false, false, p⟩ := by
      intro c p; exact write_room (by simp; omega)
    by_cases q1 : n = 45
    · subst q1
      rw [if_pos (by rfl), hw, C.val_bind]
      refine ⟨_, he, rfl, ?_, rfl, by simp⟩
      rw [hkr (by decide), kramdown, if_neg (by omega), if_neg (by decide), if_pos (.inl rfl)]
      simp [kr]
    rw [if_neg (fun h => q1 (hd.1 h))]
    by_cases q2 : isAlnum (.ofNat n) = true
    · rw [if_pos q2, hw, C.val_bind]
      refine ⟨_, he, rfl, ?_, rfl, by simp⟩
      have : n ≠ 32 := by rintro rfl; revert q2; decide
      rw [hkr this, kramdown, if_neg (by omega), if_pos q2]
      simp [kr]
    rw [if_neg q2]
    by_cases q3 : n = 32
    · subst q3
      rw [if_pos (by rfl)]
      cases hp : st.punct with
      | true =>
        rw [if_pos rfl]
        refine ⟨_, he, rfl, ?_, rfl, by simp⟩
        simp [kr, dropBlank]
      | false =>
        rw [if_neg (by simp), hw, C.val_bind]
        refine ⟨_, he, rfl, ?_, rfl, by simp⟩
        simp only [kr, Bool.false_eq_true, if_false]
        rw [kramdown, if_neg (by omega), if_neg (by decide), if_pos (.inr rfl)]
        simp
    rw [if_neg (fun h => q3 (hd'.1 h))]
    have hlt : UInt8.ofNat n < 0x80 := by rw [ge_iff_le, UInt8.not_le] at h3; exact h3
    rw [if_pos hlt]
    have hbt := blank_text ns (fun m hm => h m (by simp [hm]))
    have hkd : kramdown (n :: ns) = if ∀ m ∈ ns, m = 32 ∨ m = 9 ∨ m = 10 ∨ m = 13 then kramdown ns
        else 45 :: kramdown (dropBlank ns) := by
      rw [kramdown, if_neg (by omega), if_neg q2, if_neg (fun h => h.elim q1 q3)]
    rw [hkr q3, hkd]
    by_cases q4 : ∀ m ∈ ns, m = 32 ∨ m = 9 ∨ m = 10 ∨ m = 13
    · rw [if_pos (hbt.2 q4), if_pos q4]
      exact ⟨_, he, rfl, by simp [kr], rfl, by simp⟩
    · rw [if_neg (fun h => q4 (hbt.1 h)), if_neg q4, hw, C.val_bind]
      refine ⟨_, he, rfl, by simp [kr], rfl, by simp⟩
  · obtain ⟨c, ds, he, hl, h1, h2, h3, h4⟩ := encode_shape h0 (by omega)
    have hk : st.out ++ kr st.punct ns = st.out ++ kr st.punct (n :: ns) := by
      unfold kr
      cases st.punct with
      | true =>
        simp only [if_true, dropBlank, ge_iff_le, show 128 ≤ n by omega]
        conv => rhs; rw [kramdown, if_pos (by omega)]
      | false =>
        simp only [Bool.false_eq_true, if_false]
        conv => rhs; rw [kramdown, if_pos (by omega)]
    have two : ∀ a b : Byte, c = 0xE2 ∧ (ds ++ (ns.map encode).flatten).take 2 = [a, b] → ds.length = 2 := by
      rintro a b ⟨rfl, _⟩
      have : utf8Len 0xE2 = 3 := by decide
      omega
    refine ⟨c, ds, st, he, ?_, hk, rfl, by omega⟩
    unfold step
    rw [if_neg h2]
    split
    · rename_i h; rw [if_neg (by decide), two _ _ h]
    split
    · rename_i h; rw [if_neg (by decide), two _ _ h]
    split
    · rename_i h
      rcases h with ⟨h5, h6 | h6⟩
      · rw [two _ _ ⟨h5, h6⟩]
      · rw [two _ _ ⟨h5, h6⟩]
    have hb : ∀ c : Byte, c ≥ 0x80 → c ≠ c!"-" ∧ isAlnum c = false ∧ c ≠ 32 ∧ ¬ c < 0x80 :=
      forall_byte (by decide +kernel)
    obtain ⟨b1, b2, b3, b4⟩ := hb c h1
    simp only [kramStep]
    rw [if_neg b1, if_neg (by simp [b2]), if_neg b3, if_neg b4, if_pos (by omega), hl, Nat.add_sub_cancel]

theorem loop_kram (tab : List Entry) (ns : List Nat) : (∀ n ∈ ns, Scalar n) → ∀ st : St,
    st.out.length + ns.length < st.cap →
    ∃ st', loop tab .kramdown st (ns.map encode).flatten = .val st' ∧ st'.out = st.out ++ kr st.punct ns ∧
      st'.out.length < st'.cap := by
  induction ns with
  | nil =>
    intro _ st hr
    refine ⟨st, by simp [loop], ?_, by simpa using hr⟩
    cases h : st.punct <;> simp [kr, dropBlank, kramdown]
  | cons n ns ih =>
    intro hs st hr
    rw [List.length_cons] at hr
    obtain ⟨c, ds, st', he, h1, h2, h3, h7⟩ := step_kram tab hs st (by omega)
    obtain ⟨st2, h4, h5, h6⟩ := ih (fun m hm => hs m (by simp [hm])) st' (by rw [h3]; omega)
    refine ⟨st2, ?_, by rw [h5, h2], h6⟩
    rw [List.map_cons, List.flatten_cons, he, List.cons_append, loop, h1]
    simp only []
    rw [if_pos (by simp), List.drop_left, h4]

theorem encode_length_le (ns : List Nat) : ns.length ≤ (ns.map encode).flatten.length := by
  induction ns with
  | nil => simp
  | cons n ns ih =>
    rw [List.map_cons, List.flatten_cons, List.length_append, List.length_cons]
    have : 1 ≤ (encode n).length := by
      cases h : encode n with
      | nil => exact absurd h (Utf8.encode_ne_nil n)
      | cons => simp
    omega

theorem generate_kram (tab : List Entry) (ns : List Nat) (h : ∀ n ∈ ns, Scalar n) :
    generate tab .kramdown (ns.map encode).flatten = .val (orHeader ((kramdown ns).dropWhile (· == c!"-"))) := by
  have hl := encode_length_le ns
  obtain ⟨st', h1, h2, h3⟩ := loop_kram tab ns h ⟨(ns.map encode).flatten.length * 3 + 1, [], false, true, false⟩
    (by simp only [List.length_nil]; omega)
  unfold generate
  rw [h1]
  simp only [C.val_bind, ending]
  rw [finish_val h3, C.val_bind, h2]
  rfl

theorem kramdown_bytes (m : Nat) : ∀ ns : List Nat, ns.length ≤ m → ∀ c ∈ kramdown ns,
    isLower c = true ∨ isDigit c = true ∨ c = c!"-" := by
  have hal : ∀ c : Byte, isAlnum c = true → isLower (toLower c) = true ∨ isDigit (toLower c) = true :=
    forall_byte (by decide +kernel)
  induction m with
  | zero =>
    intro ns hs c hc
    have : ns = [] := by simpa using hs
    subst this
    simp [kramdown] at hc
  | succ m ih =>
    intro ns hs c hc
    cases ns with
    | nil => simp [kramdown] at hc
    | cons n ns =>
      simp only [List.length_cons] at hs
      rw [kramdown] at hc
      have hd := dropBlank_length ns
      repeat' split at hc
      · exact ih ns (by omega) c hc
      · rename_i ha
        rcases List.mem_cons.1 hc with rfl | hc
        · rcases hal _ ha with h | h
          · exact .inl h
          · exact .inr (.inl h)
        · exact ih ns (by omega) c hc
      · rcases List.mem_cons.1 hc with rfl | hc
        · exact .inr (.inr rfl)
        · exact ih ns (by omega) c hc
      · exact ih ns (by omega) c hc
      · rcases List.mem_cons.1 hc with rfl | hc
        · exact .inr (.inr rfl)
        · exact ih _ (by omega) c hc

/-! ### Case -/

theorem toLower_high : ∀ c : Byte, c ≥ 0x80 → toLower c = c := forall_byte (by decide +kernel)

theorem toLower_low : ∀ c : Byte, c < 0x80 → toLower c < 0x80 := forall_byte (by decide +kernel)

theorem take_map_high {t : Bytes} {k : Nat} {u : Bytes} (hu : ∀ d ∈ u, d ≥ 0x80) :
    (t.map toLower).take k = u ↔ t.take k = u := by
  rw [← List.map_take]
  generalize t.take k = v
  constructor
  · intro h
    subst h
    have : ∀ d ∈ v, toLower d = d := by
      intro d hd
      have := hu (toLower d) (List.mem_map_of_mem hd)
      apply toLower_high
      apply Decidable.byContradiction
      intro hn
      have h1 := toLower_low d (by rw [ge_iff_le, UInt8.not_le] at hn; exact hn)
      rw [ge_iff_le, ← UInt8.not_lt] at this
      exact this h1
    rw [List.map_congr_left this]
    simp
  · rintro rfl
    rw [List.map_congr_left fun d hd => toLower_high d (hu d hd)]
    simp

theorem enough_map (n : Nat) (t : Bytes) : enough n (t.map toLower) = enough n t := by
  have hc : ∀ d : Byte, (toLower d &&& 0xC0 == 0x80) = (d &&& 0xC0 == 0x80) := forall_byte (by decide +kernel)
  unfold enough
  rw [List.length_map, ← List.map_take, List.all_map]
  congr 2
  funext d
  exact hc d

theorem enough_take {n : Nat} {t : Bytes} (h : enough n t = true) : (t.map toLower).take n = t.take n := by
  have hc : ∀ d : Byte, (d &&& 0xC0 == 0x80) = true → toLower d = d := forall_byte (by decide +kernel)
  simp only [enough, Bool.and_eq_true, List.all_eq_true] at h
  rw [← List.map_take, List.map_congr_left fun d hd => hc d (h.2 d hd)]
  simp

/-- Letter case does not matter in GFM and Kramdown format. -/
theorem step_case (tab : List Entry) {fmt : Format} (hf : fmt ≠ .mmd) (st : St) (c : Byte) (t : Bytes) :
    step tab fmt st (toLower c) (t.map toLower) = step tab fmt st c t := by
  have h2 : ∀ d : Byte, d ≥ 0x80 → ((t.map toLower).take 2 = [0x80, d] ↔ t.take 2 = [0x80, d]) := by
    intro d hd
    apply take_map_high
    intro x hx
    simp at hx
    rcases hx with rfl | rfl
    · decide
    · exact hd
  have hlo : ∀ c : Byte, (toLower c &&& 0xC0 = 0x80 ↔ c &&& 0xC0 = 0x80) ∧ (toLower c = 0xE2 ↔ c = 0xE2) ∧
      (toLower c = c!"-" ↔ c = c!"-") ∧ (isAlnum (toLower c) = isAlnum c) ∧ (toLower (toLower c) = toLower c) ∧
      (toLower c = 32 ↔ c = 32) ∧ (toLower c < 0x80 ↔ c < 0x80) ∧ utf8Len (toLower c) = utf8Len c ∧
      (toLower c ≥ 0x80 ↔ c ≥ 0x80) := forall_byte (by decide +kernel)
  obtain ⟨l1, l2, l3, l4, l5, l6, l7, l8, l9⟩ := hlo c
  have hbl : ((t.map toLower).dropWhile isBlank = []) ↔ (t.dropWhile isBlank = []) := by
    have hb : ∀ c : Byte, isBlank (toLower c) = isBlank c := forall_byte (by decide +kernel)
    rw [dropWhile_nil_iff, dropWhile_nil_iff]
    simp only [List.mem_map, forall_exists_index, and_imp, forall_apply_eq_imp_iff₂, hb]
  unfold step
  simp only [l1, l2, h2 0x94 (by decide), h2 0x93 (by decide), h2 0x98 (by decide), h2 0x99 (by decide)]
  cases fmt with
  | mmd => exact absurd rfl hf
  | kramdown => simp only [kramStep, l3, l4, l5, l6, l7, l8, hbl]
  | gfm =>
    have hg : gfmStep tab st (toLower c) (t.map toLower) = gfmStep tab st c t := by
      simp only [gfmStep, l8, l9, enough_map]
      by_cases h5 : c ≥ 0x80 ∧ utf8Len c > 0 ∧ enough (utf8Len c - 1) t = true
      · rw [if_pos h5, if_pos h5]
        have ht : (toLower c :: t.map toLower).take (utf8Len c) = (c :: t).take (utf8Len c) := by
          have : utf8Len c = (utf8Len c - 1) + 1 := by omega
          rw [this, List.take_succ_cons, List.take_succ_cons, enough_take h5.2.2, toLower_high c h5.1]
        have hh : (if utf8Len c = 2 then letter (toLower c) ((t.map toLower).headD 0) else none) =
            (if utf8Len c = 2 then letter c (t.headD 0) else none) := by
          by_cases h22 : utf8Len c = 2
          · rw [if_pos h22, if_pos h22, toLower_high c h5.1]
            have he := h5.2.2
            rw [h22] at he
            have := enough_take he
            cases t with
            | nil => rfl
            | cons d t => simp at this; simp [this]
          · rw [if_neg h22, if_neg h22]
        rw [ht, hh]
      · rw [if_neg h5, if_neg h5]
        simp only [gfmPlain, l4, l5, l6, l3]
    simp only [hg]

theorem loop_case (tab : List Entry) {fmt : Format} (hf : fmt ≠ .mmd) (n : Nat) : ∀ s : Bytes, s.length ≤ n → ∀ st,
    loop tab fmt st (s.map toLower) = loop tab fmt st s := by
  induction n with
  | zero =>
    intro s hs st
    have : s = [] := by simpa using hs
    subst this; rfl
  | succ n ih =>
    intro s hs st
    cases s with
    | nil => rfl
    | cons c t =>
      rw [List.map_cons, loop, loop, step_case tab hf]
      cases step tab fmt st c t with
      | ub => rfl
      | val r =>
        obtain ⟨st', k⟩ := r
        simp only [List.length_map]
        simp only [List.length_cons] at hs
        rw [← List.map_drop, ih (t.drop k) (by rw [List.length_drop]; omega)]

theorem encode_lower (n : Nat) (h : Scalar n) :
    (encode n).map toLower = encode (if 65 ≤ n ∧ n ≤ 90 then n + 32 else n) := by
  by_cases hn : n < 128
  · have : ∀ k : Fin 128, (encode k.1).map toLower = encode (if 65 ≤ k.1 ∧ k.1 ≤ 90 then k.1 + 32 else k.1) := by
      decide +kernel
    exact this ⟨n, hn⟩
  · rw [if_neg (by omega)]
    obtain ⟨c, ds, he, _, h1, _, _, h4⟩ := encode_shape h (by omega)
    rw [he, List.map_cons, toLower_high c h1]
    have hc : ∀ d : Byte, (d &&& 0xC0 == 0x80) = true → toLower d = d := forall_byte (by decide +kernel)
    rw [List.map_congr_left fun d hd => hc d (List.all_eq_true.1 h4 d hd)]
    simp

theorem generate_case (tab : List Entry) (fmt : Format) (text : Bytes) (h : WellFormed text) :
    generate tab fmt (text.map toLower) = generate tab fmt text := by
  by_cases hf : fmt = .mmd
  · subst hf
    obtain ⟨ns, hs, rfl⟩ := h
    have hm : (ns.map encode).flatten.map toLower =
        ((ns.map fun n => if 65 ≤ n ∧ n ≤ 90 then n + 32 else n).map encode).flatten := by
      rw [List.map_flatten, List.map_map, List.map_map]
      congr 1
      apply List.map_congr_left
      intro n hn
      exact encode_lower n (hs n hn)
    rw [hm, generate_mmd tab ns hs, generate_mmd]
    · congr 2
      rw [List.flatMap_map]
      congr 1
      funext n
      by_cases hn : n < 128
      · have : ∀ k : Fin 128, mmdChar (if 65 ≤ k.1 ∧ k.1 ≤ 90 then k.1 + 32 else k.1) = mmdChar k.1 := by
          decide +kernel
        exact this ⟨n, hn⟩
      · rw [if_neg (by omega)]
    · intro m hm
      obtain ⟨n, hn, rfl⟩ := List.mem_map.1 hm
      have := hs n hn
      split
      · constructor <;> omega
      · exact this
  · unfold generate
    rw [loop_case tab hf text.length text (Nat.le_refl _), List.length_map]

/-! ### The text of a heading -/

theorem textLoop_spec (ls : List Bytes) : ∀ (cap : Nat) (out : Bytes),
    (cap = 256 ∧ out.length < 256) ∨ (cap = 512 ∧ out.length ≤ 512) →
    textLoop cap out ls = if out.length + ls.flatten.length < 512 then .val (out ++ ls.flatten) else .ub := by
  induction ls with
  | nil =>
    intro cap out h
    rw [textLoop, finish]
    simp only [List.flatten_nil, List.length_nil, Nat.add_zero, List.append_nil]
    rcases h with ⟨rfl, h⟩ | ⟨rfl, h⟩
    · rw [if_pos h, if_pos (by omega)]
    · rfl
  | cons l ls ih =>
    intro cap out h
    rw [textLoop]
    rw [List.flatten_cons, List.length_append]
    by_cases hg : l.length ≥ cap - out.length
    · rw [if_pos hg]
      by_cases hp : out.length + l.length ≤ 512
      · rw [puts_val hp, C.val_bind, ih 512 (out ++ l) (.inr ⟨rfl, by rw [List.length_append]; exact hp⟩)]
        rw [List.length_append, List.append_assoc, Nat.add_assoc]
      · rw [puts, if_neg hp, if_neg (by omega)]; rfl
    · rw [if_neg hg]
      rcases h with ⟨rfl, h⟩ | ⟨rfl, h⟩
      · rw [puts_val (by omega), C.val_bind, ih 256 (out ++ l) (.inl ⟨rfl, by rw [List.length_append]; omega⟩)]
        rw [List.length_append, List.append_assoc, Nat.add_assoc]
      · rw [puts_val (by omega), C.val_bind, ih 512 (out ++ l) (.inr ⟨rfl, by rw [List.length_append]; omega⟩)]
        rw [List.length_append, List.append_assoc, Nat.add_assoc]

/-! ### Ids given in the heading -/

theorem splitLast_iff (c : Byte) (s a b : Bytes) : splitLast c s = some (a, b) ↔ s = a ++ c :: b ∧ c ∉ b := by
  induction s generalizing a b with
  | nil => simp [splitLast]
  | cons x s ih =>
    have hnone : splitLast c s = none ↔ c ∉ s := by
      constructor
      · intro h hc
        obtain ⟨u, v, hs, hv⟩ : ∃ u v, s = u ++ c :: v ∧ c ∉ v := by
          clear ih h
          induction s with
          | nil => simp at hc
          | cons y s ih =>
            by_cases hs : c ∈ s
            · obtain ⟨u, v, rfl, hv⟩ := ih hs
              exact ⟨y :: u, v, rfl, hv⟩
            · rcases List.mem_cons.1 hc with rfl | hc
              · exact ⟨[], s, rfl, hs⟩
              · exact absurd hc hs
        rw [(ih u v).2 ⟨hs, hv⟩] at h
        simp at h
      · intro h
        cases hs : splitLast c s with
        | none => rfl
        | some r =>
          obtain ⟨u, v⟩ := r
          obtain ⟨rfl, _⟩ := (ih u v).1 hs
          simp at h
    rw [splitLast]
    cases hs : splitLast c s with
    | some r =>
      obtain ⟨u, v⟩ := r
      obtain ⟨rfl, hv⟩ := (ih u v).1 hs
      simp only [Option.some.injEq, Prod.mk.injEq]
      constructor
      · rintro ⟨rfl, rfl⟩; exact ⟨rfl, hv⟩
      · rintro ⟨h1, h2⟩
        cases a with
        | nil =>
          simp at h1
          rw [← h1.2] at h2
          simp at h2
        | cons y a =>
          simp only [List.cons_append, List.cons.injEq] at h1
          have := (ih a b).2 ⟨h1.2, h2⟩
          rw [hs] at this
          simp at this
          exact ⟨by rw [h1.1, this.1], this.2⟩
    | none =>
      have hc := hnone.1 hs
      simp only []
      by_cases hx : x = c
      · rw [if_pos hx]
        subst hx
        simp only [Option.some.injEq, Prod.mk.injEq]
        constructor
        · rintro ⟨rfl, rfl⟩; exact ⟨rfl, hc⟩
        · rintro ⟨h1, h2⟩
          cases a with
          | nil => simp at h1; exact ⟨rfl, h1⟩
          | cons y a =>
            simp at h1
            rw [h1.2] at hc
            simp at hc
      · rw [if_neg hx]
        simp only [reduceCtorEq, false_iff, not_and]
        intro h1
        cases a with
        | nil => simp at h1; exact absurd h1.1 hx
        | cons y a =>
          simp at h1
          rw [h1.2] at hc
          simp at hc

theorem splitFirst_iff (c : Byte) (s a b : Bytes) : splitFirst c s = some (a, b) ↔ s = a ++ c :: b ∧ c ∉ a := by
  induction s generalizing a b with
  | nil => simp [splitFirst]
  | cons x s ih =>
    rw [splitFirst]
    by_cases hx : x = c
    · rw [if_pos hx]
      subst hx
      cases a with
      | nil => simp
      | cons y a =>
        simp
        intro h1 _ h2; exact absurd h1 h2
    · rw [if_neg hx]
      cases a with
      | nil =>
        simp only [List.nil_append, List.cons.injEq]
        constructor
        · intro h
          split at h
          · simp at h
          · simp at h
        · rintro ⟨⟨h, _⟩, _⟩; exact absurd h hx
      | cons y a =>
        have := ih a b
        cases hs : splitFirst c s with
        | none =>
          rw [hs] at this
          simp only [reduceCtorEq, false_iff, not_and] at this ⊢
          rintro h1 h2
          simp at h1 h2
          exact this h1.2 h2.2
        | some r =>
          rw [hs] at this
          obtain ⟨u, v⟩ := r
          simp only [Option.some.injEq, Prod.mk.injEq, List.cons.injEq, List.cons_append, List.mem_cons, not_or] at this ⊢
          constructor
          · rintro ⟨⟨rfl, rfl⟩, rfl⟩
            have := this.1 ⟨rfl, rfl⟩
            exact ⟨⟨rfl, this.1⟩, fun h => hx h.symm, this.2⟩
          · rintro ⟨⟨rfl, h1⟩, _, h2⟩
            have := this.2 ⟨h1, h2⟩
            exact ⟨⟨rfl, this.1⟩, this.2⟩

open Transforms.Spec (White)

theorem trimEnd_iff (s t : Bytes) : HeaderIds.trimEnd s = t ↔
    ∃ ws, s = t ++ ws ∧ (∀ c ∈ ws, White c) ∧ ∀ c, t.getLast? = some c → ¬ White c := by
  have hex : ∃ ws, s = HeaderIds.trimEnd s ++ ws ∧ (∀ c ∈ ws, White c) ∧
      ∀ c, (HeaderIds.trimEnd s).getLast? = some c → ¬ White c := by
    obtain ⟨a, h1, h2, h3⟩ := Transforms.dropWhile_split isSpace s.reverse
    refine ⟨a.reverse, ?_, ?_, ?_⟩
    · have := congrArg List.reverse h1
      rw [List.reverse_reverse, List.reverse_append] at this
      exact this
    · intro c hc
      exact (Transforms.isSpace_iff c).1 (h2 c (by simpa using hc))
    · intro c hc hw
      unfold HeaderIds.trimEnd at hc
      rw [List.getLast?_reverse] at hc
      have := h3 c hc
      rw [(Transforms.isSpace_iff c).2 hw] at this
      simp at this
  have huniq : ∀ (t u ws vs : Bytes), t ++ ws = u ++ vs → (∀ c ∈ ws, White c) → (∀ c ∈ vs, White c) →
      (∀ c, t.getLast? = some c → ¬ White c) → (∀ c, u.getLast? = some c → ¬ White c) → t.length ≤ u.length := by
    intro t u ws vs he hw hv ht hu
    apply Decidable.byContradiction
    intro hn
    have htne : t ≠ [] := by rintro rfl; simp at hn
    have hl := ht _ (List.getLast?_eq_some_getLast htne)
    have hm : t.getLast htne ∈ vs := by
      have e : vs = (t ++ ws).drop u.length := by rw [he, List.drop_left]
      rw [e, List.drop_append_of_le_length (by omega)]
      apply List.mem_append_left
      have hdne : t.drop u.length ≠ [] := by
        intro h; have := congrArg List.length h; rw [List.length_drop] at this; simp at this; omega
      rw [← List.getLast_drop hdne]
      exact List.getLast_mem hdne
    exact hl (hv _ hm)
  constructor
  · rintro rfl; exact hex
  · rintro ⟨ws, hs, hw, ht⟩
    obtain ⟨vs, hs', hv, hu⟩ := hex
    have he : t ++ ws = HeaderIds.trimEnd s ++ vs := by rw [← hs, ← hs']
    have l1 := huniq _ _ _ _ he hw hv ht hu
    have l2 := huniq _ _ _ _ he.symm hv hw hu ht
    exact (List.append_inj he (by omega)).1.symm

theorem dropWhile_white {s : Bytes} : s.dropWhile isSpace = [] ↔ ∀ c ∈ s, White c := by
  rw [dropWhile_nil_iff]
  exact ⟨fun h c hc => (Transforms.isSpace_iff c).1 (h c hc), fun h c hc => (Transforms.isSpace_iff c).2 (h c hc)⟩

theorem mmdId_iff (text h id : Bytes) : mmdId text = some (h, id) ↔
    ∃ ws after, text = h ++ ws ++ c!"[" :: id ++ c!"]" :: after ∧ id ≠ [] ∧ id.head? ≠ some c!"%" ∧ c!"]" ∉ id ∧
      c!"[" ∉ id ++ after ∧ (∀ c ∈ ws ++ after, White c) ∧ (∀ c, h.getLast? = some c → ¬ White c) := by
  constructor
  · intro hm
    unfold mmdId at hm
    cases h1 : splitLast c!"[" text with
    | none => rw [h1] at hm; simp at hm
    | some r =>
      obtain ⟨pre, s⟩ := r
      rw [h1] at hm
      simp only [] at hm
      cases h2 : splitFirst c!"]" s with
      | none => rw [h2] at hm; simp at hm
      | some r =>
        obtain ⟨id', after⟩ := r
        rw [h2] at hm
        simp only [] at hm
        split at hm
        · rename_i hc
          simp only [Option.some.injEq, Prod.mk.injEq] at hm
          obtain ⟨hm, rfl⟩ := hm
          obtain ⟨rfl, h3⟩ := (splitLast_iff ..).1 h1
          obtain ⟨rfl, h4⟩ := (splitFirst_iff ..).1 h2
          obtain ⟨ws, rfl, h5, h6⟩ := (trimEnd_iff ..).1 hm
          refine ⟨ws, after, by simp, hc.1, hc.2.1, h4, ?_, ?_, h6⟩
          · intro h; apply h3
            simp at h ⊢; rcases h with h | h <;> simp [h]
          · intro c hc'
            rcases List.mem_append.1 hc' with h | h
            · exact h5 c h
            · exact dropWhile_white.1 hc.2.2 c h
        · simp at hm
  · rintro ⟨ws, after, rfl, h1, h2, h3, h4, h5, h6⟩
    have hl : splitLast c!"[" (h ++ ws ++ c!"[" :: id ++ c!"]" :: after) = some (h ++ ws, id ++ c!"]" :: after) := by
      rw [splitLast_iff]
      refine ⟨by simp, ?_⟩
      intro hm
      apply h4
      simp at hm ⊢; exact hm
    unfold mmdId
    rw [hl]
    simp only []
    rw [(splitFirst_iff c!"]" (id ++ c!"]" :: after) id after).2 ⟨rfl, h3⟩]
    simp only []
    rw [if_pos ⟨h1, h2, dropWhile_white.2 fun c hc => h5 c (by simp [hc])⟩]
    rw [(trimEnd_iff (h ++ ws) h).2 ⟨ws, rfl, fun c hc => h5 c (by simp [hc]), h6⟩]

theorem kramId_iff (text h id : Bytes) : kramId text = some (h, id) ↔
    ∃ ws after, text = h ++ ws ++ c!"{" :: c!"#" :: id ++ c!"}" :: after ∧ id ≠ [] ∧ c!"}" ∉ id ∧
      c!"{" ∉ id ++ after ∧ (∀ c ∈ ws ++ after, White c) ∧ (∀ c, h.getLast? = some c → ¬ White c) := by
  constructor
  · intro hm
    unfold kramId at hm
    cases h1 : splitLast c!"{" text with
    | none => rw [h1] at hm; simp at hm
    | some r =>
      obtain ⟨pre, s⟩ := r
      rw [h1] at hm
      simp only [] at hm
      cases s with
      | nil => simp at hm
      | cons x s =>
        simp only [] at hm
        by_cases hx : x = c!"#"
        · subst hx
          rw [if_pos rfl] at hm
          cases h2 : splitFirst c!"}" s with
          | none => rw [h2] at hm; simp at hm
          | some r =>
            obtain ⟨id', after⟩ := r
            rw [h2] at hm
            simp only [] at hm
            split at hm
            · rename_i hc
              simp only [Option.some.injEq, Prod.mk.injEq] at hm
              obtain ⟨hm, rfl⟩ := hm
              obtain ⟨rfl, h3⟩ := (splitLast_iff ..).1 h1
              obtain ⟨rfl, h4⟩ := (splitFirst_iff ..).1 h2
              obtain ⟨ws, rfl, h5, h6⟩ := (trimEnd_iff ..).1 hm
              refine ⟨ws, after, by simp, hc.1, h4, ?_, ?_, h6⟩
              · intro h; apply h3
                simp at h ⊢; rcases h with h | h <;> simp [h]
              · intro c hc'
                rcases List.mem_append.1 hc' with h | h
                · exact h5 c h
                · exact dropWhile_white.1 hc.2 c h
            · simp at hm
        · rw [if_neg hx] at hm; simp at hm
  · rintro ⟨ws, after, rfl, h1, h3, h4, h5, h6⟩
    have hl : splitLast c!"{" (h ++ ws ++ c!"{" :: c!"#" :: id ++ c!"}" :: after) =
        some (h ++ ws, c!"#" :: (id ++ c!"}" :: after)) := by
      rw [splitLast_iff]
      refine ⟨by simp, ?_⟩
      intro hm
      apply h4
      simp at hm ⊢; exact hm
    unfold kramId
    rw [hl]
    simp only [if_true]
    rw [(splitFirst_iff c!"}" (id ++ c!"}" :: after) id after).2 ⟨rfl, h3⟩]
    simp only []
    rw [if_pos ⟨h1, dropWhile_white.2 fun c hc => h5 c (by simp [hc])⟩]
    rw [(trimEnd_iff (h ++ ws) h).2 ⟨ws, rfl, fun c hc => h5 c (by simp [hc]), h6⟩]

theorem last_of {a after : Bytes} {x : Byte} (hx : ¬ White x) (h : ∀ c ∈ after, White c) :
    (HeaderIds.trimEnd (a ++ x :: after)).getLast? = some x := by
  have : HeaderIds.trimEnd (a ++ x :: after) = a ++ [x] := by
    rw [trimEnd_iff]
    refine ⟨after, by simp, h, ?_⟩
    intro c hc; simp at hc; subst hc; exact hx
  rw [this]; simp

theorem manualId_iff (text h id : Bytes) : manualId text = some (h, id) ↔ Marked text h id := by
  have hw1 : ¬ White c!"]" := by unfold White; decide
  have hw2 : ¬ White c!"}" := by unfold White; decide
  unfold manualId
  constructor
  · intro hm
    split at hm
    · simp at hm
    · cases h1 : mmdId text with
      | some r =>
        rw [h1] at hm
        simp only [Option.some.injEq] at hm
        subst hm
        obtain ⟨ws, after, rfl, q1, q2, q3, q4, q5, q6⟩ := (mmdId_iff ..).1 h1
        exact .mmd q1 q2 q3 q4 q5 q6
      | none =>
        rw [h1] at hm
        simp only [] at hm
        obtain ⟨ws, after, rfl, q1, q2, q3, q4, q5⟩ := (kramId_iff ..).1 hm
        exact .kramdown q1 q2 q3 q4 q5
  · intro hm
    cases hm with
    | @mmd _ ws _ after q1 q2 q3 q4 q5 q6 =>
      rw [if_neg (by simp), (mmdId_iff ..).2 ⟨ws, after, rfl, q1, q2, q3, q4, q5, q6⟩]
    | @kramdown _ ws _ after q1 q2 q3 q4 q5 =>
      rw [if_neg (by simp)]
      cases h1 : mmdId (h ++ ws ++ c!"{" :: c!"#" :: id ++ c!"}" :: after) with
      | none => exact (kramId_iff ..).2 ⟨ws, after, rfl, q1, q2, q3, q4, q5⟩
      | some r =>
        exfalso
        obtain ⟨h', id'⟩ := r
        obtain ⟨ws', after', he, _, _, _, _, p5, _⟩ := (mmdId_iff ..).1 h1
        have l1 := last_of (a := h ++ ws ++ c!"{" :: c!"#" :: id) (after := after) hw2 fun c hc => q4 c (by simp [hc])
        have l2 := last_of (a := h' ++ ws' ++ c!"[" :: id') (after := after') hw1 fun c hc => p5 c (by simp [hc])
        rw [he, l2] at l1
        simp at l1

theorem strstr_store {e tail : Bytes} (h : ¬ b!"id=\"" <:+: e) :
    Transforms.strstr (e ++ b!" id=\"" ++ tail) b!"id=\"" = some (e.length + 1) := by
  induction e with
  | nil =>
    have : (b!"id=\"".isPrefixOf (b!" id=\"" ++ tail)) = false := by simp [List.isPrefixOf]
    rw [List.nil_append, Transforms.strstr.eq_def, this]
    simp only [Bool.false_eq_true, if_false, List.cons_append]
    rw [Transforms.strstr.eq_def]
    simp [List.isPrefixOf]
  | cons c e ih =>
    rw [List.infix_cons_iff, not_or] at h
    have hp : (b!"id=\"".isPrefixOf (c :: e ++ b!" id=\"" ++ tail)) = false := by
      cases hb : (b!"id=\"".isPrefixOf (c :: e ++ b!" id=\"" ++ tail)) with
      | false => rfl
      | true =>
        exfalso
        obtain ⟨t, ht⟩ := List.isPrefixOf_iff_prefix.1 hb
        match e, ht, h.1 with
        | [], ht, _ => simp at ht
        | [a], ht, _ => simp at ht
        | [a, b], ht, _ => simp at ht
        | a :: b :: d :: r, ht, h1 =>
          simp at ht
          obtain ⟨rfl, rfl, rfl, rfl, _⟩ := ht
          exact h1 ⟨r, rfl⟩
    rw [Transforms.strstr.eq_def, hp]
    simp only [Bool.false_eq_true, if_false, List.cons_append]
    have := ih h.2
    rw [this]
    simp

end Verif.HeaderIds
