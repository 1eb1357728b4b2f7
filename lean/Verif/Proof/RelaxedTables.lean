/-
Lemmas for Props/RelaxedTables.
-/
import Verif.Model.RelaxedTables
import Verif.Spec.RelaxedTables

namespace Verif.RelaxedTables
open Spec

/-! ### Kinds of lines -/

theorem blankLine_iff (l : Bytes) : isBlankLine l = true ↔ Blank l := by
  simp [isBlankLine, Blank, List.all_eq_true]

theorem mem_drop {p : Byte → Bool} {c : Byte} (hc : p c = false) (l : Bytes) :
    c ∈ l.dropWhile p ↔ c ∈ l := by
  induction l with
  | nil => simp
  | cons d l ih =>
    simp only [List.dropWhile_cons]
    by_cases hd : p d = true
    · simp only [hd, if_true, ih, List.mem_cons]
      constructor
      · exact Or.inr
      · rintro (rfl | h)
        · rw [hd] at hc; cases hc
        · exact h
    · simp only [hd, Bool.false_eq_true, if_false]

theorem count_drop {p : Byte → Bool} {c : Byte} (hc : p c = false) (l : Bytes) :
    (l.dropWhile p).countP (· == c) = l.count c := by
  induction l with
  | nil => simp
  | cons d l ih =>
    simp only [List.dropWhile_cons]
    by_cases hd : p d = true
    · have : d ≠ c := by rintro rfl; rw [hd] at hc; cases hc
      simp only [hd, if_true, ih]
      rw [List.count_cons_of_ne this]
    · simp only [hd, Bool.false_eq_true, if_false]
      rfl

theorem rule_iff (l : Bytes) : isRule l = true ↔ Rule l := by
  unfold isRule Rule
  simp only [Bool.and_eq_true, decide_eq_true_eq, count_drop (by decide : blank c!"-" = false), List.all_eq_true]
  refine and_congr ?_ Iff.rfl
  constructor
  · intro h c hc
    by_cases hb : blank c = true
    · simp only [blank, Bool.or_eq_true, beq_iff_eq] at hb
      rcases hb with rfl | rfl <;> simp
    · have := h c ((mem_drop (by simpa using hb) l).2 hc)
      simp only [Bool.or_eq_true, beq_iff_eq] at this
      simp only [List.mem_cons, List.not_mem_nil, or_false]
      rcases this with (((h | h) | h) | h) | h <;> simp [h]
  · intro h c hc
    have := h c ((List.dropWhile_sublist _).mem hc)
    simp only [List.mem_cons, List.not_mem_nil, or_false] at this
    simp only [Bool.or_eq_true, beq_iff_eq]
    rcases this with h | h | h | h | h <;> simp [h]

theorem separator_not_rule {l : Bytes} (h : Separator l) : ¬ Rule l := by
  intro hr
  have := hr.1 _ h.2.2
  revert this
  decide

theorem separator_iff (l : Bytes) : isSeparator l = true ↔ Separator l := by
  have h0 : isSeparator l = true ↔ ¬ Rule l ∧ Separator l := by
    unfold isSeparator Separator
    simp only [Bool.and_eq_true, Bool.not_eq_true', ← Bool.not_eq_true, rule_iff, List.all_eq_true, List.contains_eq_mem,
      decide_eq_true_eq, and_assoc]
    refine and_congr Iff.rfl (and_congr ?_ Iff.rfl)
    refine forall_congr' fun c => imp_congr Iff.rfl ?_
    simp only [Bool.or_eq_true, beq_iff_eq, List.mem_cons, List.not_mem_nil, or_false, or_assoc]
  rw [h0]
  exact ⟨And.right, fun h => ⟨separator_not_rule h, h⟩⟩

theorem bar_iff (l : Bytes) : (isSeparator l || isRule l) = true ↔ Bar l := by
  rw [Bool.or_eq_true, separator_iff, rule_iff, Bar]

theorem leading_iff (l : Bytes) : startsWithPipe l = true ↔ Leading l := by
  unfold startsWithPipe Leading
  rw [beq_iff_eq]
  constructor
  · intro h
    refine ⟨l.takeWhile blank, (l.dropWhile blank).tail, ?_, ?_⟩
    · conv => lhs; rw [← List.takeWhile_append_dropWhile (p := blank) (l := l)]
      congr 1
      cases hd : l.dropWhile blank with
      | nil => rw [hd] at h; cases h
      | cons a t => rw [hd] at h; cases h; rfl
    · intro c hc
      have := List.all_eq_true.1 (List.all_takeWhile (p := blank) (l := l)) c hc
      simpa [blank] using this
  · rintro ⟨w, t, rfl, hw⟩
    have : (w ++ c!"|" :: t).dropWhile blank = c!"|" :: t := by
      induction w with
      | nil => rw [List.nil_append, List.dropWhile_cons]; rfl
      | cons a w ih =>
        have ha : blank a = true := by
          have := hw a (by simp)
          simpa [blank] using this
        rw [List.cons_append, List.dropWhile_cons, ha, if_pos rfl]
        exact ih fun c hc => hw c (by simp [hc])
    rw [this]; rfl

theorem columns_iff (l : Bytes) {n : Nat} (hn : n ≠ 0) : Columns l n ↔ countColumns l = n := by
  unfold countColumns Columns
  simp only [count_drop (by decide : blank c!"|" = false), ← leading_iff]
  by_cases h0 : l.count c!"|" = 0
  · simp only [h0, if_true]
    constructor
    · rintro (⟨_, h⟩ | ⟨_, h, _⟩)
      · omega
      · exact absurd rfl h
    · intro h; omega
  · rw [if_neg h0]
    by_cases hp : startsWithPipe l = true
    · simp only [hp, if_true, true_and, not_true_eq_false, false_and, or_false]
      omega
    · simp only [hp, Bool.false_eq_true, if_false, false_and, not_false_eq_true, true_and, false_or]
      omega

theorem not_blank_of_bar {l : Bytes} (h : c!"|" ∈ l) : ¬ Blank l := fun hb => by
  have := hb _ h
  revert this; decide

theorem mem_of_columns {l : Bytes} {n : Nat} (h : Columns l n) : c!"|" ∈ l := by
  rcases h with ⟨_, h⟩ | ⟨_, h, _⟩
  · exact List.count_pos_iff.1 (by omega)
  · exact List.count_pos_iff.1 (by omega)

theorem row_not_blank {l : Bytes} {n : Nat} (h : Row l n) : ¬ Blank l := not_blank_of_bar (mem_of_columns h.2.1)

/-- What kind of line it is, as the loop asks. -/
theorem row_iff (l : Bytes) (n : Nat) :
    Row l n ↔ isBlankLine l = false ∧ (isSeparator l || isRule l) = false ∧ countColumns l > 0 ∧ countColumns l = n := by
  constructor
  · intro h
    refine ⟨?_, ?_, ?_⟩
    · rw [← Bool.not_eq_true, blankLine_iff]; exact row_not_blank h
    · rw [← Bool.not_eq_true, bar_iff]; exact h.1
    · have := (columns_iff l h.2.2).1 h.2.1
      have := h.2.2
      omega
  · rintro ⟨_, hb, hc, he⟩
    have hn : n ≠ 0 := by omega
    refine ⟨?_, (columns_iff l hn).2 he, hn⟩
    rw [← bar_iff, hb]; simp

/-- A row with `n` columns is at least as long. -/
theorem row_long {l : Bytes} {n : Nat} (h : Row l n) : n + (if startsWithPipe l then 1 else 0) ≤ l.length := by
  rcases h.2.1 with ⟨hl, hc⟩ | ⟨hl, h0, hc⟩
  · rw [(leading_iff l).2 hl, if_pos rfl, ← hc]
    exact List.count_le_length
  · have hs : startsWithPipe l = false := by rw [← Bool.not_eq_true, leading_iff]; exact hl
    rw [hs, hc, if_neg (by simp)]
    rcases Nat.lt_or_ge (l.count c!"|") l.length with h | h
    · omega
    · have he : l.count c!"|" = l.length := Nat.le_antisymm List.count_le_length h
      exfalso
      apply hl
      have hall := List.count_eq_length.1 he
      cases l with
      | nil => exact absurd rfl h0
      | cons a t =>
        refine ⟨[], t, ?_, by simp⟩
        rw [List.nil_append, hall a (by simp)]

/-! ### The generated rows -/

/-- The separator of a row, as text. -/
def sepText (n : Nat) (pipe : Bool) : Bytes :=
  if pipe then b!"|" ++ (List.replicate n b!" --- |").flatten else (List.replicate n b!"---|").flatten

theorem sepCells_pipe (n : Nat) : b!" " ++ sepCells true (n + 1) = (List.replicate (n + 1) b!" --- |").flatten := by
  induction n with
  | zero => rfl
  | succ n ih =>
    rw [sepCells, List.replicate_succ, List.flatten_cons, ← ih]
    simp

theorem sepCells_plain (n : Nat) : sepCells false n = (List.replicate n b!"---|").flatten := by
  induction n with
  | zero => rfl
  | succ n ih =>
    rw [sepCells, List.replicate_succ, List.flatten_cons, ← ih]
    simp

theorem flatten_length (n : Nat) (s : Bytes) : (List.replicate n s).flatten.length = n * s.length := by
  induction n with
  | zero => simp
  | succ n ih => rw [List.replicate_succ, List.flatten_cons, List.length_append, ih, Nat.succ_mul]; omega

theorem sepText_length (n : Nat) (pipe : Bool) :
    (sepText n pipe).length = if pipe then 6 * n + 1 else 4 * n := by
  unfold sepText
  cases pipe
  · simp only [Bool.false_eq_true, if_false, flatten_length, List.length_cons, List.length_nil]; omega
  · simp only [if_true, List.length_append, flatten_length, List.length_cons, List.length_nil]; omega

theorem separatorRow_eq {n : Nat} (hn : n ≠ 0) (pipe : Bool) :
    separatorRow n pipe = .val (some (sepText n pipe ++ [10])) := by
  have ht : (if pipe then b!"| " else []) ++ sepCells pipe n ++ b!"\n" = sepText n pipe ++ [10] := by
    obtain ⟨m, rfl⟩ : ∃ m, n = m + 1 := ⟨n - 1, by omega⟩
    cases pipe
    · simp [sepText, sepCells_plain]
    · simp only [sepText, if_true]
      rw [← sepCells_pipe]; simp
  have hl : (sepText n pipe ++ [10]).length = if pipe then 6 * n + 2 else 4 * n + 1 := by
    rw [List.length_append, sepText_length]; cases pipe <;> rfl
  unfold separatorRow
  rw [if_neg (by omega), ht]
  simp only
  rw [puts_val (by rw [hl]; cases pipe <;> simp <;> omega), C.val_bind, List.nil_append,
    finish_val (by rw [hl]; cases pipe <;> simp <;> omega), C.val_bind]

theorem fits_iff {r : Bytes} {n : Nat} (h : Row r n) : Fits r (sepText n (startsWithPipe r)) := by
  refine ⟨n, h.2.1, ?_⟩
  by_cases hp : startsWithPipe r = true
  · exact Or.inl ⟨(leading_iff r).1 hp, by rw [hp]; rfl⟩
  · exact Or.inr ⟨fun hl => hp ((leading_iff r).2 hl), by simp [sepText, hp]⟩

/-! ### The block -/

/-- The block has its first size, or at least twice that. -/
structure Ok (N : Nat) (b : Buf) : Prop where
  cap : b.cap = 2 * N ∨ 4 * N ≤ b.cap
  len : b.out.length ≤ b.cap

theorem write_ok {N : Nat} {b : Buf} (h : Ok N b) {s : Bytes} (hs : b.out.length + s.length + 1 ≤ 4 * N) :
    ∃ cap, write b s = .val ⟨cap, b.out ++ s⟩ ∧ (cap = 2 * N ∨ 4 * N ≤ cap) ∧ (b.out ++ s).length < cap := by
  have hl := h.len
  unfold write
  split
  · rename_i hr
    refine ⟨b.cap, ?_, h.cap, ?_⟩
    · rw [puts_val (by omega)]; rfl
    · rw [List.length_append]; omega
  · have hc : 4 * N ≤ b.cap * 2 := by have := h.cap; omega
    refine ⟨b.cap * 2, ?_, Or.inr hc, ?_⟩
    · rw [puts_val (by omega)]; rfl
    · rw [List.length_append]; omega

/-- The newline, if there is one. -/
def nlb (nl : Bool) : Bytes := if nl then [10] else []

theorem nlb_length (nl : Bool) : (nlb nl).length ≤ 1 := by cases nl <;> simp [nlb]

theorem writeLine_ok {N : Nat} {b : Buf} (h : Ok N b) {s : Bytes} {nl : Bool} (hs : b.out.length + s.length + 1 ≤ 4 * N) :
    ∃ cap, writeLine b s nl = .val ⟨cap, b.out ++ (s ++ nlb nl)⟩ ∧ Ok N ⟨cap, b.out ++ (s ++ nlb nl)⟩ := by
  obtain ⟨cap, hw, hc, hl⟩ := write_ok h hs
  refine ⟨cap, ?_, hc, ?_⟩
  · rw [writeLine, hw, C.val_bind]
    cases nl
    · simp [newline, nlb]
    · simp only [newline, Bool.true_and, decide_eq_true_eq, hl, if_true, nlb, List.append_assoc]
  · rw [List.length_append] at hl
    simp only [List.length_append]
    have := nlb_length nl
    omega

/-- Rows as they are kept. -/
def mk (l : Bytes) : TRow := ⟨l, countColumns l, startsWithPipe l⟩

def plainOut (nl : Bool) (P : List Bytes) : Bytes := (P.map (· ++ nlb nl)).flatten

/-- Length of the rows with their newlines. -/
def size (P : List Bytes) : Nat := (P.map (·.length + 1)).sum

theorem size_cons (l : Bytes) (P : List Bytes) : size (l :: P) = l.length + 1 + size P := by simp [size]

theorem plainOut_length (nl : Bool) (P : List Bytes) : (plainOut nl P).length ≤ size P := by
  induction P with
  | nil => simp [plainOut, size]
  | cons l P ih =>
    rw [size_cons]
    simp only [plainOut, List.map_cons, List.flatten_cons, List.length_append] at ih ⊢
    have := nlb_length nl
    omega

theorem flushPlain_ok {N : Nat} (nl : Bool) (P : List Bytes) : ∀ {b : Buf}, Ok N b → b.out.length + size P ≤ 4 * N →
    ∃ cap, flushPlain nl b (P.map mk) = .val ⟨cap, b.out ++ plainOut nl P⟩ ∧ Ok N ⟨cap, b.out ++ plainOut nl P⟩ := by
  induction P with
  | nil =>
    intro b h _
    exact ⟨b.cap, by simp [flushPlain, plainOut], by simpa [plainOut] using h⟩
  | cons l P ih =>
    intro b h hs
    rw [size_cons] at hs
    obtain ⟨cap, hw, hk⟩ := writeLine_ok (s := l) (nl := nl) h (by omega)
    obtain ⟨cap', hf, hk'⟩ := ih hk (by
      simp only [List.length_append]
      have := nlb_length nl
      omega)
    have he : b.out ++ plainOut nl (l :: P) = b.out ++ (l ++ nlb nl) ++ plainOut nl P := by
      simp [plainOut]
    refine ⟨cap', ?_, he ▸ hk'⟩
    rw [List.map_cons, flushPlain, show (mk l).text = l from rfl, hw, C.val_bind, hf, he]

def tableOut (nl : Bool) : List Bytes → Bytes
  | [] => []
  | r :: P => r ++ nlb nl ++ (sepText (countColumns r) (startsWithPipe r) ++ [10]) ++ plainOut nl P

/-- Rows of one table. -/
def IsRun (n : Nat) (P : List Bytes) : Prop := ∀ r ∈ P, Row r n

theorem run_count {n : Nat} {r : Bytes} (h : Row r n) : countColumns r = n ∧ n ≠ 0 :=
  ⟨(columns_iff r h.2.2).1 h.2.1, h.2.2⟩

/-- A table with its separator is less than four times as long. -/
theorem table_size {n : Nat} {r : Bytes} {P : List Bytes} (h : IsRun n (r :: P)) (hP : P ≠ []) :
    size (r :: P) + ((sepText n (startsWithPipe r)).length + 1) + 5 ≤ 4 * size (r :: P) := by
  have h1 := row_long (h r (by simp))
  cases P with
  | nil => exact absurd rfl hP
  | cons q P =>
    have h2 := row_long (h q (by simp))
    rw [size_cons, size_cons, sepText_length]
    split at h1 <;> split at h2 <;> simp_all <;> omega

theorem writeSep_ok {N : Nat} {b : Buf} {n : Nat} {r : Bytes} (h : Ok N b) (hr : Row r n)
    (hs : b.out.length + ((sepText n (startsWithPipe r)).length + 1) + 1 ≤ 4 * N) :
    ∃ cap, writeSep b (mk r) = .val ⟨cap, b.out ++ (sepText n (startsWithPipe r) ++ [10])⟩ ∧
      Ok N ⟨cap, b.out ++ (sepText n (startsWithPipe r) ++ [10])⟩ := by
  obtain ⟨cap, hw, hc, hl⟩ := write_ok (s := sepText n (startsWithPipe r) ++ [10]) h (by
    rw [List.length_append]; simpa using hs)
  refine ⟨cap, ?_, hc, Nat.le_of_lt hl⟩
  have := run_count hr
  rw [writeSep, show (mk r).columns = n from this.1, show (mk r).pipe = startsWithPipe r from rfl,
    separatorRow_eq this.2, C.val_bind]
  exact hw

theorem tableOut_length {n : Nat} {r : Bytes} {P : List Bytes} (nl : Bool) (h : IsRun n (r :: P)) :
    (tableOut nl (r :: P)).length ≤ size (r :: P) + ((sepText n (startsWithPipe r)).length + 1) := by
  have := run_count (h r (by simp))
  have h2 := plainOut_length nl P
  have h3 := nlb_length nl
  rw [tableOut, size_cons, this.1]
  simp only [List.length_append, List.length_cons, List.length_nil]
  omega

theorem flushTable_ok {N n : Nat} (nl : Bool) {r : Bytes} {P : List Bytes} {b : Buf} (h : Ok N b)
    (hr : IsRun n (r :: P)) (hP : P ≠ []) (hs : b.out.length + 4 * size (r :: P) ≤ 4 * N + 4) :
    ∃ cap, flushTable nl b ((r :: P).map mk) = .val ⟨cap, b.out ++ tableOut nl (r :: P)⟩ ∧
      Ok N ⟨cap, b.out ++ tableOut nl (r :: P)⟩ := by
  have ht := table_size hr hP
  have hc := run_count (hr r (by simp))
  rw [size_cons] at ht hs
  have h3 := nlb_length nl
  obtain ⟨c1, hw, hk⟩ := writeLine_ok (s := r) (nl := nl) h (by omega)
  obtain ⟨c2, hw2, hk2⟩ := writeSep_ok hk (hr r (by simp)) (by
    simp only [List.length_append]
    have : 0 < size P := by
      cases P with
      | nil => exact absurd rfl hP
      | cons q P => rw [size_cons]; omega
    omega)
  obtain ⟨c3, hw3, hk3⟩ := flushPlain_ok nl P hk2 (by
    simp only [List.length_append, List.length_cons, List.length_nil]
    omega)
  have he : b.out ++ tableOut nl (r :: P) = b.out ++ (r ++ nlb nl) ++ (sepText n (startsWithPipe r) ++ [10]) ++ plainOut nl P := by
    simp [tableOut, hc.1]
  refine ⟨c3, ?_, he ▸ hk3⟩
  rw [List.map_cons, flushTable, show (mk r).text = r from rfl, hw, C.val_bind, hw2, C.val_bind, hw3, he]

/-! ### One turn -/

/-- What a turn writes. `full`: there is no room for the blank line behind a table. -/
def emit (P : List Bytes) (l : Bytes) (nl full : Bool) : Bytes :=
  if isBlankLine l then
    if P.length ≥ 2 then tableOut nl P ++ (if full then [] else [10]) else l ++ nlb nl
  else if isSeparator l || isRule l then plainOut nl P ++ (l ++ nlb nl)
  else if countColumns l > 0 then
    match P with
    | [] => []
    | r :: _ => if countColumns r ≠ countColumns l then plainOut nl P else []
  else (if P.length ≥ 2 then tableOut nl P else plainOut nl P) ++ (l ++ nlb nl)

/-- The rows that wait afterwards. -/
def waiting (P : List Bytes) (l : Bytes) : List Bytes :=
  if isBlankLine l then if P.length ≥ 2 then [] else P
  else if isSeparator l || isRule l then []
  else if countColumns l > 0 then
    match P with
    | [] => [l]
    | r :: _ => if countColumns r ≠ countColumns l then [l] else P ++ [l]
  else []

/-- Whether a separator was written. -/
def wrote (P : List Bytes) (l : Bytes) : Bool :=
  decide (P.length ≥ 2) && (isBlankLine l || !(isSeparator l || isRule l) && decide (countColumns l = 0))

theorem size_append (P Q : List Bytes) : size (P ++ Q) = size P + size Q := by simp [size]

theorem two {P : List Bytes} (h : P.length ≥ 2) : ∃ r Q, P = r :: Q ∧ Q ≠ [] := by
  cases P with
  | nil => simp at h
  | cons r Q => exact ⟨r, Q, rfl, by rintro rfl; simp at h⟩

theorem step_ok {N n : Nat} {b : Buf} {P : List Bytes} {ch : Bool} {l : Bytes} {nl : Bool}
    (h : Ok N b) (hr : IsRun n P) (hl : nl = true ∨ l ≠ [])
    (hs : b.out.length + 4 * size P + 4 * (l.length + (nlb nl).length) ≤ 4 * N) :
    ∃ cap full, step ⟨b, P.map mk, ch⟩ l nl =
        .val ⟨⟨cap, b.out ++ emit P l nl full⟩, (waiting P l).map mk, ch || wrote P l⟩ ∧
      Ok N ⟨cap, b.out ++ emit P l nl full⟩ ∧
      (full = true → (b.out ++ tableOut nl P).length = 2 * N) ∧
      (∃ m, IsRun m (waiting P l)) ∧
      (b.out ++ emit P l nl full).length + 4 * size (waiting P l) ≤
        b.out.length + 4 * size P + 4 * (l.length + 1) := by
  have hnl := nlb_length nl
  have hpos : 1 ≤ l.length + (nlb nl).length := by
    rcases hl with rfl | h
    · simp [nlb]
    · have := List.length_pos_iff.2 h; omega
  have hpl := plainOut_length nl P
  unfold step emit waiting wrote
  by_cases hb : isBlankLine l = true
  · simp only [hb, if_true, Bool.true_or, Bool.and_true]
    by_cases h2 : P.length ≥ 2
    · obtain ⟨r, Q, rfl, hQ⟩ := two h2
      obtain ⟨cap, hw, hk⟩ := flushTable_ok nl h hr hQ (by omega)
      have ht := table_size hr hQ
      have htl := tableOut_length nl hr
      have hL : (List.map mk (r :: Q)).length ≥ 2 := by simpa using h2
      simp only [onBlank, if_pos h2, if_pos hL, hw, C.val_bind]
      by_cases hf : (b.out ++ tableOut nl (r :: Q)).length < cap
      · refine ⟨cap, false, ?_, ⟨hk.cap, ?_⟩, by simp, ⟨0, by simp [IsRun]⟩, ?_⟩
        · simp only [newline, hf, h2, decide_true, Bool.and_self, if_true, Bool.false_eq_true, if_false, List.append_assoc,
            Bool.or_true, List.map_nil]
        · simp only [List.length_append] at hf ⊢
          simp only [Bool.false_eq_true, if_false, List.length_cons, List.length_nil]; omega
        · simp only [Bool.false_eq_true, if_false, List.length_append, List.length_cons, List.length_nil, size, List.map_nil,
            List.sum_nil] at ht htl hs ⊢
          omega
      · refine ⟨cap, true, ?_, ?_, ?_, ⟨0, by simp [IsRun]⟩, ?_⟩
        · simp only [newline, hf, h2, decide_false, Bool.and_false, Bool.false_eq_true, if_false, if_true, decide_true,
            List.append_nil, List.map_nil, Bool.or_true]
        · simpa using hk
        · intro _
          have h5 := hk.len
          have h6 := hk.cap
          simp only at h5 h6
          rcases h6 with h6 | h6
          · omega
          · rw [List.length_append] at h5 hf ⊢
            omega
        · simp only [if_true, List.append_nil, List.length_append, size, List.map_nil,
            List.sum_nil] at ht htl hs ⊢
          omega
    · simp only [onBlank, if_neg h2, List.length_map]
      obtain ⟨cap, hw, hk⟩ := writeLine_ok (s := l) (nl := nl) h (by omega)
      refine ⟨cap, false, ?_, hk, by simp, ⟨n, hr⟩, ?_⟩
      · rw [hw]; simp [h2]
      · simp only [List.length_append]; omega
  · simp only [hb, Bool.false_eq_true, if_false, Bool.false_or]
    by_cases hbar : (isSeparator l || isRule l) = true
    · simp only [hbar, if_true, onBar]
      obtain ⟨cap, hw, hk⟩ := flushPlain_ok nl P h (by omega)
      obtain ⟨cap', hw', hk'⟩ := writeLine_ok (s := l) (nl := nl) hk (by simp only [List.length_append]; omega)
      refine ⟨cap', false, ?_, by simpa using hk', by simp, ⟨0, by simp [IsRun]⟩, ?_⟩
      · rw [hw, C.val_bind, hw', C.val_bind]; simp
      · simp only [List.length_append, size, List.map_nil, List.sum_nil] at hpl ⊢; omega
    · simp only [hbar, Bool.false_eq_true, if_false, Bool.not_false, Bool.true_and]
      by_cases hc : countColumns l > 0
      · have h0 : countColumns l ≠ 0 := by omega
        have hrow : Row l (countColumns l) :=
          (row_iff l _).2 ⟨by simpa using hb, by simpa using hbar, hc, rfl⟩
        simp only [hc, if_true, onRow]
        cases P with
        | nil =>
          refine ⟨b.cap, false, ?_, by simpa using h, by simp, ⟨countColumns l, by simpa [IsRun] using hrow⟩, ?_⟩
          · simp [mk]
          · simp [size]
        | cons r Q =>
          simp only [List.map_cons, show (mk r).columns = countColumns r from rfl]
          by_cases hne : countColumns r ≠ countColumns l
          · simp only [if_pos hne]
            obtain ⟨cap, hw, hk⟩ := flushPlain_ok nl (r :: Q) h (by omega)
            refine ⟨cap, false, ?_, hk, by simp, ⟨countColumns l, by simpa [IsRun] using hrow⟩, ?_⟩
            · rw [List.map_cons] at hw
              rw [hw]; simp [mk, h0]
            · rw [size_cons] at hs hpl ⊢
              simp only [List.length_append, size, List.map_nil, List.sum_nil, List.map_cons, List.sum_cons] at hpl ⊢
              omega
          · simp only [if_neg hne]
            have hn : countColumns l = n := by
              have := (run_count (hr r (by simp))).1
              omega
            refine ⟨b.cap, false, ?_, by simpa using h, by simp, ⟨n, ?_⟩, ?_⟩
            · simp [mk, h0]
            · intro q hq
              rcases List.mem_append.1 hq with hq | hq
              · exact hr q hq
              · rw [List.mem_singleton] at hq
                subst hq
                exact hn ▸ hrow
            · rw [size_append]
              simp only [List.append_nil, size_cons]
              simp [size]
              omega
      · have h0 : countColumns l = 0 := by omega
        simp only [hc, if_false, onOther, List.length_map]
        by_cases h2 : P.length ≥ 2
        · obtain ⟨r, Q, rfl, hQ⟩ := two h2
          obtain ⟨cap, hw, hk⟩ := flushTable_ok nl h hr hQ (by omega)
          have ht := table_size hr hQ
          have htl := tableOut_length nl hr
          obtain ⟨cap', hw', hk'⟩ := writeLine_ok (s := l) (nl := nl) hk (by simp only [List.length_append]; omega)
          refine ⟨cap', false, ?_, ?_, by simp, ⟨0, by simp [IsRun]⟩, ?_⟩
          · rw [if_pos h2, hw, C.val_bind, hw', C.val_bind]
            simp only [h0, h2, decide_true, Bool.and_self, Bool.or_true, List.append_assoc, List.map_nil, if_true]
          · rw [if_pos h2]; simpa using hk'
          · simp only [h2, if_true, List.length_append, size, List.map_nil, List.sum_nil] at hpl ht htl ⊢; omega
        · obtain ⟨cap, hw, hk⟩ := flushPlain_ok nl P h (by omega)
          obtain ⟨cap', hw', hk'⟩ := writeLine_ok (s := l) (nl := nl) hk (by simp only [List.length_append]; omega)
          refine ⟨cap', false, ?_, by simpa [h2] using hk', by simp, ⟨0, by simp [IsRun]⟩, ?_⟩
          · rw [if_neg h2, hw, C.val_bind, hw', C.val_bind]; simp [h2]
          · simp only [h2, if_false, List.length_append, size, List.map_nil, List.sum_nil] at hpl ⊢; omega

/-! ### The end of the text -/

theorem putNewline_ok {N cap : Nat} {o : Bytes} (hc : cap = 2 * N ∨ 4 * N ≤ cap) (h : o.length < cap) :
    putNewline ⟨cap, o⟩ = .val ⟨cap, o ++ [10]⟩ ∧ Ok N ⟨cap, o ++ [10]⟩ := by
  refine ⟨by rw [putNewline, put_val h]; rfl, hc, ?_⟩
  rw [List.length_append]; exact h

theorem lastRows_ok {N : Nat} (P : List Bytes) : ∀ {b : Buf}, Ok N b → b.out.length + size P ≤ 4 * N →
    ∃ cap, lastRows b (P.map mk) = .val ⟨cap, b.out ++ plainOut true P⟩ ∧ Ok N ⟨cap, b.out ++ plainOut true P⟩ := by
  induction P with
  | nil =>
    intro b h _
    exact ⟨b.cap, by simp [lastRows, plainOut], by simpa [plainOut] using h⟩
  | cons l P ih =>
    intro b h hs
    rw [size_cons] at hs
    obtain ⟨cap, hw, hc, hl⟩ := write_ok (s := l) h (by omega)
    obtain ⟨hp, hk⟩ := putNewline_ok hc hl
    obtain ⟨cap', hf, hk'⟩ := ih hk (by
      simp only [List.length_append, List.length_cons, List.length_nil]
      omega)
    have he : b.out ++ plainOut true (l :: P) = b.out ++ l ++ [10] ++ plainOut true P := by
      simp [plainOut, nlb]
    refine ⟨cap', ?_, he ▸ hk'⟩
    rw [List.map_cons, lastRows, show (mk l).text = l from rfl, hw, C.val_bind, hp, C.val_bind, hf, he]

/-- What the waiting rows become at the end. -/
def lastOut (P : List Bytes) : Bytes := if P.length ≥ 2 then tableOut true P else plainOut true P

theorem atEnd_ok {N n : Nat} {b : Buf} {P : List Bytes} (ch ends : Bool) (h : Ok N b) (hr : IsRun n P)
    (hs : b.out.length + 4 * size P ≤ 4 * N + 4) :
    ∃ cap o, atEnd ⟨b, P.map mk, ch⟩ ends = .val ⟨cap, o⟩ ∧ (ends = true → o = b.out ++ lastOut P) := by
  match P with
  | [] => exact ⟨b.cap, b.out, rfl, by simp [lastOut, plainOut]⟩
  | [r] =>
    have h1 := row_long (hr r (by simp))
    have h2 := (hr r (by simp)).2.2
    rw [size_cons] at hs
    obtain ⟨cap, hw, _⟩ := writeLine_ok (s := r) (nl := ends) h (by omega)
    refine ⟨cap, _, hw, ?_⟩
    rintro rfl
    simp [lastOut, plainOut]
  | r :: q :: P =>
    have ht := table_size hr (by simp)
    have hc := run_count (hr r (by simp))
    obtain ⟨c1, hw, hc1, hl1⟩ := write_ok (s := r) h (by
      simp only [size_cons] at ht hs; omega)
    obtain ⟨hp, hk⟩ := putNewline_ok hc1 hl1
    obtain ⟨c2, hw2, hk2⟩ := writeSep_ok hk (hr r (by simp)) (by
      simp only [size_cons, List.length_append, List.length_cons, List.length_nil] at ht hs ⊢
      omega)
    obtain ⟨c3, hw3, hk3⟩ := lastRows_ok (q :: P) hk2 (by
      simp only [size_cons, List.length_append, List.length_cons, List.length_nil] at ht hs ⊢
      omega)
    refine ⟨c3, b.out ++ r ++ [10] ++ (sepText n (startsWithPipe r) ++ [10]) ++ plainOut true (q :: P), ?_, ?_⟩
    · rw [atEnd.eq_def]
      simp only [List.map_cons, show (mk r).text = r from rfl, hw, C.val_bind, hp, hw2]
      rw [List.map_cons] at hw3
      exact hw3
    · intro _
      simp [lastOut, tableOut, hc.1, nlb]

/-! ### The loop -/

theorem plainOut_page (P : List Bytes) : plainOut true P = page P := rfl

theorem page_append (a b : List Bytes) : page (a ++ b) = page a ++ page b := by simp [page]

theorem page_length (P : List Bytes) : (page P).length = size P := by
  induction P with
  | nil => rfl
  | cons l P ih =>
    rw [size_cons]
    simp only [page, List.map_cons, List.flatten_cons, List.length_append, List.length_cons, List.length_nil] at ih ⊢
    omega

theorem tableOut_page {n : Nat} {r : Bytes} (h : Row r n) (P : List Bytes) :
    tableOut true (r :: P) = page (r :: sepText n (startsWithPipe r) :: P) := by
  simp [tableOut, (run_count h).1, page, plainOut, nlb]

theorem other_of {l : Bytes} (hb : isBlankLine l ≠ true) (hbar : (isSeparator l || isRule l) ≠ true)
    (hc : ¬ countColumns l > 0) (t : List Bytes) : Other (l :: t) := by
  refine ⟨l, t, rfl, fun h => hb ((blankLine_iff l).2 h), fun h => hbar ((bar_iff l).2 h), fun n h => ?_⟩
  exact hc ((row_iff l n).1 h).2.2.1

theorem same_of {N : Nat} {o fin : Bytes} {pre out : List Bytes}
    (h : (∀ a c, out = a ++ [] :: c → (o ++ page pre).length + (page a).length ≠ 2 * N) → fin = o ++ page pre ++ page out) :
    (∀ a c, pre ++ out = a ++ [] :: c → o.length + (page a).length ≠ 2 * N) → fin = o ++ page (pre ++ out) := by
  intro hr
  rw [page_append, ← List.append_assoc]
  refine h fun a c hac => ?_
  have := hr (pre ++ a) c (by rw [hac]; simp)
  rw [page_append, List.length_append] at this
  rw [List.length_append]
  omega

/-- What is known of a run of the loop from `P` waiting rows over the lines `ls`. -/
structure Ran (N : Nat) (b : Buf) (P : List Bytes) (ch : Bool) (ls : List Bytes) (b' : Buf) (P' : List Bytes)
    (ch' : Bool) (k : Nat) (out : List Bytes) : Prop where
  ok : Ok N b'
  run : ∃ m, IsRun m P'
  small : b'.out.length + 4 * size P' ≤ b.out.length + 4 * size P + 4 * size ls
  spec : Page k (P ++ ls) out
  same : (∀ a c, out = a ++ [] :: c → b.out.length + (page a).length ≠ 2 * N) → b'.out ++ lastOut P' = b.out ++ page out
  mono : ch = true → ch' = true
  count : (ch' = true ∨ P'.length ≥ 2) ↔ (ch = true ∨ k ≠ 0)
  len : ch' = false → b'.out.length + size P' = b.out.length + size P + size ls

theorem loop_page {N : Nat} (ls : List Bytes) : ∀ {b : Buf} {P : List Bytes} {ch : Bool} {n : Nat}, Ok N b → IsRun n P →
    b.out.length + 4 * size P + 4 * size ls ≤ 4 * N →
    ∃ b' P' ch' k out, loop ⟨b, P.map mk, ch⟩ (ls.map (·, true)) = .val ⟨b', P'.map mk, ch'⟩ ∧
      Ran N b P ch ls b' P' ch' k out := by
  induction ls with
  | nil =>
    intro b P ch n h hr hs
    match P, hr with
    | [], hr =>
      exact ⟨b, [], ch, 0, [], rfl, h, ⟨n, hr⟩, by simp [size], .nil, by simp [lastOut, plainOut, page], id, by simp, by simp [size]⟩
    | [r], hr =>
      refine ⟨b, [r], ch, 0, [r], rfl, h, ⟨n, hr⟩, by simp [size], .single (hr r (by simp)) (.inl rfl) .nil, ?_, id, by simp, by simp [size]⟩
      intro _; simp [lastOut, plainOut_page]
    | r :: q :: P, hr =>
      have hrow := hr r (by simp)
      refine ⟨b, r :: q :: P, ch, 1, r :: sepText n (startsWithPipe r) :: (q :: P) ++ [], rfl, h, ⟨n, hr⟩, by simp [size], ?_, ?_, id, by simp, by simp [size]⟩
      · exact .table (run := q :: P) (t := []) hrow ⟨by simp, fun x hx => hr x (by simp [hx])⟩ (fits_iff hrow) (.inl rfl) .nil
      · intro _
        rw [List.append_nil, lastOut, if_pos (by simp), tableOut_page hrow]
  | cons l ls ih =>
    intro b P ch n h hr hs
    rw [size_cons] at hs
    obtain ⟨cap, full, hst, hk, hfull, ⟨m, hm⟩, hsm⟩ := step_ok (ch := ch) (l := l) (nl := true) h hr (.inl rfl) (by
      simp only [nlb, if_true, List.length_cons, List.length_nil]; omega)
    obtain ⟨b', P', ch', k, out, hl, R⟩ := ih (ch := ch || wrote P l) hk hm (by simp only; omega)
    have hloop : loop ⟨b, P.map mk, ch⟩ ((l :: ls).map (·, true)) = .val ⟨b', P'.map mk, ch'⟩ := by
      rw [List.map_cons, loop, hst, C.val_bind, hl]
    have hsmall : b'.out.length + 4 * size P' ≤ b.out.length + 4 * size P + 4 * size (l :: ls) := by
      have := R.small
      simp only at this
      rw [size_cons]; omega
    have hmono := R.mono
    have hspec := R.spec
    have hsame := R.same
    have hcount := R.count
    have hlen := R.len
    clear hst hl ih hsm
    revert hspec hsame hcount hlen hfull hmono
    simp only [emit, waiting, wrote]
    have hn1 : nlb true = [10] := rfl
    by_cases hb : isBlankLine l = true
    · simp only [hb, if_true, Bool.true_or, Bool.and_true]
      have hB := (blankLine_iff l).1 hb
      by_cases h2 : P.length ≥ 2
      · simp only [h2, if_true, decide_true, Bool.or_true]
        obtain ⟨r, Q, rfl, hQ⟩ := two h2
        have hrow := hr r (by simp)
        intro hfull hmono hspec hsame hcount hlen
        have hch := hmono trivial
        have ht : tableOut true (r :: Q) = page (r :: sepText n (startsWithPipe r) :: Q) := tableOut_page hrow Q
        refine ⟨b', P', ch', k + 1, (r :: sepText n (startsWithPipe r) :: Q) ++ [] :: out, hloop, R.ok, R.run, hsmall, ?_, ?_,
          fun _ => hch, ?_, ?_⟩
        · exact .tableBlank hrow ⟨hQ, fun x hx => hr x (by simp [hx])⟩ (fits_iff hrow) hB hspec
        · intro hroom
          have hf : full = false := by
            cases full with
            | false => rfl
            | true =>
              have := hfull rfl
              rw [ht, List.length_append] at this
              exact absurd this (hroom _ out rfl)
          subst hf
          have := same_of (pre := (r :: sepText n (startsWithPipe r) :: Q) ++ [[]]) (out := out) (o := b.out) (N := N)
            (fin := b'.out ++ lastOut P') (fun hr => by
              rw [hsame]
              · rw [ht, page_append]; simp [page]
              · intro a c hac
                have := hr a c hac
                rw [page_append] at this
                rw [ht]
                simpa [page] using this)
          rw [this]
          · simp
          · intro a c hac
            exact hroom a c (by rw [← hac]; simp)
        · simp [hch]
        · intro hf; rw [hch] at hf; cases hf
      · simp only [h2, if_false, decide_false, Bool.or_false, hn1]
        intro _ hmono hspec hsame hcount hlen
        refine ⟨b', P', ch', k, l :: out, hloop, R.ok, R.run, hsmall, ?_, ?_, hmono, hcount, ?_⟩
        · match P, hr, hspec with
          | [], _, hspec => exact .line (fun m hm => row_not_blank hm hB) hspec
          | [r], hr, hspec => exact .moved (hr r (by simp)) hB hspec
          | _ :: _ :: _, _, _ => exact absurd (by simp) h2
        · refine same_of (pre := [l]) fun hr => ?_
          rw [hsame]
          · simp [page]
          · simpa [page] using hr
        · intro hf
          have := hlen hf
          rw [size_cons]
          simp only [List.length_append, List.length_cons, List.length_nil] at this
          omega
    · simp only [hb, Bool.false_eq_true, if_false, Bool.false_or]
      by_cases hbar : (isSeparator l || isRule l) = true
      · simp only [hbar, if_true, Bool.not_true, Bool.false_and, Bool.and_false, Bool.or_false, hn1, plainOut_page]
        intro _ hmono hspec hsame hcount hlen
        have hB := (bar_iff l).1 hbar
        have hline : Page k (l :: ls) (l :: out) := .line (fun m hm => hm.1 hB) hspec
        refine ⟨b', P', ch', k, P ++ l :: out, hloop, R.ok, R.run, hsmall, ?_, ?_, hmono, hcount, ?_⟩
        · cases P with
          | nil => exact hline
          | cons r Q => exact .closed ⟨by simp, hr⟩ ⟨l, ls, rfl, .inl hB⟩ hline
        · have := same_of (pre := P ++ [l]) (out := out) (o := b.out) (N := N) (fin := b'.out ++ lastOut P') (fun hr => by
            rw [hsame]
            · simp [page]
            · simpa [page] using hr)
          simpa using this
        · intro hf
          have := hlen hf
          rw [size_cons]
          simp only [List.length_append, List.length_cons, List.length_nil, page_length] at this
          simp only [size, List.map_nil, List.sum_nil] at this ⊢
          omega
      · simp only [hbar, Bool.false_eq_true, if_false, Bool.not_false, Bool.true_and]
        by_cases hc : countColumns l > 0
        · have h0 : countColumns l ≠ 0 := by omega
          have hrow : Row l (countColumns l) :=
            (row_iff l _).2 ⟨by simpa using hb, by simpa using hbar, hc, rfl⟩
          simp only [hc, if_true, h0, decide_false, Bool.and_false, Bool.or_false]
          cases P with
          | nil =>
            intro _ hmono hspec hsame hcount hlen
            refine ⟨b', P', ch', k, out, hloop, R.ok, R.run, hsmall, hspec, by simpa using hsame, hmono, hcount, ?_⟩
            intro hf
            have := hlen hf
            simp only [size_cons, List.append_nil] at this ⊢
            simp only [size, List.map_nil, List.sum_nil] at this ⊢
            omega
          | cons r Q =>
            by_cases hne : countColumns r ≠ countColumns l
            · simp only [if_pos hne, plainOut_page]
              intro _ hmono hspec hsame hcount hlen
              refine ⟨b', P', ch', k, (r :: Q) ++ out, hloop, R.ok, R.run, hsmall, ?_, ?_, hmono, hcount, ?_⟩
              · refine .closed ⟨by simp, hr⟩ ⟨l, ls, rfl, .inr ⟨_, hrow, ?_⟩⟩ hspec
                have := (run_count (hr r (by simp))).1
                omega
              · exact same_of fun hr => by
                  rw [hsame]
                  simpa using hr
              · intro hf
                have := hlen hf
                simp only [size_cons, List.length_append, page_length] at this ⊢
                simp only [size, List.map_nil, List.sum_nil] at this ⊢
                omega
            · simp only [if_neg hne]
              intro _ hmono hspec hsame hcount hlen
              refine ⟨b', P', ch', k, out, hloop, R.ok, R.run, hsmall, by simpa using hspec, by simpa using hsame, hmono, hcount, ?_⟩
              intro hf
              have := hlen hf
              simp only [size_append, size_cons, List.append_nil] at this ⊢
              simp only [size, List.map_nil, List.sum_nil] at this ⊢
              omega
        · have h0 : countColumns l = 0 := by omega
          have hO := other_of hb hbar hc ls
          have hnr : ∀ m, ¬ Row l m := by
            obtain ⟨_, _, he, _, _, h⟩ := hO
            cases he; exact h
          simp only [h0, gt_iff_lt, Nat.lt_irrefl, if_false, decide_true, Bool.and_true, hn1]
          by_cases h2 : P.length ≥ 2
          · simp only [h2, if_true, decide_true, Bool.or_true]
            obtain ⟨r, Q, rfl, hQ⟩ := two h2
            have hrr := hr r (by simp)
            intro _ hmono hspec hsame hcount hlen
            have hch := hmono trivial
            have hline : Page k (l :: ls) (l :: out) := .line hnr hspec
            refine ⟨b', P', ch', k + 1, r :: sepText n (startsWithPipe r) :: Q ++ l :: out, hloop, R.ok, R.run, hsmall, ?_, ?_,
              fun _ => hch, ?_, ?_⟩
            · exact .table hrr ⟨hQ, fun x hx => hr x (by simp [hx])⟩ (fits_iff hrr) (.inr hO) hline
            · have := same_of (pre := r :: sepText n (startsWithPipe r) :: Q ++ [l]) (out := out) (o := b.out) (N := N)
                (fin := b'.out ++ lastOut P') (fun hr => by
                  rw [tableOut_page hrr] at hsame
                  rw [hsame]
                  · rw [page_append]; simp [page]
                  · rw [page_append] at hr
                    simpa [page] using hr)
              simpa using this
            · simp [hch]
            · intro hf; rw [hch] at hf; cases hf
          · simp only [h2, if_false, decide_false, Bool.or_false, plainOut_page]
            intro _ hmono hspec hsame hcount hlen
            have hline : Page k (l :: ls) (l :: out) := .line hnr hspec
            refine ⟨b', P', ch', k, P ++ l :: out, hloop, R.ok, R.run, hsmall, ?_, ?_, hmono, hcount, ?_⟩
            · match P, hr with
              | [], _ => exact hline
              | [r], hr => exact .single (hr r (by simp)) (.inr hO) hline
              | _ :: _ :: _, _ => exact absurd (by simp) h2
            · have := same_of (pre := P ++ [l]) (out := out) (o := b.out) (N := N) (fin := b'.out ++ lastOut P') (fun hr => by
                rw [hsame]
                · simp [page]
                · simpa [page] using hr)
              simpa using this
            · intro hf
              have := hlen hf
              rw [size_cons]
              simp only [List.length_append, List.length_cons, List.length_nil, page_length] at this
              simp only [size, List.map_nil, List.sum_nil] at this ⊢
              omega

/-! ### Lines and texts -/

theorem lines_line {l : Bytes} (h : (10 : Byte) ∉ l) (s : Bytes) : lines (l ++ 10 :: s) = (l, true) :: lines s := by
  induction l with
  | nil => simp [lines]
  | cons c l ih =>
    rw [List.cons_append, lines, if_neg (by rintro rfl; simp at h), ih (by simp_all)]

theorem lines_rest {l : Bytes} (h : (10 : Byte) ∉ l) (hl : l ≠ []) : lines l = [(l, false)] := by
  induction l with
  | nil => exact absurd rfl hl
  | cons c l ih =>
    rw [lines, if_neg (by rintro rfl; simp at h)]
    cases l with
    | nil => rfl
    | cons d l => rw [ih (by simp_all) (by simp)]

theorem lines_page {ls : List Bytes} (h : Lines ls) (s : Bytes) : lines (page ls ++ s) = ls.map (·, true) ++ lines s := by
  induction ls with
  | nil => rfl
  | cons l ls ih =>
    have he : page (l :: ls) ++ s = l ++ 10 :: (page ls ++ s) := by simp [page]
    rw [he, lines_line (h l (by simp)), ih fun x hx => h x (by simp [hx])]
    rfl

theorem exists_lines (text : Bytes) : ∃ ls l, Lines ls ∧ (10 : Byte) ∉ l ∧ text = page ls ++ l := by
  induction text with
  | nil => exact ⟨[], [], by simp [Lines], by simp, rfl⟩
  | cons c s ih =>
    obtain ⟨ls, l, h1, h2, rfl⟩ := ih
    by_cases hc : c = 10
    · subst hc
      exact ⟨[] :: ls, l, by simpa [Lines] using h1, h2, by simp [page]⟩
    · cases ls with
      | nil => exact ⟨[], c :: l, h1, by simpa using ⟨fun h => hc h.symm, h2⟩, by simp [page]⟩
      | cons m ls =>
        refine ⟨(c :: m) :: ls, l, ?_, h2, by simp [page]⟩
        intro x hx
        rcases List.mem_cons.1 hx with rfl | hx
        · have := h1 m (by simp)
          simpa using ⟨fun h => hc h.symm, this⟩
        · exact h1 x (by simp [hx])

theorem loop_append (a c : List (Bytes × Bool)) : ∀ s, loop s (a ++ c) = loop s a >>= fun s => loop s c := by
  induction a with
  | nil => intro s; rfl
  | cons x a ih =>
    intro s
    obtain ⟨l, nl⟩ := x
    rw [List.cons_append, loop, loop]
    cases step s l nl with
    | ub => rfl
    | val s => exact ih s

theorem start_ok (N : Nat) : Ok N ⟨N * 2, []⟩ := ⟨Or.inl (by simp; omega), by simp⟩

/-- No text makes the pass write outside its block. -/
theorem relaxed_safe (text : Bytes) : relaxed text ≠ .ub := by
  unfold relaxed
  split
  · simp
  · obtain ⟨ls, l, h1, h2, rfl⟩ := exists_lines text
    rw [lines_page h1, loop_append]
    obtain ⟨b', P', ch', k, out, hl, R⟩ := loop_page (N := (page ls ++ l).length) ls (b := ⟨(page ls ++ l).length * 2, []⟩) (P := [])
      (ch := false) (n := 0) (start_ok _) (by simp [IsRun]) (by
        simp only [List.length_nil, size, List.map_nil, List.sum_nil]
        rw [List.length_append, page_length, size]; omega)
    rw [List.map_nil] at hl
    rw [hl, C.val_bind]
    obtain ⟨m, hm⟩ := R.run
    have hsm := R.small
    simp only [List.length_nil, Nat.zero_add] at hsm
    have hsz : size ([] : List Bytes) = 0 := rfl
    by_cases hle : l = []
    · subst hle
      rw [show lines [] = [] from rfl, loop, C.val_bind]
      obtain ⟨cap, o, ha, _⟩ := atEnd_ok ch' ((page ls ++ []).getLast? == some 10) R.ok hm (by
        rw [List.length_append, page_length]; omega)
      rw [ha]; simp
    · rw [lines_rest h2 hle]
      obtain ⟨cap, full, hst, hk, _, ⟨m', hm'⟩, hs'⟩ := step_ok (ch := ch') (l := l) (nl := false) R.ok hm (.inr hle) (by
        rw [List.length_append, page_length]
        simp only [nlb, Bool.false_eq_true, if_false, List.length_nil]
        omega)
      rw [loop, hst, C.val_bind, loop, C.val_bind]
      obtain ⟨cap', o, ha, _⟩ := atEnd_ok (ch' || wrote P' l) ((page ls ++ l).getLast? == some 10) hk hm' (by
        rw [List.length_append (as := page ls), page_length]
        simp only at hs' ⊢
        omega)
      rw [ha]; simp

theorem page_last {ls : List Bytes} (h : ls ≠ []) : (page ls).getLast? = some 10 := by
  rcases List.eq_nil_or_concat ls with rfl | ⟨a, l, rfl⟩
  · exact absurd rfl h
  · rw [List.concat_eq_append, page_append]
    simp [page]

theorem page_count {ls : List Bytes} (h : Lines ls) : (page ls).count 10 = ls.length := by
  induction ls with
  | nil => rfl
  | cons l ls ih =>
    have he : page (l :: ls) = l ++ 10 :: page ls := by simp [page]
    rw [he, List.count_append, List.count_cons_self, ih fun x hx => h x (by simp [hx]),
      List.count_eq_zero_of_not_mem (h l (by simp)), List.length_cons]
    omega

theorem fits_lines {r sep : Bytes} (h : Fits r sep) : (10 : Byte) ∉ sep := by
  obtain ⟨n, _, ⟨_, rfl⟩ | ⟨_, rfl⟩⟩ := h
  · simp only [List.mem_append, List.mem_flatten, List.mem_replicate]
    rintro (h | ⟨_, ⟨_, rfl⟩, h⟩)
    · revert h; decide
    · revert h; decide
  · simp only [List.mem_flatten, List.mem_replicate]
    rintro ⟨_, ⟨_, rfl⟩, h⟩
    revert h; decide

theorem Lines.append {a b : List Bytes} : Lines (a ++ b) ↔ Lines a ∧ Lines b := by
  simp only [Lines, List.mem_append]
  exact ⟨fun h => ⟨fun l hl => h l (.inl hl), fun l hl => h l (.inr hl)⟩, fun h l hl => hl.elim (h.1 l) (h.2 l)⟩

theorem Lines.cons {a : Bytes} {b : List Bytes} : Lines (a :: b) ↔ 10 ∉ a ∧ Lines b := by
  simp [Lines]

theorem page_lines {k : Nat} {ls out : List Bytes} (h : Page k ls out) (hl : Lines ls) :
    Lines out ∧ out.length = ls.length + k := by
  induction h with
  | nil => exact ⟨hl, rfl⟩
  | line _ _ ih =>
    rw [Lines.cons] at hl ⊢
    have := ih hl.2
    exact ⟨⟨hl.1, this.1⟩, by simp [this.2]; omega⟩
  | single _ _ _ ih =>
    rw [Lines.cons] at hl ⊢
    have := ih hl.2
    exact ⟨⟨hl.1, this.1⟩, by simp [this.2]; omega⟩
  | moved _ _ _ ih =>
    rw [Lines.cons, Lines.cons] at hl
    have := ih (Lines.cons.2 ⟨hl.1, hl.2.2⟩)
    exact ⟨Lines.cons.2 ⟨hl.2.1, this.1⟩, by simp [this.2]; omega⟩
  | closed _ _ _ ih =>
    rw [Lines.append] at hl ⊢
    have := ih hl.2
    exact ⟨⟨hl.1, this.1⟩, by simp [this.2]; omega⟩
  | table _ _ hf _ _ ih =>
    rw [Lines.append, Lines.cons] at hl
    have := ih hl.2
    exact ⟨Lines.append.2 ⟨Lines.cons.2 ⟨hl.1.1, Lines.cons.2 ⟨fits_lines hf, hl.1.2⟩⟩, this.1⟩, by simp [this.2]; omega⟩
  | tableBlank _ _ hf _ _ ih =>
    rw [Lines.append, Lines.cons, Lines.cons] at hl
    have := ih hl.2.2
    exact ⟨Lines.append.2 ⟨Lines.cons.2 ⟨hl.1.1, Lines.cons.2 ⟨fits_lines hf, hl.1.2⟩⟩, Lines.cons.2 ⟨by simp, this.1⟩⟩,
      by simp [this.2]; omega⟩

theorem page_zero {k : Nat} {ls out : List Bytes} (h : Page k ls out) : k = 0 → (page out).length = (page ls).length := by
  simp only [page_length]
  induction h with
  | nil => intro; rfl
  | line _ _ ih => intro hk; rw [size_cons, size_cons, ih hk]
  | single _ _ _ ih => intro hk; rw [size_cons, size_cons, ih hk]
  | moved _ _ _ ih => intro hk; have := ih hk; simp only [size_cons] at this ⊢; omega
  | closed _ _ _ ih => intro hk; rw [size_append, size_append, ih hk]
  | table => intro hk; cases hk
  | tableBlank => intro hk; cases hk

/-- The pass on a document of lines. -/
theorem relaxed_page {ls : List Bytes} (h : Lines ls) :
    ∃ k out, Page k ls out ∧ (Room (2 * (page ls).length) out →
      relaxed (page ls) = .val (if k = 0 then none else some (page out))) := by
  by_cases hne : ls = []
  · subst hne
    exact ⟨0, [], .nil, fun _ => rfl⟩
  have hlen : (page ls).length ≠ 0 := by
    rw [page_length]
    cases ls with
    | nil => exact absurd rfl hne
    | cons l ls => rw [size_cons]; omega
  obtain ⟨b', P', ch', k, out, hl, R⟩ := loop_page (N := (page ls).length) ls (b := ⟨(page ls).length * 2, []⟩) (P := [])
    (ch := false) (n := 0) (start_ok _) (by simp [IsRun]) (by
      simp only [List.length_nil, size, List.map_nil, List.sum_nil]
      rw [page_length, size]; omega)
  obtain ⟨m, hm⟩ := R.run
  have hsm := R.small
  have hsz : size ([] : List Bytes) = 0 := rfl
  have hpage : Page k ls out := R.spec
  refine ⟨k, out, hpage, fun hroom => ?_⟩
  obtain ⟨cap, o, ha, ho⟩ := atEnd_ok ch' true R.ok hm (by
    simp only [List.length_nil, Nat.zero_add] at hsm
    rw [page_length]; omega)
  have ho' : o = page out := by
    rw [ho rfl, R.same]
    · rfl
    · intro a c hac
      have := hroom a c hac
      simpa using this
  have hlines := lines_page h []
  rw [List.append_nil] at hlines
  unfold relaxed
  rw [if_neg hlen, hlines, show lines [] = [] from rfl, List.append_nil]
  rw [List.map_nil] at hl
  rw [hl, C.val_bind, page_last hne]
  simp only [beq_self_eq_true]
  rw [ha, C.val_bind, ho']
  congr 1
  unfold outcome
  have hcount := R.count
  simp only [Bool.false_eq_true, false_or] at hcount
  by_cases hk : k = 0
  · have hch : ch' = false := by
      cases ch' with
      | false => rfl
      | true => exact absurd hk (hcount.1 (.inl rfl))
    rw [hch, page_zero hpage hk]
    simp [hk]
  · have hneq : page ls ≠ page out := by
      intro he
      have h1 := page_count h
      have h2 := page_lines hpage h
      have h3 := page_count h2.1
      rw [he] at h1
      omega
    have hch : ¬ (ch' = false ∧ (page ls).length = (page out).length) := by
      rintro ⟨hc, he⟩
      have h1 := R.len hc
      have h2 := hcount.2 hk
      rw [hc] at h2
      simp only [Bool.false_eq_true, false_or] at h2
      obtain ⟨r, Q, hP, hQ⟩ := two h2
      have h4 : (page out).length = b'.out.length + (lastOut P').length := by
        rw [← ho', ho rfl, List.length_append]
      rw [lastOut, if_pos h2, hP, tableOut_page (hm r (by simp [hP])), page_length, page_length, size_cons, size_cons] at h4
      rw [hP, size_cons] at h1
      simp only [List.length_nil, hsz, page_length] at h1 he h4
      omega
    rw [if_neg (by simpa using hch), if_neg (by simpa using hneq), if_neg hk]

/-! ### Tidy documents -/

theorem row_unique {l : Bytes} {m n : Nat} (h : Row l m) (h' : Row l n) : m = n := by
  rw [← (run_count h).1, ← (run_count h').1]

theorem tidy_drop {pre t : List Bytes} (h : Tidy (pre ++ t))
    (hx : ∀ p q x t' n, pre = p ++ [q] → t = x :: t' → Row q n → Row x n → False) : Tidy t := by
  intro a r b u n ht hr hb
  obtain ⟨h1, a', q, ha, hq⟩ := h (pre ++ a) r b u n (by rw [ht]; simp) hr hb
  refine ⟨h1, ?_⟩
  rcases List.eq_nil_or_concat a with rfl | ⟨a2, q2, rfl⟩
  · rw [List.append_nil] at ha
    exact (hx a' q r (b :: u) n ha (by simpa using ht) hq hr).elim
  · rw [List.concat_eq_append] at ha ⊢
    rw [← List.append_assoc] at ha
    have := List.append_inj' ha rfl
    exact ⟨a2, q, by rw [this.2], hq⟩

theorem tables_of_page {k : Nat} {ls out : List Bytes} (h : Page k ls out) (ht : Tidy ls) : Tables k ls out := by
  induction h with
  | nil => exact .nil
  | @line k l t t' hl _ ih =>
    refine .line hl (ih (tidy_drop (pre := [l]) ht ?_))
    intro p q x t' n hp _ hq _
    have : q = l := by
      have := congrArg List.getLast? hp
      simpa using this.symm
    exact hl n (this ▸ hq)
  | @single k r n t t' hr hO _ ih =>
    refine .single hr (hO.imp_right .inr) (ih (tidy_drop (pre := [r]) ht ?_))
    intro p q x t' n hp htx hq hx
    rcases hO with rfl | ⟨l, u, he, _, _, hn⟩
    · cases htx
    · rw [htx] at he; cases he
      exact hn n hx
  | @moved k r n b t t' hr hb _ ih =>
    obtain ⟨_, a', q, ha, _⟩ := ht [] r b t n rfl hr hb
    simp at ha
  | @closed k n run t t' hrun hc _ ih =>
    refine .closed hrun hc (ih (tidy_drop ht ?_))
    intro p q x t' m hp htx hq hx
    have hqn := hrun.2 q (by rw [hp]; simp)
    obtain ⟨l, u, he, hl⟩ := hc
    rw [htx] at he; cases he
    rcases hl with hl | ⟨m', hm', hne⟩
    · exact hx.1 hl
    · exact hne ((row_unique hm' hx).trans (row_unique hq hqn))
  | @table k n r run sep t t' hr hrun hf hO _ ih =>
    refine .table hr hrun hf (hO.imp_right .inr) (ih (tidy_drop (pre := r :: run) ht ?_))
    intro p q x t' n hp htx hq hx
    rcases hO with rfl | ⟨l, u, he, _, _, hn⟩
    · cases htx
    · rw [htx] at he; cases he
      exact hn n hx
  | @tableBlank k n r run sep b t t' hr hrun hf hb _ ih =>
    have hbn : b = [] := by
      rcases List.eq_nil_or_concat run with he | ⟨a, q, he⟩
      · exact absurd he hrun.1
      · rw [List.concat_eq_append] at he
        exact (ht (r :: a) q b t n (by rw [he]; simp) (hrun.2 q (by rw [he]; simp)) hb).1
    subst hbn
    refine .table hr hrun hf (.inr (.inl ⟨[], t, rfl, hb⟩)) (.line (fun m hm => row_not_blank hm hb) (ih ?_))
    refine tidy_drop (pre := r :: run ++ [[]]) (by simpa using ht) ?_
    intro p q x t' n hp htx hq hx
    have : q = [] := by
      have := (List.append_inj' hp rfl).2
      simpa using this.symm
    subst this
    exact row_not_blank hq hb

/-! ### Stages -/

theorem normalized_source {ls : List Bytes} {text : Bytes} (h : Source ls text) : normalized text = page ls := by
  rcases h with rfl | ⟨h, c, hc, h10, h13⟩
  · unfold normalized
    by_cases hn : ls = []
    · subst hn; rfl
    · rw [page_last hn]; rfl
  · unfold normalized
    rw [hc]
    simp [h10, h13, h]

theorem stage_source {pass : Bytes → C (Option Bytes)} {ls : List Bytes} {text : Bytes} {o : Option Bytes} (h : Source ls text)
    (hp : pass (page ls) = .val o) : stage pass text = .val (o.getD text) := by
  rw [stage, normalized_source h, hp]; rfl

/-- Every text that does not end with a carriage return consists of lines. -/
theorem source_exists (text : Bytes) (h : text.getLast? ≠ some 13) : ∃ ls, Lines ls ∧ Source ls text := by
  obtain ⟨ls, l, h1, h2, rfl⟩ := exists_lines text
  by_cases hl : l = []
  · subst hl
    exact ⟨ls, h1, .inl (by simp)⟩
  · refine ⟨ls ++ [l], Lines.append.2 ⟨h1, by simpa [Lines] using h2⟩, .inr ⟨by simp [page], l.getLast hl, ?_, ?_, ?_⟩⟩
    · rw [List.getLast?_append, List.getLast?_eq_some_getLast hl]; rfl
    · intro he
      exact h2 (he ▸ List.getLast_mem hl)
    · intro he
      apply h
      rw [List.getLast?_append, List.getLast?_eq_some_getLast hl, he]; rfl

/-! ### Headers -/

def headText (n : Nat) (pipe : Bool) : Bytes :=
  if pipe then b!"|" ++ (List.replicate n b!"  |").flatten else (List.replicate n b!" | ").flatten

theorem headCells_pipe (n : Nat) : b!" " ++ headCells true (n + 1) = (List.replicate (n + 1) b!"  |").flatten := by
  induction n with
  | zero => rfl
  | succ n ih =>
    rw [headCells, List.replicate_succ, List.flatten_cons, ← ih]
    simp

theorem headCells_plain (n : Nat) : headCells false n = (List.replicate n b!" | ").flatten := by
  induction n with
  | zero => rfl
  | succ n ih =>
    rw [headCells, List.replicate_succ, List.flatten_cons, ← ih]
    simp

theorem headerRow_eq {n : Nat} (hn : n ≠ 0) (pipe : Bool) :
    headerRow n pipe = .val (some (headText n pipe ++ [10])) := by
  have ht : (if pipe then b!"| " else []) ++ headCells pipe n ++ b!"\n" = headText n pipe ++ [10] := by
    obtain ⟨m, rfl⟩ : ∃ m, n = m + 1 := ⟨n - 1, by omega⟩
    cases pipe
    · simp [headText, headCells_plain]
    · simp only [headText, if_true]
      rw [← headCells_pipe]; simp
  have hl : (headText n pipe ++ [10]).length = if pipe then 3 * n + 2 else 3 * n + 1 := by
    unfold headText
    cases pipe
    · simp only [Bool.false_eq_true, if_false, List.length_append, flatten_length, List.length_cons, List.length_nil]; omega
    · simp only [if_true, List.length_append, flatten_length, List.length_cons, List.length_nil]; omega
  unfold headerRow
  rw [if_neg (by omega), ht]
  simp only
  rw [puts_val (by rw [hl]; cases pipe <;> simp <;> omega), C.val_bind, List.nil_append,
    finish_val (by rw [hl]; cases pipe <;> simp <;> omega), C.val_bind]

theorem growTo_ok (need : Nat) : ∀ n cap, need ≤ cap * 2 ^ n → ∃ j, growTo need n cap = .val (cap * 2 ^ j) ∧ need ≤ cap * 2 ^ j
  | 0, cap, h => ⟨0, by rw [growTo, if_neg (by simpa using h)]; simp, by simpa using h⟩
  | n + 1, cap, h => by
    rw [growTo]
    split
    · obtain ⟨j, h1, h2⟩ := growTo_ok need n (cap * 2) (by rw [Nat.mul_assoc, ← Nat.pow_succ']; exact h)
      refine ⟨j + 1, ?_, ?_⟩
      · rw [h1, Nat.pow_succ', ← Nat.mul_assoc]
      · rw [Nat.pow_succ', ← Nat.mul_assoc]; exact h2
    · exact ⟨0, by simp, by simp; omega⟩

/-- The block of the second pass: the first size, doubled some times. -/
structure Dbl (N : Nat) (b : Buf) : Prop where
  cap : ∃ j, b.cap = N * 2 ^ (j + 1)
  len : b.out.length ≤ b.cap

theorem Dbl.two {N : Nat} {b : Buf} (h : Dbl N b) : 2 * N ≤ b.cap := by
  obtain ⟨j, hj⟩ := h.cap
  rw [hj, Nat.pow_succ]
  have : 1 ≤ 2 ^ j := Nat.one_le_two_pow
  have := Nat.mul_le_mul_left (N * 2) this
  rw [show N * (2 ^ j * 2) = N * 2 * 2 ^ j by rw [Nat.mul_comm (2 ^ j), Nat.mul_assoc]]
  omega

/-- The header in front of a line. -/
def headOf (l : Bytes) : Bytes :=
  if countColumns l > 0 then headText (countColumns l) (startsWithPipe l) ++ [10] else []

theorem putHeader_ok {N : Nat} (hN : N ≠ 0) {b : Buf} (h : Dbl N b) (l : Bytes) :
    ∃ cap, putHeader b l = .val ⟨cap, b.out ++ headOf l⟩ ∧ Dbl N ⟨cap, b.out ++ headOf l⟩ := by
  unfold putHeader headOf
  split
  · rename_i hc
    rw [headerRow_eq (by omega), C.val_bind]
    simp only
    generalize headText (countColumns l) (startsWithPipe l) ++ [10] = hd
    obtain ⟨j, hj⟩ := h.cap
    have h2 := h.two
    obtain ⟨i, h3, h4⟩ := growTo_ok (b.out.length + hd.length + l.length + 10) (b.out.length + hd.length + l.length + 10) b.cap (by
      have h5 : b.out.length + hd.length + l.length + 10 < 2 ^ (b.out.length + hd.length + l.length + 10) := Nat.lt_two_pow_self
      have := Nat.mul_le_mul_right (2 ^ (b.out.length + hd.length + l.length + 10)) (show 1 ≤ b.cap by omega)
      omega)
    refine ⟨b.cap * 2 ^ i, ?_, ⟨j + i, ?_⟩, ?_⟩
    · rw [h3, C.val_bind, puts_val (by omega)]; rfl
    · simp only [hj]
      rw [Nat.mul_assoc, ← Nat.pow_add]
      congr 2; omega
    · simp only [List.length_append]; omega
  · exact ⟨b.cap, by simp, by simpa using h⟩

theorem copyLine_ok {N : Nat} {b : Buf} (h : Dbl N b) {l : Bytes} (hl : l.length + 1 ≤ 2 * N) (nl : Bool) :
    ∃ cap, copyLine b l nl = .val ⟨cap, b.out ++ (l ++ nlb nl)⟩ ∧ Dbl N ⟨cap, b.out ++ (l ++ nlb nl)⟩ := by
  obtain ⟨j, hj⟩ := h.cap
  have h2 := h.two
  have hle := h.len
  unfold copyLine
  have key : ∀ cap, (∃ j, cap = N * 2 ^ (j + 1)) → b.out.length + l.length + 1 ≤ cap →
      ∃ cap', (puts cap b.out l >>= fun t => if nl = true then put cap t 10 >>= fun t => C.val (Buf.mk cap t) else C.val ⟨cap, t⟩) =
        .val ⟨cap', b.out ++ (l ++ nlb nl)⟩ ∧ Dbl N ⟨cap', b.out ++ (l ++ nlb nl)⟩ := by
    intro cap hc hle
    refine ⟨cap, ?_, hc, ?_⟩
    · rw [puts_val (by omega), C.val_bind]
      cases nl
      · simp [nlb]
      · rw [if_pos rfl, put_val (by rw [List.length_append]; omega)]
        simp [nlb]
    · have := nlb_length nl
      simp only [List.length_append]; omega
  split
  · exact key _ ⟨j + 1, by rw [hj, Nat.pow_succ 2 (j + 1), Nat.mul_assoc]⟩ (by omega)
  · exact key _ ⟨j, hj⟩ (by omega)

def headsOut : Bool → List (Bytes × Bool) → Bytes
  | _, [] => []
  | prev, (l, nl) :: t =>
    (if headless l t prev then headOf l else []) ++ (l ++ nlb nl) ++ headsOut (isTableRow l && !isSeparator l) t

def headsAny : Bool → List (Bytes × Bool) → Bool
  | _, [] => false
  | prev, (l, _) :: t => (headless l t prev && decide (countColumns l > 0)) || headsAny (isTableRow l && !isSeparator l) t

theorem heads_ok {N : Nat} (hN : N ≠ 0) : ∀ (ls : List (Bytes × Bool)) (b : Buf) (prev ch : Bool), Dbl N b →
    (∀ x ∈ ls, x.1.length + 1 ≤ 2 * N) →
    ∃ cap, heads b prev ch ls = .val (⟨cap, b.out ++ headsOut prev ls⟩, ch || headsAny prev ls) ∧
      Dbl N ⟨cap, b.out ++ headsOut prev ls⟩
  | [], b, prev, ch, h, _ => ⟨b.cap, by simp [heads, headsOut, headsAny], by simpa [headsOut] using h⟩
  | (l, nl) :: t, b, prev, ch, h, hl => by
    have step1 : ∃ cap, (if headless l t prev = true then putHeader b l else C.val b) =
        .val ⟨cap, b.out ++ (if headless l t prev then headOf l else [])⟩ ∧
        Dbl N ⟨cap, b.out ++ (if headless l t prev then headOf l else [])⟩ := by
      split
      · exact putHeader_ok hN h l
      · exact ⟨b.cap, by simp, by simpa using h⟩
    obtain ⟨c1, h1, d1⟩ := step1
    obtain ⟨c2, h2, d2⟩ := copyLine_ok d1 (hl (l, nl) (by simp)) nl
    obtain ⟨c3, h3, d3⟩ := heads_ok hN t _ (isTableRow l && !isSeparator l)
      (ch || (headless l t prev && decide (countColumns l > 0))) d2 fun x hx => hl x (by simp [hx])
    have he : b.out ++ headsOut prev ((l, nl) :: t) = b.out ++ (if headless l t prev then headOf l else []) ++ (l ++ nlb nl) ++
        headsOut (isTableRow l && !isSeparator l) t := by simp [headsOut]
    refine ⟨c3, ?_, he ▸ d3⟩
    rw [heads, h1, C.val_bind, h2, C.val_bind, h3, he, headsAny, Bool.or_assoc]

theorem lines_length (text : Bytes) : ∀ x ∈ lines text, x.1.length ≤ text.length := by
  induction text with
  | nil => intro x hx; cases hx
  | cons c s ih =>
    intro x hx
    rw [lines] at hx
    split at hx
    · rcases List.mem_cons.1 hx with rfl | hx
      · simp
      · have := ih x hx; simp; omega
    · split at hx
      · rw [List.mem_singleton] at hx; subst hx; simp
      · rename_i l b r he
        rw [he] at ih
        rcases List.mem_cons.1 hx with rfl | hx
        · have := ih (l, b) (by simp); simpa using this
        · have := ih x (by simp [hx]); simp; omega

theorem headerless_run (text : Bytes) (hN : text.length ≠ 0) :
    ∃ j, headerless text = .val (if (headsOut false (lines text)).length = text.length * 2 ^ (j + 1) then none
      else outcome text (headsOut false (lines text)) (headsAny false (lines text))) := by
  obtain ⟨cap, h, d⟩ := heads_ok hN (lines text) ⟨text.length * 2, []⟩ false false ⟨⟨0, by simp⟩, by simp⟩ fun x hx => by
    have := lines_length text x hx; omega
  obtain ⟨j, hj⟩ := d.cap
  have hle := d.len
  simp only [List.nil_append] at h d hle hj
  refine ⟨j, ?_⟩
  unfold headerless
  rw [if_neg hN, h, C.val_bind]
  simp only [Bool.false_or]
  rw [← hj]
  split
  · rw [if_neg (by omega)]
  · rw [if_pos (by omega)]

theorem headerless_safe (text : Bytes) : headerless text ≠ .ub := by
  by_cases hN : text.length = 0
  · unfold headerless; rw [if_pos hN]; simp
  · obtain ⟨j, h⟩ := headerless_run text hN
    rw [h]; simp

theorem tableRow_iff (l : Bytes) : isTableRow l = true ↔ TableRow l := by
  unfold isTableRow TableRow
  simp only [Bool.and_eq_true, List.contains_eq_mem, decide_eq_true_eq, List.any_eq_true, bne_iff_ne, Bool.not_eq_true',
    ne_eq]
  refine and_congr Iff.rfl (exists_congr fun c => and_congr Iff.rfl ?_)
  constructor
  · rintro ⟨⟨h1, h2⟩, h3⟩; exact ⟨h1, h3, h2⟩
  · rintro ⟨h1, h3, h2⟩; exact ⟨⟨h1, h2⟩, h3⟩

theorem rowFollows_iff (t : List Bytes) : rowFollows (t.map (·, true)) = true ↔
    ∃ bs r u, t = bs ++ r :: u ∧ (∀ b ∈ bs, Blank b) ∧ ¬ Blank r ∧ TableRow r := by
  induction t with
  | nil => simp [rowFollows]
  | cons l t ih =>
    rw [List.map_cons, rowFollows]
    by_cases hb : isBlankLine l = true
    · rw [if_pos hb, ih]
      have hB := (blankLine_iff l).1 hb
      constructor
      · rintro ⟨bs, r, u, rfl, h1, h2⟩
        refine ⟨l :: bs, r, u, rfl, ?_, h2⟩
        intro b hb
        rcases List.mem_cons.1 hb with rfl | hb
        · exact hB
        · exact h1 b hb
      · rintro ⟨bs, r, u, he, h1, h2⟩
        cases bs with
        | nil => cases he; exact absurd hB h2.1
        | cons b bs =>
          cases he
          exact ⟨bs, r, u, rfl, fun x hx => h1 x (by simp [hx]), h2⟩
    · rw [if_neg hb, tableRow_iff]
      have hB : ¬ Blank l := fun h => hb ((blankLine_iff l).2 h)
      constructor
      · intro h
        exact ⟨[], l, t, rfl, by simp, hB, h⟩
      · rintro ⟨bs, r, u, he, h1, h2⟩
        cases bs with
        | nil => cases he; exact h2.2
        | cons b bs => cases he; exact absurd (h1 l (by simp)) hB

/-- What the loop remembers of the line before. -/
def remembered : Option Bytes → Bool
  | none => false
  | some p => isTableRow p && !isSeparator p

theorem headless_iff (p : Option Bytes) (l : Bytes) (t : List Bytes) :
    (headless l (t.map (·, true)) (remembered p) && decide (countColumns l > 0)) = true ↔ Headless p l t := by
  have hp : remembered p = true ↔ ∃ q, p = some q ∧ TableRow q ∧ ¬ Separator q := by
    cases p with
    | none => simp [remembered]
    | some q => simp [remembered, ← tableRow_iff, ← separator_iff]
  have hc : countColumns l > 0 ↔ ∃ n, n ≠ 0 ∧ Columns l n := by
    constructor
    · intro h; exact ⟨_, by omega, (columns_iff l (by omega)).2 rfl⟩
    · rintro ⟨n, hn, h⟩; have := (columns_iff l hn).1 h; omega
  unfold headless Headless
  rw [Bool.and_eq_true, Bool.and_eq_true, Bool.and_eq_true, Bool.not_eq_true', ← Bool.not_eq_true, separator_iff, hp,
    rowFollows_iff, decide_eq_true_eq, hc]
  constructor
  · rintro ⟨⟨⟨h1, h2⟩, h3⟩, h4⟩; exact ⟨h1, h4, h2, h3⟩
  · rintro ⟨h1, h4, h2, h3⟩; exact ⟨⟨⟨h1, h2⟩, h3⟩, h4⟩

theorem header_of {l : Bytes} (h : countColumns l > 0) : Header l (headText (countColumns l) (startsWithPipe l)) := by
  refine ⟨_, (columns_iff l (by omega)).2 rfl, ?_⟩
  by_cases hp : startsWithPipe l = true
  · exact Or.inl ⟨(leading_iff l).1 hp, by rw [hp]; rfl⟩
  · exact Or.inr ⟨fun hl => hp ((leading_iff l).2 hl), by simp [headText, hp]⟩

theorem heads_spec (ls : List Bytes) : ∀ p, ∃ k out, Heads k p ls out ∧ headsOut (remembered p) (ls.map (·, true)) = page out ∧
    (headsAny (remembered p) (ls.map (·, true)) = true ↔ k ≠ 0) := by
  induction ls with
  | nil => intro p; exact ⟨0, [], .nil, rfl, by simp [headsAny]⟩
  | cons l t ih =>
    intro p
    obtain ⟨k, out, h1, h2, h3⟩ := ih (some l)
    rw [List.map_cons, headsOut, headsAny]
    have hr : (isTableRow l && !isSeparator l) = remembered (some l) := rfl
    rw [hr, h2]
    by_cases hh : (headless l (t.map (·, true)) (remembered p) && decide (countColumns l > 0)) = true
    · have hH := (headless_iff p l t).1 hh
      rw [Bool.and_eq_true, decide_eq_true_eq] at hh
      refine ⟨k + 1, headText (countColumns l) (startsWithPipe l) :: l :: out, .put hH (header_of hh.2) h1, ?_, ?_⟩
      · rw [if_pos hh.1, headOf, if_pos hh.2]
        simp [page, nlb]
      · simp [hh]
    · have hH : ¬ Headless p l t := fun h => hh ((headless_iff p l t).2 h)
      refine ⟨k, l :: out, .skip hH h1, ?_, ?_⟩
      · have : (if headless l (t.map (·, true)) (remembered p) = true then headOf l else []) = [] := by
          split
          · rename_i h
            rw [h, Bool.true_and, decide_eq_true_eq] at hh
            rw [headOf, if_neg hh]
          · rfl
        rw [this]
        simp [page, nlb]
      · rw [Bool.not_eq_true] at hh
        rw [hh, Bool.false_or]; exact h3

theorem header_lines {l h : Bytes} (hh : Header l h) : (10 : Byte) ∉ h := by
  obtain ⟨n, _, ⟨_, rfl⟩ | ⟨_, rfl⟩⟩ := hh
  · simp only [List.mem_append, List.mem_flatten, List.mem_replicate]
    rintro (h | ⟨_, ⟨_, rfl⟩, h⟩)
    · revert h; decide
    · revert h; decide
  · simp only [List.mem_flatten, List.mem_replicate]
    rintro ⟨_, ⟨_, rfl⟩, h⟩
    revert h; decide

theorem heads_lines {k : Nat} {p : Option Bytes} {ls out : List Bytes} (h : Heads k p ls out) (hl : Lines ls) :
    Lines out ∧ out.length = ls.length + k := by
  induction h with
  | nil => exact ⟨hl, rfl⟩
  | put _ hh _ ih =>
    rw [Lines.cons] at hl
    have := ih hl.2
    exact ⟨Lines.cons.2 ⟨header_lines hh, Lines.cons.2 ⟨hl.1, this.1⟩⟩, by simp [this.2]; omega⟩
  | skip _ _ ih =>
    rw [Lines.cons] at hl ⊢
    have := ih hl.2
    exact ⟨⟨hl.1, this.1⟩, by simp [this.2]; omega⟩

theorem heads_zero {k : Nat} {p : Option Bytes} {ls out : List Bytes} (h : Heads k p ls out) : k = 0 → out = ls := by
  induction h with
  | nil => intro; rfl
  | put => intro h; cases h
  | skip _ _ ih => intro h; rw [ih h]

theorem headerless_page {ls : List Bytes} (h : Lines ls) :
    ∃ k out, Heads k none ls out ∧ ((∀ j, (page out).length ≠ (page ls).length * 2 ^ (j + 1)) →
      headerless (page ls) = .val (if k = 0 then none else some (page out))) := by
  obtain ⟨k, out, h1, h2, h3⟩ := heads_spec ls none
  refine ⟨k, out, h1, fun hroom => ?_⟩
  by_cases hN : (page ls).length = 0
  · have : ls = [] := by
      cases ls with
      | nil => rfl
      | cons l t => rw [page_length, size_cons] at hN; omega
    subst this
    cases h1
    rfl
  · obtain ⟨j, hj⟩ := headerless_run (page ls) hN
    have hlines := lines_page h []
    rw [List.append_nil, show lines [] = [] from rfl, List.append_nil] at hlines
    rw [hj, hlines, show false = remembered none from rfl, h2, if_neg (hroom j)]
    congr 1
    unfold outcome
    by_cases hk : k = 0
    · have := heads_zero h1 hk
      subst this
      simp [hk]
    · rw [h3.2 hk, if_neg (by simp), if_neg, if_neg hk]
      rw [beq_iff_eq]
      intro he
      have h5 := page_count h
      have h6 := heads_lines h1 h
      have h7 := page_count h6.1
      rw [he] at h5
      omega

end Verif.RelaxedTables
