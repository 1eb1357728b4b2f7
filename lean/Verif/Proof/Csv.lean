import Verif.Spec.Csv
import Verif.Proof.Text
import Verif.Proof.Transforms

namespace Verif.Csv

open Spec Text.Spec Transforms.Spec Text

theorem writes_eq (cap : Nat) : ∀ (ss : List Bytes) (out : Bytes), out.length ≤ cap →
    writes cap out ss = if out.length + ss.flatten.length ≤ cap then .val (out ++ ss.flatten) else .ub
  | [], out, h => by simp [writes, h]
  | s :: ss, out, h => by
    rw [writes]
    by_cases hs : out.length + s.length ≤ cap
    · rw [puts_val hs, C.val_bind, writes_eq cap ss _ (by simpa using hs)]
      simp [Nat.add_assoc]
    · rw [if_neg (by simp; omega)]
      simp [puts, hs]

theorem cellWrites_flatten (row : List Bytes) : ∀ (n c : Nat),
    (cellWrites row n c).flatten = ((fitted (c + n) row).drop c).flatMap fun x => b!" " ++ x ++ b!" |"
  | 0, c => by
    have : (fitted (c + 0) row).drop c = [] := by
      rw [List.drop_eq_nil_iff]; simp [fitted]; omega
    rw [this]; rfl
  | n + 1, c => by
    have hl : (fitted (c + (n + 1)) row).length = c + (n + 1) := by simp [fitted]; omega
    have hc : c < (fitted (c + (n + 1)) row).length := by omega
    rw [List.drop_eq_getElem_cons hc]
    have ih := cellWrites_flatten row n (c + 1)
    have e : c + 1 + n = c + (n + 1) := by omega
    rw [e] at ih
    rw [cellWrites, List.flatMap_cons, ← ih]
    have hg : (fitted (c + (n + 1)) row)[c] = (row[c]?).getD [] := by
      simp only [fitted]
      by_cases hr : c < row.length
      · rw [List.getElem_append_left (by simp; omega)]
        simp [hr]
      · rw [List.getElem_append_right (by simp; omega)]
        simp [List.getElem?_eq_none (Nat.le_of_not_lt hr)]
    rw [hg]
    cases row[c]? <;> simp

theorem rowWrites_flatten (cols : Nat) (row : List Bytes) : (rowWrites cols row).flatten = line (fitted cols row) := by
  have := cellWrites_flatten row cols 0
  simp only [Nat.zero_add, List.drop_zero] at this
  simp [rowWrites, line, this]

theorem fitted_self (h : List Bytes) : fitted h.length h = h := by simp [fitted]

theorem range_flatMap_getD (f : Align → List Bytes) (as : List Align) :
    (List.range as.length).flatMap (fun c => f (as.getD c .auto)) = as.flatMap f := by
  have : (List.range as.length).map (fun c => as.getD c .auto) = as := by
    apply List.ext_getElem
    · simp
    · intro i h1 h2; simp at h1; simp [h1]
  rw [List.flatMap_eq_foldl, List.flatMap_eq_foldl]
  conv => rhs; rw [← this]
  rw [List.foldl_map]

theorem rule_flat (as : List Align) : (b!"|" :: as.flatMap (fun a => [spec a, b!"|"]) ++ [b!"\n"]).flatten = rule as := by
  have : (as.flatMap fun a => [spec a, b!"|"]).flatten = as.flatMap fun a => spec a ++ b!"|" := by
    induction as with
    | nil => rfl
    | cons a as ih => simp [ih]
  have h2 : dashes = spec := by funext a; cases a <;> rfl
  simp [rule, h2, this]

theorem rowsWrites_flatten (cols : Nat) : ∀ rest : List (List Bytes),
    (rest.flatMap (rowWrites cols)).flatten = rest.flatMap fun r => line (fitted cols r)
  | [] => rfl
  | x :: xs => by
    rw [List.flatMap_cons, List.flatten_append, rowWrites_flatten, List.flatMap_cons, rowsWrites_flatten cols xs]

theorem sepWrites_flatten {cols : Nat} {as : List Align} (h : as.length = cols) :
    (sepWrites cols (some as)).flatten = rule as := by
  unfold sepWrites
  subst h
  simp only []
  rw [range_flatMap_getD (fun a => [spec a, b!"|"])]
  exact rule_flat as

theorem sepWrites_none (cols : Nat) : (sepWrites cols none).flatten = rule (List.replicate cols .auto) := by
  have h : (List.replicate cols Align.auto).length = cols := by simp
  rw [← sepWrites_flatten h]
  unfold sepWrites
  simp only []
  congr 2
  congr 1
  rw [List.flatMap_eq_foldl, List.flatMap_eq_foldl]
  congr 1
  funext l c
  congr 3
  simp only [List.getD_eq_getElem?_getD, List.getElem?_replicate]
  split <;> rfl

theorem map_toLower_length {t w : Bytes} (h : t.map toLower = w) : t.length = w.length := by rw [← h]; simp

theorem alignment_iff (cell : Bytes) (a : Align) : alignment cell = some a ↔ Keyword cell a := by
  unfold alignment
  simp only []
  have hT := Transforms.trimTok_spec cell
  generalize hg : Transforms.trimTok cell = t at hT
  have key : Keyword cell a ↔ t.map toLower = word a := by
    constructor
    · rintro ⟨t', h1, h2⟩; rw [Transforms.trimmed_unique hT h1]; exact h2
    · exact fun h => ⟨t, hT, h⟩
  rw [key]
  by_cases h0 : t.length = 0
  · rw [if_pos h0]
    have : t = [] := List.length_eq_zero_iff.1 h0
    subst this
    cases a <;> simp [word]
  · rw [if_neg h0]
    by_cases h1 : t.length ≥ 16
    · rw [if_pos h1]
      constructor
      · intro h; cases h
      · intro h
        have := map_toLower_length h
        cases a <;> simp [word] at this <;> omega
    · rw [if_neg h1]
      constructor
      · intro h
        split at h
        · cases h; assumption
        split at h
        · cases h; assumption
        split at h
        · cases h; assumption
        split at h
        · cases h; assumption
        · cases h
      · intro h
        rw [h]
        cases a <;> simp [word]

theorem alignments_iff : ∀ (row : List Bytes) (as : List Align),
    alignments row = some as ↔ as.length = row.length ∧ ∀ p ∈ row.zip as, Keyword p.1 p.2
  | [], as => by
    simp [alignments, eq_comm]
  | c :: cs, as => by
    rw [alignments]
    constructor
    · intro h
      split at h
      · cases h
      · rename_i a ha
        split at h
        · cases h
        · rename_i as' has
          cases h
          obtain ⟨h1, h2⟩ := (alignments_iff cs as').1 has
          refine ⟨by simp [h1], ?_⟩
          intro p hp
          rw [List.zip_cons_cons] at hp
          rcases List.mem_cons.1 hp with rfl | hp
          · exact (alignment_iff c a).1 ha
          · exact h2 p hp
    · rintro ⟨h1, h2⟩
      cases as with
      | nil => simp at h1
      | cons a as =>
        have ha := (alignment_iff c a).2 (h2 (c, a) (by simp))
        have has := (alignments_iff cs as).2 ⟨by simpa using h1, fun p hp => h2 p (by simp [hp])⟩
        rw [ha, has]

theorem rows_unique {d : Byte} {text : Bytes} {rows : List (List Bytes)} (h : Rows d text rows) :
    (splitLines text).map (split d) = rows := by
  obtain ⟨ls, h1, h2, h3⟩ := h
  rw [splitLines_unique h1]
  clear h1
  induction ls generalizing rows with
  | nil => cases rows with
    | nil => rfl
    | cons _ _ => simp at h2
  | cons l ls ih => cases rows with
    | nil => simp at h2
    | cons r rows =>
      rw [List.map_cons, split_unique (h3 (l, r) (by simp)), ih (by simpa using h2) fun p hp => h3 p (by simp [hp])]

theorem rows_exists (d : Byte) (text : Bytes) : Rows d text ((splitLines text).map (split d)) := by
  refine ⟨splitLines text, splitLines_spec text, by simp, ?_⟩
  generalize splitLines text = ls
  induction ls with
  | nil => simp
  | cons l ls ih =>
    intro p hp
    rw [List.map_cons, List.zip_cons_cons] at hp
    rcases List.mem_cons.1 hp with rfl | hp
    · exact split_spec d l
    · exact ih p hp

theorem rows_head_ne {d : Byte} {text : Bytes} {h : List Bytes} {rest : List (List Bytes)} (hr : Rows d text (h :: rest)) :
    h.length ≠ 0 := by
  obtain ⟨ls, h1, h2, h3⟩ := hr
  cases ls with
  | nil => simp at h2
  | cons l ls =>
    have := (h3 (l, h) (by simp)).1
    simpa using this

theorem toTable_eq {text : Bytes} {isTsv : Bool} {rows : List (List Bytes)} {out : Bytes} (hne : text ≠ [])
    (hr : Rows (if isTsv then c!"\t" else c!",") text rows) (ht : Table rows out) :
    toTable text isTsv = if out.length < text.length * 4 + 64 then .val (some out) else .ub := by
  unfold toTable
  simp only []
  rw [if_neg (by simpa using hne), rows_unique hr]
  have fin : ∀ ss : List Bytes, ss.flatten = out → (writes (text.length * 4 + 64) [] ss >>= fun out =>
      finish (text.length * 4 + 64) out >>= fun out => (.val (some out) : C (Option Bytes))) =
      if out.length < text.length * 4 + 64 then .val (some out) else .ub := by
    intro ss hs
    rw [writes_eq _ _ _ (by simp), hs]
    simp only [List.length_nil, Nat.zero_add, List.nil_append]
    by_cases h1 : out.length < text.length * 4 + 64
    · rw [if_pos (by omega), if_pos h1, C.val_bind, finish_val h1]; rfl
    · rw [if_neg h1]
      by_cases h2 : out.length ≤ text.length * 4 + 64
      · rw [if_pos h2, C.val_bind]; simp [finish, h1]
      · rw [if_neg h2]; rfl
  cases ht with
  | aligned h r rest as ha =>
    simp only []
    rw [if_neg (rows_head_ne hr)]
    have hal : alignRow h.length (h :: r :: rest) = some as := by
      unfold alignRow
      simp only []
      rw [if_pos ha.1, (alignments_iff r as).2 ⟨by rw [ha.2.1, ha.1], ha.2.2⟩]
    rw [hal]
    apply fin
    rw [List.flatten_append, List.flatten_append, rowWrites_flatten, fitted_self, sepWrites_flatten ha.2.1]
    congr 1
    simp only [Option.isSome_some, if_true, List.drop_succ_cons, List.drop_zero]
    exact rowsWrites_flatten _ _
  | plain h rest hn =>
    simp only []
    rw [if_neg (rows_head_ne hr)]
    have hal : alignRow h.length (h :: rest) = none := by
      unfold alignRow
      cases rest with
      | nil => rfl
      | cons r rs =>
        simp only []
        split
        · rename_i hl
          cases ha : alignments r with
          | none => rfl
          | some as =>
            obtain ⟨h1, h2⟩ := (alignments_iff r as).1 ha
            exact absurd ⟨hl, by rw [h1, hl], h2⟩ (hn r as rfl)
        · rfl
    rw [hal]
    apply fin
    rw [List.flatten_append, List.flatten_append, rowWrites_flatten, fitted_self, sepWrites_none]
    congr 1
    simp only [Option.isSome_none, Bool.false_eq_true, if_false, List.drop_succ_cons, List.drop_zero]
    exact rowsWrites_flatten _ _

/-! ### When the table fits -/

theorem line_length : ∀ cells : List Bytes, (line cells).length = 2 + (cells.flatten.length + 3 * cells.length) := by
  intro cells
  have : (cells.flatMap fun c => b!" " ++ c ++ b!" |").length = cells.flatten.length + 3 * cells.length := by
    induction cells with
    | nil => rfl
    | cons c cs ih => rw [List.flatMap_cons, List.length_append, ih]; simp; omega
  simp only [line, List.length_append, this]; simp; omega

theorem joined_length (d : Byte) : ∀ cells : List Bytes, cells ≠ [] → (joined d cells).length + 1 = cells.flatten.length + cells.length
  | [], h => absurd rfl h
  | [x], _ => by simp [joined]
  | x :: y :: r, _ => by
    have := joined_length d (y :: r) (by simp)
    simp only [joined, List.length_append, List.length_cons, List.flatten_cons] at this ⊢
    omega

theorem flatten_ge : ∀ cells : List Bytes, (∀ c ∈ cells, c ≠ []) → cells.length ≤ cells.flatten.length
  | [], _ => by simp
  | c :: cs, h => by
    have h1 := flatten_ge cs fun d hd => h d (List.mem_cons_of_mem _ hd)
    have h2 := List.length_pos_iff.2 (h c (by simp))
    rw [List.flatten_cons, List.length_append, List.length_cons]; omega

theorem ended_length (ls : List Bytes) : (ended ls).length = ls.flatten.length + ls.length := by
  induction ls with
  | nil => rfl
  | cons l ls ih => simp only [ended, List.flatMap_cons, List.length_append] at ih ⊢; rw [ih]; simp; omega

theorem lines_length {text : Bytes} {ls : List Bytes} (h : Lines text ls) : ls.flatten.length + ls.length ≤ text.length + 1 := by
  rcases h.2 with rfl | ⟨front, last, rfl, hl, rfl⟩
  · rw [ended_length]; omega
  · have := ended_length front
    simp only [List.length_append, List.flatten_append, List.flatten_cons, List.flatten_nil, List.append_nil,
      List.length_cons, List.length_nil, this]
    omega

/-- The room a list of rows takes in the file: each with its newline. -/
theorem rows_length {d : Byte} {text : Bytes} {rows : List (List Bytes)} (h : Rows d text rows) :
    (rows.map fun r => r.flatten.length + r.length).sum ≤ text.length + 1 := by
  obtain ⟨ls, h1, h2, h3⟩ := h
  refine Nat.le_trans ?_ (lines_length h1)
  clear h1
  induction ls generalizing rows with
  | nil => cases rows with
    | nil => simp
    | cons _ _ => simp at h2
  | cons l ls ih => cases rows with
    | nil => simp at h2
    | cons r rows =>
      have hp := h3 (l, r) (by simp)
      have hl := joined_length d r hp.1
      have := ih (rows := rows) (by simpa using h2) fun p hp => h3 p (by simp [hp])
      have e : l.length = (joined d r).length := congrArg List.length hp.2.2
      simp only [List.map_cons, List.sum_cons, List.flatten_cons, List.length_append, List.length_cons]; omega

theorem data_length {k : Nat} : ∀ rest : List (List Bytes), (∀ r ∈ rest, r.length = k ∧ ∀ c ∈ r, c ≠ []) → 1 ≤ k →
    (rest.flatMap fun r => line (fitted k r)).length ≤ 4 * (rest.map fun r => r.flatten.length + r.length).sum
  | [], _, _ => by simp
  | r :: rest, h, hk => by
    have ih := data_length rest (fun r hr => h r (List.mem_cons_of_mem _ hr)) hk
    obtain ⟨h1, h2⟩ := h r (by simp)
    have h3 := flatten_ge r h2
    rw [List.flatMap_cons, List.length_append, ← h1, fitted_self, h1, line_length]
    simp only [List.map_cons, List.sum_cons]
    omega

theorem rule_length (as : List Align) : (rule as).length ≤ 2 + 8 * as.length := by
  have : (as.flatMap fun a => dashes a ++ b!"|").length ≤ 8 * as.length := by
    induction as with
    | nil => simp
    | cons a as ih =>
      have : (dashes a).length ≤ 7 := by cases a <;> simp [dashes]
      rw [List.flatMap_cons, List.length_append, List.length_append, List.length_cons]
      simp only [List.length_cons, List.length_nil]; omega
  simp only [rule, List.length_append, List.length_cons, List.length_nil]; omega

theorem rule_auto_length (n : Nat) : (rule (List.replicate n .auto)).length = 2 + 6 * n := by
  have : ((List.replicate n Align.auto).flatMap fun a => dashes a ++ b!"|").length = 6 * n := by
    induction n with
    | zero => rfl
    | succ n ih => rw [List.replicate_succ, List.flatMap_cons, List.length_append, ih]; simp [dashes]; omega
  simp only [rule, List.length_append, this]; simp; omega

theorem table_fits {d : Byte} {text out : Bytes} {h r : List Bytes} {rest : List (List Bytes)}
    (hr : Rows d text (h :: r :: rest)) (ht : Table (h :: r :: rest) out)
    (hrect : ∀ x ∈ h :: r :: rest, x.length = h.length ∧ ∀ c ∈ x, c ≠ []) : out.length < text.length * 4 + 64 := by
  have hl := rows_length hr
  simp only [List.map_cons, List.sum_cons] at hl
  have hk : 1 ≤ h.length := Nat.pos_of_ne_zero (rows_head_ne hr)
  have hh := flatten_ge h (hrect h (by simp)).2
  have hr' := flatten_ge r (hrect r (by simp)).2
  have hrl := (hrect r (by simp)).1
  cases ht with
  | aligned _ _ _ as ha =>
    have hd := data_length rest (fun x hx => hrect x (by simp [hx])) hk
    have hru := rule_length as
    have := ha.2.1
    rw [List.length_append, List.length_append, line_length]
    omega
  | plain _ _ hn =>
    have hd := data_length rest (fun x hx => hrect x (by simp [hx])) hk
    rw [List.length_append, List.length_append, line_length, rule_auto_length, List.flatMap_cons, List.length_append,
      ← hrl, fitted_self, hrl, line_length]
    omega

theorem table_unique {rows : List (List Bytes)} {o o' : Bytes} (h : Table rows o) (h' : Table rows o') : o = o' := by
  have au : ∀ {k : Nat} {r : List Bytes} {as as' : List Align}, AlignRow k r as → AlignRow k r as' → as = as' := by
    intro k r as as' h h'
    have h1 := (alignments_iff r as).2 ⟨by rw [h.2.1, h.1], h.2.2⟩
    have h2 := (alignments_iff r as').2 ⟨by rw [h'.2.1, h'.1], h'.2.2⟩
    rw [h1] at h2; exact Option.some.inj h2
  cases h with
  | aligned h r rest as ha =>
    cases h' with
    | aligned _ _ _ as' ha' => rw [au ha ha']
    | plain _ _ hn => exact absurd ha (hn r as rfl)
  | plain h rest hn =>
    cases h' with
    | aligned _ r _ as ha => exact absurd ha (hn r as rfl)
    | plain _ _ _ => rfl

theorem table_exists (h : List Bytes) (rest : List (List Bytes)) : ∃ out, Table (h :: rest) out := by
  by_cases ha : ∃ r as, rest.head? = some r ∧ AlignRow h.length r as
  · obtain ⟨r, as, hr, ha⟩ := ha
    cases rest with
    | nil => simp at hr
    | cons x xs => simp at hr; subst hr; exact ⟨_, .aligned h x xs as ha⟩
  · exact ⟨_, .plain h rest fun r as hr h => ha ⟨r, as, hr, h⟩⟩

end Verif.Csv
