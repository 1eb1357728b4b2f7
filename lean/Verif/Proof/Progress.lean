/- Lemmas about the line of progress. -/
import Verif.Model.Progress
import Verif.Spec.Progress

namespace Verif.Progress

theorem options_append (xs ys : List Bytes) (on : Bool) : options (xs ++ ys) on = options ys (options xs on) := by
  induction xs generalizing on with
  | nil => rfl
  | cons x xs ih => rw [List.cons_append, options, options, ih]

theorem options_yes (xs : List Bytes) (h : b!"--no-progress" ∉ xs) : options xs true = true := by
  induction xs with
  | nil => rfl
  | cons x xs ih =>
    rw [List.mem_cons, not_or] at h
    rw [options]
    split
    · exact ih h.2
    · rw [if_neg (fun he => h.1 he.symm)]
      exact ih h.2

theorem options_no (xs : List Bytes) (h : b!"--progress" ∉ xs) : options xs false = false := by
  induction xs with
  | nil => rfl
  | cons x xs ih =>
    rw [List.mem_cons, not_or] at h
    rw [options, if_neg (fun he => h.1 he.symm)]
    split <;> exact ih h.2

theorem options_none (xs : List Bytes) (on : Bool) (h1 : b!"--progress" ∉ xs) (h2 : b!"--no-progress" ∉ xs) : options xs on = on := by
  cases on
  · exact options_no xs h1
  · exact options_yes xs h2

theorem wanted_options {env : Option Bytes} {tty : Bool} {args : List Bytes} {b : Bool} (h : Wanted env tty args b) : options args (fromEnv env tty) = b := by
  cases h with
  | yes pre post h hn =>
    rw [h, options_append, options, if_pos rfl]
    exact options_yes post hn
  | no pre post h hn =>
    rw [h, options_append, options, if_neg (by decide), if_pos rfl]
    exact options_no post hn
  | envYes v h1 h2 he hv =>
    rw [options_none args _ h1 h2, he]
    simp only [List.mem_cons, List.not_mem_nil, or_false] at hv
    simp only [fromEnv]
    rw [if_pos hv]
  | envNo v h1 h2 he hv =>
    rw [options_none args _ h1 h2, he]
    simp only [List.mem_cons, List.not_mem_nil, or_false] at hv
    simp only [fromEnv]
    rw [if_neg (by rcases hv with h | h | h <;> rw [h] <;> decide), if_pos hv]
  | terminal h1 h2 he =>
    rw [options_none args _ h1 h2]
    cases env with
    | none => rfl
    | some v =>
      have hv := he v rfl
      simp only [List.mem_cons, List.not_mem_nil, or_false, not_or] at hv
      simp only [fromEnv]
      rw [if_neg (by simp [hv]), if_neg (by simp [hv])]

/-- There is always an answer. -/
theorem wanted_total (env : Option Bytes) (tty : Bool) (args : List Bytes) : ∃ b, Wanted env tty args b := by
  suffices h : (∃ b : Bool, ∃ pre post, args = pre ++ (if b then b!"--progress" else b!"--no-progress") :: post ∧ b!"--progress" ∉ post ∧ b!"--no-progress" ∉ post) ∨
      (b!"--progress" ∉ args ∧ b!"--no-progress" ∉ args) by
    rcases h with ⟨b, pre, post, h, h1, h2⟩ | ⟨h1, h2⟩
    · cases b
      · exact ⟨false, .no pre post h h1⟩
      · exact ⟨true, .yes pre post h h2⟩
    · cases env with
      | none => exact ⟨tty, .terminal h1 h2 (by intro v hv; cases hv)⟩
      | some v =>
        by_cases ha : v ∈ [b!"1", b!"yes", b!"true"]
        · exact ⟨true, .envYes v h1 h2 rfl ha⟩
        · by_cases hb : v ∈ [b!"0", b!"no", b!"false"]
          · exact ⟨false, .envNo v h1 h2 rfl hb⟩
          · refine ⟨tty, .terminal h1 h2 ?_⟩
            intro w hw
            cases hw
            simp only [List.mem_cons, List.not_mem_nil, or_false, not_or] at ha hb ⊢
            simp [ha, hb]
  induction args with
  | nil => exact Or.inr ⟨by simp, by simp⟩
  | cons a as ih =>
    rcases ih with ⟨b, pre, post, h, h1, h2⟩ | ⟨h1, h2⟩
    · exact Or.inl ⟨b, a :: pre, post, by rw [h]; rfl, h1, h2⟩
    · by_cases ha : a = b!"--progress"
      · exact Or.inl ⟨true, [], as, by rw [ha]; rfl, h1, h2⟩
      · by_cases hb : a = b!"--no-progress"
        · exact Or.inl ⟨false, [], as, by rw [hb]; rfl, h1, h2⟩
        · refine Or.inr ⟨?_, ?_⟩
          · rw [List.mem_cons, not_or]; exact ⟨fun h => ha h.symm, h1⟩
          · rw [List.mem_cons, not_or]; exact ⟨fun h => hb h.symm, h2⟩

/-! ### The reports -/

/-- The last stage that was reported. -/
def lastStage (es : List (Option Bytes × Nat)) (l : Option Bytes) : Option Bytes := es.foldl (fun l e => e.1.or l) l

theorem lastStage_eq (es : List (Option Bytes × Nat)) (l : Option Bytes) : lastStage es l = (es.filterMap (·.1)).getLast?.or l := by
  induction es generalizing l with
  | nil => simp [lastStage]
  | cons e es ih =>
    rw [show lastStage (e :: es) l = lastStage es (e.1.or l) from rfl, ih]
    cases he : e.1 with
    | none => rw [List.filterMap_cons_none he, Option.none_or]
    | some x =>
      rw [List.filterMap_cons_some he, Option.some_or, List.getLast?_cons]
      cases (es.filterMap (·.1)).getLast? <;> rfl

theorem report_last (s : St) (st : Option Bytes) (t : Nat) (h : s.on = true) : (report s st t).last = st.or s.last ∧ (report s st t).on = true := by
  unfold report
  rw [h]
  cases st with
  | none =>
    simp only [Option.isSome_none, Bool.false_eq_true, if_false, Bool.not_true, Option.none_or]
    split
    · exact ⟨rfl, h⟩
    · split
      · exact ⟨rfl, h⟩
      · exact ⟨rfl, h⟩
  | some x =>
    simp only [Option.isSome_some, if_true, Bool.not_true, Bool.false_eq_true, if_false, Option.some_or]
    split
    · exact ⟨rfl, rfl⟩
    · split
      · exact ⟨rfl, rfl⟩
      · exact ⟨rfl, rfl⟩

theorem reports_last (es : List (Option Bytes × Nat)) (s : St) (h : s.on = true) : (reports es s).last = lastStage es s.last ∧ (reports es s).on = true := by
  induction es generalizing s with
  | nil => exact ⟨rfl, h⟩
  | cons e es ih =>
    obtain ⟨h1, h2⟩ := report_last s e.1 e.2 h
    rw [show reports (e :: es) s = reports es (report s e.1 e.2) from rfl]
    have := ih _ h2
    rw [h1] at this
    exact this

/-- Before a second is over, nothing is written. -/
theorem report_soon (s : St) (st : Option Bytes) (t : Nat) (ht : t < 1000) (hs : s.shown = false) : (report s st t).err = s.err ∧ (report s st t).shown = false := by
  unfold report
  split
  · exact ⟨rfl, hs⟩
  · cases st with
    | none => simp only [Option.isSome_none, Bool.false_eq_true, if_false]; rw [if_pos ⟨ht, hs⟩]; exact ⟨rfl, hs⟩
    | some x => simp only [Option.isSome_some, if_true]; rw [if_pos ⟨ht, hs⟩]; exact ⟨rfl, hs⟩

theorem reports_soon (es : List (Option Bytes × Nat)) (s : St) (ht : ∀ e ∈ es, e.2 < 1000) (hs : s.shown = false) :
    (reports es s).err = s.err ∧ (reports es s).shown = false := by
  induction es generalizing s with
  | nil => exact ⟨rfl, hs⟩
  | cons e es ih =>
    obtain ⟨h1, h2⟩ := report_soon s e.1 e.2 (ht e List.mem_cons_self) hs
    have := ih (report s e.1 e.2) (fun x hx => ht x (List.mem_cons_of_mem _ hx)) h2
    rw [h1] at this
    exact this

theorem delayed_soon (s : St) (t : Nat) (ht : t < 1000) : delayed s t = s := by
  unfold delayed
  split
  · rfl
  · split
    · rfl
    · rw [if_neg (by omega)]

theorem update_soon (s : St) (t : Nat) (ht : t < 1000) : update s t = s := by
  unfold update
  split
  · rfl
  · split
    · rfl
    · rw [if_neg (by omega)]

/-! ### The terminal -/

theorem put_run (s : Bytes) (l : Line) (hs : c!"\r" ∉ s) (hl : l.col ≤ l.shows.length) :
    s.foldl Line.put l = ⟨l.shows.take l.col ++ s ++ l.shows.drop (l.col + s.length), l.col + s.length⟩ := by
  induction s generalizing l with
  | nil => simp
  | cons c s ih =>
    rw [List.mem_cons, not_or] at hs
    have hp : l.put c = ⟨l.shows.take l.col ++ c :: l.shows.drop (l.col + 1), l.col + 1⟩ := by
      rw [Line.put, if_neg (fun h => hs.1 h.symm)]
    have hlen : (l.shows.take l.col).length = l.col := by rw [List.length_take]; omega
    rw [List.foldl_cons, hp, ih _ hs.2 (by simp only [List.length_append, List.length_cons, hlen]; omega)]
    have h1 : (l.shows.take l.col ++ c :: l.shows.drop (l.col + 1)).take (l.col + 1) = l.shows.take l.col ++ [c] := by
      rw [show l.col + 1 = (l.shows.take l.col).length + 1 by rw [hlen], List.take_length_add_append, hlen]
      simp
    have h2 : (l.shows.take l.col ++ c :: l.shows.drop (l.col + 1)).drop (l.col + 1 + s.length) = l.shows.drop (l.col + (s.length + 1)) := by
      rw [show l.col + 1 + s.length = (l.shows.take l.col).length + (s.length + 1) by rw [hlen]; omega, List.drop_length_add_append,
        List.drop_succ_cons, List.drop_drop]
      congr 1
      omega
    simp only
    rw [h1, h2, List.length_cons]
    congr 1
    · simp
    · omega

/-- A text that begins with a carriage return. -/
theorem put_line (s : Bytes) (l : Line) (hs : c!"\r" ∉ s) : (c!"\r" :: s).foldl Line.put l = ⟨s ++ l.shows.drop s.length, s.length⟩ := by
  rw [List.foldl_cons, show l.put c!"\r" = ⟨l.shows, 0⟩ by rw [Line.put, if_pos rfl], put_run s _ hs (Nat.zero_le _)]
  simp

/-- What stays true while reports come: the line is never wider than 80 columns. -/
def Ok (s : St) : Prop := (screen s.err).shows.length ≤ 80 ∧ (s.shown = false → s.err = [])

theorem fits_text {st : Bytes} (h : Fits st) : ∃ x, text st = c!"\r" :: x ∧ c!"\r" ∉ x ∧ x.length ≤ 80 ∧ x = b!"Processing: " ++ st ++ b!"..." := by
  refine ⟨b!"Processing: " ++ st ++ b!"...", rfl, ?_, ?_, rfl⟩
  · intro hm
    rw [List.mem_append, List.mem_append] at hm
    rcases hm with (hm | hm) | hm
    · exact absurd hm (by decide)
    · exact h.2 hm
    · exact absurd hm (by decide)
  · have := h.1
    rw [List.length_append, List.length_append, show (b!"Processing: ").length = 12 from rfl, show (b!"...").length = 3 from rfl]
    omega

theorem screen_text {st : Bytes} (h : Fits st) (e : Bytes) (he : (screen e).shows.length ≤ 80) : (screen (e ++ text st)).shows.length ≤ 80 := by
  obtain ⟨x, h1, h2, h3, -⟩ := fits_text h
  rw [screen, List.foldl_append, h1, put_line x _ h2]
  simp only [List.length_append, List.length_drop]
  unfold screen at he
  omega

/-- What all stages in sight are like. -/
def Stages (s : St) : Prop := ∀ l ∈ s.last, Fits l

theorem ok_text {s : St} {st : Bytes} (h : Ok s) (hf : Fits st) : Ok { s with shown := true, err := s.err ++ text st } :=
  ⟨screen_text hf s.err h.1, fun h => by cases h⟩

theorem fits_default : Fits b!"Processing" := ⟨by decide, by decide⟩

theorem ok_report {s : St} {st : Option Bytes} {t : Nat} (h : Ok s) (hs : Stages s) (hf : ∀ x ∈ st, Fits x) : Ok (report s st t) ∧ Stages (report s st t) := by
  unfold report
  split
  · exact ⟨h, hs⟩
  · cases st with
    | none =>
      simp only [Option.isSome_none, Bool.false_eq_true, if_false]
      split
      · exact ⟨h, hs⟩
      · split
        · refine ⟨ok_text h ?_, hs⟩
          rw [Option.getD_none]
          cases hl : s.last with
          | none => exact fits_default
          | some l => exact hs l hl
        · exact ⟨h, hs⟩
    | some x =>
      simp only [Option.isSome_some, if_true]
      have hx := hf x rfl
      have hs' : ∀ l ∈ some x, Fits l := fun l hl => by cases hl; exact hx
      split
      · exact ⟨h, hs'⟩
      · split
        · exact ⟨ok_text (s := { s with last := some x }) h hx, hs'⟩
        · exact ⟨h, hs'⟩

theorem ok_reports (es : List (Option Bytes × Nat)) {s : St} (h : Ok s) (hs : Stages s) (hf : ∀ e ∈ es, ∀ x ∈ e.1, Fits x) : Ok (reports es s) ∧ Stages (reports es s) := by
  induction es generalizing s with
  | nil => exact ⟨h, hs⟩
  | cons e es ih =>
    obtain ⟨h1, h2⟩ := ok_report (t := e.2) h hs (hf e List.mem_cons_self)
    exact ih h1 h2 (fun x hx => hf x (List.mem_cons_of_mem _ hx))

theorem ok_delayed {s : St} {t : Nat} (h : Ok s) (hs : Stages s) : Ok (delayed s t) ∧ Stages (delayed s t) := by
  unfold delayed
  split
  · exact ⟨h, hs⟩
  · rename_i l hl
    split
    · exact ⟨h, hs⟩
    · split
      · exact ⟨ok_text h (hs l hl), hs⟩
      · exact ⟨h, hs⟩

theorem ok_update {s : St} {t : Nat} (h : Ok s) (hs : Stages s) : Ok (update s t) ∧ Stages (update s t) := by
  unfold update
  split
  · exact ⟨h, hs⟩
  · rename_i l hl
    split
    · exact ⟨h, hs⟩
    · split
      · exact ⟨ok_text h (hs l hl), hs⟩
      · exact ⟨h, hs⟩

theorem ok_convert (on : Bool) (es : List (Option Bytes × Nat)) (t1 t2 : Nat) (hf : ∀ e ∈ es, ∀ x ∈ e.1, Fits x) : Ok (convert on es t1 t2) := by
  have h0 : Ok ⟨on, false, none, []⟩ := ⟨Nat.zero_le _, fun _ => rfl⟩
  unfold convert
  simp only
  split
  · obtain ⟨h1, h2⟩ := ok_reports es h0 (by intro l hl; cases hl) hf
    obtain ⟨h3, h4⟩ := ok_delayed (t := t1) h1 h2
    exact (ok_update h3 h4).1
  · exact h0

theorem delayed_keeps (s : St) (t : Nat) : (delayed s t).last = s.last ∧ (delayed s t).on = s.on := by
  unfold delayed
  split
  · exact ⟨rfl, rfl⟩
  · split
    · exact ⟨rfl, rfl⟩
    · split <;> exact ⟨rfl, rfl⟩

theorem update_keeps (s : St) (t : Nat) : (update s t).on = s.on := by
  unfold update
  split
  · rfl
  · split
    · rfl
    · split <;> rfl

theorem convert_on (es : List (Option Bytes × Nat)) (t1 t2 : Nat) : (convert true es t1 t2).on = true := by
  unfold convert
  simp only [if_true]
  rw [update_keeps, (delayed_keeps _ _).2, (reports_last es _ rfl).2]

theorem clear_blank {s : St} (h : Ok s) (hon : s.on = false → s.err = []) : (screen (clear s).err).Blank := by
  unfold clear
  by_cases hc : (s.on && s.shown) = true
  · rw [if_pos hc]
    simp only
    have hr : c!"\r" ∉ List.replicate 80 c!" " := fun hm => absurd (List.eq_of_mem_replicate hm) (by decide)
    rw [show s.err ++ b!"\r" ++ List.replicate 80 c!" " ++ b!"\r" = s.err ++ ((c!"\r" :: List.replicate 80 c!" ") ++ [c!"\r"]) by
      rw [List.append_assoc, List.append_assoc]; rfl, screen, List.foldl_append, List.foldl_append, put_line _ _ hr]
    rw [List.foldl_cons, List.foldl_nil, Line.put, if_pos rfl]
    refine ⟨rfl, ?_⟩
    intro c hm
    simp only [List.length_replicate] at hm
    rw [List.mem_append] at hm
    rcases hm with hm | hm
    · exact List.eq_of_mem_replicate hm
    · rw [List.drop_of_length_le (by exact h.1)] at hm
      exact absurd hm List.not_mem_nil
  · rw [if_neg hc]
    have he : s.err = [] := by
      cases ho : s.on with
      | false => exact hon ho
      | true =>
        rw [ho, Bool.true_and] at hc
        exact h.2 (by simpa using hc)
    rw [he]
    exact ⟨rfl, fun c hc => absurd hc List.not_mem_nil⟩

theorem report_late (s : St) (st : Bytes) (t : Nat) (h : s.on = true) (ht : 1000 ≤ t) : report s (some st) t = ⟨true, true, some st, s.err ++ text st⟩ := by
  unfold report
  rw [h]
  simp only [Option.isSome_some, if_true, Bool.not_true, Bool.false_eq_true, if_false]
  rw [if_neg (by omega), if_pos ht]
  simp

end Verif.Progress
