/- Theorems about dates in metadata. -/
import Verif.Proof.Dates

namespace Verif.Dates
open Spec

/-! ### C257: a date is shown as it was written -/

/-- Any format of plain text, years, months, days, hours, minutes and seconds shows these as they were written. -/
theorem C257_partial (lib : Byte → Tm → Bytes) {t : Date} (h : t.Ok) {ps : List Piece} (hp : ∀ p ∈ ps, p.Ok) (hs : ps.flatMap (Piece.shown t) ≠ []) (hl : (ps.flatMap (Piece.shown t)).length < 256) :
    transform lib (some (ps.flatMap Piece.write)) t.write = .val (ps.flatMap (Piece.shown t)) := by
  have hw := parse_at h [] (by intro c hc; cases hc)
  rw [List.append_nil] at hw
  have hf := format_pieces lib h hp
  unfold transform
  simp only [hw, C.val_bind, hf]
  rw [if_neg]
  rintro (e | e)
  · exact hs (List.length_eq_zero_iff.mp e)
  · omega

/-- A date in March. -/
theorem C257_case : ∃ (t : Date) (ps : List Piece), t.Ok ∧ (∀ p ∈ ps, p.Ok) ∧ t.write = b!"2024-03-05 14:30:07" ∧ ps.flatMap Piece.write = b!"%d.%m.%Y, %H h" ∧
    ps.flatMap (Piece.shown t) = b!"05.03.2024, 14 h" := by
  refine ⟨⟨b!"2024", b!"03", b!"05", b!"14", b!"30", b!"07"⟩,
    [.day, .lit c!".", .month, .lit c!".", .year, .lit c!",", .lit c!" ", .hour, .lit c!" ", .lit c!"h"], ?_, ?_, by decide, by decide, by decide⟩
  · exact ⟨⟨by decide, by decide, by decide⟩, by decide, ⟨_, _, rfl, by decide, by decide⟩, ⟨_, _, rfl, by decide, by decide⟩, ⟨_, _, rfl, by decide, by decide⟩, ⟨_, _, rfl, by decide, by decide⟩,
      ⟨_, _, rfl, by decide, by decide⟩⟩
  · intro p hp
    simp only [List.mem_cons, List.not_mem_nil, or_false] at hp
    rcases hp with rfl | rfl | rfl | rfl | rfl | rfl | rfl | rfl | rfl | rfl <;> first | trivial | (show _ ≠ _; decide)

/-- The property fails: each day is a Sunday. -/
theorem C257_weekday_fails (lib : Byte → Tm → Bytes) {t : Date} (h : t.Ok) (hw : weekday (value t.y) (value t.m) (value t.d) ≠ 0) :
    transform lib (some b!"%A") t.write = .val b!"Sunday" ∧ dayName (weekday (value t.y) (value t.m) (value t.d)) ≠ b!"Sunday" := by
  have hp := parse_at h [] (by intro c hc; cases hc)
  rw [List.append_nil] at hp
  refine ⟨?_, ?_⟩
  · unfold transform
    simp only [hp, C.val_bind]
    rfl
  · have hlt : weekday (value t.y) (value t.m) (value t.d) < 7 := Nat.mod_lt _ (by decide)
    generalize weekday (value t.y) (value t.m) (value t.d) = w at *
    have : w = 1 ∨ w = 2 ∨ w = 3 ∨ w = 4 ∨ w = 5 ∨ w = 6 := by omega
    rcases this with rfl | rfl | rfl | rfl | rfl | rfl <;> decide

/-- The 15th of March 2024 was a Friday. -/
theorem C257_weekday_case : weekday 2024 3 15 = 5 ∧ dayName 5 = b!"Friday" ∧ transform (fun _ _ => []) (some b!"%A") b!"2024-03-15" = .val b!"Sunday" := by decide +kernel

/-- The property fails: a time behind a `T` is lost, and midnight is shown. -/
theorem C257_time_fails (lib : Byte → Tm → Bytes) {y m d : Bytes} (hy : Digits y) (hm : Digits m) (hd : Digits d) (r : Bytes) :
    transform lib (some b!"%H:%M") (y ++ b!"-" ++ m ++ b!"-" ++ d ++ (c!"T" :: r)) = .val b!"00:00" := by
  have hp := parse_day hy hm hd (r := c!"T" :: r) (by intro c hc; cases hc; decide) (num_none (by
    intro c hc
    rw [List.dropWhile_cons_of_neg (by decide)] at hc
    cases hc
    decide))
  unfold transform
  simp only [hp, C.val_bind]
  have e : ∀ t : Tm, t.hour = 0 → t.min = 0 → format lib t b!"%H:%M" = b!"00:00" := by
    intro t h1 h2
    show two t.hour ++ (c!":" :: (two t.min ++ [])) = _
    rw [h1, h2]
    decide +kernel
  rw [e _ rfl rfl]
  rfl

/-! ### C258: what is no date stays as it is -/

/-- A value that does not begin with a number is not changed. -/
theorem C258_partial (lib : Byte → Tm → Bytes) (f : Option Bytes) {v : Bytes} (h : ∀ c, (v.dropWhile isSpace).head? = some c → isDigit c = false ∧ c ≠ c!"-" ∧ c ≠ c!"+") : transform lib f v = .val v := by
  have hp : parse v = .val none := by
    unfold parse fields
    rw [num_none h]
    rfl
  unfold transform
  cases f with
  | none => rfl
  | some f =>
    simp only [hp, C.val_bind]

theorem C258_case : ∀ c, (b!" March 2024".dropWhile isSpace).head? = some c → isDigit c = false ∧ c ≠ c!"-" ∧ c ≠ c!"+" := by
  intro c hc
  cases hc
  decide

/-- The property fails: any three numbers are a date, and what is behind them is dropped. -/
theorem C258_fails (lib : Byte → Tm → Bytes) {y m d : Bytes} (hy : Digits y) (hz : y.head? ≠ some c!"0") (hl : y.length < 256) (hm : Digits m) (hd : Digits d) {c : Byte} (hc : isSpace c = false) (h1 : isDigit c = false)
    (h2 : c ≠ c!"-") (h3 : c ≠ c!"+") (r : Bytes) : transform lib (some b!"%Y") (y ++ b!"-" ++ m ++ b!"-" ++ d ++ (c :: r)) = .val y := by
  have hp := parse_day hy hm hd (r := c :: r) (by intro x hx; cases hx; exact h1) (num_none (by
    intro x hx
    rw [List.dropWhile_cons_of_neg (by simp [hc])] at hx
    cases hx
    exact ⟨h1, h2, h3⟩))
  have e : ∀ t : Tm, format lib t b!"%Y" = decInt (t.year + 1900) := by
    intro t
    show decInt (t.year + 1900) ++ [] = _
    rw [List.append_nil]
  unfold transform
  simp only [hp, C.val_bind, e]
  have ey : (value y : Int) - 1900 + 1900 = value y := by omega
  rw [ey, decInt_value hy hz, if_neg]
  rintro (h | h)
  · exact hy.1 (List.length_eq_zero_iff.mp h)
  · omega

/-- A number of parts with three groups of digits. -/
theorem C258_fails_case : transform (fun _ _ => []) (some b!"%Y") b!"978-3-16/148410" = .val b!"978" ∧ transform (fun _ _ => []) (some b!"%d.%m.%Y") b!"2024-13-45" = .val b!"45.13.2024" := by decide +kernel

/-- And with too many digits the outcome is not defined. -/
theorem C258_large_fails (lib : Byte → Tm → Bytes) (f : Bytes) : transform lib (some f) b!"99999999999" = .ub := by
  have hp : parse b!"99999999999" = .ub := by decide +kernel
  unfold transform
  simp only [hp, C.ub_bind]

end Verif.Dates
