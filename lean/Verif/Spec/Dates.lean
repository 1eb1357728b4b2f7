/- Dates and how they are shown, without the program. -/
import Verif.Model.Dates

namespace Verif.Dates.Spec

/-- Digits for a number that is not too large. -/
def Digits (s : Bytes) : Prop := s ≠ [] ∧ (∀ c ∈ s, isDigit c = true) ∧ value s < 2147483648

/-- Two digits. -/
def Two (s : Bytes) : Prop := ∃ a b, s = [a, b] ∧ isDigit a = true ∧ isDigit b = true

/-- A date as it is written: year, month and day, hour, minute and second. -/
structure Date where
  y : Bytes
  m : Bytes
  d : Bytes
  hh : Bytes
  mm : Bytes
  ss : Bytes

/-- The year does not begin with a zero, all else has two digits. -/
def Date.Ok (t : Date) : Prop := Digits t.y ∧ t.y.head? ≠ some c!"0" ∧ Two t.m ∧ Two t.d ∧ Two t.hh ∧ Two t.mm ∧ Two t.ss

/-- `2024-03-15 14:30:00`. -/
def Date.write (t : Date) : Bytes := t.y ++ b!"-" ++ t.m ++ b!"-" ++ t.d ++ b!" " ++ t.hh ++ b!":" ++ t.mm ++ b!":" ++ t.ss

/-- A piece of a format. -/
inductive Piece
  | lit (c : Byte)
  | year | month | day | hour | minute | second

/-- How it is written in the format. -/
def Piece.write : Piece → Bytes
  | .lit c => [c]
  | .year => b!"%Y"
  | .month => b!"%m"
  | .day => b!"%d"
  | .hour => b!"%H"
  | .minute => b!"%M"
  | .second => b!"%S"

/-- What is to be shown for it. -/
def Piece.shown (t : Date) : Piece → Bytes
  | .lit c => [c]
  | .year => t.y
  | .month => t.m
  | .day => t.d
  | .hour => t.hh
  | .minute => t.mm
  | .second => t.ss

/-- Plain text has no percent sign. -/
def Piece.Ok : Piece → Prop
  | .lit c => c ≠ c!"%"
  | _ => True

/-- The day of the week, Sunday is 0, by the rule of Sakamoto. -/
def weekday (y m d : Nat) : Nat :=
  let y := if m < 3 then y - 1 else y
  (y + y / 4 - y / 100 + y / 400 + [0, 3, 2, 5, 0, 3, 5, 1, 4, 6, 2, 4].getD (m - 1) 0 + d) % 7

end Verif.Dates.Spec
