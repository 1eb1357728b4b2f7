/-
Dates in metadata: `parse_date` and the transform `strftime` (src/extensions/metadata.c:957-1001, 1456-1474).

With the C library of GNU the headers that are included before metadata.c:20 define `_POSIX_C_SOURCE`, so that
`HAVE_STRPTIME` is not defined and the part of `parse_date` with `sscanf` is compiled (985-998); it is the one
modelled here.  `sscanf` and `strftime` are modelled as in the standard; a number that does not fit is undefined.
-/
import Verif.Basic

namespace Verif.Dates

/-- The fields of `struct tm`; those that are not named in `parse_date` are zero. -/
structure Tm where
  year : Int
  mon : Int
  mday : Int
  hour : Int := 0
  min : Int := 0
  sec : Int := 0
  wday : Int := 0
deriving DecidableEq

/-- The number that digits stand for. -/
def value (s : Bytes) : Nat := s.foldl (fun n c => n * 10 + (c.toNat - 48)) 0

/-- `%d` of `sscanf`: white space, a sign, digits. -/
def num (s : Bytes) : C (Option (Int × Bytes)) :=
  let t := s.dropWhile isSpace
  let u := if t.head? = some c!"-" ∨ t.head? = some c!"+" then t.drop 1 else t
  let ds := u.takeWhile isDigit
  if ds = [] then .val none
  else
    let v : Int := if t.head? = some c!"-" then - (value ds : Int) else value ds
    if -2147483648 ≤ v ∧ v < 2147483648 then .val (some (v, u.dropWhile isDigit)) else .ub

/-- Numbers with these bytes between them, as far as they are there; a blank stands for any white space. -/
def fields : List Byte → Bytes → C (List Int)
  | seps, s => do
    match ← num s with
    | none => .val []
    | some (v, r) =>
      match seps with
      | [] => .val [v]
      | c :: more =>
        if c = c!" " then do
          let l ← fields more r
          .val (v :: l)
        else if r.head? = some c then do
          let l ← fields more (r.drop 1)
          .val (v :: l)
        else .val [v]

/-- metadata.c:985-998, `sscanf(date_str, "%d-%d-%d %d:%d:%d", ...)`; `none` is false. -/
def parse (s : Bytes) : C (Option Tm) := do
  match ← fields [c!"-", c!"-", c!" ", c!":", c!":"] s with
  | y :: m :: d :: r =>
    if y < -2147481748 ∨ m = -2147483648 then .ub
    else .val (some { year := y - 1900, mon := m - 1, mday := d, hour := (r[0]?).getD 0, min := (r[1]?).getD 0, sec := (r[2]?).getD 0 })
  | _ => .val none

/-- A number in digits. -/
def dec (n : Nat) : Bytes := if h : n < 10 then [UInt8.ofNat (48 + n)] else dec (n / 10) ++ [UInt8.ofNat (48 + n % 10)]

/-- A number with its sign. -/
def decInt (n : Int) : Bytes := if n < 0 then b!"-" ++ dec (-n).toNat else dec n.toNat

/-- A number of two digits at least. -/
def two (n : Int) : Bytes := if 0 ≤ n ∧ n < 10 then b!"0" ++ decInt n else decInt n

/-- The names of the days; others are not defined and shown as `?`. -/
def dayName (n : Int) : Bytes :=
  if n = 0 then b!"Sunday" else if n = 1 then b!"Monday" else if n = 2 then b!"Tuesday" else if n = 3 then b!"Wednesday" else if n = 4 then b!"Thursday"
  else if n = 5 then b!"Friday" else if n = 6 then b!"Saturday" else b!"?"

/-- One conversion of `strftime`; those that are not listed are given by `lib`. -/
def conv (lib : Byte → Tm → Bytes) (t : Tm) (c : Byte) : Bytes :=
  if c = c!"Y" then decInt (t.year + 1900) else if c = c!"m" then two (t.mon + 1) else if c = c!"d" then two t.mday else if c = c!"H" then two t.hour
  else if c = c!"M" then two t.min else if c = c!"S" then two t.sec else if c = c!"A" then dayName t.wday else if c = c!"%" then b!"%" else lib c t

/-- `strftime` without its limit. -/
def format (lib : Byte → Tm → Bytes) (t : Tm) : Bytes → Bytes
  | [] => []
  | [c] => [c]
  | c :: d :: s => if c = c!"%" then conv lib t d ++ format lib t s else c :: format lib t (d :: s)

/-- metadata.c:1456-1474: the transform; the buffer has 256 bytes, and what does not fit counts as nothing. -/
def transform (lib : Byte → Tm → Bytes) (options : Option Bytes) (v : Bytes) : C Bytes :=
  match options with
  | none => .val v
  | some f => do
    match ← parse v with
    | none => .val v
    | some t => if (format lib t f).length = 0 ∨ 256 ≤ (format lib t f).length then .val v else .val (format lib t f)

end Verif.Dates
