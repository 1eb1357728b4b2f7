/- src/ast_terminal.c:158-390: the styles of terminal output.  What is appended to the buffer is the value of each function; allocations succeed. -/
import Verif.Basic
import Verif.Model.Man

namespace Verif.TermStyle

/-- ast_terminal.c:162-165 `append_ansi_reset`. -/
def reset : Bytes := b!"\x1b[0m"

/-- ast_terminal.c:167-172 `append_ansi_seq`. -/
def seq (s : Bytes) : Bytes := b!"\x1b[" ++ s ++ b!"m"

/-- ast_terminal.c:198-206: the eight names. -/
def base (s : Bytes) : Option Nat :=
  if s = b!"black" then some 0
  else if s = b!"red" then some 1
  else if s = b!"green" then some 2
  else if s = b!"yellow" then some 3
  else if s = b!"blue" then some 4
  else if s = b!"magenta" then some 5
  else if s = b!"cyan" then some 6
  else if s = b!"white" then some 7
  else none

/-- ast_terminal.c:180-187: whether the name is of a background, and the rest. -/
def ground (s : Bytes) : Bool × Bytes :=
  if b!"on_".isPrefixOf s then (true, s.drop 3)
  else if b!"bg".isPrefixOf s && ((s.drop 2).head?.any isUpper) then (true, s.drop 2)
  else (false, s)

/-- ast_terminal.c:189-196: whether the name is of a bright colour, and the rest. -/
def bright (s : Bytes) : Bool × Bytes :=
  if b!"intense_".isPrefixOf s then (true, s.drop 8)
  else if b!"bright_".isPrefixOf s then (true, s.drop 7)
  else (false, s)

/-- ast_terminal.c:174-214 `ansi_color_code_from_name`; `none` is -1. -/
def code (name : Bytes) : Option Nat :=
  let (bg, s) := ground name
  let (intense, s) := bright s
  (base s).map fun b => if bg then (if intense then 100 + b else 40 + b) else if intense then 90 + b else 30 + b

/-- ast_terminal.c:217-222 `hex_nibble`; `none` is -1. -/
def nibble (c : Byte) : Option Nat :=
  if isDigit c then some (c.toNat - 48)
  else if c!"a" ≤ c && c ≤ c!"f" then some (c.toNat - 87)
  else if c!"A" ≤ c && c ≤ c!"F" then some (c.toNat - 55)
  else none

/-- ast_terminal.c:225-255 `parse_hex_rgb`; `none` is -1. -/
def hexRgb (s : Bytes) : Option (Nat × Nat × Nat) :=
  let p := if s.head? = some c!"#" then s.drop 1 else s
  match p with
  | [r, g, b] => do
    let r ← nibble r
    let g ← nibble g
    let b ← nibble b
    some (r * 16 + r, g * 16 + g, b * 16 + b)
  | [r1, r2, g1, g2, b1, b2] => do
    let r1 ← nibble r1
    let r2 ← nibble r2
    let g1 ← nibble g1
    let g2 ← nibble g2
    let b1 ← nibble b1
    let b2 ← nibble b2
    some (r1 * 16 + r2, g1 * 16 + g2, b1 * 16 + b2)
  | _ => none

/-- ast_terminal.c:267-272: a channel on a scale of six, `r / 255.0 * 5.0 + 0.5` rounded down.  In whole numbers this is `(2 r + 51) / 102`: `r / 51` is at least 1/102 away from any half, much more than
the arithmetic of `double` can be wrong. -/
def six (r : Nat) : Nat := min 5 ((2 * r + 51) / 102)

/-- ast_terminal.c:263: the level of a grey, `(r - 8) / 247.0 * 24.0 + 0.5` rounded down; the value is at least 1/494 away from any half. -/
def grey (r : Nat) : Nat := min 23 ((48 * (r - 8) + 247) / 494)

/-- ast_terminal.c:258-275 `rgb_to_256`. -/
def to256 (r g b : Nat) : Nat :=
  if r = g ∧ g = b then
    if r < 8 then 16
    else if r > 248 then 231
    else 232 + grey r
  else 16 + 36 * six r + 6 * six g + six b

/-- ast_terminal.c:334-337: the name of the colour nearest to another. -/
def nearest (r g b : Nat) : Bytes :=
  if r > g ∧ r > b then b!"red" else if g > r ∧ g > b then b!"green" else if b > r ∧ b > g then b!"blue" else b!"white"

/-- ast_terminal.c:348-355 and 337-344: the sequence of a name, if it has one. -/
def named (name : Bytes) : Bytes :=
  match code name with
  | some n => seq (Man.decimal n)
  | none => []

/-- ast_terminal.c:309-319: whether the token may be a colour in hexadecimal, whether of the background, and the digits. -/
def hexPart (t : Bytes) : Option (Bool × Bytes) :=
  if t.head? = some c!"#" || b!"bg".isPrefixOf t || b!"on_".isPrefixOf t then
    some (if b!"bg".isPrefixOf t then (true, t.drop 2) else if b!"on_".isPrefixOf t then (true, t.drop 3) else (false, t))
  else none

/-- ast_terminal.c:320-346: a colour given by its channels; with few colours, whether it is of the background is not looked at. -/
def rgb (wide bg : Bool) (r g b : Nat) : Bytes :=
  if wide then seq ((if bg then b!"48;5;" else b!"38;5;") ++ Man.decimal (to256 r g b)) else named (nearest r g b)

/-- ast_terminal.c:278-357 `apply_style_token`. -/
def token (wide : Bool) (t : Bytes) : Bytes :=
  if t = [] then []
  else if t = b!"b" || t = b!"bold" then seq b!"1"
  else if t = b!"d" || t = b!"dark" then seq b!"2"
  else if t = b!"i" || t = b!"italic" then seq b!"3"
  else if t = b!"u" || t = b!"underline" || t = b!"underscore" then seq b!"4"
  else if t = b!"r" || t = b!"reverse" || t = b!"negative" then seq b!"7"
  else if b!"38;5;".isPrefixOf t || b!"48;5;".isPrefixOf t then seq t
  else
    match hexPart t with
    | some (bg, h) =>
      match hexRgb h with
      | some (r, g, b) => rgb wide bg r g b
      | none => named t
    | none => named t

/-- The words of a style, ast_terminal.c:370-377: what is between white space. -/
def words : Bytes → List Bytes
  | [] => []
  | c :: t =>
    if isSpace c then words t
    else
      match t with
      | [] => [[c]]
      | d :: _ =>
        if isSpace d then [c] :: words t
        else
          match words t with
          | w :: ws => (c :: w) :: ws
          | [] => [[c]]

/-- ast_terminal.c:365-390 `apply_style_string`: each word, cut to 63 bytes. -/
def style (wide : Bool) (s : Bytes) : Bytes := (words s).flatMap fun w => token wide (w.take 63)

end Verif.TermStyle
