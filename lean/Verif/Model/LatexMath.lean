/-
Math between `\(` and `\)` or `\[` and `\]`: src/extensions/math.c:75-127, 196-257, and which function is called for a byte, 262-277.
Simplified as in `Math`.
-/
import Verif.Model.Math

namespace Verif.LatexMath

/-- src/extensions/math.c:85-89, 98-100: the text in front of a backslash and `e`, and the text behind them. -/
def close (e : Byte) : Bytes → Option (Bytes × Bytes)
  | c :: d :: t => if c = c!"\\" ∧ d = e then some ([], t) else (close e (d :: t)).map fun r => (c :: r.1, r.2)
  | _ => none

/-- src/extensions/math.c:113-116. -/
def mathByte (c : Byte) : Bool :=
  (97 ≤ c && c ≤ 122) || (65 ≤ c && c ≤ 90) || (48 ≤ c && c ≤ 57) || c = c!"+" || c = c!"-" || c = c!"*" ||
    c = c!"/" || c = c!"=" || c = c!"^" || c = c!"_" || c = c!" " || c = c!"." || c = c!"," || c = c!"(" || c = c!")" || c = c!"\\"

/-- `scan_latex_math`, src/extensions/math.c:79-127: whether it is display math, the text, and what follows. -/
def scan (input : Bytes) : Option (Bool × Bytes × Bytes) :=
  if input.length < 4 then none
  else
    match input with
    | c :: d :: t =>
      if c = c!"\\" ∧ d = c!"[" then (close c!"]" t).map fun r => (true, r.1, r.2)
      else if c = c!"\\" ∧ d = c!"(" then
        match close c!")" t with
        | some (body, rest) => if body = [] then none else if body.any mathByte then some (false, body, rest) else none
        | none => none
      else none
    | _ => none

/-- `match_math_backslash`, src/extensions/math.c:199-257: the HTML and what follows. -/
def backslash (character : Byte) (input : Bytes) : Option (Bytes × Bytes) :=
  if character ≠ c!"\\" then none
  else
    match scan input with
    | none => none
    | some (display, body, rest) =>
      if body = [] then none
      else if display then some (b!"<span class=\"math display\">\\[" ++ body ++ b!"\\]</span>", rest)
      else some (b!"<span class=\"math inline\">\\(" ++ body ++ b!"\\)</span>", rest)

/-- `match_math_dollar`, src/extensions/math.c:129-137, with the byte it is called for. -/
def dollar (character : Byte) (input : Bytes) : Option (Bytes × Bytes) := if character ≠ c!"$" then none else Math.match' input

/-- `create_math_extension`, src/extensions/math.c:262-277: the bytes it is called for, and the function that is called. -/
def special : List Byte := [c!"$", c!"\\"]

def matchInline : Byte → Bytes → Option (Bytes × Bytes) := dollar

/-- What the extension makes of inline content: the HTML and what follows.  The parser calls it at the bytes it has asked for; for `none` the
parser goes on with its own rules. -/
def extension : Bytes → Option (Bytes × Bytes)
  | [] => none
  | c :: s => if c ∈ special then matchInline c (c :: s) else none

end Verif.LatexMath
