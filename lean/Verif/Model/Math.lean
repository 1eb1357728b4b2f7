/-
Math between dollar signs: src/extensions/math.c:28-72 and :129-191.
Simplified: the input is what is left of the inline content from the dollar sign on; it has no NUL byte (the parser replaces them); `malloc`
succeeds; line and column numbers are left out.
-/
import Verif.Basic

namespace Verif.Math

/-- src/extensions/math.c:35-39: the text in front of two dollar signs, and the text behind them. -/
def double : Bytes → Option (Bytes × Bytes)
  | c :: d :: t => if c = c!"$" ∧ d = c!"$" then some ([], t) else (double (d :: t)).map fun r => (c :: r.1, r.2)
  | _ => none

/-- src/extensions/math.c:53-68: the text in front of the dollar sign that ends the math, and the text behind it.  `prev` is the byte in front. -/
def single (prev : Byte) : Bytes → Option (Bytes × Bytes)
  | [] => none
  | c :: t =>
    if c = c!"$" then
      if prev = c!"\\" then (single c t).map fun r => (c :: r.1, r.2)
      else if prev = c!" " ∨ prev = c!"\t" ∨ prev = c!"\n" then none
      else some ([], t)
    else (single c t).map fun r => (c :: r.1, r.2)

/-- `scan_dollar_math`, src/extensions/math.c:28-72: whether it is display math, the text, and what follows. -/
def scan (input : Bytes) : Option (Bool × Bytes × Bytes) :=
  if input.length < 3 then none
  else
    match input with
    | c :: d :: t =>
      if c = c!"$" ∧ d = c!"$" then (double t).map fun r => (true, r.1, r.2)
      else if c = c!"$" then
        if d = c!" " ∨ d = c!"\t" ∨ d = c!"\n" ∨ d = c!"$" then none
        else (single c (d :: t)).map fun r => (false, r.1, r.2)
      else none
    | _ => none

/-- `match_math_dollar`, src/extensions/math.c:129-191: the HTML and what follows. -/
def match' (input : Bytes) : Option (Bytes × Bytes) :=
  match scan input with
  | none => none
  | some (display, body, rest) =>
    if body = [] then none
    else if display then some (b!"<span class=\"math display\">\\[" ++ body ++ b!"\\]</span>", rest)
    else some (b!"<span class=\"math inline\">\\(" ++ body ++ b!"\\)</span>", rest)

end Verif.Math
