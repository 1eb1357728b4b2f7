/-
Model of `apex_replace_hr_with_pagebreak` (src/apex.c:3419-3532).
-/
import Verif.Model.Transforms

namespace Verif.HrBreak
open Transforms (strstr)

/-- apex.c:3435-3440. -/
def replacement : Bytes :=
  b!"<div class=\"mkpagebreak manualbreak\" title=\"Page break created from HR\" data-description=\"PAGE (HR)\" style=\"page-break-after:always\"><span style=\"display:none\">&nbsp;</span></div>"

/-- The output: bytes written, capacity of the block and the variable `remaining`. -/
structure Out where
  cap : Nat
  remaining : Nat
  text : Bytes

/-- apex.c:3448-3462, 3466-3480, 3486-3500, 3508-3522: room for `s` if it is too long for `remaining`, then the copy.
`extra` is what the third and the others add to the new size. `realloc` is assumed to succeed. -/
def write (o : Out) (extra : Nat) (s : Bytes) : C Out :=
  let o := if s.length ≥ o.remaining then
      let cap := (o.text.length + s.length + extra + 1) * 2
      { o with cap := cap, remaining := cap - o.text.length }
    else o
  puts o.cap o.text s >>= fun t => .val { o with remaining := o.remaining - s.length, text := t }

/-- apex.c:3443-3528. Every turn reads a tag, so as many turns as bytes suffice. -/
def loop : Nat → Out → Bytes → C Bytes
  | _, o, [] => finish o.cap o.text
  | 0, _, _ => .ub
  | n + 1, o, c :: t =>
    let p := c :: t
    match strstr p b!"<hr" with
    | none => write o 0 p >>= fun o => finish o.cap o.text
    | some i =>
      write o replacement.length (p.take i) >>= fun o =>
      let hr := p.drop i
      if c!">" ∈ hr then
        write o 0 replacement >>= fun o => loop n o (hr.drop ((hr.takeWhile (· ≠ c!">")).length + 1))
      else write o 0 hr >>= fun o => finish o.cap o.text

/-- apex.c:3423-3532 (`apex_replace_hr_with_pagebreak`). -/
def replace (html : Bytes) : C Bytes :=
  loop html.length ⟨html.length * 4 + 1, html.length * 4 + 1, []⟩ html

end Verif.HrBreak
