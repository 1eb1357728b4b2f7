/-
Model of `apex_convert_relaxed_table_headers` (src/html_renderer.c:1572-1818). A failing allocation is not modelled.
-/
import Verif.Model.SepRows

namespace Verif.RelaxedHeads
open Transforms (strstr)
open SepRows (cells)

/-- html_renderer.c:1599-1616: at the top of the loop the block is enlarged if fewer than 100 bytes are left. -/
def room (cap len : Nat) : Nat :=
  if cap - len < 100 then (if len * 2 < len + 100 then len + 1000 else len * 2) else cap

/-- html_renderer.c:1635-1653, 1660-1683: the cell that begins at `p` and whose opening tag has `k` bytes, with `n` bytes
left in the header: `none` if it is not closed in the header or holds something, otherwise what is behind it. -/
def emptyCell (n k : Nat) (p : Bytes) : Option Nat :=
  match strstr (p.drop k) b!"</th>" with
  | some i => if k + i < n ∧ ((p.drop k).take i).all isSpace then some (k + i + 5) else none
  | none => none

/-- html_renderer.c:1625-1690: are there cells in the header, and are they all empty? `n` bytes of `p` belong to the
header, `found` is `found_any_th`. The search for `</th>` from the beginning of `<th>` (1635) or from the end of the tag (1665) is modelled as one from
behind that tag. -/
def allEmpty : Nat → Nat → Bool → Bytes → Bool
  | 0, _, _, _ => false
  | _, 0, found, _ => found
  | f + 1, n + 1, found, p =>
    if b!"<th>".isPrefixOf p then
      match emptyCell (n + 1) 4 p with
      | some j => allEmpty f (n + 1 - j) true (p.drop j)
      | none => false
    else if b!"<th ".isPrefixOf p || b!"<th\t".isPrefixOf p then
      if c!">" ∈ p then
        match emptyCell (n + 1) ((p.takeWhile (· ≠ c!">")).length + 1) p with
        | some j => allEmpty f (n + 1 - j) true (p.drop j)
        | none => false
      else false
    else allEmpty f n found (p.drop 1)

/-- html_renderer.c:1704-1753: a row of dashes among the first `n` bytes of `p`. -/
def dashRow : Nat → Nat → Bytes → Bool
  | 0, _, _ => false
  | _, 0, _ => false
  | f + 1, n + 1, p =>
    if b!"<tr>".isPrefixOf p then
      match strstr (p.drop 4) b!"</tr>" with
      | some i =>
        if 4 + i < n + 1 then
          cells i i (p.drop 4) || dashRow f (n + 1 - (4 + i + 5)) (p.drop (4 + i + 5))
        else false
      | none => false
    else dashRow f n (p.drop 1)

/-- html_renderer.c:1697-1754: does the body that begins at `p` hold a row of dashes? -/
def hasDashRow (p : Bytes) : Bool :=
  match strstr p b!"</tbody>" with
  | some e =>
    match strstr p b!"</table>" with
    | some t => e < t && dashRow e e p
    | none => dashRow e e p
  | none => false

/-- html_renderer.c:1795-1799: behind `</thead>`, an opening `<tbody>` is skipped. -/
def afterHead (p : Bytes) : Bytes :=
  let next := p.dropWhile fun c => c == c!" " || c == c!"\n" || c == c!"\t"
  if b!"<tbody>".isPrefixOf next then next.drop 7 else p

/-- html_renderer.c:1765-1805: the header as a row of the body; `n` bytes are left up to the end of `</thead>`. Yields what
was written and what is left of the page. -/
def asBody (cap : Nat) : Nat → Nat → Bytes → Bytes → C (Bytes × Bytes)
  | 0, _, _, _ => .ub
  | _, 0, out, p => .val (out, p)
  | f + 1, n + 1, out, p =>
    if b!"<th>".isPrefixOf p then
      puts cap out b!"<td>" >>= fun out => asBody cap f (n + 1 - 4) out (p.drop 4)
    else if b!"</th>".isPrefixOf p then
      puts cap out b!"</td>" >>= fun out => asBody cap f (n + 1 - 5) out (p.drop 5)
    else if b!"<th ".isPrefixOf p then
      puts cap out b!"<td" >>= fun out =>
      let attrs := (p.drop 3).takeWhile (· ≠ c!">")
      puts cap out attrs >>= fun out =>
      let r := p.drop (3 + attrs.length)
      if r.head? = some c!">" then
        put cap out c!">" >>= fun out => asBody cap f (n + 1 - (3 + attrs.length + 1)) out (r.drop 1)
      else asBody cap f (n + 1 - (3 + attrs.length)) out r
    else if b!"</thead>".isPrefixOf p then .val (out, afterHead (p.drop 8))
    else match p with
      | [] => .ub
      | c :: t => put cap out c >>= fun out => asBody cap f n out t

/-- What happens at `p`. -/
inductive Act
  /-- Go on at `r` without writing (1690-1693). -/
  | skip (r : Bytes)
  /-- The header with its end tag, `n` bytes, becomes part of the body (1758-1807). -/
  | body (n : Nat)
  | copy

/-- html_renderer.c:1618-1758. -/
def act (p : Bytes) : Act :=
  if b!"<thead>".isPrefixOf p then
    let h := p.drop 7
    match strstr h b!"</thead>" with
    | some e =>
      if allEmpty (e + 1) e false h then .skip (h.drop (e + 8))
      else match strstr h b!"<tbody>" with
        | some t => if e < t ∧ hasDashRow (h.drop t) = false then .body (e + 8) else .copy
        | none => .copy
    | none => .copy
  else .copy

/-- html_renderer.c:1597-1816. Every turn reads a byte, so as many turns as bytes suffice. -/
def loop : Nat → Nat → Bytes → Bytes → C Bytes
  | _, cap, out, [] => finish cap out
  | 0, _, _, _ => .ub
  | f + 1, cap, out, c :: t =>
    let cap := room cap out.length
    match act (c :: t) with
    | .skip r => loop f cap out r
    | .body n =>
      puts cap out b!"<tbody>" >>= fun out =>
      asBody cap (n + 1) n out ((c :: t).drop 7) >>= fun r => loop f cap r.1 r.2
    | .copy => put cap out c >>= fun out => loop f cap out t

/-- html_renderer.c:1586-1818 (`apex_convert_relaxed_table_headers`). -/
def convert (html : Bytes) : C Bytes := loop html.length (html.length * 2) [] html

end Verif.RelaxedHeads
