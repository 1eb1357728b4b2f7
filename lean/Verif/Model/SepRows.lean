/-
Model of `apex_remove_table_separator_rows` (src/html_renderer.c:1887-1977) with `cell_contains_only_dashes`
(src/html_renderer.c:1527-1570).
-/
import Verif.Model.Transforms

namespace Verif.SepRows
open Transforms (strstr)

/-- html_renderer.c:1531-1567, the text of a cell and what is behind it. `has` is `has_content`. Every turn reads a byte,
so as many turns as bytes suffice. -/
def dashes : Nat → Bool → Bytes → Bytes → Bool
  | _, has, [], _ => has
  | 0, _, _, _ => false
  | n + 1, has, c :: t, behind =>
    let p := c :: t ++ behind
    if c = 0xE2 ∧ t.length ≥ 2 ∧ t.take 2 = [0x80, 0x94] then dashes n true (t.drop 2) behind
    else if c = c!":" ∨ c = c!"-" ∨ c = c!"|" then dashes n (has || c == c!"-" || c == c!":") t behind
    else if c = c!" " ∨ c = c!"\t" ∨ c = c!"\n" ∨ c = c!"\r" then dashes n has t behind
    else if c = c!"<" then
      if b!"</td>".isPrefixOf p || b!"</th>".isPrefixOf p then dashes n has (t.drop 4) behind
      else if b!"<td".isPrefixOf p || b!"<th".isPrefixOf p then
        dashes n has ((t.dropWhile (· ≠ c!">")).drop 1) behind
      else false
    else false

/-- html_renderer.c:1527-1570 (`cell_contains_only_dashes`). -/
def onlyDashes (cell behind : Bytes) : Bool := dashes cell.length false cell behind

/-- html_renderer.c:1924-1958: are the cells of a row dashes? `n` bytes of `p` belong to the row. A cell that is not
closed in the row ends the search. -/
def cells : Nat → Nat → Bytes → Bool
  | 0, _, _ => true
  | _, 0, _ => true
  | f + 1, n + 1, p =>
    let th := b!"<th".isPrefixOf p
    if b!"<td".isPrefixOf p || th then
      if c!">" ∈ p then
        let k := (p.takeWhile (· ≠ c!">")).length + 1
        match strstr (p.drop k) (if b!"<td".isPrefixOf p then b!"</td>" else b!"</th>") with
        | some i =>
          if k + i + 5 ≤ n + 1 then
            if onlyDashes ((p.drop k).take i) ((p.drop k).drop i) then cells f (n + 1 - (k + i + 5)) (p.drop (k + i + 5))
            else false
          else true
        | none => true
      else true
    else cells f n (p.drop 1)

/-- html_renderer.c:1901. -/
def opensTable (p : Bytes) : Bool := b!"<table>".isPrefixOf p || b!"<table ".isPrefixOf p

/-- html_renderer.c:1905-1969: what is removed of `p`, which begins with `<tr>`. -/
def removed (p : Bytes) : Option Bytes :=
  let r := p.drop 4
  match strstr r b!"</tr>" with
  | some i => if cells (i + 5) (i + 5) r then some (r.drop (i + 5)) else none
  | none => none

/-- html_renderer.c:1899-1973. Every turn reads a byte, so as many turns as bytes suffice. -/
def loop : Nat → Nat → Bool → Bytes → Bytes → C Bytes
  | _, cap, _, out, [] => finish cap out
  | 0, _, _, _, _ => .ub
  | n + 1, cap, inTable, out, c :: t =>
    if opensTable (c :: t) then put cap out c >>= fun o => loop n cap true o t
    else if b!"</table>".isPrefixOf (c :: t) then put cap out c >>= fun o => loop n cap false o t
    else if inTable && b!"<tr>".isPrefixOf (c :: t) then
      match removed (c :: t) with
      | some r => loop n cap inTable out r
      | none => puts cap out b!"<tr>" >>= fun o => loop n cap inTable o ((c :: t).drop 4)
    else put cap out c >>= fun o => loop n cap inTable o t

/-- html_renderer.c:1887-1977 (`apex_remove_table_separator_rows`). -/
def removeRows (html : Bytes) : C Bytes := loop html.length (html.length + 1) false [] html

end Verif.SepRows
