/-
Passes over finished HTML: src/html_renderer.c, src/apex.c, and the header shift of cli/main.c.
-/
import Verif.Model.MetaParse

namespace Verif.HtmlPass

open MetaParse (idx)
open Transforms (strstr strstr_le)

/-! ### Header levels -/

/-- html_renderer.c:2012-2026: the heading tag at the start of `s`: is it a closing tag, and its level. -/
def headingAt (s : Bytes) : Option (Bool × Nat) :=
  match s with
  | 60 :: 47 :: 104 :: d :: 62 :: _ => if 49 ≤ d ∧ d ≤ 54 then some (true, d.toNat - 48) else none
  | 60 :: 104 :: d :: c :: _ =>
    if 49 ≤ d ∧ d ≤ 54 ∧ (c = 62 ∨ isSpace c) then some (false, d.toNat - 48) else none
  | _ => none

/-- html_renderer.c:2030-2037: the new level; `b` is `base_header_level`. -/
def newLevel (b l : Nat) : Nat :=
  let n := l + (b - 1)
  if n > 6 then 6 else if n < 1 then 1 else n

/-- html_renderer.c:2056-2106: a tag whose level changes; `n` is `tag_len`, `cap` the capacity. -/
def writeTag (cap : Nat) (out s : Bytes) (closing : Bool) (nl n : Nat) : C (Nat × Bytes) :=
  let cap := if cap - out.length < n + 10 then (out.length + n + 10) * 2 else cap
  if closing then
    puts cap out [60, 47, 104, .ofNat (48 + nl), 62] >>= fun o => .val (cap, o)
  else
    puts cap out [60, 104, .ofNat (48 + nl)] >>= fun o =>
    (if n - 3 > 0 ∧ cap - o.length ≥ n - 3 then puts cap o ((s.drop 3).take (n - 3)) else .val o) >>= fun o =>
    put cap o 62 >>= fun o => .val (cap, o)

/-- html_renderer.c:2107-2131: a tag that is copied; `n` is `tag_len` of line 2109. -/
def copyTag (cap : Nat) (out s : Bytes) (n : Nat) : C (Nat × Bytes) :=
  let cap := if n < cap - out.length then cap else (out.length + n + 1) * 2
  puts cap out (s.take n) >>= fun o => .val (cap, o)

/-- html_renderer.c:2133-2153: any other byte. -/
def copyChar (cap : Nat) (out : Bytes) (c : Byte) : C (Nat × Bytes) :=
  let cap := if cap - out.length > 0 then cap else (out.length + 1) * 2
  put cap out c >>= fun o => .val (cap, o)

/-- html_renderer.c:2006-2155. `remaining` is always `cap - out.length`. -/
def adjustLoop (b : Nat) (cap : Nat) (out s : Bytes) : C Bytes :=
  match s with
  | [] => finish cap out
  | c :: t =>
    match headingAt (c :: t) with
    | none => copyChar cap out c >>= fun r => adjustLoop b r.1 r.2 t
    | some (closing, l) =>
      match idx 62 (c :: t) with
      | none =>
        (if cap - out.length > 0 then put cap out c else .val out) >>= fun o => adjustLoop b cap o t
      | some n =>
        (if newLevel b l ≠ l then writeTag cap out (c :: t) closing (newLevel b l) n
          else copyTag cap out (c :: t) (n + 1)) >>= fun r =>
        adjustLoop b r.1 r.2 ((c :: t).drop (n + 1))
  termination_by s.length
  decreasing_by all_goals simp; try omega

/-- html_renderer.c:1984-2158, `apex_adjust_header_levels`. -/
def adjust (b : Int) (html : Bytes) : C Bytes :=
  if b ≤ 0 ∨ b > 6 then .val html
  else if b = 1 then .val html
  else adjustLoop b.toNat (html.length + 1024) [] html

/-! ### White space in tags -/

/-- html_renderer.c:1427: `<` not followed by `/`, `!` or `?`. -/
def startsTag (c : Byte) (t : Bytes) : Bool :=
  c == 60 && t.headD 0 != 47 && t.headD 0 != 33 && t.headD 0 != 63

/-- html_renderer.c:1426-1454. -/
def cleanLoop (cap : Nat) (inTag last : Bool) (out : Bytes) : Bytes → C Bytes
  | [] => finish cap out
  | c :: t =>
    if startsTag c t then put cap out c >>= fun o => cleanLoop cap true false o t
    else if c = 62 then
      put cap (if last && out.getLast? == some 32 then out.dropLast else out) c >>= fun o =>
      cleanLoop cap false false o t
    else if inTag && isSpace c then
      if !last then put cap out 32 >>= fun o => cleanLoop cap inTag true o t
      else cleanLoop cap inTag last out t
    else put cap out c >>= fun o => cleanLoop cap inTag false o t

/-- html_renderer.c:1414-1458, `apex_clean_html_tag_spacing`. -/
def clean (html : Bytes) : C Bytes := cleanLoop (html.length + 1) false false [] html

/-! ### Newlines between tags -/

/-- html_renderer.c:1495: the white space looked over. -/
def isGap (c : Byte) : Bool := c == 32 || c == 9 || c == 10 || c == 13

/-- html_renderer.c:1496-1498: the number of newlines in the gap. -/
def newlines (w : Bytes) : Nat := (w.filter fun c => c == 10 || c == 13).length

/-- html_renderer.c:1487-1519. Falling through behind a `>` that ends the text copies the NUL and goes on
reading behind it, which is undefined. -/
def collapseLoop (cap : Nat) (out s : Bytes) : C Bytes :=
  match s with
  | [] => finish cap out
  | c :: t =>
    if c = 62 then
      put cap out c >>= fun out =>
      if newlines (t.takeWhile isGap) > 0 ∧ (t.dropWhile isGap).headD 0 = 60 then
        puts cap out (List.replicate (if newlines (t.takeWhile isGap) ≥ 2 then 2 else 1) 10) >>= fun out =>
        collapseLoop cap out (t.dropWhile isGap)
      else
        match t with
        | [] => .ub
        | d :: u => put cap out d >>= fun out => collapseLoop cap out u
    else put cap out c >>= fun out => collapseLoop cap out t
  termination_by s.length
  decreasing_by
    · have := (List.dropWhile_sublist (l := t) isGap).length_le
      simp; omega
    · simp; omega
    · simp

/-- html_renderer.c:1478-1523, `apex_collapse_intertag_newlines`. -/
def collapse (html : Bytes) : C Bytes := collapseLoop (html.length + 1) [] html

/-! ### Blank lines in tables -/

/-- html_renderer.c:1839-1843: the flag after looking at the text from here on. -/
def tableFlag (inTable : Bool) (s : Bytes) : Bool :=
  if b!"<table".isPrefixOf s && (s.getD 6 0 == 62 || s.getD 6 0 == 32) then true
  else if b!"</table>".isPrefixOf s then false
  else inTable

/-- html_renderer.c:1837-1880; `line` is the text from `line_start` to `read`. -/
def blankLoop (cap : Nat) (inTable blank : Bool) (line out : Bytes) : Bytes → C Bytes
  | [] => puts cap out line >>= fun o => finish cap o
  | c :: t =>
    let inTable := tableFlag inTable (c :: t)
    if c = 10 then
      if inTable && blank then blankLoop cap inTable true [] out t
      else puts cap out (line ++ [c]) >>= fun o => blankLoop cap inTable true [] o t
    else blankLoop cap inTable (if c != 32 && c != 9 && c != 13 then false else blank) (line ++ [c]) out t

/-- html_renderer.c:1823-1883, `apex_remove_table_blank_lines`. -/
def removeBlank (html : Bytes) : C Bytes := blankLoop (html.length + 1) false true [] [] html

/-! ### Empty paragraphs -/

/-- apex.c:2366-2383: is the content (up to `p_end`) empty? Looking at the entity may read behind
`p_end`, where `</p>` stands and cannot match. -/
def isEmptyContent (s : Bytes) : Bool :=
  match s with
  | [] => true
  | c :: t =>
    if b!"&#8203;".isPrefixOf (c :: t) then isEmptyContent ((c :: t).drop 7)
    else if c ≠ 32 ∧ c ≠ 9 ∧ c ≠ 10 ∧ c ≠ 13 then
      if [0xE2, 0x80, 0x8B].isPrefixOf (c :: t) then isEmptyContent ((c :: t).drop 3) else false
    else isEmptyContent t
  termination_by s.length
  decreasing_by all_goals simp; try omega

/-- apex.c:2357-2391: the text behind an empty paragraph at the start of `s`. -/
def emptyPara (s : Bytes) : Option Bytes :=
  if b!"<p>".isPrefixOf s then
    match strstr s b!"</p>" with
    | none => none
    | some i =>
      if isEmptyContent ((s.drop 3).take (i - 3)) && decide (i - 3 > 0) then some (s.drop (i + 4)) else none
  else none

/-- The text behind is shorter. -/
theorem emptyPara_length {s r : Bytes} (h : emptyPara s = some r) : r.length < s.length := by
  unfold emptyPara at h
  split at h
  · split at h
    · cases h
    · rename_i i hi
      have := strstr_le hi
      split at h
      · cases h
        simp at this ⊢
        omega
      · cases h
  · cases h

/-- apex.c:2355-2403; `remaining` is `cap - out.length`. -/
def paraLoop (cap : Nat) (out s : Bytes) : C Bytes :=
  match s with
  | [] => finish cap out
  | c :: t =>
    match _h : emptyPara (c :: t) with
    | some r => paraLoop cap out r
    | none => if cap - out.length > 0 then put cap out c >>= fun o => paraLoop cap o t else finish cap out
  termination_by s.length
  decreasing_by
    · exact emptyPara_length _h
    · simp

/-- apex.c:2342-2405, `apex_remove_empty_paragraphs`. -/
def removeEmpty (html : Bytes) : C Bytes := paraLoop (html.length + 1) [] html

/-! ### Shifting Markdown headers -/

/-- Store at index `i` of the buffer of `cap` bytes whose first `mem.length` bytes have been written. -/
def store (cap : Nat) (mem : Bytes) (i : Nat) (c : Byte) : C Bytes :=
  if i < cap ∧ i ≤ mem.length then .val (mem.take i ++ c :: mem.drop (i + 1)) else .ub

/-- cli/main.c:1064-1083, the first level: from `content` into the buffer. -/
def shiftOnce (cap : Nat) : Bool → Bytes → Bytes → C Bytes
  | _, out, [] => finish cap out
  | start, out, c :: t =>
    if start && c == 35 then puts cap out [35, 35] >>= fun o => shiftOnce cap false o t
    else put cap out c >>= fun o => shiftOnce cap (c == 10) o t

/-- cli/main.c:1064-1083, a further level: reading at `i` and writing at `o` in the same buffer. The
result is the buffer, which ends at the first NUL. Bytes never written are undefined. -/
def shiftAgain (cap : Nat) (start : Bool) (mem : Bytes) (i o : Nat) : C Bytes :=
  match mem[i]? with
  | none => .ub
  | some c =>
    if _h : i < cap then
      if c = 0 then store cap mem o 0
      else if start && c == 35 then
        store cap mem o 35 >>= fun m => store cap m (o + 1) 35 >>= fun m => shiftAgain cap false m (i + 1) (o + 2)
      else store cap mem o c >>= fun m => shiftAgain cap (c == 10) m (i + 1) (o + 1)
    else .ub
  termination_by cap - i

/-- The loop over the levels behind the first, on the buffer with its NUL. -/
def shiftLevels (cap : Nat) : Nat → Bytes → C Bytes
  | 0, mem => .val mem
  | n + 1, mem => shiftAgain cap true mem 0 0 >>= fun m => shiftLevels cap n m

/-- cli/main.c:1046-1088, `apex_cli_shift_headers`. -/
def shift (content : Bytes) (indent : Nat) : C Bytes :=
  if indent = 0 then .val content
  else
    let cap := content.length * (indent + 1) + 1
    shiftOnce cap true [] content >>= fun out =>
    shiftLevels cap (indent - 1) (out ++ [0]) >>= fun mem => .val (mem.takeWhile (· != 0))

end Verif.HtmlPass
