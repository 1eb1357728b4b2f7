/-
Non-breaking blanks in headings: `apex_apply_widont_to_headings`, src/apex.c:3538-3956.
Simplified: `malloc` and `realloc` succeed; the page is a C string, so it has no NUL byte.
-/
import Verif.Basic
import Verif.Model.Embed

namespace Verif.Widont
open Embed (find)

/-- src/apex.c:3627-3647: the text outside of tags. -/
def plain : Bool → Bytes → Bytes
  | _, [] => []
  | b, c :: t => if c = c!"<" then plain true t else if c = c!">" then plain false t else if b then plain b t else c :: plain b t

/-- The variables of the search for words, src/apex.c:3654-3657. -/
structure W where
  wend : Nat
  wstart : Nat
  comb : Nat
  first : Nat

def blank (c : Byte) : Bool := c == c!" " || c == c!"\t" || c == c!"\n" || c == c!"\r"

/-- src/apex.c:3660-3692.  The list is what is left of the plain text, backwards, so its length is `i`. -/
def words (len : Nat) : Bytes → W → W
  | [], w => w
  | c :: t, w =>
    if blank c then
      if w.wstart < len then
        if w.comb = 0 then words len t { wend := t.length, wstart := t.length, comb := w.wend - w.wstart, first := w.wstart }
        else if w.comb + 1 + (w.wend - w.wstart) > 10 then { w with comb := w.comb + 1 + (w.wend - w.wstart), first := w.wstart }
        else words len t { wend := t.length, wstart := t.length, comb := w.comb + 1 + (w.wend - w.wstart), first := w.wstart }
      else words len t { w with wend := t.length, wstart := t.length }
    else words len t { w with wend := if w.wstart = len then t.length + 1 else w.wend, wstart := t.length }

/-- src/apex.c:3694-3706: the word at the beginning. -/
def finishWords (len : Nat) (w : W) : W :=
  if w.wstart < len ∧ w.comb = 0 then { w with first := w.wstart, comb := w.wend - w.wstart }
  else if w.wstart < len ∧ w.comb > 0 ∧ w.comb ≤ 10 then { w with first := w.wstart, comb := w.comb + 1 + (w.wend - w.wstart) }
  else w

/-- src/apex.c:3713-3733: the place in the heading behind `n` bytes of plain text. -/
def place : Nat → Bool → Bytes → Nat
  | 0, _, _ => 0
  | _, _, [] => 0
  | n + 1, b, c :: t =>
    1 + (if c = c!"<" then place (n + 1) true t else if c = c!">" then place (n + 1) false t else if b then place (n + 1) b t else place n b t)

/-- One thing written: a chunk that makes room when it does not fit (`extra` as in the code), a byte of a heading that makes room when less than
ten bytes remain (src/apex.c:3743-3757 and below), or another byte that makes room when none remains (src/apex.c:3934-3950). -/
inductive Tok where
  | chunk (extra : Nat) (w : Bytes)
  | near (c : Byte)
  | byte (c : Byte)
deriving DecidableEq

/-- src/apex.c:3736-3853: the heading with blanks replaced.  `html_pos2` counts the bytes outside of tags only. -/
def copy (start : Nat) : Nat → Bool → Bytes → List Tok
  | _, _, [] => []
  | n, b, c :: t =>
    if c = c!"<" then .near c :: copy start n true t
    else if c = c!">" then .near c :: copy start n false t
    else if b then .near c :: copy start n b t
    else if n ≥ start ∧ (c = c!" " ∨ c = c!"\t") then .chunk 106 b!"&nbsp;" :: copy start (n + 1) b t
    else .near c :: copy start (n + 1) b t

/-- src/apex.c:3625-3912: what is written for the content of a heading. -/
def heading (text : Bytes) : List Tok :=
  let p := plain false text
  let w := finishWords p.length (words p.length p.reverse { wend := p.length, wstart := p.length, comb := 0, first := p.length })
  if text.length > 0 ∧ p.length > 0 ∧ w.comb > 0 ∧ w.first < p.length then copy (place w.first false text) 0 false text
  else [.chunk (text.length + 1) text]

/-- src/apex.c:3552. -/
def opens : Bytes → Bool
  | a :: b :: c :: _ => a == c!"<" && b == c!"h" && 49 ≤ c && c ≤ 54
  | _ => false

/-- `</hN>` for the heading that begins here, src/apex.c:3600-3601. -/
def closing (s : Bytes) : Bytes := b!"</h" ++ [s.getD 2 0] ++ b!">"

/-- The loop, src/apex.c:3550-3952, with fuel for its turns. -/
def scan : Nat → Bytes → List Tok
  | 0, _ => []
  | _ + 1, [] => []
  | n + 1, c :: t =>
    if opens (c :: t) then
      if c!">" ∈ c :: t then
        let tag := (c :: t).takeWhile (· != c!">") ++ b!">"
        let rest := ((c :: t).dropWhile (· != c!">")).tail
        match find (closing (c :: t)) rest with
        | none => [.chunk (tag.length + 100) tag, .chunk (rest.length + 1) rest]
        | some (text, rest) => .chunk (tag.length + 100) tag :: (heading text ++ .chunk 6 (closing (c :: t)) :: scan n rest)
      else [.chunk ((c :: t).length + 1) (c :: t)]
    else .byte c :: scan n t

/-- Capacity and what has been written; `remaining` is the difference. -/
structure St where
  cap : Nat
  out : Bytes
deriving DecidableEq

/-- Writing. -/
def St.write (s : St) (k : Tok) : C St :=
  let grow (b : Bool) (extra : Nat) (w : Bytes) : C St :=
    let cap := if b then (s.out.length + extra) * 2 else s.cap
    match puts cap s.out w with
    | .ub => .ub
    | .val o => .val { cap := cap, out := o }
  match k with
  | .chunk extra w => grow (w.length ≥ s.cap - s.out.length) extra w
  | .near c => grow (s.cap - s.out.length < 10) 100 [c]
  | .byte c => grow (s.cap - s.out.length = 0) 100 [c]

/-- Writing all. -/
def writeAll (s : St) : List Tok → C St
  | [] => .val s
  | t :: ts =>
    match s.write t with
    | .ub => .ub
    | .val s' => writeAll s' ts

/-- `apex_apply_widont_to_headings`, src/apex.c:3538-3956.  The terminating NUL is written without looking at what remains. -/
def apply (html : Bytes) : C Bytes :=
  match writeAll { cap := html.length * 2 + 1, out := [] } (scan html.length html) with
  | .ub => .ub
  | .val s => finish s.cap s.out

end Verif.Widont
