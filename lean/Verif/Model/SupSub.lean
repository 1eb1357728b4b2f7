/-
`x^2`, `H~2~O` and `~underline~`: src/extensions/sup_sub.c.
The tests for `{~~` and `~~}` (sup_sub.c:251-273) can never succeed after the test in lines 241-249, and are left
out.  Simplified: `malloc` succeeds; `ispunct` and `isalnum` are those of the C locale.
-/
import Verif.Model.Highlight

namespace Verif.SupSub

open Highlight (at0 indentedCode)

def isPunct (c : Byte) : Bool := 33 ≤ c && c ≤ 126 && !isAlnum c

/-- The output buffer: capacity and what has been written. -/
structure Buf where
  cap : Nat
  out : Bytes
deriving DecidableEq, Repr

def Buf.remaining (b : Buf) : Nat := b.cap - b.out.length

/-- `if (remaining > 0) { *write++ = *read++; remaining--; } else read++;` (e.g. sup_sub.c:426-431) -/
def Buf.copy1 (b : Buf) (c : Byte) : Buf :=
  if b.remaining > 0 then { b with out := b.out ++ [c] } else b

/-- The same for two bytes (e.g. sup_sub.c:73-79). -/
def Buf.copy2 (b : Buf) (c d : Byte) : Buf :=
  if b.remaining > 1 then { b with out := b.out ++ [c, d] } else b

/-- sup_sub.c:57-62 -/
structure Flags where
  fence : Bool
  inline : Bool
  indent : Bool
  math : Bool
  display : Bool
  liquid : Bool
deriving DecidableEq, Repr

/-- sup_sub.c:66-68 -/
def Flags.line (f : Flags) (prev : Option Byte) (read : Bytes) : Flags :=
  if prev = none ∨ prev = some c!"\n" then { f with indent := indentedCode read } else f

/-- sup_sub.c:100-107 -/
def Flags.ticks (f : Flags) (read : Bytes) : Flags :=
  if at0 read 0 = c!"`" then
    if at0 read 1 = c!"`" ∧ at0 read 2 = c!"`" then { f with fence := !f.fence }
    else if !f.fence then { f with inline := !f.inline }
    else f
  else f

/-- `. , ; : ! ?` (sup_sub.c:189-190) -/
def terminator (c : Byte) : Bool :=
  c == c!"." || c == c!"," || c == c!";" || c == c!":" || c == c!"!" || c == c!"?"

/-- Where a superscript stops (sup_sub.c:185-194). -/
def supStop (c : Byte) : Bool :=
  c == c!" " || c == c!"\t" || c == c!"\n" || c == c!"^" || terminator c

/-- Where a subscript stops (sup_sub.c:368-378). -/
def subStop (c : Byte) : Bool :=
  c == c!" " || c == c!"\t" || c == c!"\n" || c == c!"~" || terminator c

/-- What the marker must be followed by (sup_sub.c:169 and 288): not the end, a blank, or itself. -/
def opens (mark : Byte) (c : Byte) : Bool :=
  c != 0 && c != c!" " && c != c!"\t" && c != c!"\n" && c != mark

/-- `is_likely_subscript` (sup_sub.c:294-303): a terminator comes before any blank or `~`. -/
def likelySub : Bytes → Bool
  | [] => false
  | c :: t =>
    if c = c!" " ∨ c = c!"\t" ∨ c = c!"\n" ∨ c = c!"~" then false
    else if terminator c then true
    else likelySub t

/-- The scan for a closing `~` (sup_sub.c:305-359).  `done` is the content in front of `scan`, `before` the byte
in front of the marker.  The result is the length of the content and whether it is underlined. -/
def scanTilde (before : Option Byte) (done : Bytes) : Bytes → Option (Nat × Bool)
  | [] => none
  | c :: t =>
    if c = c!"\n" then none
    else if c = c!"~" then
      match t with
      | d :: u =>
        if d = c!"~" then scanTilde before (done ++ [c, d]) u
        else if (done.getLast?.map isSpace).getD false then scanTilde before (done ++ [c]) (d :: u)
        else some (done.length,
          !((before.map isAlnum).getD false && done.all isAlnum && (isAlnum d || (isSpace d || isPunct d))))
      | [] =>
        if (done.getLast?.map isSpace).getD false then scanTilde before (done ++ [c]) []
        else some (done.length, !((before.map isAlnum).getD false && done.all isAlnum))
    else scanTilde before (done ++ [c]) t

/-- sup_sub.c:289-380: the length of the content of `~…` and whether it is underlined. -/
def tildeContent (before : Option Byte) (content : Bytes) : Nat × Bool :=
  match (if likelySub content then none else scanTilde before [] content) with
  | some r => r
  | none => ((content.takeWhile fun c => !subStop c).length, false)

/-- `<tag>content</tag>` (sup_sub.c:208-221, 393-406). -/
def element (tag content : Bytes) : Bytes := b!"<" ++ tag ++ b!">" ++ content ++ b!"</" ++ tag ++ b!">"

/-- What one round does: the buffer, the flags, and how many bytes are read. -/
structure Round where
  buf : Buf
  flags : Flags
  len : Nat
deriving DecidableEq, Repr

/-- The superscript part of the loop (sup_sub.c:167-232): `none` when it does not apply. -/
def superscript (b : Buf) (f : Flags) (prev : Option Byte) (c : Byte) (t : Bytes) : Option Round :=
  if c = c!"^" ∧ opens c!"^" (at0 t 0) then
    if prev = some c!"[" then some ⟨b.copy1 c, f, 1⟩
    else
      let content := t.takeWhile fun c => !supStop c
      if content.length > 0 ∧ b.remaining ≥ 5 + content.length + 6 then
        let closing := at0 t content.length
        some ⟨{ b with out := b.out ++ element b!"sup" content }, f,
          1 + content.length + (if closing = c!"^" ∨ closing = c!"~" then 1 else 0)⟩
      else none
  else none

/-- The tilde part of the loop (sup_sub.c:234-423). -/
def tilde (b : Buf) (f : Flags) (prev : Option Byte) (c : Byte) (t : Bytes) : Option Round :=
  if c = c!"~" then
    if prev = some c!"~" ∨ at0 t 0 = c!"~" then some ⟨b.copy1 c, f, 1⟩
    else if at0 t 0 = c!">" then some ⟨b.copy1 c, f, 1⟩
    else if opens c!"~" (at0 t 0) then
      let r := tildeContent prev t
      let content := t.take r.1
      let tag := if r.2 then b!"u" else b!"sub"
      if content.length > 0 ∧ b.remaining ≥ (tag.length + 2) + content.length + (tag.length + 3) then
        some ⟨{ b with out := b.out ++ element tag content }, f,
          if r.2 then 1 + content.length + 1
          else 1 + content.length + (if at0 t content.length = c!"~" then 1 else 0)⟩
      else none
    else none
  else none

/-- The math part of the loop (sup_sub.c:109-154): `none` when it does not apply. -/
def mathPart (b : Buf) (f : Flags) (c : Byte) (t : Bytes) : Option Round :=
  if !f.fence && !f.inline && !f.indent then
    if c = c!"$" ∧ at0 t 0 = c!"$" then some ⟨b.copy2 c c!"$", { f with display := !f.display }, 2⟩
    else if c = c!"$" ∧ !f.display then
      if f.math then some ⟨b.copy1 c, { f with math := false }, 1⟩
      else if opens 0 (at0 t 0) then some ⟨b.copy1 c, { f with math := true }, 1⟩
      else none
    else none
  else none

/-- One round of the loop (sup_sub.c:64-432) at the byte `c`, followed by `t`. -/
def round (b : Buf) (f : Flags) (prev : Option Byte) (c : Byte) (t : Bytes) : Round :=
  let f := f.line prev (c :: t)
  if !f.liquid && c = c!"{" && at0 t 0 = c!"%" then ⟨b.copy2 c c!"%", { f with liquid := true }, 2⟩
  else if f.liquid then
    if c = c!"%" ∧ at0 t 0 = c!"}" then ⟨b.copy2 c c!"}", { f with liquid := false }, 2⟩
    else ⟨b.copy1 c, f, 1⟩
  else
    let f := f.ticks (c :: t)
    match mathPart b f c t with
    | some r => r
    | none =>
      if f.fence || f.inline || f.indent || f.math || f.display then ⟨b.copy1 c, f, 1⟩
      else match superscript b f prev c t with
        | some r => r
        | none => match tilde b f prev c t with
          | some r => r
          | none => ⟨b.copy1 c, f, 1⟩

/-- The loop; the first argument bounds the number of rounds. -/
def loop : Nat → Buf → Flags → Option Byte → Bytes → Buf
  | 0, b, _, _, _ => b
  | _, b, _, _, [] => b
  | n + 1, b, f, prev, c :: t =>
    let r := round b f prev c t
    loop n r.buf r.flags ((c :: t)[r.len - 1]?) ((c :: t).drop r.len)

/-- `apex_process_sup_sub` (sup_sub.c:42-436). -/
def process (text : Bytes) : C Bytes :=
  let cap := if text.length * 5 > 64 then text.length * 5 else 64
  let b := loop text.length { cap := cap, out := [] } ⟨false, false, false, false, false, false⟩ none text
  finish b.cap b.out

end Verif.SupSub
