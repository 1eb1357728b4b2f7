/- src/apex.c: hashtags and proofreading, two passes over the text in front of the parser.

   Texts have no zero byte; allocations succeed.  Writing behind the end of the buffer is undefined. -/
import Verif.Basic
import Verif.Model.Embed

namespace Verif.Hashtags

/-- The output: what is written, and the size of the buffer.  `remaining` is their difference throughout. -/
structure Buf where
  out : Bytes
  cap : Nat
  deriving DecidableEq, Repr

/-- apex.c:4594-4606, 4681-4693, 4699-4711, 4764-4775, 4816-4827, 4871-4882, 4891-4903: a larger buffer if fewer than ten bytes are left. -/
def Buf.grow (b : Buf) : Buf := if b.cap - b.out.length < 10 then { b with cap := (b.out.length + 100) * 2 } else b

/-- apex.c:4641-4653, 4789-4800, 4844-4855: a larger buffer if so much is not left. -/
def Buf.need (b : Buf) (n : Nat) : Buf := if n ≥ b.cap - b.out.length then { b with cap := (b.out.length + n + 100) * 2 } else b

/-- `memcpy(write, …)`. -/
def Buf.add (b : Buf) (s : Bytes) : C Buf := if b.out.length + s.length ≤ b.cap then .val { b with out := b.out ++ s } else .ub

/-- `*write = 0`, apex.c:4716-4719 and 4908-4911. -/
def Buf.finish (b : Buf) : C Bytes := if b.out.length < b.cap then .val b.out else .ub

/-- apex.c:4614: what may stand in front of a tag. -/
def before : Option Byte → Bool
  | none => true
  | some c => c = c!" " || c = c!"\t" || c = c!"\n"

/-- apex.c:4619: letters and digits. -/
def letter (c : Byte) : Bool := c!"a" ≤ c && c ≤ c!"z" || c!"A" ≤ c && c ≤ c!"Z" || c!"0" ≤ c && c ≤ c!"9"

/-- apex.c:4622-4624: what is part of a tag. -/
def inside (c : Byte) : Bool :=
  c != c!"#" && c != c!" " && c != c!"\n" && c != c!"," && c != c!";" && c != c!"." && c != c!"!" && c != c!")" && c != c!"]"

/-- apex.c:4621-4631: the tag behind a `#`, with its closing `#` if it has one, and the text behind it. -/
def tag (s : Bytes) : Bytes × Bytes :=
  let t := s.takeWhile inside
  match s.dropWhile inside with
  | [] => (t, [])
  | c :: r => if c = c!"#" then (t ++ [c], r) else (t, c :: r)

/-- apex.c:4619: a letter or digit comes next. -/
def starts : Bytes → Bool
  | [] => false
  | c :: _ => letter c

/-- Where in its line a byte is: no more than blanks in front of it; how many; in indented code. -/
structure Line where
  start : Bool
  indent : Nat
  code : Bool
  deriving DecidableEq, Repr

/-- apex.c:4571-4590: the state of the line after a byte was looked at. -/
def Line.step (l : Line) (c : Byte) : Line :=
  let l :=
    if l.start then
      if c = c!"\t" then { l with code := true, indent := 0 }
      else if c = c!" " then (if l.indent + 1 ≥ 4 then { l with indent := l.indent + 1, code := true } else { l with indent := l.indent + 1 })
      else if c ≠ c!"\n" ∧ c ≠ c!"\r" then { l with start := false, indent := 0 }
      else l
    else l
  if c = c!"\n" then ⟨true, 0, false⟩ else l

/-- apex.c:4569-4715: the loop.  `prev` is the byte in front; the number counts the rounds. -/
def tags (cls : Bytes) : Nat → Buf → Option Byte → Line → Bytes → C Buf
  | 0, b, _, _, _ => .val b
  | _, b, _, _, [] => .val b
  | n + 1, b, prev, l, c :: s =>
    let l := l.step c
    if l.code then do
      let b ← b.grow.add [c]
      tags cls n b (some c) l s
    else if c = c!"#" && before prev && starts s then do
      let t := tag s
      let b := b.need (13 + cls.length + 2 + (1 + t.1.length) + 7)
      let b ← b.add b!"<span class=\""
      let b ← b.add cls
      let b ← b.add b!"\">"
      let b ← b.add (c :: t.1)
      let b ← b.add b!"</span>"
      tags cls n b t.1.getLast? l t.2
    else do
      let b ← b.grow.add [c]
      tags cls n b (some c) l s

/-- apex.c:4554-4725: the pass. -/
def hashtags (styled : Bool) (text : Bytes) : C Bytes := do
  let b ← tags (if styled then b!"mkstyledtag" else b!"mkhashtag") text.length ⟨[], text.length * 3 + 1⟩ none ⟨true, 0, false⟩ text
  b.finish

/-- Backticks: how many in a row, in a block of code, in a span of code. -/
structure Ticks where
  count : Nat
  block : Bool
  span : Bool
  deriving DecidableEq, Repr

/-- apex.c:4744-4760; `next` is the byte behind. -/
def Ticks.step (t : Ticks) (c : Byte) (next : Option Byte) : Ticks :=
  if c = c!"`" then
    if t.count + 1 ≥ 3 then ⟨0, !t.block, t.span⟩
    else if !t.block then (if next ≠ some c!"`" then ⟨0, t.block, !t.span⟩ else { t with count := t.count + 1 })
    else { t with count := t.count + 1 }
  else { t with count := 0 }

/-- apex.c:4785-4812 and 4840-4867: two equal marks, with what is written for them.  The buffer is asked for two bytes less than are written. -/
def pair (o c : Bytes) (b : Buf) (content : Bytes) : C Buf := do
  let b := b.need (2 + content.length + 2)
  let b ← b.add o
  let b ← b.add content
  b.add c

/-- apex.c:4742-4907: the loop. -/
def proofs : Nat → Buf → Ticks → Bytes → C Buf
  | 0, b, _, _ => .val b
  | _, b, _, [] => .val b
  | n + 1, b, t, c :: s =>
    let t := t.step c s.head?
    if t.block || t.span then do
      let b ← b.grow.add [c]
      proofs n b t s
    else if c = c!"=" && s.head? = some c!"=" then
      match Embed.find b!"==" s.tail with
      | some (x, r) => do
        let b ← pair b!"{==" b!"==}" b x
        proofs n b t r
      | none => do
        let b ← b.grow.add b!"=="
        proofs n b t s.tail
    else if c = c!"~" && s.head? = some c!"~" then
      match Embed.find b!"~~" s.tail with
      | some (x, r) => do
        let b ← pair b!"{--" b!"--}" b x
        proofs n b t r
      | none => do
        let b ← b.grow.add b!"~~"
        proofs n b t s.tail
    else do
      let b ← b.grow.add [c]
      proofs n b t s

/-- apex.c:4727-4917: the pass. -/
def proofread (text : Bytes) : C Bytes := do
  let b ← proofs text.length ⟨[], text.length * 2 + 1⟩ ⟨0, false, false⟩ text
  b.finish

end Verif.Hashtags
