/- src/apex.c:2969-3139 `apex_add_poetry_class_to_code_blocks`.  The allocations succeed. -/
import Verif.Model.Embed

namespace Verif.Poetry

/-- The output: the size of the block, and what is written. -/
structure Buf where
  cap : Nat
  out : Bytes

/-- `memcpy` into a block that grows when there is not more than enough room. -/
def copy (extra : Nat) (s : Bytes) (b : Buf) : C Buf :=
  let cap := if s.length ≥ b.cap - b.out.length then (b.out.length + s.length + extra) * 2 else b.cap
  if b.out.length + s.length ≤ cap then .val { cap := cap, out := b.out ++ s } else .ub

/-- src/apex.c:3094-3107: the closing `>`. -/
def close (b : Buf) : C Buf :=
  let cap := if b.cap - b.out.length < 10 then (b.out.length + 100) * 2 else b.cap
  if b.out.length < cap then .val { cap := cap, out := b.out ++ b!">" } else .ub

/-- src/apex.c:3020-3032: is there a class, and a language behind it?  The search begins at the last byte of `<pre><code`. -/
def hasLanguage (rest : Bytes) : Bool :=
  match Embed.find b!"class=" (b!"e" ++ rest) with
  | none => false
  | some (_, r) => (Embed.find b!"language-" (b!"class=" ++ r)).isSome

/-- src/apex.c:2981-3135: the loop. -/
def loop : Nat → Bytes → Buf → C Buf
  | 0, _, _ => .ub
  | n + 1, read, b =>
    if read = [] then .val b
    else
      match Embed.find b!"<pre><code" read with
      | none => copy 1 read b
      | some (front, rest) =>
        (copy 100 front b).bind fun b =>
        if c!">" ∈ rest then
          let attrs := rest.takeWhile (· != c!">")
          let after := (rest.dropWhile (· != c!">")).tail
          if hasLanguage rest then
            (copy 1 (b!"<pre><code" ++ attrs ++ b!">") b).bind fun b => loop n after b
          else
            (copy 20 (b!"<pre><code" ++ attrs) b).bind fun b =>
            (copy 100 b!" class=\"poetry\"" b).bind fun b =>
            (close b).bind fun b => loop n after b
        else copy 1 (b!"<pre><code" ++ rest) b

/-- src/apex.c:2969-3139. -/
def add (html : Bytes) : C Bytes :=
  (loop (html.length + 1) html { cap := html.length * 2 + 1, out := [] }).bind fun b =>
    if b.out.length < b.cap then .val b.out else .ub

end Verif.Poetry
