/-
Inline footnotes: src/extensions/inline_footnotes.c:16-205, called for the whole text by src/apex.c:4314-4322.
Simplified: the text is the bytes in front of its terminator, the number of footnotes is not limited (an `int` in the code), and `malloc`
succeeds.
-/
import Verif.Model.DropBuf
import Verif.Model.Man

namespace Verif.InlineNotes

open DropBuf (Tok)

/-- src/extensions/inline_footnotes.c:96-101 with :103: from behind `^[`, the text up to the matching bracket and what follows the bracket.
The number is `bracket_depth`. -/
def matching : Nat → Bytes → Option (Bytes × Bytes)
  | _, [] => none
  | d, c :: t =>
    if c = c!"[" then (matching (d + 1) t).map fun r => (c :: r.1, r.2)
    else if c = c!"]" then
      if d ≤ 1 then some ([], t) else (matching (d - 1) t).map fun r => (c :: r.1, r.2)
    else (matching d t).map fun r => (c :: r.1, r.2)

/-- src/extensions/inline_footnotes.c:137-143 with `has_spaces` (:16-21): from behind `[^`, the text up to the next bracket on the line, if
it has white space, and what follows the bracket. -/
def spaced (s : Bytes) : Option (Bytes × Bytes) :=
  let body := s.takeWhile fun c => c != c!"]" && c != c!"\n"
  match s.drop body.length with
  | c :: t => if c = c!"]" ∧ body.any isSpace = true then some (body, t) else none
  | [] => none

/-- src/extensions/inline_footnotes.c:89-119 and :131-164: the footnote that begins at the current byte. -/
def note (s : Bytes) : Option (Bytes × Bytes) :=
  if b!"^[" <+: s then
    match matching 1 (s.drop 2) with
    | some r => some r
    | none => none
  else if b!"[^" <+: s then spaced (s.drop 2)
  else none

/-- src/extensions/inline_footnotes.c:115, :154: the reference. -/
def reference (n : Nat) : Bytes := b!"[^fn" ++ Man.decimal n ++ b!"]"

/-- src/extensions/inline_footnotes.c:66-171: what is written by the loop and the texts of the footnotes, the first of which has the number
`k + 1`.  The flags are `in_code_block` and `in_code_span`. -/
def loop : Nat → Bool → Bool → Nat → Bytes → List Tok × List Bytes
  | 0, _, _, _, _ => ([], [])
  | _, _, _, _, [] => ([], [])
  | n + 1, block, span, k, c :: t =>
    if b!"```" <+: c :: t ∨ b!"~~~" <+: c :: t then
      let r := loop n (!block) span k t
      (.byte c :: r.1, r.2)
    else if c = c!"`" ∧ block = false then
      let r := loop n block (!span) k t
      (.byte c :: r.1, r.2)
    else if block = true ∨ span = true then
      let r := loop n block span k t
      (.byte c :: r.1, r.2)
    else
      match note (c :: t) with
      | some (body, rest) =>
        let r := loop n block span (k + 1) rest
        (.chunk (reference (k + 1)) :: r.1, body :: r.2)
      | none =>
        let r := loop n block span k t
        (.byte c :: r.1, r.2)

/-- src/extensions/inline_footnotes.c:177-183: the definitions, the first with the number `k + 1`. -/
def definitions (k : Nat) : List Bytes → List Tok
  | [] => []
  | body :: rest => [.chunk (b!"[^fn" ++ Man.decimal (k + 1) ++ b!"]: "), .chunk body, .byte c!"\n"] ++ definitions (k + 1) rest

/-- `apex_process_inline_footnotes`, src/extensions/inline_footnotes.c:26-205. -/
def process (text : Bytes) : C Bytes :=
  let r := loop text.length false false 0 text
  DropBuf.run (text.length * 3) (r.1 ++ if r.2 = [] then [] else .chunk b!"\n\n" :: definitions 0 r.2)

end Verif.InlineNotes
