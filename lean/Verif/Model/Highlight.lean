/-
`==highlight==` and `++insert++`: src/extensions/highlight.c and src/extensions/insert.c.

The two passes are the same program up to the marker and a few tests, so the model has one copy with a record of
the differences.  Simplified: the attributes of an insertion (`parse_ial_content`, `attributes_to_html`,
insert.c:131-136) are an arbitrary function of the text between the braces; `malloc` and `realloc` succeed.
-/
import Verif.Model.DropBuf

namespace Verif.Highlight

open DropBuf

/-- Where the two passes differ. -/
structure Rule where
  /-- The byte that is doubled in the marker. -/
  mark : Byte
  /-- Bytes that must not touch the marker from outside, nor follow the opening one. -/
  bad : List Byte
  /-- Whether indented code is recognised (highlight.c:60-63, not in insert.c). -/
  indented : Bool
  openTag : Bytes
  closeTag : Bytes
  /-- Attributes in HTML for the text of an attribute list (insert.c:131-136; never for highlights). -/
  attrs : Bytes → Option Bytes

/-- highlight.c:82-90, 104-110, 123, 139. -/
def highlightRule : Rule :=
  { mark := c!"=", bad := [c!"=", c!"+"], indented := true, openTag := b!"<mark>", closeTag := b!"</mark>",
    attrs := fun _ => none }

/-- insert.c:83-91, 104-110, 205, 221. -/
def insertRule (attrs : Bytes → Option Bytes) : Rule :=
  { mark := c!"+", bad := [c!"+"], indented := false, openTag := b!"<ins>", closeTag := b!"</ins>", attrs := attrs }

/-- `p[i]` for a NUL-terminated string; only used where `p[0..i-1]` are known not to be NUL. -/
def at0 (p : Bytes) (i : Nat) : Byte := p.getD i 0

/-- `looks_like_list_marker` (highlight.c:13-21). -/
def listMarker (p : Bytes) : Bool :=
  if at0 p 0 = c!"-" ∨ at0 p 0 = c!"*" ∨ at0 p 0 = c!"+" then at0 p 1 = c!" " ∨ at0 p 1 = c!"\t"
  else if isDigit (at0 p 0) then
    let q := p.dropWhile isDigit
    at0 q 0 = c!"." ∧ (at0 q 1 = c!" " ∨ at0 q 1 = c!"\t")
  else false

/-- `line_is_indented_code_block` (highlight.c:25-35). -/
def indentedCode (read : Bytes) : Bool :=
  if at0 read 0 = c!"\t" then !listMarker (read.drop 1)
  else if at0 read 0 ≠ c!" " ∨ at0 read 1 ≠ c!" " ∨ at0 read 2 ≠ c!" " ∨ at0 read 3 ≠ c!" " then false
  else !listMarker ((read.drop 4).dropWhile (· == c!" "))

/-- `in_code_block`, `in_inline_code`, `in_indented_code_block` (highlight.c:53-55). -/
structure Flags where
  fence : Bool
  inline : Bool
  indent : Bool
deriving DecidableEq, Repr

/-- highlight.c:58-70: the flags at the byte `read` points to, `prev` being `read[-1]`, if there is one. -/
def Flags.update (f : Flags) (r : Rule) (prev : Option Byte) (read : Bytes) : Flags :=
  let f := if r.indented ∧ (prev = none ∨ prev = some c!"\n") then { f with indent := indentedCode read } else f
  if at0 read 0 = c!"`" then
    if at0 read 1 = c!"`" ∧ at0 read 2 = c!"`" then { f with fence := !f.fence }
    else if !f.fence then { f with inline := !f.inline }
    else f
  else f

/-- `is_critic` and `is_valid_highlight_start` (highlight.c:74-90), `is_valid_insert_start` (insert.c:77-91). -/
def validStart (r : Rule) (prev : Option Byte) (read : Bytes) : Bool :=
  prev ≠ some c!"{" ∧
  at0 read 0 = r.mark ∧ at0 read 1 = r.mark ∧ at0 read 2 ∉ r.bad ∧ at0 read 2 ≠ c!"}" ∧ at0 read 2 ≠ 0 ∧
  at0 read 2 ≠ c!"\n" ∧ at0 read 2 ≠ c!"\r" ∧ at0 read 2 ≠ c!" " ∧ at0 read 2 ≠ c!"\t" ∧
  ∀ b ∈ r.bad, prev ≠ some b

/-- Looking for the closing marker (highlight.c:95-114, insert.c:96-113): the length of the content.  `prev` is
`close[-1]` unless `close == read + 2`. -/
def findClose (r : Rule) (prev : Option Byte) : Bytes → Option Nat
  | [] => none
  | c :: t =>
    if c = c!"\n" ∨ c = c!"\r" then none
    else if c = r.mark ∧ at0 t 0 = r.mark ∧ at0 t 1 ∉ r.bad ∧
        prev ≠ some c!" " ∧ prev ≠ some c!"\t" ∧ prev ≠ some c!"+" then some 0
    else (findClose r (some c) t).map (· + 1)

/-- `strchr`. -/
def strchr (c : Byte) : Bytes → Option Nat
  | [] => none
  | d :: t => if d = c then some 0 else (strchr c t).map (· + 1)

/-- `find_ial_after` (insert.c:19-41): the text between the braces, and what follows them. -/
def findIal (text : Bytes) : Option (Bytes × Bytes) :=
  match text.dropWhile fun c => c == c!" " || c == c!"\t" with
  | [] => none
  | c :: t =>
    if c = c!"{" then (strchr c!"}" t).map fun n => (t.take n, t.drop (n + 1))
    else none

/-- insert.c:137-203 for attributes `a`. -/
def styled (r : Rule) (a content : Bytes) : List Tok :=
  let need := 30 + a.length + content.length + 20
  [.reserve need (need + 1), .chunk (b!"<ins markdown=\"span\"" ++ a ++ b!">"), .chunk content, .chunk r.closeTag]

/-- The loop (highlight.c:57-159, insert.c:63-243), as what it writes.  `mem` is the memory behind the
terminator of the text: the test `read[2] == '+'` (highlight.c:85, insert.c:85) is made first, so at the last
byte of the text it looks behind the terminator.  The first argument bounds the number of rounds. -/
def tokens (r : Rule) (mem : Bytes) : Nat → Option Byte → Flags → Bytes → C (List Tok)
  | 0, _, _, _ => .val []
  | _, _, _, [] => .val []
  | n + 1, prev, f, c :: t =>
    let f := f.update r prev (c :: t)
    rd (c :: t ++ 0 :: mem) 2 >>= fun _ =>
    match (if !f.fence && !f.inline && !f.indent && validStart r prev (c :: t) then findClose r none (t.drop 1) else none) with
    | some len =>
      let content := (t.drop 1).take len
      let after := t.drop (1 + len + 2)
      match findIal after with
      | some (ial, rest) =>
        match r.attrs ial with
        | some a => tokens r mem n (some c!"}") f rest >>= fun ts => .val (styled r a content ++ ts)
        | none => tokens r mem n (some r.mark) f after >>= fun ts =>
          .val ([.chunk r.openTag, .chunk content, .chunk r.closeTag] ++ ts)
      | none => tokens r mem n (some r.mark) f after >>= fun ts =>
        .val ([.chunk r.openTag, .chunk content, .chunk r.closeTag] ++ ts)
    | none => tokens r mem n (some c) f t >>= fun ts => .val (.byte c :: ts)

/-- `apex_process_highlights` (highlight.c:41-163) and `apex_process_inserts` (insert.c:48-248). -/
def process (r : Rule) (mem text : Bytes) : C Bytes :=
  tokens r mem text.length none ⟨false, false, false⟩ text >>= fun ts => run (text.length * 2) ts

end Verif.Highlight
