/- src/extensions/html_markdown.c: Markdown in HTML elements with a `markdown` attribute.  The allocations succeed, the text
has no zero byte, and `ctype.h` and `strncasecmp` are those of the C locale.  What cmark-gfm, the attribute lists and the
renderer make of the content of an element (lines 238-254) is the parameter `conv`; it has no zero byte. -/
import Verif.Model.StripWrap

namespace Verif.InHtml
open StripWrap (behind closing)

/-- A tag with a `markdown` attribute: its name, what is between the name and `>`, the value, and what is behind the tag. -/
structure Tag where
  name : Bytes
  attrs : Bytes
  value : Bytes
  rest : Bytes
deriving DecidableEq

/-- The bytes of the tag. -/
def Tag.src (t : Tag) : Bytes := b!"<" ++ t.name ++ t.attrs ++ b!">"

/-- src/extensions/html_markdown.c:32: the bytes of a name. -/
def nameByte (c : Byte) : Bool := isAlnum c || c == c!"-" || c == c!"_"

def quote (c : Byte) : Bool := c == c!"\"" || c == c!"'"

/-- src/extensions/html_markdown.c:62-81: the value, behind `markdown=`: `a` is what is left of the tag, `z` what is from its
`>` on.  The closing quotation mark is looked for in the whole text. -/
def value (a z : Bytes) : Bytes :=
  match a with
  | q :: v =>
    if quote q then (if q ∈ v ++ z then (v ++ z).takeWhile (· != q) else v)
    else (a ++ z).takeWhile fun c => !isSpace c && c != c!">"
  | [] => []

/-- src/extensions/html_markdown.c:59-66: what is behind `markdown=` and a quotation mark. -/
def unquoted (a : Bytes) : Bytes :=
  match a with
  | q :: v => if quote q then v else a
  | [] => []

/-- src/extensions/html_markdown.c:51-97: the value of the attribute, as with `value`.  The counter is enough with the length
of `a`. -/
def search : Nat → Bytes → Bytes → Option Bytes
  | 0, _, _ => none
  | n + 1, a, z =>
    if a = [] then none else
    let a := a.dropWhile isSpace
    if b!"markdown=" <+: a then
      if (value (a.drop 9) z).length < 64 then some (value (a.drop 9) z)
      else search n ((unquoted (a.drop 9)).dropWhile fun c => !isSpace c) z
    else search n (a.dropWhile fun c => !isSpace c) z

/-- src/extensions/html_markdown.c:26-97: a tag, `s` is what is behind its `<`. -/
def tagAt (s : Bytes) : Option Tag :=
  let name := s.takeWhile nameByte
  let s := s.dropWhile nameByte
  let a := s.takeWhile (· != c!">")
  let z := s.dropWhile (· != c!">")
  if 0 < name.length ∧ name.length < 64 ∧ z ≠ [] then
    (search a.length a z).map fun v => ⟨name, a, v, z.drop 1⟩
  else none

/-- src/extensions/html_markdown.c:20-104 `find_markdown_tag`: the text before the first tag, and the tag. -/
def findTag : Bytes → Option (Bytes × Tag)
  | [] => none
  | c :: s =>
    match if c = c!"<" then tagAt s else none with
    | some t => some ([], t)
    | none => (findTag s).map fun x => (c :: x.1, x.2)

/-- src/extensions/html_markdown.c:110-138 `find_closing_tag`, which is the loop of `find_block_close` for names without `>`
and `!`: what is behind the closing tag. -/
def closeTag (name s : Bytes) : Option Bytes := closing (name.map toLower) 1 s

/-- src/extensions/html_markdown.c:198-209: the content, and the closing tag: from the last `<` on. -/
def splitClose (s : Bytes) : Bytes × Bytes :=
  ((s.reverse.dropWhile (· != c!"<")).drop 1 |>.reverse, b!"<" ++ (s.reverse.takeWhile (· != c!"<")).reverse)

/-- src/extensions/html_markdown.c:288-293: what is behind the closing quotation mark, at most to the end of the attributes. -/
def skipQuoted (q : Byte) : Bytes → Bytes
  | [] => []
  | c :: s =>
    if c = q then s
    else if c = c!"\\" then
      match s with
      | [] => []
      | _ :: s => skipQuoted q s
    else skipQuoted q s

/-- src/extensions/html_markdown.c:283-300: what is behind the `markdown` attribute. -/
def skipValue (a : Bytes) : Bytes :=
  match a with
  | q :: v => if quote q then skipQuoted q v else a.dropWhile fun c => !isSpace c
  | [] => []

/-- src/extensions/html_markdown.c:303-317: the attributes up to the next `markdown` attribute, and the rest. -/
def others : Bytes → Bytes × Bytes
  | [] => ([], [])
  | c :: s =>
    if isSpace c ∧ b!"markdown=" <+: (c :: s).dropWhile isSpace then ([], c :: s)
    else (c :: (others s).1, (others s).2)

/-- src/extensions/html_markdown.c:271-327: the attributes are copied to the tag, which has 2048 bytes. -/
def copyAttrs : Nat → Bytes → Bytes → Bytes
  | 0, _, tag => tag
  | n + 1, a, tag =>
    let a := a.dropWhile isSpace
    if a = [] then tag
    else if b!"markdown=" <+: a then copyAttrs n (skipValue (a.drop 9)) tag
    else
      let x := others a
      copyAttrs n x.2 (if tag.length + x.1.length + 1 < 2048 then tag ++ b!" " ++ x.1 else tag)

/-- src/extensions/html_markdown.c:256-334: the opening tag.  The attributes begin at the first blank of the tag; the
terminator is written without a look at the room. -/
def opening (t : Tag) : C Bytes :=
  let a := t.attrs.dropWhile (· != c!" ")
  let tag := copyAttrs (a.length + 1) a (b!"<" ++ t.name)
  if tag.length + 1 < 2048 then .val (tag ++ b!">") else .ub

/-- src/extensions/html_markdown.c:343-354: the paragraph of inline content is removed. -/
def trim (inline : Bool) (html : Bytes) : Bytes :=
  if inline ∧ 7 < html.length ∧ b!"<p>" <+: html ∧ b!"</p>\n" <:+ html then (html.drop 3).take (html.length - 8) else html

/-- The output: the size of the block, and what is written. -/
structure Buf where
  cap : Nat
  out : Bytes

/-- src/extensions/html_markdown.c:168-172, 178-182, 190-194, 336-340, 356-360, 373-377, 396-400: text that does not fit is
left out. -/
def copy (s : Bytes) (b : Buf) : Buf := if s.length < b.cap - b.out.length then { b with out := b.out ++ s } else b

/-- src/extensions/html_markdown.c:380-392: the closing tag ends in `>`, so that a line end is written, if there is room for it;
there need not be room for the terminator then. -/
def newline (b : Buf) : Buf := if 0 < b.cap - b.out.length then { b with out := b.out ++ b!"\n" } else b

/-- src/extensions/html_markdown.c:214-222: is the content converted, and is it inline? -/
def mode (v : Bytes) : Option Bool :=
  if v = b!"1" ∨ v = b!"block" then some false else if v = b!"span" then some true else none

/-- src/extensions/html_markdown.c:156-406: the loop, with the call for the content of an element in it. -/
def loop (conv : Bytes → Bytes) : Nat → Bytes → Buf → C Buf
  | 0, _, b => .val b
  | n + 1, s, b =>
    match findTag s with
    | none => .val (copy s b)
    | some (before, t) =>
      let b := copy before b
      match closeTag t.name t.rest with
      | none => loop conv n t.rest (copy t.src b)
      | some rest =>
        let x := t.rest.take (t.rest.length - rest.length)
        let (content, close) := splitClose x
        match mode t.value with
        | some inline =>
          if content = [] then loop conv n rest (copy (t.src ++ x) b)
          else
            (loop conv n content ⟨content.length * 2, []⟩).bind fun i =>
            (finish i.cap i.out).bind fun inner =>
            (opening t).bind fun tag =>
            loop conv n rest (newline (copy close (copy (trim inline (conv inner)) (copy tag b))))
        | none => loop conv n rest (copy (t.src ++ x) b)

/-- src/extensions/html_markdown.c:144-409 `apex_process_html_markdown`. -/
def process (conv : Bytes → Bytes) (text : Bytes) : C Bytes :=
  (loop conv (text.length + 1) text ⟨text.length * 2, []⟩).bind fun b => finish b.cap b.out

end Verif.InHtml
