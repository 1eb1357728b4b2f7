/- src/extensions/fenced_divs.c: `:::` fences become HTML elements, and wrapped custom elements get their names back.
   The allocations succeed. -/
import Verif.Basic
import Verif.Model.Embed

namespace Verif.FencedDivs

/-- src/extensions/fenced_divs.c:17-31 `count_colons`. -/
def countColons (line : Bytes) : Nat := ((line.dropWhile isSpace).takeWhile (· == c!":")).length

/-- What is behind the colons and the blanks after them, src/extensions/fenced_divs.c:41-50 and 97-106. -/
def behind (line : Bytes) : Bytes := ((line.dropWhile isSpace).dropWhile (· == c!":")).dropWhile isSpace

/-- src/extensions/fenced_divs.c:37-88 `is_opening_fence`, for a line without its end: the text of the attributes. -/
def opening (line : Bytes) : Option Bytes :=
  if countColons line < 3 then none
  else
    let rest := behind line
    -- lines 62-75: back over colons, then over blanks; if nothing is left the whole rest is looked at
    let r := (rest.reverse.dropWhile (· == c!":")).dropWhile isSpace
    let attr := if r = [] then rest else r.reverse
    if attr.all fun c => isSpace c || c == c!":" then none else some attr

/-- src/extensions/fenced_divs.c:93-109 `is_closing_fence`. -/
def closing (line : Bytes) : Bool := 3 ≤ countColons line && behind line = []

/-- src/extensions/fenced_divs.c:117-164 `parse_block_type`: the name, and what is left of the attributes. -/
def blockType (attr : Bytes) : Bytes × Bytes :=
  match attr.dropWhile isSpace with
  | c :: p =>
    if c = c!">" then
      let name := p.takeWhile fun c => isAlnum c || c == c!"-"
      if name = [] then (b!"div", attr)
      else (name, (p.dropWhile fun c => isAlnum c || c == c!"-").dropWhile isSpace)
    else (b!"div", attr)
  | [] => (b!"div", attr)

/-- What was found in the braces. -/
structure Attrs where
  id : Option Bytes := none
  classes : List Bytes := []
  attrs : List (Bytes × Bytes) := []

/-- The length of a C string in memory that holds a NUL; `none` if there is none. -/
def cstr (mem : Bytes) : Option Bytes := if 0 ∈ mem then some (mem.takeWhile (· != 0)) else none

/-- src/extensions/fenced_divs.c:291-294, up to the closing quote, over escaped characters: the value and what is behind
it, beginning with the quote or NUL. -/
def quotedValue (q : Byte) : Bytes → Bytes × Bytes
  | [] => ([], [])
  | c :: t =>
    if c = 0 ∨ c = q then ([], c :: t)
    else if c = c!"\\" then
      match t with
      | [] => ([c], [])
      | e :: t' =>
        if e = 0 then ([c], t)
        else let r := quotedValue q t'; (c :: e :: r.1, r.2)
    else let r := quotedValue q t; (c :: r.1, r.2)

/-- src/extensions/fenced_divs.c:233-333, the loop over the braces.  `mem` is the allocated memory from `p` on, with its
NULs: reading behind it is undefined.  `n` bounds the rounds; each takes a byte. -/
def parse (n : Nat) (a : Attrs) (mem : Bytes) : C Attrs :=
  match n with
  | 0 => .val a
  | n + 1 =>
    match cstr mem with
    | none => .ub
    | some [] => .val a
    | some _ =>
      let mem := mem.dropWhile isSpace
      match mem with
      | [] => .ub
      | c :: t =>
        if c = 0 then .val a
        else if c = c!"#" then
          let stop := fun c : Byte => c != 0 && !isSpace c && c != c!"." && c != c!"}"
          let w := t.takeWhile stop
          parse n (if w = [] then a else { a with id := some w }) (t.dropWhile stop)
        else if c = c!"." then
          let stop := fun c : Byte => c != 0 && !isSpace c && c != c!"." && c != c!"#" && c != c!"}"
          let w := t.takeWhile stop
          parse n (if w = [] then a else { a with classes := a.classes ++ [w] }) (t.dropWhile stop)
        else
          let stop := fun c : Byte => c != 0 && c != c!"=" && !isSpace c && c != c!"}"
          let key := mem.takeWhile stop
          match mem.dropWhile stop with
          | [] => .ub
          | d :: t =>
            if d = c!"=" then
              match t with
              | [] => .ub
              | q :: t' =>
                if q = c!"\"" ∨ q = c!"'" then
                  match quotedValue q t' with
                  | (_, []) => .ub
                  | (v, e :: t'') =>
                    if e = q then parse n { a with attrs := a.attrs ++ [(key, v)] } t''
                    else parse n a (e :: t'')
                else
                  let stop := fun c : Byte => c != 0 && !isSpace c && c != c!"}"
                  parse n { a with attrs := a.attrs ++ [(key, t.takeWhile stop)] } (t.dropWhile stop)
            else parse n a t

/-- src/extensions/fenced_divs.c:338-437, the attributes as HTML.  The block holds 256 bytes at first, and the check in
line 359 counts ` id=""` as five bytes: an id of 250 bytes is cut off at its end, before the quote.  The other checks
count right. -/
def html (a : Attrs) : Bytes :=
  let full := (match a.id with
      | some i => b!" id=\"" ++ i ++ b!"\""
      | none => []) ++
    (if a.classes = [] then [] else b!" class=\"" ++ List.intercalate b!" " a.classes ++ b!"\"") ++
    a.attrs.flatMap fun kv => b!" " ++ kv.1 ++ b!"=\"" ++ kv.2 ++ b!"\""
  match a.id with
  | some i => if i.length = 250 then b!" id=\"" ++ i else full
  | none => full

/-- src/extensions/fenced_divs.c:173-452 `parse_attributes`; `none` is NULL, for no text. -/
def attributes (s : Bytes) : C (Option Bytes) :=
  if s = [] then .val none
  else
    let p := s.dropWhile isSpace
    let p := (p.reverse.dropWhile isSpace).reverse
    let cut := (s.dropWhile isSpace).drop p.length   -- trimmed blanks; a NUL is written over the first
    match p with
    | c :: t =>
      if c = c!"{" then
        -- lines 211-217: the closing brace, or the first trimmed blank, is overwritten by the NUL
        let mem := if t.getLast? = some c!"}" then t.dropLast ++ [0] ++ (if cut = [] then [] else 0 :: cut.drop 1) ++ [0]
          else t ++ (if cut = [] then [] else 0 :: cut.drop 1) ++ [0]
        match parse (mem.length + 1) {} mem with
        | .val a => .val (some (html a))
        | .ub => .ub
      else .val (some (html { classes := [p.takeWhile fun c => !isSpace c] }))
    | [] => .val (some (html {}))

/-- src/extensions/fenced_divs.c:460-471, the elements cmark-gfm takes for blocks. -/
def blockTags : List Bytes :=
  [b!"address", b!"article", b!"aside", b!"base", b!"basefont", b!"blockquote", b!"body",
   b!"caption", b!"center", b!"col", b!"colgroup", b!"dd", b!"details", b!"dialog", b!"dir",
   b!"div", b!"dl", b!"dt", b!"fieldset", b!"figcaption", b!"figure", b!"footer", b!"form",
   b!"frame", b!"frameset", b!"h1", b!"h2", b!"h3", b!"h4", b!"h5", b!"h6", b!"head", b!"header",
   b!"hr", b!"html", b!"iframe", b!"legend", b!"li", b!"link", b!"main", b!"menu", b!"menuitem",
   b!"nav", b!"noframes", b!"ol", b!"optgroup", b!"option", b!"p", b!"param", b!"section",
   b!"source", b!"title", b!"summary", b!"table", b!"tbody", b!"td", b!"tfoot", b!"th", b!"thead",
   b!"tr", b!"track", b!"ul"]

/-- src/extensions/fenced_divs.c:459-485 `is_cmark_block_tag`: comparison without regard to case. -/
def isBlockTag (name : Bytes) : Bool := blockTags.contains (name.map toLower)

/-- What is appended to the page: an opening tag, a closing tag, or a line with its end. -/
inductive Tok
  | opens (name : Bytes) (attrs : Option Bytes)
  | closes (name : Bytes)
  | line (l eol : Bytes)
  deriving DecidableEq

/-- The end of a line, src/extensions/fenced_divs.c:698-707: a carriage return, a newline, both, or nothing. -/
def eol (s : Bytes) : Bytes :=
  match s with
  | c :: t => if c = 13 then (if t.head? = some 10 then [13, 10] else [13]) else if c = 10 then [10] else []
  | [] => []

/-- A byte of a line. -/
def inLine (c : Byte) : Bool := c != 10 && c != 13

/-- src/extensions/fenced_divs.c:510-753, the loop over the lines and the closing of what is open; `stack` holds the names
of the open elements, the innermost first.  `n` bounds the rounds; each takes a line. -/
def loop (n : Nat) (stack : List Bytes) (text : Bytes) : C (List Tok) :=
  match n with
  | 0 => .val (stack.map .closes)
  | n + 1 =>
    if text = [] then .val (stack.map .closes)
    else
      let line := text.takeWhile inLine
      let rest := text.dropWhile inLine
      let next := rest.drop (eol rest).length
      match opening line with
      | some attr =>
        let bt := blockType attr
        match attributes bt.2 with
        | .ub => .ub
        | .val a =>
          match loop n (bt.1 :: stack) next with
          | .ub => .ub
          | .val ts => .val (.opens bt.1 a :: ts)
      | none =>
        match closing line, stack with
        | true, name :: stack' =>
          match loop n stack' next with
          | .ub => .ub
          | .val ts => .val (.closes name :: ts)
        | _, _ =>
          match loop n stack next with
          | .ub => .ub
          | .val ts => .val (.line line (eol rest) :: ts)

/-- The name in the tag: custom elements are wrapped in a `div` (src/extensions/fenced_divs.c:566-577, 656). -/
def emitted (name : Bytes) : Bytes := if isBlockTag name then name else b!"div"

/-- The tag written for an opening fence, src/extensions/fenced_divs.c:602-614. -/
def openTag (name : Bytes) (attrs : Option Bytes) : Bytes :=
  b!"<" ++ emitted name ++ (if isBlockTag name then [] else b!" data-apex-fenced-element=\"" ++ name ++ b!"\"") ++
    attrs.getD [] ++ b!" markdown=\"1\">"

/-- The tag written for a closing fence, src/extensions/fenced_divs.c:678 and 750. -/
def closeTag (name : Bytes) : Bytes := b!"</" ++ emitted name ++ b!">"

/-- The output block: what was written and its size. -/
structure Buf where
  out : Bytes
  cap : Nat

/-- The check in front of each write, e.g. src/extensions/fenced_divs.c:583-600. -/
def Buf.reserve (b : Buf) (needed : Nat) : Buf :=
  if b.cap - b.out.length < needed then { b with cap := (b.out.length + needed) * 2 } else b

/-- `write += snprintf(write, remaining, ...)`.  If the text fills the block its last byte is overwritten by the NUL; if
it is longer the pointer is behind the block, and what is left of it is computed as a huge number. -/
def Buf.print (b : Buf) (s : Bytes) : C Buf :=
  if s.length < b.cap - b.out.length then .val { b with out := b.out ++ s }
  else if s.length = b.cap - b.out.length then .val { b with out := b.out ++ s.dropLast ++ [0] }
  else .ub

/-- Unchecked stores. -/
def Buf.store (b : Buf) (s : Bytes) : C Buf :=
  if b.out.length + s.length ≤ b.cap then .val { b with out := b.out ++ s } else .ub

/-- One piece of the page, src/extensions/fenced_divs.c:566-626, 655-682, 686-707 and 727-752. -/
def Buf.put (b : Buf) : Tok → C Buf
  | .opens name attrs =>
    let needed := 1 + (emitted name).length + 1 + (attrs.getD []).length + (if isBlockTag name then 0 else 22 + name.length) + 13 + 1
    match (b.reserve needed).print (openTag name attrs) with
    | .ub => .ub
    | .val b => if b.cap - b.out.length > 0 then b.store b!"\n" else .val b
  | .closes name => (b.reserve (2 + (emitted name).length + 1)).print (closeTag name)
  | .line l e =>
    match (b.reserve (l.length + 1)).store l with
    | .ub => .ub
    | .val b => b.store e

/-- All of them, one after the other. -/
def Buf.puts (b : Buf) : List Tok → C Buf
  | [] => .val b
  | t :: ts =>
    match b.put t with
    | .ub => .ub
    | .val b => b.puts ts

/-- src/extensions/fenced_divs.c:490-757 `apex_process_fenced_divs`: the C string that is returned. -/
def process (text : Bytes) : C Bytes :=
  match loop (text.length + 1) [] text with
  | .ub => .ub
  | .val ts =>
    match (Buf.mk [] (text.length * 2)).puts ts with
    | .ub => .ub
    | .val b =>
      match b.store [0] with
      | .ub => .ub
      | .val b => .val (b.out.takeWhile (· != 0))

/-! ### Custom elements in the finished page -/

/-- src/extensions/fenced_divs.c:759 `FENCED_ELEMENT_PREFIX`. -/
def wrapPrefix : Bytes := b!"<div data-apex-fenced-element=\""

/-- src/extensions/fenced_divs.c:895-896, an opening `div` tag. -/
def divOpens (s : Bytes) : Bool :=
  b!"<div".isPrefixOf s && match s.drop 4 with
    | c :: _ => c == c!">" || isSpace c
    | [] => false

/-- src/extensions/fenced_divs.c:841-905, the search for the closing tag: what is in front of it and behind it.  `n` bounds
the rounds; each takes a byte. -/
def scan (n depth : Nat) (s : Bytes) : Option (Bytes × Bytes) :=
  match n, s with
  | 0, _ => none
  | _, [] => none
  | n + 1, c :: t =>
    if b!"</div>".isPrefixOf (c :: t) then
      if depth = 1 then some ([], t.drop 5)
      else (scan n (depth - 1) (t.drop 5)).map fun r => (c :: t.take 5 ++ r.1, r.2)
    else if divOpens (c :: t) then
      let tag := t.takeWhile (· != c!">") ++ (t.dropWhile (· != c!">")).take 1
      (scan n (depth + 1) (t.drop tag.length)).map fun r => (c :: tag ++ r.1, r.2)
    else (scan n depth t).map fun r => (c :: r.1, r.2)

/-- A check and the writes after it: if `needed` bytes are not less than what is left of the block it becomes `cap` bytes
in size. -/
def Buf.write (b : Buf) (needed cap : Nat) (s : Bytes) : C Buf :=
  let b := if b.cap - b.out.length ≤ needed then { b with cap := cap } else b
  b.store s

/-- src/extensions/fenced_divs.c:908-921, the rest of the page and the NUL. -/
def Buf.rest (b : Buf) (s : Bytes) : C Bytes :=
  match b.write s.length (b.out.length + s.length + 1) (s ++ [0]) with
  | .ub => .ub
  | .val b => .val (b.out.takeWhile (· != 0))

/-- src/extensions/fenced_divs.c:778-907, the loop over the wrappers; `html_len` is `len`.  `n` bounds the rounds; each
takes a wrapper. -/
def postLoop (n len : Nat) (b : Buf) (read : Bytes) : C Bytes :=
  match n with
  | 0 => b.rest read
  | n + 1 =>
    match Embed.find wrapPrefix read with
    | none => b.rest read
    | some (chunk, p) =>
      match b.write chunk.length (b.out.length + chunk.length + len + 1024) chunk with
      | .ub => .ub
      | .val b =>
        -- lines 798-807: without a name or the end of the tag the loop ends, and the text in front is written again
        match Embed.find b!"\"" p with
        | none => b.rest read
        | some (name, q) =>
          if name = [] ∨ 127 < name.length then b.rest read
          else
            match Embed.find b!">" q with
            | none => b.rest read
            | some (tag, body) =>
              let attrs := tag.dropWhile isSpace
              -- lines 817-828: the name is not counted
              match b.write attrs.length (b.out.length + (1 + name.length + 1 + attrs.length + 1) + 256)
                  (b!"<" ++ name ++ (if attrs = [] then [] else b!" " ++ attrs) ++ b!">") with
              | .ub => .ub
              | .val b =>
                match scan (body.length + 1) 1 body with
                | none => b.rest body
                | some (content, next) =>
                  match b.write content.length (b.out.length + content.length + name.length + 16) content with
                  | .ub => .ub
                  | .val b =>
                    match b.write (name.length + 3) (b.out.length + (name.length + 3) + 64) (b!"</" ++ name ++ b!">") with
                    | .ub => .ub
                    | .val b => postLoop n len b next

/-- src/extensions/fenced_divs.c:767-925 `apex_postprocess_fenced_divs_html`. -/
def post (html : Bytes) : C Bytes := postLoop (html.length + 1) html.length ⟨[], html.length + 1024⟩ html

end Verif.FencedDivs
