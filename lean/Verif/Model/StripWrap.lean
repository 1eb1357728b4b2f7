/- src/html_renderer.c:3184-3458 `apex_strip_figure_paragraph_wrapper`, `find_block_close` and
`apex_strip_block_paragraph_wrapper`.  The allocations succeed, and no page has so many tags that the depths overflow. -/
import Verif.Basic

namespace Verif.StripWrap

/-- The output: the size of the block, and what is written. -/
structure Buf where
  cap : Nat
  out : Bytes

/-- src/html_renderer.c:3221-3222, 3236-3237: a byte is written, without a look at the room. -/
def raw (c : Byte) (b : Buf) : C Buf :=
  if b.out.length < b.cap then .val { b with out := b.out ++ [c] } else .ub

/-- src/html_renderer.c:3304-3312, 3444-3454: a byte is written; the block grows when only its terminator would fit. -/
def byte (len : Nat) (c : Byte) (b : Buf) : C Buf :=
  raw c { b with cap := if b.cap - b.out.length < 2 then (b.out.length + len) * 2 else b.cap }

/-- src/html_renderer.c:3211-3220: the bytes of a tag. -/
def bytes (len : Nat) : Bytes → Buf → C Buf
  | [], b => .val b
  | c :: s, b => (byte len c b).bind fun b => bytes len s b

/-- src/html_renderer.c:3286-3297, 3428-3439: `memcpy`, into a block of the given size if there is not more than enough room. -/
def copy (grown : Nat) (s : Bytes) (b : Buf) : C Buf :=
  let cap := if s.length ≥ b.cap - b.out.length then grown else b.cap
  if b.out.length + s.length ≤ cap then .val { cap := cap, out := b.out ++ s } else .ub

/-- `isspace(c) || c == '>'` for the byte behind a name; the terminator is neither. -/
def ends : Bytes → Bool
  | [] => false
  | c :: _ => c == c!">" || isSpace c

/-- `strncasecmp(s, n, strlen(n)) == 0` for a name in lower case, with `>` or white space behind. -/
def named (n s : Bytes) : Bool := (s.take n.length).map toLower == n && ends (s.drop n.length)

/-- src/html_renderer.c:3245, 3248, 3279, 3390, 3413: the white space of `inner` and `after`. -/
def blank (c : Byte) : Bool := c == c!" " || c == c!"\t" || c == c!"\n" || c == c!"\r"

/-- What is behind the first `>`, if there is one. -/
def behind (s : Bytes) : Option Bytes :=
  match s.dropWhile (· != c!">") with
  | [] => none
  | _ :: r => some r

/-- src/html_renderer.c:3263-3277, 3325-3336: what is behind the `>` of a tag; `q` is the quotation mark that is open. -/
def skip : Option Byte → Bytes → Option Bytes
  | _, [] => none
  | none, c :: s =>
    if c = c!">" then some s else if c = c!"\"" ∨ c = c!"'" then skip (some c) s else skip none s
  | some q, c :: s => if c = q then skip none s else skip (some q) s

/-- src/html_renderer.c:3250-3257, the tag of an image; `s` is what is behind its `<`. -/
def image : Bytes → Bool
  | i :: m :: g :: c :: _ =>
    toLower i == c!"i" && toLower m == c!"m" && toLower g == c!"g" &&
      (c == c!" " || c == c!"\t" || c == c!">" || c == c!"/")
  | _ => false

/-- src/html_renderer.c:3245-3249: what is behind the white space and an optional `&lt;`. -/
def prefixEnd (s : Bytes) : Bytes :=
  let s := s.dropWhile blank
  if b!"&lt;" <+: s then (s.drop 4).dropWhile blank else s

/-- src/html_renderer.c:3277-3298: the end of the paragraph: white space and its tag, at least five bytes; with no `>` up
to the end of the page. -/
def paragraphEnd (s : Bytes) : Option Bytes :=
  match s.dropWhile blank with
  | a :: b :: t =>
    if a = c!"<" ∧ b = c!"/" ∧ named b!"p" t ∧ 5 ≤ (s.dropWhile blank).length then
      some ((behind (t.drop 1)).getD [])
    else none
  | _ => none

/-- What happens at a place of the page. -/
inductive Act
  /-- A byte is copied without a look at the room. -/
  | raw
  /-- A byte is copied. -/
  | byte
  /-- A tag is copied. -/
  | tag
  /-- The image, and what is behind its paragraph. -/
  | image (img rest : Bytes)

/-- src/html_renderer.c:3234-3301: a paragraph in a figure; `s` is what is behind its `<`. -/
def paragraph (s : Bytes) : Act :=
  match behind s with
  | none => .raw
  | some inner =>
    match prefixEnd inner with
    | [] => .raw
    | c :: t =>
      if c = c!"<" ∧ image t then
        match skip none (t.drop 3) with
        | none => .raw
        | some r =>
          match paragraphEnd r with
          | none => .byte
          | some rest => .image ((c :: t).take ((c :: t).length - r.length)) rest
      else .raw

/-- src/html_renderer.c:3197-3207: the depth behind a `<`, which is followed by `s`. -/
def depth (d : Int) : Bytes → Int
  | [] => d
  | c :: s => if c = c!"/" then (if named b!"figure" s then d - 1 else d) else if named b!"figure" (c :: s) then d + 1 else d

/-- src/html_renderer.c:3208-3303: what happens at a `<`, which is followed by `s`. -/
def act (d : Int) (s : Bytes) : Act :=
  if s.head? = some c!"/" then .byte
  else if named b!"figure" s then .tag
  else if 0 < d ∧ named b!"p" s then paragraph s
  else .byte

/-- src/html_renderer.c:3195-3313: the loop. -/
def figureLoop (len : Nat) : Nat → Int → Bytes → Buf → C Buf
  | 0, _, _, _ => .ub
  | _ + 1, _, [], b => .val b
  | n + 1, d, c :: s, b =>
    if c = c!"<" then
      let d := depth d s
      match act d s with
      | .raw => (raw c b).bind fun b => figureLoop len n d s b
      | .byte => (byte len c b).bind fun b => figureLoop len n d s b
      | .tag =>
        (bytes len (c :: s.takeWhile (· != c!">")) b).bind fun b =>
          match s.dropWhile (· != c!">") with
          | [] => .val b
          | g :: r => (raw g b).bind fun b => figureLoop len n d r b
      | .image img rest =>
        (copy ((b.out.length + img.length + 1) * 2) img b).bind fun b => figureLoop len n d rest b
    else (byte len c b).bind fun b => figureLoop len n d s b

/-- src/html_renderer.c:3184-3316 `apex_strip_figure_paragraph_wrapper`. -/
def stripFigures (html : Bytes) : C Bytes :=
  (figureLoop html.length (html.length + 1) 0 html { cap := html.length + 1, out := [] }).bind fun b => finish b.cap b.out

/-- src/html_renderer.c:3338-3363: what is behind the closing tag, `d` tags are open. -/
def closing (n : Bytes) : Nat → Bytes → Option Bytes
  | _, [] => none
  | d, c :: s =>
    if c = c!"<" then
      match s with
      | [] => none
      | e :: t =>
        if e = c!"/" then
          if named n t then
            if d ≤ 1 then behind (t.drop n.length) else closing n (d - 1) (e :: t)
          else closing n d (e :: t)
        else if named n (e :: t) then closing n (d + 1) (e :: t)
        else closing n d (e :: t)
    else closing n d s

/-- src/html_renderer.c:3323-3365 `find_block_close`. -/
def blockClose (n pos : Bytes) : Option Bytes := (skip none pos).bind (closing n 1)

/-- src/html_renderer.c:3396-3409: the end of a block that begins behind a `<`. -/
def blockEnd (s : Bytes) : Option Bytes :=
  if named b!"figure" s then blockClose b!"figure" (c!"<" :: s)
  else if named b!"video" s then blockClose b!"video" (c!"<" :: s)
  else if named b!"picture" s then blockClose b!"picture" (c!"<" :: s)
  else none

/-- src/html_renderer.c:3410-3425: the closing tag of the paragraph. -/
def wrapperEnd (s : Bytes) : Option Bytes :=
  match s.dropWhile blank with
  | a :: b :: t => if a = c!"<" ∧ b = c!"/" ∧ named b!"p" t then behind (t.drop 1) else none
  | _ => none

/-- src/html_renderer.c:3383-3440: what happens at a `<`, which is followed by `s`. -/
def wrapper (s : Bytes) : Act :=
  if s.head? ≠ some c!"/" ∧ named b!"p" s then
    match behind s with
    | none => .raw
    | some inner =>
      match inner.dropWhile blank with
      | [] => .raw
      | c :: t =>
        if c = c!"<" then
          match blockEnd t with
          | none => .byte
          | some r =>
            match wrapperEnd r with
            | none => .byte
            | some rest => .image ((c :: t).take ((c :: t).length - r.length)) rest
        else .raw
  else .byte

/-- src/html_renderer.c:3382-3455: the loop. -/
def blockLoop (len : Nat) : Nat → Bytes → Buf → C Buf
  | 0, _, _ => .ub
  | _ + 1, [], b => .val b
  | n + 1, c :: s, b =>
    if c = c!"<" then
      match wrapper s with
      | .image block rest =>
        (copy (b.out.length + block.length + 1024) block b).bind fun b => blockLoop len n rest b
      | .raw => (raw c b).bind fun b => blockLoop len n s b
      | _ => (byte len c b).bind fun b => blockLoop len n s b
    else (byte len c b).bind fun b => blockLoop len n s b

/-- src/html_renderer.c:3372-3458 `apex_strip_block_paragraph_wrapper`. -/
def stripBlocks (html : Bytes) : C Bytes :=
  (blockLoop html.length (html.length + 1) html { cap := html.length + 1, out := [] }).bind fun b => finish b.cap b.out

end Verif.StripWrap
