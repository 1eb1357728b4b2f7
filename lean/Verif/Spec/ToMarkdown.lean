/- Reading Markdown: the marks inside a line of text, and the blocks of a page. -/
import Verif.Model.ToMarkdown
import Verif.Spec.Markdown

namespace Verif.ToMarkdown.Spec

open Escape (Dialect)

/-! ### Inside a paragraph -/

/-- What a reader of running Markdown text meets, from left to right. -/
inductive Ev
  | ch (c : Byte)                 -- a character of the text
  | code (s : Bytes)              -- a code span
  | soft                          -- a line break of the source
  | hard                          -- a line break of the page
  | em                            -- emphasis begins or ends
  | st                            -- strong emphasis begins or ends
  | del                           -- deleted text begins or ends
  | link                          -- the text of a link begins
  | image                         -- the description of an image begins
  | to (url title : Bytes)        -- the end of such a text, and where it points
  | tag (s : Bytes)               -- HTML
  | note (s : Bytes)              -- a reference to a footnote
  | broken                        -- a code span or link target that is not well-formed
  deriving DecidableEq

/-- Where the reader is: in the text, in a code span, in the address or title of a link, in an HTML tag or in a footnote
reference (with what was read so far), or passing over bytes already read. -/
inductive Mode
  | text | code (s : Bytes) | url (s : Bytes) | title (url s : Bytes) | tag (s : Bytes) | note (s : Bytes)
  | skip (n : Nat) (m : Mode)

/-- Some character references, with the character each stands for. -/
def refs : List (Bytes × Byte) := [(b!"lt;", c!"<"), (b!"gt;", c!">"), (b!"amp;", c!"&"), (b!"quot;", c!"\"")]

/-- The reference that follows an ampersand. -/
def ref (t : Bytes) : Option (Bytes × Byte) := refs.find? fun r => r.1.isPrefixOf t

/-- `<` begins HTML or an automatic link in front of one of these. -/
def tagStart (c : Byte) : Bool := isAlpha c || c == c!"/" || c == c!"!" || c == c!"?"

/-- One blank is removed at both ends of a code span, unless there are only blanks. -/
def trim (s : Bytes) : Bytes :=
  if s.head? = some 32 ∧ s.getLast? = some 32 ∧ s.any (· != 32) then s.tail.dropLast else s

/-- Read the byte `c`, with `t` behind it: what is met, and where the reader is then.  Simplified: code spans are
delimited by single backticks, link addresses are not in angle brackets and have no backslashes or parentheses, and every
asterisk is a mark whatever its neighbours are. -/
def step (m : Mode) (c : Byte) (t : Bytes) : List Ev × Mode :=
  match m with
  | .skip n m => ([], if n ≤ 1 then m else .skip (n - 1) m)
  | .text =>
    if c = c!"\\" then
      match t.head? with
      | some d =>
        if Markdown.isPunct d then ([.ch d], .skip 1 .text)
        else if d = 10 then ([.hard], .skip 1 .text)
        else ([.ch c], .text)
      | none => ([.ch c], .text)
    else if c = c!"`" then (if t.head? = some c!"`" then ([.broken], .text) else ([], .code []))
    else if c = c!"*" ∨ c = c!"_" then (if t.head? = some c then ([.st], .skip 1 .text) else ([.em], .text))
    else if c = c!"~" ∧ t.head? = some c!"~" then ([.del], .skip 1 .text)
    else if c = c!"!" ∧ t.head? = some c!"[" then ([.image], .skip 1 .text)
    else if c = c!"[" then (if t.head? = some c!"^" then ([], .skip 1 (.note [])) else ([.link], .text))
    else if c = c!"]" ∧ t.head? = some c!"(" then ([], .skip 1 (.url []))
    else if c = c!"<" ∧ t.head?.any tagStart then ([], .tag [c])
    else if c = c!"&" then
      match ref t with
      | some (w, d) => ([.ch d], .skip w.length .text)
      | none => ([.ch c], .text)
    else if c = 32 ∧ b!" \n".isPrefixOf t then ([.hard], .skip 2 .text)
    else if c = 10 then ([.soft], .text)
    else ([.ch c], .text)
  | .code s =>
    if c = c!"`" then
      (if t.head? = some c!"`" then ([.broken], .text) else ([.code (trim s)], .text))
    else ([], .code (s ++ [if c = 10 then 32 else c]))
  | .url s =>
    if c = c!")" then ([.to s []], .text)
    else if c = 32 ∧ t.head? = some c!"\"" then ([], .skip 1 (.title s []))
    else if c = c!"&" then
      match ref t with
      | some (w, d) => ([], .skip w.length (.url (s ++ [d])))
      | none => ([], .url (s ++ [c]))
    else if c ≤ 32 ∨ c = c!"(" ∨ c = c!"\\" ∨ c = c!"<" then ([.broken], .text)
    else ([], .url (s ++ [c]))
  | .title u s =>
    if c = c!"\"" then (if t.head? = some c!")" then ([.to u s], .skip 1 .text) else ([.broken], .text))
    else if c = c!"\\" then
      (if t.head?.any Markdown.isPunct then ([], .skip 1 (.title u (s ++ t.take 1))) else ([], .title u (s ++ [c])))
    else if c = c!"&" then
      match ref t with
      | some (w, d) => ([], .skip w.length (.title u (s ++ [d])))
      | none => ([], .title u (s ++ [c]))
    else ([], .title u (s ++ [c]))
  | .tag s => if c = c!">" then ([.tag (s ++ [c])], .text) else ([], .tag (s ++ [c]))
  | .note s => if c = c!"]" then ([.note s], .text) else ([], .note (s ++ [c]))

/-- Read a text. -/
def reading (m : Mode) : Bytes → List Ev
  | [] => match m with
    | .text => []
    | _ => [.broken]
  | c :: t => (step m c t).1 ++ reading (step m c t).2 t

/-- What running Markdown text says. -/
def inlineText (s : Bytes) : List Ev := reading .text s

mutual
/-- What a part of a document says. -/
def says : Node → List Ev
  | .mk k kids =>
    match k with
    | .text s => s.map .ch
    | .softBreak => [.soft]
    | .lineBreak => [.hard]
    | .code s => [.code s]
    | .emph => .em :: saysAll kids ++ [.em]
    | .strong => .st :: saysAll kids ++ [.st]
    | .strike => .del :: saysAll kids ++ [.del]
    | .link url title => .link :: saysAll kids ++ [.to url title]
    | .image url title => .image :: saysAll kids ++ [.to url title]
    | .htmlInline s => [.tag s]
    | .noteRef s => [.note s]
    | _ => saysAll kids
/-- The same of several parts in a row. -/
def saysAll : List Node → List Ev
  | [] => []
  | n :: ns => says n ++ saysAll ns
end

/-- An address Markdown can hold as it is. -/
def PlainUrl (s : Bytes) : Prop :=
  (∀ c ∈ s, ¬ (c ≤ 32 ∨ c = c!"(" ∨ c = c!")" ∨ c = c!"\\" ∨ c = c!"<")) ∧
    ∀ a b, s = a ++ c!"&" :: b → ∀ r ∈ refs, ¬ r.1 <+: b

/-- A title Markdown can hold as it is. -/
def PlainTitle (s : Bytes) : Prop :=
  (∀ c ∈ s, ¬ (c = c!"\"" ∨ c = c!"\\")) ∧ ∀ a b, s = a ++ c!"&" :: b → ∀ r ∈ refs, ¬ r.1 <+: b

/-- `e`, followed by `rest`, needs no other way of writing than the usual one. -/
def Fits (e : Ev) (rest : List Ev) : Prop :=
  match e with
  | .ch c =>
    c ≠ 10 ∧ (c = 32 → ¬ [.ch 32, .soft] <+: rest) ∧ (c = c!"&" → ∀ r ∈ refs, ¬ r.1.map .ch <+: rest) ∧
      (c = c!"<" → (∀ d, tagStart d → rest.head? ≠ some (.ch d)) ∧ rest.head? ≠ some .image) ∧ (c = c!"~" → rest.head? ≠ some (.ch c!"~"))
  | .em | .st => rest.head? ≠ some .em ∧ rest.head? ≠ some .st
  | .code s => s ≠ [] ∧ (∀ c ∈ s, c ≠ c!"`" ∧ c ≠ 10) ∧ trim s = s ∧ ∀ s', rest.head? ≠ some (.code s')
  | .link => rest.head? ≠ some (.ch c!"^")
  | .to url title => PlainUrl url ∧ PlainTitle title
  | .soft | .hard | .image => True
  | .del | .tag _ | .note _ | .broken => False

/-- This holds of everything in a row. -/
def Fitting : List Ev → Prop
  | [] => True
  | e :: rest => Fits e rest ∧ Fitting rest

mutual
/-- The parts the writer knows: no image has a description, no link has a link as a child, and no MultiMarkdown text
has a TOC marker. -/
def Known (d : Dialect) : Node → Prop
  | .mk k kids =>
    match k with
    | .text s => d = .mmd → ¬ b!"{{TOC" <:+: s
    | .softBreak | .lineBreak | .code _ => True
    | .emph | .strong => KnownAll d kids
    | .link _ _ => KnownAll d kids ∧ ∀ n ∈ kids, n.isLink = false
    | .image _ _ => kids = []
    | _ => False
/-- The same of several parts. -/
def KnownAll (d : Dialect) : List Node → Prop
  | [] => True
  | n :: ns => Known d n ∧ KnownAll d ns
end

/-! ### Blocks -/

/-- The blocks of a page, with the text of their lines. -/
inductive Blk
  | para (lines : List Bytes)
  | heading (level : Nat) (text : Bytes)
  | code (info : Bytes) (lines : List Bytes)
  | rule
  | quote (lines : List Bytes)
  | bullet (lines : List Bytes)
  | number (n : Nat) (lines : List Bytes)
  | html (lines : List Bytes)
  deriving DecidableEq

/-- How a line can begin. -/
inductive Line
  | blank | heading (level : Nat) (text : Bytes) | rule | fence (info : Bytes) | quote (s : Bytes) | bullet (s : Bytes)
  | number (n : Nat) (s : Bytes) | html | text
  deriving DecidableEq

/-- The number written in decimal digits. -/
def value (s : Bytes) : Nat := s.foldl (fun n c => n * 10 + (c.toNat - 48)) 0

/-- The text of a heading: without the blanks around it, and without `#`s at its end, if a blank is in front of them. -/
def headingText (s : Bytes) : Bytes :=
  let blank := fun c : Byte => c == 32
  let r := (s.dropWhile blank).reverse.dropWhile blank
  let r' := r.dropWhile (· == c!"#")
  if r' = [] ∨ r'.head? = some 32 then (r'.dropWhile blank).reverse else r.reverse

/-- The line is made of three or more of `c`. -/
def ruler (c : Byte) (l : Bytes) : Bool := 3 ≤ l.length && l.all (· == c)

/-- The line ends a fenced block: three or more backticks, and blanks around them. -/
def closesFence (l : Bytes) : Bool :=
  ruler c!"`" ((l.dropWhile (· == 32)).reverse.dropWhile (· == 32))

/-- How a line begins.  Simplified: tilde fences, rules with blanks and indentation are not looked at. -/
def classify (l : Bytes) : Line :=
  let hs := (l.takeWhile (· == c!"#")).length
  let ds := l.takeWhile isDigit
  if l.all (· == 32) then .blank
  else if 1 ≤ hs ∧ hs ≤ 6 ∧ ((l.drop hs).head? = none ∨ (l.drop hs).head? = some 32) then
    .heading hs (headingText (l.drop hs))
  else if ruler c!"-" l || ruler c!"*" l || ruler c!"_" l then .rule
  else if b!"```" <+: l ∧ c!"`" ∉ l.drop 3 then .fence (l.drop 3)
  else if b!"> " <+: l then .quote (l.drop 2)
  else if b!"- " <+: l ∨ b!"* " <+: l ∨ b!"+ " <+: l then .bullet (l.drop 2)
  else if ds ≠ [] ∧ (b!". " <+: l.drop ds.length ∨ b!") " <+: l.drop ds.length) then
    .number (value ds) (l.drop (ds.length + 2))
  else if l.head? = some c!"<" ∧ l.tail.head?.any tagStart then .html
  else .text

/-- Between blocks, or the block that is open, with its lines. -/
inductive Open
  | none | para (ls : List Bytes) | fence (info : Bytes) (ls : List Bytes) | quote (ls : List Bytes)
  | bullet (ls : List Bytes) | number (n : Nat) (ls : List Bytes) | html (ls : List Bytes)

/-- A line where no block is open. -/
def begin (l : Bytes) : List Blk × Open :=
  match classify l with
  | .blank => ([], .none)
  | .heading n s => ([.heading n s], .none)
  | .rule => ([.rule], .none)
  | .fence i => ([], .fence i [])
  | .quote s => ([], .quote [s])
  | .bullet s => ([], .bullet [s])
  | .number n s => ([], .number n [s])
  | .html => ([], .html [l])
  | .text => ([], .para [l])

/-- The block that was open. -/
def close : Open → List Blk
  | .none => []
  | .para ls => [.para ls]
  | .fence i ls => [.code i ls]
  | .quote ls => [.quote ls]
  | .bullet ls => [.bullet ls]
  | .number n ls => [.number n ls]
  | .html ls => [.html ls]

/-- One more line.  A line of text goes on with a paragraph, also with one in a quote or an item. -/
def more (o : Open) (l : Bytes) : List Blk × Open :=
  match o with
  | .none => begin l
  | .fence i ls => if closesFence l then ([.code i ls], .none) else ([], .fence i (ls ++ [l]))
  | .html ls => if classify l = .blank then ([.html ls], .none) else ([], .html (ls ++ [l]))
  | .para ls =>
    if ruler c!"-" l ∨ ruler c!"=" l then
      ([.heading (if ruler c!"=" l then 1 else 2) (ls.flatMap (· ++ [10])).dropLast], .none)
    else if classify l = .text then ([], .para (ls ++ [l])) else (close o ++ (begin l).1, (begin l).2)
  | .quote ls =>
    match classify l with
    | .text => ([], .quote (ls ++ [l]))
    | .quote s => ([], .quote (ls ++ [s]))
    | _ => (close o ++ (begin l).1, (begin l).2)
  | .bullet ls => if classify l = .text then ([], .bullet (ls ++ [l])) else (close o ++ (begin l).1, (begin l).2)
  | .number n ls => if classify l = .text then ([], .number n (ls ++ [l])) else (close o ++ (begin l).1, (begin l).2)

/-- Read line after line. -/
def readLines (o : Open) : List Bytes → List Blk
  | [] => close o
  | l :: ls => (more o l).1 ++ readLines (more o l).2 ls

/-- The lines of a text: what is between its newlines. -/
def lines : Bytes → List Bytes
  | [] => [[]]
  | c :: t =>
    if c = 10 then [] :: lines t
    else match lines t with
      | [] => [[c]]
      | l :: ls => (c :: l) :: ls

/-- The blocks of a page. -/
def page (s : Bytes) : List Blk := readLines .none (lines s)

/-- A text whose lines are read as text: nothing in it looks like the beginning of another block, and no line could be
the underline of a heading. -/
def PlainLines (s : Bytes) : Prop := ∀ l ∈ lines s, classify l = .text ∧ ¬ ruler c!"=" l

/-- The blocks a block is read as, if its running text is written as `inlines` does. -/
def expected (d : Dialect) : Node → List Blk
  | .mk k kids =>
    match k with
    | .paragraph => [.para (lines (inlines d kids))]
    | .heading n => [.heading n (inlines d kids)]
    | .codeBlock info s => [.code info (lines s).dropLast]
    | .rule => [.rule]
    | .htmlBlock s => [.html (lines s).dropLast]
    | .quote => kids.map fun p => .quote (lines (inlines d p.kids))
    | .list ordered start =>
      kids.mapIdx fun i it =>
        let ls := lines (inlines d (it.kids.flatMap Node.kids))
        if ordered then .number (start + i) ls else .bullet ls
    | _ => []

/-- Blocks this reader knows: single paragraphs in quotes and items, headings of one line, code without a line that ends
a fence, HTML up to a blank line; running text whose lines are read as text. -/
def Flat (d : Dialect) : Node → Prop
  | .mk k kids =>
    match k with
    | .paragraph => PlainLines (inlines d kids) ∧ Toc d kids
    | .heading n => 1 ≤ n ∧ n ≤ 6 ∧ 10 ∉ inlines d kids ∧ (inlines d kids).head? ≠ some 32 ∧
        (inlines d kids).getLast? ≠ some 32
    | .codeBlock info s => 10 ∉ info ∧ c!"`" ∉ info ∧ (∀ l ∈ lines s, closesFence l = false) ∧ s.getLast? = some 10
    | .rule => True
    | .htmlBlock s => (lines s).dropLast.head?.any (classify · = .html) ∧ (∀ l ∈ (lines s).dropLast, classify l ≠ .blank) ∧
        s.getLast? = some 10 ∧ (d = .mmd → ¬ b!"<!--TOC" <:+: s)
    | .quote => ∃ ks, kids = [.mk .paragraph ks] ∧ PlainLines (inlines d ks) ∧ ks.head?.any Node.isSoft = false
    | .list _ _ => ∀ it ∈ kids, ∃ ks, it = .mk .item [.mk .paragraph ks] ∧ PlainLines (inlines d ks) ∧ Toc d ks
    | _ => False
where
  /-- No MultiMarkdown paragraph that begins with a TOC marker. -/
  Toc (d : Dialect) (kids : List Node) : Prop :=
    d = .mmd → ∀ s ks, kids = [.mk (.text s) ks] → ¬ b!"{{TOC" <+: s

/-- A block of code with one more empty line at its end. -/
def grown : Blk → Blk
  | .code i ls => .code i (ls ++ [[]])
  | b => b

/-- A text with runs of more than one blank line cut down to one. -/
def squeeze : Bytes → Bytes
  | [] => []
  | c :: t => if b!"\n\n\n" <+: c :: t then squeeze t else c :: squeeze t

end Verif.ToMarkdown.Spec
