/- Documents with fenced divs, and the elements they stand for. -/
import Verif.Model.FencedDivs

namespace Verif.FencedDivs.Spec

/-- Some blanks. -/
def Blanks (s : Bytes) : Prop := ∀ c ∈ s, isSpace c = true

/-- `line` opens a div described by `info`: three or more colons, the description, and perhaps more colons. -/
def Opens (line info : Bytes) : Prop :=
  ∃ indent ws ws' k j, 3 ≤ k ∧ Blanks indent ∧ Blanks ws ∧ Blanks ws' ∧
    line = indent ++ List.replicate k c!":" ++ ws ++ info ++ ws' ++ List.replicate j c!":" ∧
    (∃ c t, info = c :: t ∧ isSpace c = false ∧ (ws = [] → c ≠ c!":")) ∧
    (∃ t c, info = t ++ [c] ∧ isSpace c = false ∧ (ws' = [] → c ≠ c!":")) ∧
    ∃ c ∈ info, isSpace c = false ∧ c ≠ c!":"

/-- `line` closes a div: three or more colons and nothing else. -/
def Closes (line : Bytes) : Prop :=
  ∃ indent ws k, 3 ≤ k ∧ Blanks indent ∧ Blanks ws ∧ line = indent ++ List.replicate k c!":" ++ ws

/-- Neither of them. -/
def Plain (line : Bytes) : Prop := (∀ info, ¬ Opens line info) ∧ ¬ Closes line

/-- The end of a line. -/
def Eol (e : Bytes) : Prop := e = [10] ∨ e = [13, 10]

/-! ### Attributes -/

/-- What braces can hold. -/
inductive Attr
  | id (s : Bytes)                          -- `#name`
  | cls (s : Bytes)                         -- `.name`
  | quoted (q : Byte) (key value : Bytes)   -- `key="value"` or `key='value'`
  | bare (key value : Bytes)                -- `key=value`

/-- A word without these characters. -/
def Word (bad s : Bytes) : Prop := s ≠ [] ∧ ∀ c ∈ s, c ≠ 0 ∧ isSpace c = false ∧ c ∉ bad

/-- The names are words, and values do not hold their own quotes. -/
def Attr.Ok : Attr → Prop
  | .id s => Word b!".}" s
  | .cls s => Word b!".#}" s
  | .quoted q k v => (q = c!"\"" ∨ q = c!"'") ∧ Word b!"=}" k ∧ k.head? ≠ some c!"#" ∧ k.head? ≠ some c!"." ∧
      ∀ c ∈ v, c ≠ 0 ∧ c ≠ q ∧ c ≠ c!"\\"
  | .bare k v => Word b!"=}" k ∧ k.head? ≠ some c!"#" ∧ k.head? ≠ some c!"." ∧ Word b!"}" v ∧
      v.head? ≠ some c!"\"" ∧ v.head? ≠ some c!"'"

/-- How it is written. -/
def Attr.text : Attr → Bytes
  | .id s => b!"#" ++ s
  | .cls s => b!"." ++ s
  | .quoted q k v => k ++ b!"=" ++ [q] ++ v ++ [q]
  | .bare k v => k ++ b!"=" ++ v

/-- The braces, with blanks between the attributes. -/
def braces (as : List Attr) : Bytes := b!"{" ++ List.intercalate b!" " (as.map Attr.text) ++ b!"}"

/-- The id: the last one given. -/
def idOf (as : List Attr) : Option Bytes := (as.filterMap fun | .id s => some s | _ => none).getLast?

/-- The classes, in order. -/
def classesOf (as : List Attr) : List Bytes := as.filterMap fun | .cls s => some s | _ => none

/-- The other attributes, in order. -/
def pairsOf (as : List Attr) : List (Bytes × Bytes) :=
  as.filterMap fun | .quoted _ k v => some (k, v) | .bare k v => some (k, v) | _ => none

/-- The attributes of the element. -/
def attrHtml (id : Option Bytes) (classes : List Bytes) (pairs : List (Bytes × Bytes)) : Bytes :=
  (match id with
    | some i => b!" id=\"" ++ i ++ b!"\""
    | none => []) ++
  (if classes = [] then [] else b!" class=\"" ++ List.intercalate b!" " classes ++ b!"\"") ++
  pairs.flatMap fun kv => b!" " ++ kv.1 ++ b!"=\"" ++ kv.2 ++ b!"\""

/-! ### The description of a div -/

/-- A description: a class name; attributes in braces; an element's name with or without attributes. -/
inductive Info
  | word (s : Bytes)
  | attrs (as : List Attr)
  | element (name : Bytes)
  | elementWith (name : Bytes) (as : List Attr)

/-- Element names are of letters, digits and dashes, and the id is not of the one length that is cut. -/
def Info.Ok : Info → Prop
  | .word s => Word [] s ∧ s.head? ≠ some c!">" ∧ s.head? ≠ some c!"{"
  | .attrs as => (∀ a ∈ as, a.Ok) ∧ ∀ i, idOf as = some i → i.length ≠ 250
  | .element n => n ≠ [] ∧ ∀ c ∈ n, isAlnum c = true ∨ c = c!"-"
  | .elementWith n as => (n ≠ [] ∧ ∀ c ∈ n, isAlnum c = true ∨ c = c!"-") ∧ (∀ a ∈ as, a.Ok) ∧ ∀ i, idOf as = some i → i.length ≠ 250

/-- How it is written. -/
def Info.text : Info → Bytes
  | .word s => s
  | .attrs as => braces as
  | .element n => b!">" ++ n
  | .elementWith n as => b!">" ++ n ++ b!" " ++ braces as

/-- The element. -/
def Info.name : Info → Bytes
  | .word _ | .attrs _ => b!"div"
  | .element n | .elementWith n _ => n

/-- Its attributes. -/
def Info.html : Info → Bytes
  | .word s => attrHtml none [s] []
  | .attrs as | .elementWith _ as => attrHtml (idOf as) (classesOf as) (pairsOf as)
  | .element _ => []

/-! ### Documents -/

/-- A part of a document: a line, or a div with its fences around other parts. -/
inductive Part
  | line (l e : Bytes)
  | div (info : Info) (opening : Bytes) (e : Bytes) (parts : List Part) (closing : Bytes) (e' : Bytes)

mutual
/-- Lines have no line ends and are no fences, fences are fences. -/
def Part.Ok : Part → Prop
  | .line l e => (∀ c ∈ l, c ≠ 10 ∧ c ≠ 13) ∧ Plain l ∧ Eol e
  | .div info o e ps c e' => info.Ok ∧ Opens o info.text ∧ (∀ c ∈ o, c ≠ 10 ∧ c ≠ 13) ∧ Eol e ∧ Part.AllOk ps ∧
      Closes c ∧ (∀ x ∈ c, x ≠ 10 ∧ x ≠ 13) ∧ Eol e'
/-- The same of several parts. -/
def Part.AllOk : List Part → Prop
  | [] => True
  | p :: ps => p.Ok ∧ Part.AllOk ps
end

mutual
/-- The document. -/
def Part.source : Part → Bytes
  | .line l e => l ++ e
  | .div _ o e ps c e' => o ++ e ++ Part.sources ps ++ c ++ e'
/-- The same of several parts. -/
def Part.sources : List Part → Bytes
  | [] => []
  | p :: ps => p.source ++ Part.sources ps
end

/-- The opening tag: elements that are not among the block elements of HTML are written as a `div` with their name in
an attribute, to get it back in the finished page. -/
def startTag (name attrs : Bytes) : Bytes :=
  if isBlockTag name then b!"<" ++ name ++ attrs ++ b!" markdown=\"1\">"
  else b!"<div data-apex-fenced-element=\"" ++ name ++ b!"\"" ++ attrs ++ b!" markdown=\"1\">"

/-- The closing tag. -/
def endTag (name : Bytes) : Bytes := if isBlockTag name then b!"</" ++ name ++ b!">" else b!"</div>"

mutual
/-- The page: lines are as they were, a div is its element around its parts. -/
def Part.page : Part → Bytes
  | .line l e => l ++ e
  | .div info _ _ ps _ _ => startTag info.name info.html ++ b!"\n" ++ Part.pages ps ++ endTag info.name
/-- The same of several parts. -/
def Part.pages : List Part → Bytes
  | [] => []
  | p :: ps => p.page ++ Part.pages ps
end

/-- A document: parts; divs that are never closed, each followed by parts; a line without an end. -/
structure Doc where
  parts : List Part
  opened : List (Info × Bytes × Bytes × List Part)
  last : Bytes

/-- Its parts and its divs are as above, and the last line is no fence. -/
def Doc.Ok (d : Doc) : Prop :=
  Part.AllOk d.parts ∧
  (∀ o ∈ d.opened, o.1.Ok ∧ Opens o.2.1 o.1.text ∧ (∀ c ∈ o.2.1, c ≠ 10 ∧ c ≠ 13) ∧ Eol o.2.2.1 ∧ Part.AllOk o.2.2.2) ∧
  (∀ c ∈ d.last, c ≠ 10 ∧ c ≠ 13) ∧ Plain d.last

/-- How it is written. -/
def Doc.source (d : Doc) : Bytes :=
  Part.sources d.parts ++ d.opened.flatMap (fun o => o.2.1 ++ o.2.2.1 ++ Part.sources o.2.2.2) ++ d.last

/-- The page: what is open is closed at its end, the innermost first. -/
def Doc.page (d : Doc) : Bytes :=
  Part.pages d.parts ++ d.opened.flatMap (fun o => startTag o.1.name o.1.html ++ b!"\n" ++ Part.pages o.2.2.2) ++ d.last ++
    d.opened.reverse.flatMap fun o => endTag o.1.name

/-- What a tag or a line is in the page. -/
def Tok.html : Tok → Bytes
  | .opens n a => startTag n (a.getD []) ++ b!"\n"
  | .closes n => endTag n
  | .line l e => l ++ e

/-- The page of tags and lines. -/
def pageOf (ts : List Tok) : Bytes := ts.flatMap Tok.html

/-- Elements that are opened are closed again, innermost first: reading the tags with the names of the open elements. -/
def Nested : List Bytes → List Tok → Prop
  | stack, [] => stack = []
  | stack, .opens n _ :: ts => Nested (n :: stack) ts
  | stack, .closes n :: ts => ∃ s, stack = n :: s ∧ Nested s ts
  | stack, .line _ _ :: ts => Nested stack ts

/-- The first line of a text, its end, and what is behind it. -/
def Line (text l e rest : Bytes) : Prop :=
  text ≠ [] ∧ text = l ++ e ++ rest ∧ (∀ c ∈ l, c ≠ 10 ∧ c ≠ 13) ∧
  (e = [10] ∨ e = [13, 10] ∨ e = [13] ∧ rest.head? ≠ some 10 ∨ e = [] ∧ rest = [])

/-- The tags and lines of a text, while the elements `stack` are open: fences open and close elements, other lines are
kept, and at the end everything is closed. -/
inductive Reads : List Bytes → Bytes → List Tok → Prop
  | done (stack) : Reads stack [] (stack.map .closes)
  | opens {stack text l e rest info n a ts} (hl : Line text l e rest) (ho : Opens l info) (h : Reads (n :: stack) rest ts) :
      Reads stack text (.opens n a :: ts)
  | closes {stack text l e rest n ts} (hl : Line text l e rest) (hc : Closes l) (h : Reads stack rest ts) :
      Reads (n :: stack) text (.closes n :: ts)
  | line {stack text l e rest ts} (hl : Line text l e rest) (ho : ∀ info, ¬ Opens l info) (hc : Closes l → stack = [])
      (h : Reads stack rest ts) : Reads stack text (.line l e :: ts)

/-- Cut off in front of the end of a tag. -/
def CutOff (s page : Bytes) : Prop := ∃ rest, page = s ++ b!">" ++ rest

/-! ### The finished page -/

/-- HTML: a character, a tag that is not of a `div`, and a `div` with what is in it.  What is behind the name in the
`div` tag is empty or begins with a blank. -/
inductive Node
  | char (c : Byte)
  | tag (t : Bytes)
  | div (attrs : Bytes) (inside : List Node)

mutual
/-- Tags are tags. -/
def Node.Ok : Node → Prop
  | .char c => c ≠ c!"<"
  | .tag t => (∀ c ∈ t, c ≠ c!"<" ∧ c ≠ c!">") ∧ t ≠ b!"/div" ∧ t ≠ b!"div" ∧ ∀ c, isSpace c = true → ¬ b!"div" ++ [c] <+: t
  | .div as ns => (∀ c ∈ as, c ≠ c!">") ∧ (∀ c, as.head? = some c → isSpace c = true) ∧ Node.AllOk ns
/-- The same of several. -/
def Node.AllOk : List Node → Prop
  | [] => True
  | n :: ns => n.Ok ∧ Node.AllOk ns
end

mutual
/-- How it is written. -/
def Node.text : Node → Bytes
  | .char c => [c]
  | .tag t => b!"<" ++ t ++ b!">"
  | .div as ns => b!"<div" ++ as ++ b!">" ++ Node.texts ns ++ b!"</div>"
/-- The same of several. -/
def Node.texts : List Node → Bytes
  | [] => []
  | n :: ns => n.text ++ Node.texts ns
end

/-- A wrapped element: text in front of it without a wrapper, its name, its attributes, what is in it. -/
structure Wrapped where
  before : Bytes
  name : Bytes
  attrs : Bytes
  inside : List Node

/-- The name is short and of the characters of names; the attributes have no end of a tag in them. -/
def Wrapped.Ok (w : Wrapped) : Prop :=
  ¬ wrapPrefix <:+: w.before ∧ w.name ≠ [] ∧ w.name.length ≤ 33 ∧ (∀ c ∈ w.name, isAlnum c = true ∨ c = c!"-") ∧
  (∀ c ∈ w.attrs, c ≠ c!">") ∧ (∀ c, w.attrs.head? = some c → isSpace c = false) ∧ Node.AllOk w.inside

/-- The wrapper. -/
def Wrapped.source (w : Wrapped) : Bytes :=
  w.before ++ wrapPrefix ++ w.name ++ b!"\"" ++ (if w.attrs = [] then [] else b!" " ++ w.attrs) ++ b!">" ++ Node.texts w.inside ++ b!"</div>"

/-- The element. -/
def Wrapped.html (w : Wrapped) : Bytes :=
  w.before ++ b!"<" ++ w.name ++ (if w.attrs = [] then [] else b!" " ++ w.attrs) ++ b!">" ++ Node.texts w.inside ++
    b!"</" ++ w.name ++ b!">"

end Verif.FencedDivs.Spec
