/- src/extensions/definition_list.c:98-368, 576-1697: definition lists, which become HTML before the text is parsed.  The parser and
renderer of cmark is a parameter; allocations succeed; the text has no zero byte; debug output is left out. -/
import Verif.Model.Escape
import Verif.Model.Embed

namespace Verif.DefLists

/-- A blank or tab. -/
def blank (c : Byte) : Bool := c == c!" " || c == c!"\t"

/-! ### Content of terms and definitions -/

/-- src/extensions/definition_list.c:112-200: the identifiers of the references in a text, each once.  The counter is enough with more
than the length of the text. -/
def uses : Nat → List Bytes → Bytes → List Bytes
  | 0, l, _ => l
  | _, l, [] => l
  | n + 1, l, c :: s =>
    if c = c!"[" then
      let x := s.takeWhile (· != c!"]")
      match s.dropWhile (· != c!"]") with
      | _ :: d :: r =>
        if d = c!"[" then
          if r.head? = some c!"]" then uses n (if x = [] ∨ x ∈ l then l else l ++ [x]) (r.drop 1)
          else
            match r.dropWhile (· != c!"]") with
            | _ :: q =>
              let i := r.takeWhile (· != c!"]")
              uses n (if i = [] ∨ i ∈ l then l else l ++ [i]) q
            | [] => uses n l s
        else uses n l s
      | _ => uses n l s
    else uses n l s

/-- src/extensions/definition_list.c:233-246, 323-333: the identifier of a line that is a definition of a reference. -/
def defined (line : Bytes) : Option Bytes :=
  match line.dropWhile blank with
  | c :: t =>
    if c = c!"[" then
      match t.dropWhile (· != c!"]") with
      | _ :: d :: _ => if d = c!":" then some (t.takeWhile (· != c!"]")) else none
      | _ => none
    else none
  | [] => none

/-- src/extensions/definition_list.c:218-299, 306-368 `extract_specific_reference_definitions` and `extract_reference_definitions`: the lines
that are definitions with an identifier that `want` holds for.  The blocks grow before they are written to; an empty result is a null
pointer. -/
def pick (want : Bytes → Bool) : Nat → Bytes → Bytes
  | 0, _ => []
  | _, [] => []
  | n + 1, c :: s =>
    let l := (c :: s).takeWhile (· != c!"\n")
    let r := (c :: s).dropWhile (· != c!"\n")
    (match defined l with
      | some i => if want i then l ++ r.take 1 else []
      | none => []) ++ pick want n (r.drop 1)

/-- src/extensions/definition_list.c:1079-1112, 1257-1290: the text that is given to the parser. -/
def source (refs t : Bytes) : Bytes :=
  let s := pick (fun i => decide (i ∈ uses (t.length + 1) [] t)) (refs.length + 1) refs
  if s = [] then t else (if s.getLast? = some c!"\n" then s else s ++ b!"\n") ++ t

/-- src/extensions/definition_list.c:1032, 1215: what is behind `<` makes it a tag. -/
def opener : Bytes → Bool
  | d :: _ => d == c!"!" || isAlnum d
  | [] => false

/-- src/extensions/definition_list.c:1024-1036, 1207-1219: whether a text has Markdown in it. -/
def marked : Bytes → Bool
  | [] => false
  | c :: s =>
    (c == c!"*" || c == c!"_" || c == c!"[" || c == c!"]" || c == c!"!" || c == c!"`" || c == c!"\\" ||
      (c == c!"<" && opener s)) || marked s

/-- src/extensions/definition_list.c:1038-1058, 1221-1241: a byte in HTML. -/
def escape (c : Byte) : Bytes :=
  if c = c!"&" then b!"&amp;" else if c = c!"<" then b!"&lt;" else if c = c!">" then b!"&gt;" else if c = c!"\"" then b!"&quot;" else [c]

/-- src/extensions/definition_list.c:1121-1132, 1300-1311: the element of the paragraph is taken away. -/
def strip (h : Bytes) : Bytes :=
  let h := if b!"<p>".isPrefixOf h then h.drop 3 else h
  if 4 < h.length && b!"</p>\n".isSuffixOf h then h.take (h.length - 5) else h

/-- src/extensions/definition_list.c:1021-1163, 1204-1337: the content of a term or definition.  `md` is cmark, `refs` are the definitions of
references of the document. -/
def content (md : Bytes → Bytes) (refs t : Bytes) : Bytes := if marked t then strip (md (source refs t)) else t.flatMap escape

/-! ### Lines -/

/-- src/extensions/definition_list.c:721-733: a line that opens or closes code; whether it can close it. -/
def fence (l : Bytes) : Option Bool :=
  let l := l.dropWhile blank
  if b!"```".isPrefixOf l then
    some (match (l.drop 3).dropWhile blank with
      | [] => true
      | c :: _ => c == c!"\r")
  else none

/-- src/extensions/definition_list.c:789-792: a row of a table. -/
def row (l : Bytes) : Bool := (l.dropWhile blank).head? == some c!"|"

/-- Blanks at the front, at most `n`, as `p` allows, are left out. -/
def skip (p : Byte → Bool) : Nat → Bytes → Bytes
  | n + 1, c :: s => if p c then skip p n s else c :: s
  | _, s => s

/-- src/extensions/definition_list.c:794-819: an item of a list. -/
def item (l : Bytes) : Bool :=
  match skip blank 4 l with
  | [] => false
  | c :: s =>
    if c == c!"-" || c == c!"*" || c == c!"+" then (match s with | d :: _ => blank d | [] => false)
    else if isDigit c then
      match (c :: s).dropWhile isDigit with
      | d :: e :: _ => d == c!"." && blank e
      | _ => false
    else false

/-- src/extensions/definition_list.c:830-841, 1551-1564: signs of quotations at the front, each with a blank or tab or none: their number, and the rest.
The counter is enough with the length of the line. -/
def quotes : Nat → Bytes → Nat × Bytes
  | n + 1, c :: s =>
    if c = c!">" then
      let r := quotes n (match s with | d :: t => if blank d then t else d :: t | [] => [])
      (r.1 + 1, r.2)
    else (0, c :: s)
  | _, s => (0, s)

/-- src/extensions/definition_list.c:821-851, 1198-1202: the depth and the text of a definition, if the line is one. -/
def definition (l : Bytes) : Option (Nat × Bytes) :=
  let q := quotes l.length (skip (· == c!" ") 3 l)
  match q.2 with
  | c :: d :: s => if !row l && !item l && c == c!":" && blank d then some (q.1, (d :: s).dropWhile blank) else none
  | _ => none

/-- src/extensions/definition_list.c:592-640: there is a line that looks like a definition. -/
def pattern : Nat → Bytes → Bool
  | 0, _ => false
  | _, [] => false
  | n + 1, c :: s =>
    let l := (c :: s).takeWhile (· != c!"\n")
    (match (quotes l.length (skip (· == c!" ") 3 l)).2 with
      | c :: d :: _ => c == c!":" && blank d
      | _ => false) || pattern n (((c :: s).dropWhile (· != c!"\n")).drop 1)

/-- src/extensions/definition_list.c:853-942: a row of a table comes next, behind less than `n` lines without text; `s` is the text behind the line. -/
def caption : Nat → Bytes → Bool
  | 0, _ => false
  | _, [] => false
  | n + 1, c :: s =>
    match ((c :: s).takeWhile (· != c!"\n")).dropWhile blank with
    | d :: _ => if d = c!"\r" then caption n (((c :: s).dropWhile (· != c!"\n")).drop 1) else d == c!"|"
    | [] => caption n (((c :: s).dropWhile (· != c!"\n")).drop 1)

/-! ### The block -/

/-- What is written: text for which room is asked for, a line that ends in a newline or not, signs of quotations. -/
inductive Write where
  | put (need : Nat) (s : Bytes)
  | line (l : Bytes) (nl : Bool)
  | quote (d : Nat)

/-- The block, without the byte for the terminator. -/
structure Buf where
  cap : Nat
  out : Bytes

/-- src/extensions/definition_list.c:654-674 `ENSURE_SPACE`. -/
def ensure (need : Nat) (b : Buf) : Buf :=
  if b.cap - b.out.length ≤ need then
    let m := b.out.length + need + 1
    { b with cap := if m < 1024 then 2048 else m * 2 }
  else b

/-- Text is copied; it must fit. -/
def push (s : Bytes) (b : Buf) : C Buf := if b.out.length + s.length ≤ b.cap then .val { b with out := b.out ++ s } else .ub

/-- src/extensions/definition_list.c:971-979: signs of quotations are written while there is room. -/
def quoting : Nat → Buf → C Buf
  | 0, b => .val b
  | d + 1, b => if 2 < b.cap - b.out.length then (push b!"> " b).bind (quoting d) else .val b

/-- Something is written. -/
def Write.run : Write → Buf → C Buf
  | .put need s, b => push s (ensure need b)
  | .line l nl, b =>
    (push l (ensure (l.length + (if nl then 1 else 0) + 1) b)).bind fun b => if nl && decide (0 < b.cap - b.out.length) then push b!"\n" b else .val b
  | .quote d, b => quoting d (ensure (d * 2 + 1) b)

/-- One thing after the other is written. -/
def runAll : List Write → Buf → C Buf
  | [], b => .val b
  | w :: l, b => (w.run b).bind (runAll l)

/-! ### The loop -/

/-- src/extensions/definition_list.c:676-686: what is known at the start of a line.  An empty term is none. -/
structure St where
  list : Bool
  quoted : Bool
  depth : Nat
  term : Bytes
  termQuoted : Bool
  termDepth : Nat
  found : Bool
  code : Bool
  skipped : Bool

/-- The start. -/
def St.start : St := ⟨false, false, 0, [], false, 0, false, false, false⟩

/-- Text for which room is asked for, and a byte more. -/
def tag (s : Bytes) : Write := .put (s.length + 1) s

/-- The signs of quotations, in one. -/
def prefixed (st : St) : List Write := if st.quoted then [.quote st.depth] else []

/-- src/extensions/definition_list.c:735-787: a line of code, or one that opens or closes it. -/
def codeLine (st : St) (f : Option Bool) (l : Bytes) : St × List Write :=
  let (st, w) : St × List Write := match f with
    | none => (st, [])
    | some closing =>
      if st.code then
        if closing then ({ st with code := false, list := false, term := [], termQuoted := false, termDepth := 0, skipped := false }, []) else (st, [])
      else ({ st with code := true, list := false, term := [], termQuoted := false, termDepth := 0, skipped := false }, if st.list then [tag b!"</dl>\n"] else [])
  (st, w ++ [.put (l.length + 1) (l ++ b!"\n")])

/-- src/extensions/definition_list.c:953-1175: a list begins, with the term that was kept.  `html` gives the content. -/
def openList (html : Bytes → Bytes) (st : St) (d : Nat) : St × List Write :=
  let dep := if st.termQuoted then st.termDepth else d
  let dep := if decide (0 < d) && decide (dep < d) then d else dep
  let st := { st with found := true, quoted := decide (0 < d) || st.termQuoted, depth := dep, skipped := false }
  let w := prefixed st ++ [tag b!"<dl>\n"]
  if st.term = [] then ({ st with list := true }, w)
  else
    let t := if st.termQuoted then st.term.dropWhile (fun c => c == c!">" || blank c) else st.term
    ({ st with list := true, term := [], termQuoted := false }, w ++ prefixed st ++ [tag b!"<dt>", tag (html t), tag b!"</dt>\n"])

/-- src/extensions/definition_list.c:951-1346: a definition. -/
def defLine (html : Bytes → Bytes) (st : St) (d : Nat) (t : Bytes) : St × List Write :=
  let (st, w) := if st.list then (st, []) else openList html st d
  (st, w ++ prefixed st ++ [tag b!"<dd>", tag (html t), tag b!"</dd>\n"])

/-- src/extensions/definition_list.c:1347-1367: an empty line. -/
def emptyLine (st : St) : St × List Write :=
  if st.list then (st, []) else if st.term ≠ [] then ({ st with skipped := true }, []) else (st, [.put 1 b!"\n"])

/-- src/extensions/definition_list.c:1384-1428: a list is closed, a term that was kept is written. -/
def flush (st : St) : St × List Write :=
  let (st, w) : St × List Write :=
    if st.list then ({ st with list := false, quoted := false, depth := 0 }, prefixed st ++ [tag b!"</dl>\n\n"]) else (st, [])
  if st.term = [] then (st, w)
  else
    ({ st with term := [], skipped := false }, w ++ [.put (st.term.length + 2) (st.term ++ b!"\n")] ++ (if st.skipped then [.put 1 b!"\n"] else []))

/-- src/extensions/definition_list.c:1368-1583: another line.  `ial` says that there is `{:` from its start on.  A term is kept for the next line. -/
def textLine (st : St) (l : Bytes) (nl ial : Bool) : St × List Write :=
  let (st, w) := flush st
  if row l || (l.dropWhile blank).head? == some c!"#" || item l || ial then (st, w ++ [.line l nl])
  else if l.length < 4095 then
    let q := quotes l.length (l.dropWhile blank)
    ({ st with term := l, termQuoted := decide (0 < q.1), termDepth := q.1 }, w)
  else (st, w ++ [.line l nl])

/-- src/extensions/definition_list.c:721-1583: a line.  `s` is the text from it on, `r` that behind it. -/
def step (html : Bytes → Bytes) (st : St) (s l r : Bytes) (nl : Bool) : St × List Write :=
  let f := fence l
  if st.code || f.isSome then codeLine st f l
  else
    match definition l with
    | some (d, t) =>
      if caption 100 r then
        let n := (l.takeWhile (· == c!" ")).length
        let add := 4 - min n 3
        (st, [.put (add + l.length + 1) (List.replicate add c!" " ++ l ++ b!"\n")])
      else defLine html st d t
    | none => if l = [] ∨ l = b!"\r" then emptyLine st else textLine st l nl (Embed.find b!"{:" s).isSome

/-- src/extensions/definition_list.c:688-1609: the loop; `none` behind `n` lines, if there are more. -/
def loop (html : Bytes → Bytes) : Nat → St → Bytes → Buf → C (Option (St × Buf))
  | _, st, [], b => .val (some (st, b))
  | 0, _, _ :: _, _ => .val none
  | n + 1, st, c :: s, b =>
    let l := (c :: s).takeWhile (· != c!"\n")
    let r := (c :: s).dropWhile (· != c!"\n")
    let x := step html st (c :: s) l (r.drop 1) (!r.isEmpty)
    (runAll x.2 b).bind (loop html n x.1 (r.drop 1))

/-- src/extensions/definition_list.c:1611-1650: the list that is open is closed, the term that was kept is written. -/
def final (st : St) : List Write :=
  (if st.list then prefixed st ++ [tag b!"</dl>\n"] else []) ++
  if st.term = [] then [] else [.put (st.term.length + 2) (st.term ++ b!"\n")] ++ (if st.skipped then [.put 1 b!"\n"] else [])

/-- src/extensions/definition_list.c:580-1697 `apex_process_definition_lists`; `none` is a null pointer: the text stays. -/
def process (md : Bytes → Bytes) (text : Bytes) : C (Option Bytes) :=
  if pattern (text.length + 1) text then
    let refs := pick (fun _ => true) (text.length + 1) text
    (loop (content md refs) 1000000 St.start text ⟨text.length * 3, []⟩).bind fun x =>
      match x with
      | none => .val (some text)
      | some (st, b) => (runAll (final st) b).bind fun b =>
        if st.found then
          if b.out.length ≤ b.cap then .val (if b.out = [] then none else some b.out) else .ub
        else .val none
  else .val none

end Verif.DefLists
