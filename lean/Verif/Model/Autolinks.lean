/- src/apex.c:494-1011 `apex_preprocess_autolinks`: addresses become links.  The allocations succeed, and there are fewer than
   2^31 brackets. -/
import Verif.Model.FencedDivs

namespace Verif.Autolinks

open FencedDivs (Buf Buf.store)

/-- src/apex.c:505-511: what is known of the text so far. -/
structure St where
  liquid : Bool := false
  block : Bool := false
  ticks : Nat := 0
  span : Bool := false
  url : Bool := false
  brackets : Nat := 0
  parens : Nat := 0

/-- src/apex.c:548-555, 577-584, 765-772, 790-797 and 982-989: a larger block, if the bytes and a NUL do not fit. -/
def room (b : Buf) (needed : Nat) : Buf :=
  if b.out.length + needed + 1 > b.cap then ⟨b.out, (b.out.length + needed + 1) * 2⟩ else b

/-- The check, where there is one. -/
def grow (b : Buf) : Option Nat → Buf
  | some k => room b k
  | none => b

/-- src/apex.c:538-544: the line is indented code.  `cur` is the text from the line on. -/
def indented (cur : Bytes) : Bool :=
  let n := (cur.takeWhile (· == 32)).length
  n ≥ 4 || (cur.drop n).head? == some 9

/-- src/apex.c:562-571: the line starts a definition of a reference. -/
def definition (cur : Bytes) : Bool :=
  match cur.dropWhile (fun c => c == 32 || c == 9) with
  | c :: t => c == c!"[" && b!"]:".isPrefixOf (t.dropWhile (· != c!"]"))
  | [] => false

/-- src/apex.c:668-747 and 809-887: the place behind `pre`, which is the text before it backwards, is in an attribute. -/
def inAttr (pre : Bytes) : Bool :=
  let tag := pre.takeWhile fun c => c != c!"<" && c != c!">"
  if (pre.drop tag.length).head? == some c!"<" && tag.contains c!"=" then
    match (tag.takeWhile (· != c!"=")).reverse.dropWhile isSpace with
    | [] => false
    | q :: v =>
      if q == c!"\"" || q == c!"'" then !v.contains q
      else (q :: v).all fun c => !isSpace c && c != c!">"
  else false

/-- src/apex.c:760-763: the text in angle brackets is an address. -/
def address (u : Bytes) : Bool :=
  (u.length > 6 && b!"http://".isPrefixOf u) || (u.length > 7 && b!"https://".isPrefixOf u) || (u.length > 7 && b!"mailto:".isPrefixOf u)

/-- src/apex.c:891: an address starts here. -/
def protocol (cur : Bytes) : Bool := b!"http://".isPrefixOf cur || b!"https://".isPrefixOf cur || b!"mailto:".isPrefixOf cur

/-- src/apex.c:900 and 943: the bytes of a word. -/
def inToken (c : Byte) : Bool := !isSpace c && c != c!"<" && c != c!">"

/-- The first byte is a letter or a digit. -/
def alnumHead : Bytes → Bool
  | d :: _ => isAlnum d
  | [] => false

/-- src/apex.c:916-928: a dot with a letter or digit behind it, after a name.  `s` is the word behind the `@`. -/
def tld : Bytes → Bool
  | [] => false
  | c :: t =>
    if c == c!"." && alnumHead t then true
    else if !isAlnum c && c != c!"-" && c != c!"_" then false
    else tld t

/-- src/apex.c:896: the place behind `pre` can be that of a mail address. -/
def wordStart : Bytes → Bool
  | [] => true
  | d :: _ => isSpace d || d == c!"(" || d == c!"["

/-- src/apex.c:896-936: a mail address starts here. -/
def email (pre cur : Bytes) : Bool :=
  let word := cur.takeWhile inToken
  let user := word.takeWhile (· != c!"@")
  let behind := word.drop (user.length + 1)
  wordStart pre &&
  !(pre.head? == some c!"[" && cur.head? == some c!"@") &&
  word.contains c!"@" && user != [] && behind != [] &&
  user.getLast? != some c!"[" && alnumHead user.reverse &&
  tld behind

/-- src/apex.c:944-954: the word without the punctuation at its end. -/
def trim (u : Bytes) : Bytes := (u.reverse.dropWhile fun c => c == c!"." || c == c!"," || c == c!";" || c == c!":").reverse

/-- src/apex.c:773-777 and 990-994: a link. -/
def link (text href : Bytes) : Bytes := b!"[" ++ text ++ b!"](" ++ href ++ b!")"

/-- What a step takes and writes. -/
structure Step where
  st : St
  /-- the bytes of the text that are used up -/
  eat : Nat
  /-- the bytes that are written -/
  out : Bytes
  /-- the bytes that the check asks for, if there is a check -/
  needed : Option Nat := none

/-- A step that copies `n` bytes without a check. -/
def copy (st : St) (n : Nat) (cur : Bytes) : Step := ⟨st, n, cur.take n, none⟩

/-- src/apex.c:534-591, the steps for a whole line. -/
def lineStep (st : St) (pre cur : Bytes) : Option Step :=
  if (pre = [] ∨ pre.head? = some 10) ∧ (indented cur ∨ definition cur) then
    let line := cur.takeWhile (· != 10)
    some ⟨st, line.length, line, some line.length⟩
  else none

/-- src/apex.c:592-628: backticks. -/
def tickStep (st : St) (cur : Bytes) : Step :=
  let n := min 10 (cur.takeWhile (· == c!"`")).length
  if n ≥ 3 then
    copy (if !st.block then { st with block := true, ticks := n }
      else if n ≥ st.ticks then { st with block := false, ticks := 0 } else st) n cur
  else if n = 1 then copy { st with span := !st.span } 1 cur
  else copy st n cur

/-- src/apex.c:636-660: brackets and parentheses. -/
def brackets (st : St) (c : Byte) : St :=
  if c == c!"[" && !st.url then { st with brackets := st.brackets + 1 }
  else if c == c!"]" && decide (st.brackets > 0) then { st with brackets := st.brackets - 1 }
  else if c == c!"(" && st.url then { st with parens := st.parens + 1 }
  else if c == c!")" && st.url then
    if st.parens - 1 = 0 then { st with parens := 0, url := false } else { st with parens := st.parens - 1 }
  else st

/-- The same for the first byte of a text. -/
def bracketsAt (st : St) : Bytes → St
  | c :: _ => brackets st c
  | [] => st

/-- src/apex.c:755-782: an address in angle brackets. -/
def angleStep (st : St) (cur : Bytes) : Option Step :=
  match cur with
  | c :: t =>
    if c == c!"<" then
      let u := t.takeWhile (· != c!">")
      if u.length < t.length && u != [] && address u then some ⟨st, u.length + 2, link u u, some (2 + u.length + 3 + u.length + 2)⟩ else none
    else none
  | [] => none

/-- src/apex.c:784-803: a comment. -/
def commentStep (st : St) (cur : Bytes) : Option Step :=
  if b!"<!--".isPrefixOf cur then
    match Embed.find b!"-->" cur with
    | some (a, _) => some ⟨st, a.length + 3, cur.take (a.length + 3), some (a.length + 3)⟩
    | none => none
  else none

/-- src/apex.c:980: the mark of a heading is at its end. -/
def markEnd : Bytes → Bool
  | d :: _ => d == 32 || d == 9 || d == 10
  | [] => false

/-- src/apex.c:889-1000: a bare address. -/
def bareStep (st : St) (pre cur : Bytes) : Option Step :=
  match cur with
  | [] => none
  | c :: t =>
    if !isSpace c && !((c == c!"h" || c == c!"m" || c == c!"@") && inAttr pre) && (protocol cur || email pre cur) then
      let u := trim (cur.takeWhile inToken)
      let href := if !protocol cur && !(decide (u.length ≥ 7) && b!"mailto:".isPrefixOf cur) then b!"mailto:" ++ u else u
      if u != [] && !(pre.head? == some c!"(" || pre.head? == some c!"[") &&
          !(pre == [] && c == c!"#" && markEnd t) then
        some ⟨st, u.length, link u href, some (2 + u.length + 3 + href.length + 2)⟩
      else none
    else none

/-- src/apex.c:630-1002, what is done outside of Liquid tags and backticks. -/
def textStep (st : St) (pre cur : Bytes) : Step :=
  if st.block || st.span then copy st 1 cur
  else if b!"](".isPrefixOf cur && decide (st.brackets > 0) then copy { st with url := true, parens := 1 } 2 cur
  else
    let st := bracketsAt st cur
    if st.url then copy st 1 cur
    else if (cur.head? == some c!"h" || cur.head? == some c!"m") && inAttr pre then copy st 1 cur
    else
      match angleStep st cur with
      | some s => s
      | none =>
        match commentStep st cur with
        | some s => s
        | none =>
          match bareStep st pre cur with
          | some s => s
          | none => copy st 1 cur

/-- src/apex.c:514-1007, one round of the loop.  `pre` is the text before the place, backwards. -/
def step (st : St) (pre cur : Bytes) : Step :=
  if !st.liquid && b!"{%".isPrefixOf cur then copy { st with liquid := true } 2 cur
  else if st.liquid then
    if b!"%}".isPrefixOf cur then copy { st with liquid := false } 2 cur else copy st 1 cur
  else
    match lineStep st pre cur with
    | some s => s
    | none => if cur.head? == some c!"`" then tickStep st cur else textStep st pre cur

/-- src/apex.c:513-1008, the loop.  `n` bounds the rounds.  A round that uses up nothing is one that never ends. -/
def loop (n : Nat) (st : St) (b : Buf) (pre cur : Bytes) : C Buf :=
  match n with
  | 0 => .ub
  | n + 1 =>
    if cur = [] then .val b
    else
      let s := step st pre cur
      match (grow b s.needed).store s.out with
      | .ub => .ub
      | .val b => loop n s.st b ((cur.take s.eat).reverse ++ pre) (cur.drop s.eat)

/-- src/apex.c:494-1011 `apex_preprocess_autolinks`. -/
def process (text : Bytes) : C Bytes :=
  match loop (text.length + 1) {} ⟨[], text.length * 4 + 1⟩ [] text with
  | .ub => .ub
  | .val b =>
    match b.store [0] with
    | .ub => .ub
    | .val b => .val (b.out.takeWhile (· != 0))

end Verif.Autolinks
