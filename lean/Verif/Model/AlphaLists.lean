/- src/apex.c:2000-2337: lists with letters become numbered lists with a mark in front, and the marks in the page become
   styles of the lists.  The allocations succeed; the list counter of the first function stays below 2^31. -/
import Verif.Model.FencedDivs
import Verif.Model.Man

namespace Verif.AlphaLists

open FencedDivs (Buf Buf.store)

/-! ### Before the conversion -/

/-- src/apex.c:2031. -/
def blank (c : Byte) : Bool := c == 32 || c == 9

/-- src/apex.c:2042, 2048 and 2153: nothing, or a blank in front. -/
def tail : Bytes → Bool
  | [] => true
  | x :: _ => blank x

/-- src/apex.c:2030-2052: the blanks in front, the letter and what is behind the full stop. -/
def item (line : Bytes) : Option (Bytes × Byte × Bytes) :=
  match line.dropWhile blank with
  | c :: d :: r =>
    if (isLower c || isUpper c) && d == c!"." && tail r then
      some (line.takeWhile blank, c, r)
    else none
  | _ => none

/-- src/apex.c:2016-2021. -/
structure St where
  on : Bool
  lower : Byte
  upper : Byte
  isUpper : Bool
  number : Nat
  blanks : Nat

/-- A `size_t` as an `int`. -/
def toInt (n : Nat) : Int := ((n + 2 ^ 31) % 2 ^ 32 : Nat) - 2 ^ 31

/-- src/apex.c:2083-2087, 2093-2097 and 2158-2162: `snprintf`, and the step over it if it has fitted.  What was written
and does not fit is overwritten later. -/
def print (b : Buf) (s : Bytes) : Buf :=
  if (s.length : Int) < toInt (b.cap - b.out.length) then ⟨b.out ++ s, b.cap⟩ else b

/-- src/apex.c:2101-2113 and 2178-2183: as much as there is room for. -/
def copy (b : Buf) (s : Bytes) : Buf := ⟨b.out ++ s.take (b.cap - b.out.length), b.cap⟩

/-- src/apex.c:2083, the mark. -/
def mark (upper : Bool) : Bytes := b!"[apex-alpha-list:" ++ (if upper then b!"upper" else b!"lower") ++ b!"]\n\n"

/-- src/apex.c:2145-2150: the number, in `int`. -/
def number : Nat → Bytes → C Nat
  | n, [] => .val n
  | n, c :: r => if n * 10 + (c.toNat - 48) < 2 ^ 31 then number (n * 10 + (c.toNat - 48)) r else .ub

/-- src/apex.c:2152-2153: the rest of a line behind its digits. -/
def endsNumber : Bytes → Bool
  | [] => false
  | c :: r => c == c!"." && tail r

/-- src/apex.c:2027-2186, a line; `nl` is the end of the line, if there is one. -/
def preLine (st : St) (b : Buf) (line nl : Bytes) : C (St × Buf) :=
  match item line with
  | some (indent, c, r) =>
    let up := isUpper c
    let continues := st.on && (up == st.isUpper) && (if up then c == st.upper else c == st.lower)
    let (st, b) :=
      if continues then ({ st with blanks := 0 }, b)
      else
        (⟨true, if up then st.lower else c, if up then c else st.upper, up, 1, 0⟩, print b (mark up))
    let b := print b (indent ++ Man.decimal st.number ++ b!". ")
    let b := copy b (r ++ nl)
    let st := { st with number := st.number + 1 }
    let st :=
      if up then { st with upper := (if st.upper + 1 > c!"Z" then c!"A" else st.upper + 1) }
      else { st with lower := (if st.lower + 1 > c!"z" then c!"a" else st.lower + 1) }
    .val (st, b)
  | none =>
    let p := line.dropWhile blank
    if st.on then
      match p with
      | [] =>
        let st := { st with blanks := st.blanks + 1 }
        let st := if st.blanks ≥ 2 then { st with on := false } else st
        .val (st, copy b (line ++ nl))
      | c :: _ =>
        let had := st.blanks > 0
        let st := { st with blanks := 0, on := false }
        if isDigit c then
          match number 0 (p.takeWhile isDigit) with
          | .ub => .ub
          | .val num =>
            let b := if num = 1 && endsNumber (p.dropWhile isDigit) && had then print b b!"\n\n \n\n" else b
            .val (st, copy b (line ++ nl))
        else .val (st, copy b (line ++ nl))
    else .val (st, copy b (line ++ nl))

/-- src/apex.c:2023-2187, the lines.  `n` bounds their number. -/
def preLoop (n : Nat) (st : St) (b : Buf) (read : Bytes) : C Buf :=
  match n with
  | 0 => .val b
  | n + 1 =>
    if read = [] then .val b
    else
      let line := read.takeWhile (· != 10)
      match read.dropWhile (· != 10) with
      | [] =>
        match preLine st b line [] with
        | .ub => .ub
        | .val (_, b) => .val b
      | c :: rest =>
        match preLine st b line [c] with
        | .ub => .ub
        | .val (st, b) => preLoop n st b rest

/-- src/apex.c:2004-2191 `apex_preprocess_alpha_lists`. -/
def pre (text : Bytes) : C Bytes :=
  match preLoop (text.length + 1) ⟨false, c!"a", c!"A", false, 1, 0⟩ ⟨[], text.length * 3⟩ text with
  | .ub => .ub
  | .val b =>
    match b.store [0] with
    | .ub => .ub
    | .val b => .val (b.out.takeWhile (· != 0))

/-! ### Behind the conversion -/

/-- src/apex.c:2216-2230 `ENSURE_SPACE`, and a copy. -/
def add (b : Buf) (needed : Nat) (s : Bytes) : C Buf :=
  (if b.cap - b.out.length < needed then Buf.mk b.out ((b.out.length + needed + 1) * 2) else b).store s

/-- src/apex.c:2236 and 2238, and nine of the ten bytes of 2243 and 2246. -/
def found (upper : Bool) : Bytes := b!"<p>[apex-alpha-list:" ++ (if upper then b!"upper" else b!"lower") ++ b!"]</p"

/-- src/apex.c:2303-2305. -/
def style (upper : Bool) : Bytes :=
  b!" style=\"list-style-type: " ++ (if upper then b!"upper" else b!"lower") ++ b!"-alpha\">"

/-- src/apex.c:2265-2267. -/
def white (c : Byte) : Bool := c == 32 || c == 9 || c == 10 || c == 13

/-- src/apex.c:2279-2294: the tag of a list without its `>`, and what is behind it. -/
def list (s : Bytes) : Option (Bytes × Bytes) :=
  match s with
  | a :: b :: c :: d :: _ =>
    if a == c!"<" && b == c!"o" && c == c!"l" && (d == c!">" || d == 32 || d == 9 || d == 10) then
      match Embed.find [c!">"] s with
      | some (tag, rest) => if (Embed.find b!"style=" tag).isSome then none else some (tag, rest)
      | none => none
    else none
  | _ => none

/-- src/apex.c:2234-2331: `seg` is what was read and not yet written.  `n` bounds the rounds.  After a mark the code steps
over a byte even if the page has ended (2321); there it is behind the memory of the page, as it is for a page that ends with
`found` (2261). -/
def postLoop (n : Nat) (b : Buf) (seg read : Bytes) : C Buf :=
  match n with
  | 0 => .ub
  | n + 1 =>
    match read with
    | [] => add b seg.length seg
    | c :: t =>
      match (if found false <+: read then some false else if found true <+: read then some true else none) with
      | none => postLoop n b (seg ++ [c]) t
      | some upper =>
        match add b seg.length seg with
        | .ub => .ub
        | .val b =>
          match read.drop 29 with
          | [] => .ub
          | _ :: behind =>
            let space := behind.takeWhile white
            let rest := behind.dropWhile white
            match add b space.length space with
            | .ub => .ub
            | .val b =>
              match list rest with
              | some (tag, rest) =>
                match add b (tag.length + 50) tag with
                | .ub => .ub
                | .val b =>
                  match b.store (style upper) with
                  | .ub => .ub
                  | .val b => postLoop n b [] rest
              | none =>
                match rest with
                | [] => .ub
                | c :: t => postLoop n b [c] t

/-- src/apex.c:2199-2337 `apex_postprocess_alpha_lists_html`; `none` for a page that is left alone. -/
def post (html : Bytes) : C (Option Bytes) :=
  if (Embed.find b!"[apex-alpha-list:" html).isNone then .val none
  else
    match postLoop (html.length + 1) ⟨[], html.length + 1024⟩ [] html with
    | .ub => .ub
    | .val b =>
      match b.store [0] with
      | .ub => .ub
      | .val b => .val (some (b.out.takeWhile (· != 0)))

end Verif.AlphaLists
