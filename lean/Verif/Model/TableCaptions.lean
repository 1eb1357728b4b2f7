/- src/apex.c:1230-1632 `apex_preprocess_table_captions`.  The allocation succeeds.  Pointers that are computed before the start
   of the text but not read through (`line_end - 5`) are not modelled. -/
import Verif.Model.Embed

namespace Verif.TableCaptions

/-- A space or a tab. -/
def blank (c : Byte) : Bool := c == c!" " || c == c!"\t"

/-- Not the end of a line. -/
def inLine (c : Byte) : Bool := c != c!"\n" && c != c!"\r"

/-- src/apex.c:1241-1247: the state between lines. -/
structure St where
  row : Bool
  blank : Bool
  code : Bool
  buf : Bool
  sect : Bool
deriving DecidableEq

/-- src/apex.c:1282-1293: the line, without its leading white space, is a fence. -/
def fence (p : Bytes) : Bool := b!"```".isPrefixOf p || b!"~~~".isPrefixOf p

/-- src/apex.c:1314-1315 and 1322. -/
def marked (p : Bytes) : Bool := b!"Table:".isPrefixOf p || b!"table:".isPrefixOf p

/-- src/apex.c:1320-1327: the marker anywhere. -/
def anywhere (p : Bytes) : Bool := (Embed.find b!"Table:" p).isSome || (Embed.find b!"table:" p).isSome

/-- src/apex.c:1328-1341.  The loop over spaces ends at once, since `p` is behind all of them. -/
def colonHead : Bytes → Bool
  | c :: d :: _ => c == c!":" && blank d
  | _ => false

/-- src/apex.c:1387-1398 and 1487-1498, the inner loop: from a closing brace back to the opening one, which must be followed
by a colon, a hash or a dot.  The text before it, backwards.  `next` is the byte behind. -/
def openAt (next : Byte) : Bytes → Option Bytes
  | [] => none
  | x :: t => if x == c!"{" then if next == c!":" || next == c!"#" || next == c!"." then some t else none else openAt x t

/-- src/apex.c:1383-1401 and 1483-1501: the text before the attributes, if there are any; texts are backwards. -/
def cut : Bytes → Option Bytes
  | [] => none
  | c :: t =>
    if c == c!"}" then
      match openAt c t with
      | some r => some r
      | none => cut t
    else cut t

/-- src/apex.c:1380-1401 and 1480-1501: the text in front of the attributes. -/
def front (s : Bytes) : Bytes :=
  match cut s.reverse with
  | some r => r.reverse
  | none => s

/-- A text without the bytes at its end for which `p` holds. -/
def dropEnd (p : Byte → Bool) (s : Bytes) : Bytes := (s.reverse.dropWhile p).reverse

/-- src/apex.c:1435-1449 and 1528-1542: what is behind the caption, with a space before it. -/
def attributes (rest : Bytes) : Bytes :=
  match rest.dropWhile isSpace with
  | [] => []
  | c :: t => c!" " :: c :: t

/-- src/apex.c:1366-1374: the text before and behind the marker.  `strstr` looks beyond the line, but the marker contains no end
of a line, so that a match that starts in the line is in the line. -/
def split (line p : Bytes) : Bytes × Bytes :=
  match Embed.find b!"Table:" line with
  | some r => r
  | none =>
    match Embed.find b!"table:" line with
    | some r => r
    | none => (line.takeWhile blank, p.drop 6)

/-- src/apex.c:1374-1408: the caption in the text behind the marker. -/
def pandoc (s : Bytes) : Bytes := dropEnd (fun c => blank c || c == c!"\r") (front (s.dropWhile blank))

/-- src/apex.c:1415-1449: a line with a caption behind a marker. -/
def pandocLine (before s : Bytes) : Bytes :=
  (if before = [] then [] else before ++ b!"\n") ++ b!"\n[" ++ pandoc s ++ b!"]" ++ attributes ((s.dropWhile blank).drop (pandoc s).length)

/-- src/apex.c:1466-1509: the caption behind a colon; `s` is what is behind the colon and the blank. -/
def colon (s : Bytes) : Bytes := dropEnd isSpace ((front s).dropWhile isSpace)

/-- src/apex.c:1511-1542: a line with a caption behind a colon.  The attributes are what is behind the caption in the line. -/
def colonLine (s : Bytes) : Bytes :=
  b!"\n[" ++ colon s ++ b!"]" ++ attributes (s.drop (((front s).takeWhile isSpace).length + (colon s).length))

/-- The end of a line, if it has one. -/
def eol (nl : Bool) : Bytes := if nl then b!"\n" else []

/-- What is known about a line. -/
structure Info where
  code : Bool
  row : Bool
  blank : Bool
  bracket : Bool
  pandoc : Bool
  colon : Bool

/-- src/apex.c:1276-1343. -/
def info (st : St) (line : Bytes) : Info :=
  let p := line.dropWhile blank
  let code := if fence p then !st.code else st.code
  let near := st.row || st.blank || st.sect
  let other := !code && p ≠ [] && p.head? ≠ some c!"["
  { code := code
    row := !code && line.contains c!"|"
    blank := !code && p = []
    bracket := !code && p.head? = some c!"["
    pandoc := other && (marked p || near && anywhere p)
    colon := other && !marked p && near && colonHead p }

/-- src/apex.c:1599-1622: the state behind a line that was written. -/
def after (st : St) (i : Info) : St :=
  if i.code then { st with code := true }
  else if i.row then { st with code := false, row := true, blank := false, sect := true }
  else if i.blank then { st with code := false, blank := true }
  else if i.bracket || i.pandoc || i.colon then { st with code := false, blank := false }
  else { st with code := false, row := false, sect := false, blank := false }

/-- src/apex.c:1345-1622: what is written for a line, and the state behind it. -/
def line (st : St) (l : Bytes) (nl : Bool) : Bytes × St :=
  let i := info st l
  let p := l.dropWhile blank
  if st.row && i.bracket then (b!"\n" ++ l ++ eol nl, after st i)
  else if i.pandoc then
    let m := split l p
    if pandoc m.2 ≠ [] then (pandocLine m.1 m.2 ++ eol nl, after { st with buf := false, sect := false } i)
    else (l ++ eol nl, after st i)
  else if st.row && i.colon then (colonLine (p.drop 2) ++ eol nl, after { st with buf := false, sect := true } i)
  else if i.blank && (st.row || st.blank || st.sect) then ([], { st with code := false, blank := true, buf := true, sect := true })
  else ((if st.buf && !i.bracket && !i.pandoc && !i.colon then b!"\n" else []) ++ l ++ eol nl, after { st with buf := false } i)

/-- src/apex.c:1250-1275, 1557-1566 and 1589-1598: the text behind the line. -/
def next : Bytes → Bytes
  | [] => []
  | c :: t => if c == c!"\r" && t.head? = some c!"\n" then t.tail else t

/-- src/apex.c:1249-1623, the loop.  The bytes of a line are written at once: there is a write behind the block if and only if
one of the single writes is behind it.  `n` bounds the rounds. -/
def loop (cap : Nat) : Nat → St → Bytes → Bytes → C Bytes
  | 0, _, _, _ => .ub
  | n + 1, st, out, s =>
    if s = [] then .val out
    else
      let l := s.takeWhile inLine
      let e := s.dropWhile inLine
      let r := line st l (e ≠ [])
      puts cap out r.1 >>= fun o => loop cap n r.2 o (next e)

/-- src/apex.c:1625-1631: the end. -/
def close (cap : Nat) (out : Bytes) : C Bytes :=
  match out.getLast? with
  | none => finish cap out
  | some c => if c ≠ c!"\n" ∧ c ≠ c!"\r" then put cap out c!"\n" >>= finish cap else finish cap out

/-- src/apex.c:1230-1632 `apex_preprocess_table_captions`. -/
def captions (text : Bytes) : C Bytes :=
  loop (text.length * 2 + 1) (text.length + 1) ⟨false, false, false, false, false⟩ [] text >>= close (text.length * 2 + 1)

end Verif.TableCaptions
