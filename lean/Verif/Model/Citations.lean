/- src/extensions/citations.c:1-661: citations in the text, and in the page.  The allocations succeed, the text has less than
2^31 bytes and no zero byte, and `ctype.h` is that of the C locale, with a table that has room for negative characters (as
that of glibc).  Citations are turned on, the mode is Unified or MultiMarkdown, and the registry is empty at first. -/
import Verif.Model.Embed

namespace Verif.Citations
open Embed (find)

/-- src/extensions/citations.h:31-41 `apex_citation`, without the syntax and the place, which nothing reads. -/
structure Citation where
  key : Bytes
  «prefix» : Option Bytes := none
  locator : Option Bytes := none
  suffix : Option Bytes := none
  suppressed : Bool := false
  inText : Bool := false
deriving DecidableEq

/-- src/extensions/citations.h:44-56 `apex_bibliography_entry`, without the type and the raw data, which nothing reads. -/
structure Entry where
  id : Bytes
  title : Option Bytes := none
  author : Option Bytes := none
  year : Option Bytes := none
  container : Option Bytes := none
  publisher : Option Bytes := none
  volume : Option Bytes := none
  page : Option Bytes := none
deriving DecidableEq

/-- src/extensions/citations.c:22-26 `is_valid_citation_char`. -/
def valid (c : Byte) : Bool := isAlnum c || b!"_:.#$%&-+?<>~/".contains c

/-- src/extensions/citations.c:32-78 `extract_citation_key`: the key, and what is behind it. -/
def key (s : Bytes) : Option (Bytes × Bytes) :=
  match s with
  | [] => none
  | c :: t =>
    if isAlnum c || c == c!"_" then some (s.takeWhile valid, s.dropWhile valid)
    else if c = c!"{" then
      match t.dropWhile valid with
      | d :: r => if d = c!"}" ∧ t.takeWhile valid ≠ [] then some (t.takeWhile valid, r) else none
      | [] => none
    else none

/-- src/extensions/citations.c:83-96 `is_mmark_pattern`. -/
def pattern (s : Bytes) : Bool :=
  3 < s.length && (([b!"RFC", b!"BCP", b!"STD"].any fun p => p.isPrefixOf s && (s.drop 3).head?.any isDigit) ||
    b!"I-D.".isPrefixOf s || b!"W3C.".isPrefixOf s)

/-- src/extensions/citations.c:353: the bytes of a key of mmark. -/
def mmarkByte (c : Byte) : Bool := isAlnum c || c == c!"." || c == c!"-" || c == c!"#"

/-- src/extensions/citations.c:331-398 `parse_mmark_citation`: the citation, and what is behind it. -/
def mmark (s : Bytes) : Option (Citation × Bytes) :=
  match s with
  | a :: b :: t =>
    if 3 < s.length ∧ a = c!"[" ∧ b = c!"@" then
      let m := match t with
        | c :: r => if c = c!"!" ∨ c = c!"?" ∨ c = c!"-" then (c == c!"-", r) else (false, t)
        | [] => (false, t)
      if pattern m.2 then
        let k := m.2.takeWhile mmarkByte
        let r := m.2.dropWhile mmarkByte
        let r := match r with
          | c :: r' => if c = c!";" then r' else r
          | [] => r
        match r with
        | c :: r => if c = c!"]" ∧ k ≠ [] then some ({ key := k, suppressed := m.1 }, r) else none
        | [] => none
      else none
    else none
  | _ => none

/-- src/extensions/citations.c:297-311: the locator in the brackets before the citation; `back` is the text before it,
backwards. -/
def locatorBefore (back : Bytes) : Option Bytes :=
  match back with
  | c :: t =>
    if c = c!"]" ∧ c!"[" ∈ t ∧ t.takeWhile (· != c!"[") ≠ [] then some (t.takeWhile (· != c!"[")).reverse else none
  | [] => none

/-- src/extensions/citations.c:269-326 `parse_mmd_citation`. -/
def mmd (back s : Bytes) : Option (Citation × Bytes) :=
  match s with
  | a :: b :: t =>
    if 2 < s.length ∧ a = c!"[" ∧ b = c!"#" then
      match key t with
      | some (k, c :: r) => if c = c!"]" then some ({ key := k, locator := locatorBefore back }, r) else none
      | _ => none
    else none
  | _ => none

/-- src/extensions/citations.c:114-146: a citation without brackets, behind `@`. -/
def inText (s : Bytes) : Option (Citation × Bytes) :=
  match key s with
  | none => none
  | some (k, r) =>
    let r := r.dropWhile isSpace
    match r with
    | c :: t =>
      if c = c!"[" ∧ c!"]" ∈ t then
        some ({ key := k, inText := true, locator := some (t.takeWhile (· != c!"]")) }, (t.dropWhile (· != c!"]")).drop 1)
      else some ({ key := k, inText := true }, r)
    | [] => some ({ key := k, inText := true }, r)

/-- src/extensions/citations.c:204-216: does it look like a locator?  The comparisons may look behind the segment `x`, at `z`. -/
def looks : Bytes → Bytes → Bool
  | [], _ => false
  | c :: x, z =>
    ([b!"p.", b!"pp.", b!"chap.", b!"chapter", b!"sec.", b!"section"].any fun w => w.isPrefixOf (c :: x ++ z)) || looks x z

/-- The end of the text in brackets. -/
def stop (c : Byte) : Bool := c == c!"]" || c == c!";"

/-- src/extensions/citations.c:188-241: the locator and the suffix, and what is from `]` or `;` on. -/
def details : Bytes → Option Bytes × Option Bytes × Bytes
  | [] => (none, none, [])
  | c :: s =>
    if c = c!"," then
      let s := s.dropWhile isSpace
      let x := s.takeWhile fun c => !stop c
      let z := s.dropWhile fun c => !stop c
      if x = [] then (none, none, z)
      else if looks x z || x.head?.any isDigit then (some x, none, z) else (none, some x, z)
    else if stop c then (none, none, c :: s)
    else details s

/-- src/extensions/citations.c:101-264 `parse_pandoc_citation`.  The prefix of a citation in brackets is what is between `[`
and `@`. -/
def pandoc (s : Bytes) : Option (Citation × Bytes) :=
  match s with
  | a :: t =>
    if a = c!"@" then inText t
    else
      let m := if b!"[-@".isPrefixOf s then some (true, s.drop 3) else if b!"[@".isPrefixOf s then some (false, s.drop 2) else none
      match m with
      | none => none
      | some (sup, t) =>
        match key t with
        | none => none
        | some (k, r) =>
          let (loc, suf, r) := details (r.dropWhile isSpace)
          let r := match r with
            | c :: r' => if c = c!"]" then r' else r
            | [] => r
          some ({ key := k, «prefix» := if sup then some b!"-" else none, locator := loc, suffix := suf, suppressed := sup }, r)
  | [] => none

/-- src/extensions/citations.c:470-490: the parsers, one after the other; `u` is Unified mode. -/
def parse (u : Bool) (back s : Bytes) : Option (Citation × Bytes) :=
  let m := if u then mmark s else none
  match m with
  | some x => some x
  | none =>
    match mmd back s with
    | some x => some x
    | none => if u then pandoc s else none

/-- The output: the size of the block, and what is written. -/
structure Buf where
  cap : Nat
  out : Bytes

/-- src/extensions/citations.c:461-466, 513-518: a byte that does not fit is left out. -/
def byte (c : Byte) (b : Buf) : Buf := if 0 < b.cap - b.out.length then { b with out := b.out ++ [c] } else b

/-- src/extensions/citations.c:504-508: a placeholder that does not fit is left out. -/
def copy (s : Bytes) (b : Buf) : Buf := if s.length < b.cap - b.out.length then { b with out := b.out ++ s } else b

/-- src/extensions/citations.c:499-502: the placeholder, cut like `snprintf` into 256 bytes. -/
def placeholder (k : Bytes) : Bytes := (b!"<!--CITE:" ++ k ++ b!"-->").take 255

/-- src/extensions/citations.c:449-456: is this code?  First for blocks, then for code in lines; `s` is what is behind `c`. -/
def code (m : Bool × Bool) (c : Byte) (s : Bytes) : Bool × Bool :=
  if c = c!"`" then if b!"``".isPrefixOf s then (!m.1, m.2) else if m.1 then m else (m.1, !m.2)
  else m

/-- src/extensions/citations.c:447-520: the loop; the first citation of the registry is the last one of the text. -/
def loop (u : Bool) : Nat → Bool × Bool → Bytes → List Citation → Buf → Bytes → Buf × List Citation
  | 0, _, _, cs, b, _ => (b, cs)
  | _, _, _, cs, b, [] => (b, cs)
  | n + 1, m, back, cs, b, c :: s =>
    let m := code m c s
    if m.1 || m.2 then loop u n m (c :: back) cs (byte c b) s
    else
      match parse u back (c :: s) with
      | some (x, r) => loop u n m (((c :: s).take ((c :: s).length - r.length)).reverse ++ back) (x :: cs) (copy (placeholder x.key) b) r
      | none => loop u n m (c :: back) cs (byte c b) s

/-- src/extensions/citations.c:420-436: is there a start of a citation?  The last byte is not looked at. -/
def starts : Option Byte → Bytes → Bool
  | p, c :: d :: s =>
    (c == c!"[" && (d == c!"@" || d == c!"#")) || (c == c!"@" && (p.all fun p => isSpace p || p == c!"(")) || starts (some c) (d :: s)
  | _, _ => false

/-- src/extensions/citations.c:404-525 `apex_process_citations`; `none` for a null pointer, where the text is kept
(apex.c:4178-4182).  The terminator is written without a look at the room. -/
def process (u : Bool) (text : Bytes) : C (Option Bytes × List Citation) :=
  if starts none text then
    let x := loop u (text.length + 1) (false, false) [] [] ⟨text.length * 2, []⟩ text
    (finish x.1.cap x.1.out).bind fun o => .val (some o, x.2)
  else .val (none, [])

/-- src/extensions/citations.c:574-613: the text of a citation. -/
def text (e : Option Entry) (x : Citation) : Bytes :=
  match e with
  | some e =>
    if x.inText then
      match e.author, e.year with
      | some a, some y => a ++ b!" (" ++ y ++ b!")"
      | some a, none => a
      | none, _ => x.key
    else if x.suppressed then b!"(" ++ e.year.getD x.key ++ b!")"
    else
      match e.author, e.year with
      | some a, some y => b!"(" ++ a ++ b!" " ++ y ++ b!")"
      | _, some y => b!"(" ++ y ++ b!")"
      | _, none => b!"(" ++ x.key ++ b!")"
  | none => if x.inText then x.key else b!"(" ++ x.key ++ b!")"

/-- src/extensions/citations.c:571-626: the citation as HTML, cut to 511 bytes, with its text cut to 255 bytes. -/
def html (link : Bool) (e : Option Entry) (x : Citation) : Bytes :=
  (if link then b!"<a href=\"#ref-" ++ x.key ++ b!"\" class=\"citation\" data-cites=\"" ++ x.key ++ b!"\">" ++ (text e x).take 255 ++ b!"</a>"
    else b!"<span class=\"citation\" data-cites=\"" ++ x.key ++ b!"\">" ++ (text e x).take 255 ++ b!"</span>").take 511

/-- src/extensions/citations.c:645-650: a byte; one byte is kept for the terminator. -/
def rbyte (c : Byte) (b : Buf) : Buf := if 1 < b.cap - b.out.length then { b with out := b.out ++ [c] } else b

/-- src/extensions/citations.c:550-651: the loop. -/
def renderLoop (link : Bool) (bib : List Entry) (cs : List Citation) : Nat → Bytes → Buf → Buf
  | 0, _, b => b
  | _, [], b => b
  | n + 1, c :: s, b =>
    match if b!"<!--CITE:" <+: c :: s then find b!"-->" (s.drop 8) else none with
    | some (k, r) =>
      renderLoop link bib cs n r (match cs.find? fun x => x.key == k with
        | some x => copy (html link (bib.find? fun e => e.id == k) x) b
        | none => b)
    | none => renderLoop link bib cs n s (rbyte c b)

/-- src/extensions/citations.c:531-661 `apex_render_citations`; no bibliography is the same as an empty one.  There is always
room for the terminator. -/
def render (link : Bool) (bib : List Entry) (cs : List Citation) (page : Bytes) : C Bytes :=
  let b := renderLoop link bib cs (page.length + 1) page ⟨page.length * 3 + 1, []⟩
  finish b.cap b.out

end Verif.Citations
