/-
Metadata extraction from the start of a document and from the command line:
src/extensions/metadata.c, `parse_mmd_metadata`, `parse_pandoc_metadata`, `parse_yaml_metadata`,
`apex_extract_metadata`, `apex_parse_command_metadata`.
-/
import Verif.Model.Metadata

namespace Verif.MetaParse

open Transforms (strstr trim) 
open Metadata (Meta Item addItem)

/-- `strchr(line_start, '\n')`: the line before the first newline and the text behind it. -/
def nextLine : Bytes → Option (Bytes × Bytes)
  | [] => none
  | c :: cs => if c = 10 then some ([], cs) else (nextLine cs).map fun r => (c :: r.1, r.2)

theorem nextLine_eq {s : Bytes} {l r : Bytes} (h : nextLine s = some (l, r)) :
    s = l ++ 10 :: r ∧ (10 : Byte) ∉ l := by
  induction s generalizing l with
  | nil => simp [nextLine] at h
  | cons c cs ih =>
    unfold nextLine at h
    split at h
    · rename_i hc
      simp at h
      obtain ⟨rfl, rfl⟩ := h
      simp [hc]
    · rename_i hc
      simp only [Option.map_eq_some_iff] at h
      obtain ⟨⟨a, b⟩, hab, hr⟩ := h
      simp at hr
      obtain ⟨rfl, rfl⟩ := hr
      obtain ⟨h1, h2⟩ := ih hab
      refine ⟨by simp [h1], ?_⟩
      simp only [List.mem_cons, not_or]
      exact ⟨fun h => hc h.symm, h2⟩

theorem nextLine_none {s : Bytes} (h : nextLine s = none) : (10 : Byte) ∉ s := by
  induction s with
  | nil => simp
  | cons c cs ih =>
    unfold nextLine at h
    split at h
    · simp at h
    · rename_i hc
      simp only [Option.map_eq_none_iff] at h
      simp only [List.mem_cons, not_or]
      exact ⟨fun h => hc h.symm, ih h⟩

/-- The copy of a line into `char line[1024]` (metadata.c:413-417 and its copies): longer lines are
cut to 1023 bytes. -/
def lineBuf (l : Bytes) : Bytes := l.take 1023

/-- The contents of the buffer after `trim_whitespace(line)` (metadata.c:65-78): the trailing white
space is cut off; the returned pointer `trimmed` is the buffer behind its leading white space, which
is `trim line` (the function has the same two loops as the `trim` transform).  Only used for lines
that are not blank. -/
def cutLine (l : Bytes) : Bytes := l.takeWhile isSpace ++ trim l

/-- `strchr(s, c) != NULL` for a non-NUL `c`, and `strstr(s, p) != NULL`. -/
def has (s p : Bytes) : Bool := (strstr s p).isSome

/-- What `parse_mmd_metadata` decides about one line. -/
inductive Kind
  /-- white space only -/
  | blank
  /-- abbreviation, comment, Kramdown marker, heading, IAL, TOC: ends the metadata, skipped before -/
  | skip
  /-- anything else that is not metadata: ends the metadata, no metadata when none was found -/
  | stop
  /-- `key: value` -/
  | item (key value : Bytes)
  deriving DecidableEq, Repr

/-- metadata.c:520-534: `digits` then `.` or `)` then a blank. -/
def numbered (t : Bytes) : Bool :=
  match t with
  | c :: _ =>
    if isDigit c then
      match t.dropWhile isDigit with
      | d :: e :: _ => (d == c!"." || d == c!")") && (e == 32 || e == 9)
      | _ => false
    else false
  | [] => false

/-- metadata.c:503-519: `-`, `+` or `*` followed by a blank. -/
def bulleted (t : Bytes) : Bool :=
  match t with
  | c :: e :: _ => (c == c!"-" || c == c!"+" || c == c!"*") && (e == 32 || e == 9)
  | _ => false

/-- metadata.c:538-618: a line (cut, with its leading white space) with its first colon at `i`. -/
def colonLine (l : Bytes) (i : Nat) : Kind :=
  if has l b!"[!" || (l.contains c!"[" && l.contains c!"]" && has l b!"](") then .stop
  else if decide (i ≥ 7) && (b!"http://".isPrefixOf l || (decide (i ≥ 8) && b!"https://".isPrefixOf l) ||
      b!"mailto:".isPrefixOf l || has l b!"://") then .stop
  else if (l.take i).contains c!"<" then .stop
  else
    match l.drop (i + 1) with
    | c :: _ =>
      if c ≠ 32 ∧ c ≠ 9 then .stop
      else if trim (l.take i) ≠ [] ∧ trim (l.drop (i + 1)) ≠ [] then
        .item (trim (l.take i)) (trim (l.drop (i + 1)))
      else .stop
    | [] => .stop

/-- metadata.c:411-650: the tests on one line, in order.  All the cases without a colon (URL, link,
other) have the same effect. -/
def classify (line : Bytes) : Kind :=
  let t := trim (lineBuf line)
  let l := cutLine (lineBuf line)
  if t = [] then .blank
  else if b!"*[".isPrefixOf t || b!"[>".isPrefixOf t then .skip
  else if b!"<!--".isPrefixOf t then .skip
  else if b!"{::".isPrefixOf t then .skip
  else if b!"#".isPrefixOf t then .skip
  else if b!"{:".isPrefixOf t then .skip
  else if has t b!"{i:" then .stop
  else if b!"{{TOC".isPrefixOf t then .skip
  else if bulleted t then .stop
  else if numbered t then .stop
  else
    match l.findIdx? (· == c!":") with
    | some i => colonLine l i
    | none => .stop

/-- metadata.c:407-655, `parse_mmd_metadata`, from `line_start`.  The second component is the text
behind the `*consumed` bytes, `none` when `*consumed` stays 0. -/
def mmdLoop (found : Bool) (items : Meta) (s : Bytes) : Meta × Option Bytes :=
  match _h : nextLine s with
  | none => (items, if found then some [] else none)
  | some (line, rest) =>
    match classify line with
    | .blank => if found then (items, some rest) else mmdLoop found items rest
    | .skip => if found then (items, some s) else mmdLoop found items rest
    | .stop => if found then (items, some s) else ([], none)
    | .item k v => mmdLoop true (addItem items (k, v)) rest
  termination_by s.length
  decreasing_by
    all_goals
      have := (nextLine_eq _h).1
      rw [this]; simp; omega

/-- metadata.c:400-655, `parse_mmd_metadata`. -/
def parseMmd (text : Bytes) : Meta × Option Bytes := mmdLoop false [] text

/-- metadata.c:661-699, the loop of `parse_pandoc_metadata`; `n` is `key_index`, `keys` the remaining
keys. -/
def pandocLoop (n : Nat) (items : Meta) : List Bytes → Bytes → Meta × Option Bytes
  | [], s => (items, if n > 0 then some s else none)
  | key :: keys, s =>
    match nextLine s with
    | none => (items, if n > 0 then some s else none)
    | some (line, rest) =>
      match trim (lineBuf line) with
      | c :: t =>
        if c = c!"%" then
          pandocLoop (n + 1) (if trim t ≠ [] then addItem items (key, trim t) else items) keys rest
        else (items, if n > 0 then some s else none)
      | [] => (items, if n > 0 then some s else none)

/-- `parse_pandoc_metadata`. -/
def parsePandoc (text : Bytes) : Meta × Option Bytes :=
  pandocLoop 0 [] [b!"title", b!"author", b!"date"] text

/-- metadata.c:371-385: quotes around a value are removed, then trailing white space (the pointer
returned by the second `trim_whitespace` is dropped, so leading white space stays; a value that is
all white space stays as it is). -/
def unquote (v : Bytes) : Bytes :=
  match v, v.getLast? with
  | q :: _, some q' =>
    if v.length ≥ 2 ∧ q = q' ∧ (q = c!"\"" ∨ q = c!"'") then
      let inner := (v.drop 1).dropLast
      if trim inner = [] then inner else cutLine inner
    else v
  | _, _ => v

/-- metadata.c:345-394: the line parser of `parse_yaml_metadata`, from `line_start`; `consumed` is what
the libyaml attempt left in `*consumed`. -/
def yamlLoop (consumed : Option Bytes) (items : Meta) (s : Bytes) : Meta × Option Bytes :=
  match _h : nextLine s with
  | none => (items, consumed)
  | some (line, rest) =>
    let t := trim (lineBuf line)
    if t = b!"---" ∨ t = b!"..." then (items, some rest)
    else
      let l := if t = [] then lineBuf line else cutLine (lineBuf line)
      match l.findIdx? (· == c!":") with
      | some i =>
        let key := trim (l.take i)
        let value := unquote (trim (l.drop (i + 1)))
        yamlLoop consumed (if key ≠ [] then addItem items (key, value) else items) rest
      | none => yamlLoop consumed items rest
  termination_by s.length
  decreasing_by
    all_goals
      have := (nextLine_eq _h).1
      rw [this]; simp; omega

/-- metadata.c:241-268, 290-295: the front matter handed to libyaml and the text behind it. -/
def yamlBounds (text : Bytes) : Bytes × Bytes :=
  let start := match nextLine (text.drop 3) with
    | some (_, r) => r
    | none => text.drop 3
  match (strstr start b!"\n---").or (strstr start b!"\n...") with
  | some i => (if i > 0 then start.take i else start, start.drop (i + 4))
  | none => (start, [])

/-- metadata.c:326-397, `parse_yaml_metadata`.  `lib content` is what libyaml makes of the front matter
(`none`: not compiled in, or a syntax error, or not a mapping). -/
def parseYaml (lib : Bytes → Option Meta) (text : Bytes) : Meta × Option Bytes :=
  let bounds := yamlBounds text
  let attempt := lib bounds.1
  match attempt with
  | some (it :: its) => (it :: its, some bounds.2)
  | _ =>
    let consumed := if attempt = none then none else some bounds.2
    match nextLine (text.drop 3) with
    | none => ([], consumed)
    | some (_, rest) => yamlLoop consumed [] rest

/-- metadata.c:704-734, `apex_extract_metadata`: the metadata and the remaining text. -/
def extract (lib : Bytes → Option Meta) (text : Bytes) : Meta × Bytes :=
  if text = [] then ([], text)
  else
    let r :=
      if b!"---".isPrefixOf text then parseYaml lib text
      else if b!"%".isPrefixOf text then parsePandoc text
      else parseMmd text
    match r with
    | (it :: its, some rest) => (it :: its, rest)
    | (items, _) => (items, text)

/-! ### Command-line metadata -/

/-- `strchr(s, c)`: the position of the first `c`. -/
def idx (c : Byte) (s : Bytes) : Option Nat := s.findIdx? (· == c)

/-- A buffer after `trim_whitespace(buf)` with the returned pointer dropped (metadata.c:65-78): only
trailing white space goes, and nothing at all when the buffer is all white space. -/
def cutBuf (s : Bytes) : Bytes := if trim s = [] then s else cutLine s

/-- `"` or `'`. -/
def isQuote (c : Byte) : Bool := c == c!"\"" || c == c!"'"

/-- metadata.c:2223-2252: the value of a pair, from behind its equals sign. -/
def pairValue : Bytes → Bytes
  | [] => cutBuf []
  | q :: r =>
    if isQuote q then
      match idx q r with
      | none => r
      | some j => r.take j
    else cutBuf ((q :: r).takeWhile (· != c!","))

/-- metadata.c:2201-2256, `parse_key_value_pair` (allocations are assumed to succeed). -/
def parsePair (pair : Bytes) : Option Item :=
  (idx c!"=" pair).map fun i => (cutBuf (pair.take i), pairValue (pair.drop (i + 1)))

/-- metadata.c:2300-2316: does the text behind a comma look like `KEY=`? -/
def startsPair (after : Bytes) : Bool :=
  match after with
  | [] => false
  | a :: _ =>
    if isAlnum a || a == c!"_" then
      match idx c!"=" after with
      | none => false
      | some e =>
        match idx c!"," after with
        | none => true
        | some j => decide (j > e)
    else false

/-- metadata.c:2276-2319: the length of the value text `s`, up to `pair_end`. -/
def valueLen (s : Bytes) : Nat :=
  match s with
  | [] => 0
  | q :: r =>
    if isQuote q then
      match idx q r with
      | some j => j + 2
      | none => s.length
    else
      match idx c!"," s with
      | some j => if startsPair ((s.drop (j + 1)).dropWhile isSpace) then j else s.length
      | none => s.length

/-- metadata.c:2268-2342, the loop of `apex_parse_command_metadata`. -/
def cmdLoop (items : Meta) (s : Bytes) : Meta :=
  let p := s.dropWhile isSpace
  match idx c!"=" p with
  | none => items
  | some i =>
    let n := i + 1 + valueLen (p.drop (i + 1))
    let items' := match parsePair (p.take n) with
      | some it => addItem items it
      | none => items
    match _h : p.drop n with
    | c :: rest => if c = c!"," then cmdLoop items' rest else items'
    | [] => items'
  termination_by s.length
  decreasing_by
    have h1 : (p.drop n).length = rest.length + 1 := by rw [_h]; simp
    have h2 : (s.dropWhile isSpace).length ≤ s.length := (List.dropWhile_sublist _).length_le
    have h3 : (p.drop n).length ≤ p.length := by simp
    show rest.length < s.length
    have : p.length ≤ s.length := h2
    omega

/-- metadata.c:2262-2346, `apex_parse_command_metadata` (most recent pair first, as in the list). -/
def parseCmd (arg : Bytes) : Meta := cmdLoop [] arg

end Verif.MetaParse
