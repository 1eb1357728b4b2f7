/- src/extensions/citations.c:663-1005, 1185-1566, 1998-2043: entries of a bibliography in BibTeX, and the bibliography in the page.  The
allocations succeed, texts have no zero byte, and `ctype.h` is that of the C locale. -/
import Verif.Model.Citations

namespace Verif.Bibliography
open Embed (find)
open Citations (Entry Citation)

/-- A string of an entry: its text, and how far behind the begin of its block it begins. -/
structure Value where
  text : Bytes
  off : Nat := 0
deriving DecidableEq

/-- `free`: only the begin of a block can be freed. -/
def free (v : Value) : C Unit := if v.off = 0 then .val () else .ub

/-- src/extensions/citations.c:1250-1253: the text without the white space at its end; it does not begin with white space. -/
def trimEnd (s : Bytes) : Bytes := (s.reverse.dropWhile isSpace).reverse

/-- src/extensions/citations.c:1261-1279 `remove_braces` with `trim_string` (1242-1256), which moves the pointer behind the white
space at the front. -/
def removeBraces (s : Bytes) : Value :=
  let r := s.filter fun c => c != c!"{" && c != c!"}"
  ⟨trimEnd (r.dropWhile isSpace), (r.takeWhile isSpace).length⟩

/-- src/extensions/citations.c:1358-1383: the value up to the brace that closes it, behind `d` other open braces. -/
def close : Nat → Bytes → Option (Bytes × Bytes)
  | _, [] => none
  | d, c :: s =>
    if c = c!"{" then (close (d + 1) s).map fun p => (c :: p.1, p.2)
    else if c = c!"}" then
      match d with
      | 0 => some ([], s)
      | d + 1 => (close d s).map fun p => (c :: p.1, p.2)
    else (close d s).map fun p => (c :: p.1, p.2)

/-- src/extensions/citations.c:1327-1412 `parse_bibtex_field`: the name, the value, and what is behind it. -/
def field (s : Bytes) : Option (Bytes × Value × Bytes) :=
  let s := s.dropWhile isSpace
  if c!"=" ∈ s then
    let name := trimEnd (s.takeWhile (· != c!"="))
    if name = [] then none
    else
      let p := ((s.dropWhile (· != c!"=")).drop 1).dropWhile isSpace
      let bare := some (name, ⟨trimEnd (p.takeWhile fun c => c != c!"," && c != c!"}"), 0⟩, p.dropWhile fun c => c != c!"," && c != c!"}")
      match p with
      | c :: q =>
        if c = c!"{" then
          match close 0 q with
          | some (v, r) => some (name, removeBraces v, r)
          | none => none
        else bare
      | [] => bare
  else none

/-- The strings of an entry. -/
structure Record where
  id : Bytes
  title : Option Value := none
  author : Option Value := none
  year : Option Value := none
  container : Option Value := none
  publisher : Option Value := none
  volume : Option Value := none
  page : Option Value := none
deriving DecidableEq

/-- src/extensions/citations.c:1501-1527: the field goes to the entry, or is freed. -/
def assign (name : Bytes) (v : Value) (e : Record) : C Record :=
  let n := name.map toLower
  if n = b!"title" then .val { e with title := some v }
  else if n = b!"author" then .val { e with author := some v }
  else if n = b!"year" then .val { e with year := some v }
  else if n = b!"journal" then .val { e with container := some v }
  else if n = b!"publisher" then .val { e with publisher := some v }
  else if n = b!"volume" then .val { e with volume := some v }
  else if n = b!"pages" then .val { e with page := some v }
  else (free v).bind fun _ => .val e

/-- White space, or a comma. -/
def sep (c : Byte) : Bool := isSpace c || c == c!","

/-- src/extensions/citations.c:1489-1550: the fields of an entry. -/
def fields : Nat → Record → Bytes → C Record
  | 0, e, _ => .val e
  | _, e, [] => .val e
  | n + 1, e, c :: t =>
    if c = c!"}" then .val e
    else
      let s := (if c = c!"," then t else c :: t).dropWhile isSpace
      if s.head? = some c!"}" then .val e
      else
        match field s with
        | some (k, v, r) => (assign k v e).bind fun e => fields n e (r.dropWhile sep)
        | none => .val e

/-- src/extensions/citations.c:1446-1563: the entries; the first one of the registry is the last one of the file.  If there is no
closing brace, a null pointer is read.  The type of an entry is parsed, but not kept. -/
def entries : Nat → List Record → Bytes → C (List Record)
  | 0, es, _ => .val es
  | n + 1, es, s =>
    match s.dropWhile (· != c!"@") with
    | [] => .val es
    | c :: t =>
      let type := t.takeWhile fun c => c != c!"{" && !isSpace c
      let rest := t.dropWhile fun c => c != c!"{" && !isSpace c
      let k := (rest.drop 1).dropWhile sep
      let key := k.takeWhile fun c => c != c!"," && c != c!"}"
      if rest.head? ≠ some c!"{" ∨ type = [] ∨ key = [] then entries n es t
      else
        (fields (s.length + 1) { id := trimEnd key } (k.dropWhile fun c => c != c!"," && c != c!"}")).bind fun e =>
          match (c :: t).dropWhile (· != c!"}") with
          | [] => .ub
          | _ :: r => entries n (e :: es) r

/-- src/extensions/citations.c:1436-1566 `apex_parse_bibtex`. -/
def bibtex (s : Bytes) : C (List Record) := entries (s.length + 1) [] s

/-- The strings of an entry that are not null. -/
def strings (e : Record) : List Value := [e.title, e.author, e.year, e.container, e.publisher, e.volume, e.page].filterMap id

/-- src/extensions/citations.c:1189-1220 `apex_free_bibliography_registry`, called at the end of each conversion. -/
def freeAll : List Record → C Unit
  | [] => .val ()
  | e :: es => if (strings e).all fun v => v.off == 0 then freeAll es else .ub

/-- The entry that the rest of the code sees. -/
def seen (e : Record) : Entry :=
  { id := e.id, title := e.title.map (·.text), author := e.author.map (·.text), year := e.year.map (·.text),
    container := e.container.map (·.text), publisher := e.publisher.map (·.text), volume := e.volume.map (·.text), page := e.page.map (·.text) }

/-- src/extensions/citations.c:2015-2034: the entries of a file are added to those of the files before; an entry with the same
identifier stays. -/
def merge (m : List Entry) (file : List Entry) : List Entry :=
  file.foldl (fun m e => if m.any fun x => x.id == e.id then m else e :: m) m

/-- The text of an entry that is written, and whether it has content. -/
structure Out where
  out : Bytes
  content : Bool

/-- `snprintf` to the rest of the block of 2048 bytes: what does not fit is overwritten afterwards. -/
def piece (s : Bytes) (o : Bytes) : Bytes := if o.length + s.length < 2048 then o ++ s else o

/-- src/extensions/citations.c:689-711, 770-781: a part with its separator in one step. -/
def joined (sp : Bytes) (v : Option Bytes) (b : Out) : Out :=
  match v with
  | some v =>
    if v = [] then b
    else
      let s := if b.content then sp ++ v else v
      if b.out.length + s.length < 2048 then ⟨b.out ++ s, true⟩ else b
  | none => b

/-- src/extensions/citations.c:713-768, 783-800: a part, its separator before it. -/
def separate (sp pre post : Bytes) (v : Option Bytes) (b : Out) : Out :=
  match v with
  | some v =>
    if v = [] then b
    else
      let o := if b.content then piece sp b.out else b.out
      let s := pre ++ v ++ post
      if o.length + s.length < 2048 then ⟨o ++ s, true⟩ else ⟨o, b.content⟩
  | none => b

/-- src/extensions/citations.c:666-809 `format_bibliography_entry`; the closing tag may be cut. -/
def format (e : Entry) : Option Bytes :=
  let start := b!"<div id=\"ref-" ++ e.id ++ b!"\" class=\"csl-entry\">"
  if start.length < 2048 then
    let b : Out := ⟨start, false⟩
    let b := joined [] e.author b
    let b := joined b!" " e.year b
    let b := separate b!". " b!"<em>" b!"</em>" e.title b
    let b := separate b!". " b!"<em>" b!"</em>" e.container b
    let b := separate b!" " [] [] e.volume b
    let b := joined b!": " e.page b
    let b := separate b!". " [] [] e.publisher b
    some (b.out ++ b!"</div>\n".take (2047 - b.out.length))
  else none

/-- src/extensions/citations.c:838-867: the entries that are cited, each once; a pointer to an entry is its place in the list. -/
def cited (bib : List Entry) : List Nat → List Citation → List Nat
  | l, [] => l
  | l, x :: cs =>
    match bib.findIdx? fun e => e.id == x.key with
    | some i => cited bib (if i ∈ l then l else l ++ [i]) cs
    | none => cited bib l cs

/-- src/extensions/citations.c:893-920: the entries one after the other, in a growing block of `cap` bytes. -/
def body : List Entry → Nat → Bytes → Nat × Bytes
  | [], cap, o => (cap, o)
  | e :: es, cap, o =>
    match format e with
    | some h => body es (if cap - o.length ≤ h.length then (o.length + h.length + 1) * 2 else cap) (o ++ h)
    | none => body es cap o

/-- src/extensions/citations.c:814-928 `apex_generate_bibliography`; `none` for a null pointer.  The closing tag may be cut. -/
def generate (bib : List Entry) (cs : List Citation) : Option Bytes :=
  let l := cited bib [] cs
  if l = [] then none
  else
    let b := body (l.filterMap fun i => bib[i]?) 4096 b!"<div id=\"refs\" class=\"references csl-bib-body\">\n"
    some (b.2 ++ b!"</div>\n".take (b.1 - b.2.length - 1))

/-- src/extensions/citations.c:933-1005 `apex_insert_bibliography`.  The block is long enough. -/
def insert (bib : List Entry) (cs : List Citation) (page : Bytes) : Bytes :=
  match generate bib cs with
  | none => page
  | some h =>
    match find b!"<!-- REFERENCES -->" page with
    | some (a, b) => a ++ h ++ b
    | none =>
      match find b!"{backmatter}" page with
      | some (a, b) => a ++ h ++ b
      | none =>
        match find b!"<div id=\"refs\">" page with
        | some (a, b) =>
          match find b!"</div>" (b!"<div id=\"refs\">" ++ b) with
          | some (c, d) => a ++ c ++ h ++ b!"</div>" ++ d
          | none => page ++ h
        | none => page ++ h

end Verif.Bibliography
