/- src/extensions/citations.c:1074-1160, 1567-2043: bibliographies in CSL YAML and CSL JSON, and which files are read.  Allocations succeed, texts have no zero byte,
and `ctype.h` is that of the C locale. -/
import Verif.Model.Bibliography

namespace Verif.CslYaml
open Bibliography (Value Record free trimEnd strings seen merge bibtex)
open Citations (Entry)

/-- An entry with its type. -/
structure Item where
  entry : Record
  type : Option Value := none
deriving DecidableEq

/-- src/extensions/citations.c:1242-1256 `trim_string` on a text in a buffer. -/
def trimBoth (s : Bytes) : Bytes := trimEnd (s.dropWhile isSpace)

/-- src/extensions/citations.c:1593-1600 `get_indent_level`. -/
def indent (s : Bytes) : Nat := (s.takeWhile (· = c!" ")).length

/-- src/extensions/citations.c:1622-1627: the text up to the quote `q`; a backslash hides the next byte. -/
def quoted (q : Byte) : Bytes → Bytes
  | [] => []
  | [c] => if c = q then [] else [c]
  | c :: d :: s => if c = q then [] else if c = c!"\\" then c :: d :: quoted q s else c :: quoted q (d :: s)

/-- src/extensions/citations.c:1605-1646 `extract_yaml_value`; `trim_string` moves the pointer behind the white space at the front. -/
def value (s : Bytes) : Option Value :=
  match s.dropWhile isSpace with
  | [] => none
  | c :: t =>
    let r := if c = c!"\"" || c = c!"'" then quoted c t
      else trimEnd ((c :: t).takeWhile fun c => c ≠ c!"\n" && c ≠ c!"\r" && c ≠ c!"#")
    if r = [] then none else some ⟨trimBoth r, (r.takeWhile isSpace).length⟩

/-- The next line. -/
def nextLine (s : Bytes) : Bytes := (s.dropWhile (· ≠ c!"\n")).drop 1

/-- src/extensions/citations.c:1666-1703: the family and the given name.  Behind a dash with nothing but white space the end of the text is passed. -/
def names (base : Nat) : Nat → Option Value → Option Value → Bytes → C (Option Value × Option Value)
  | 0, f, g, _ => .val (f, g)
  | _, f, g, [] => .val (f, g)
  | n + 1, f, g, c :: s =>
    let t := if c = c!"-" && s.head?.any isSpace then s.dropWhile isSpace else c :: s
    if b!"family:".isPrefixOf t then
      let u := (t.drop 7).dropWhile isSpace
      match value u with
      | some v => names base n (some v) g (nextLine u)
      | none => names base n f g u
    else if b!"given:".isPrefixOf t then
      let u := (t.drop 6).dropWhile isSpace
      match value u with
      | some v => names base n f (some v) (nextLine u)
      | none => names base n f g u
    else
      match t with
      | [] => .ub
      | d :: r =>
        if d = c!"\n" then if indent r ≤ base then .val (f, g) else names base n f g r
        else if d = c!"}" || d = c!"]" then .val (f, g)
        else names base n f g r

/-- `free` of a string or of a null pointer. -/
def release : Option Value → C Unit
  | some v => free v
  | none => .val ()

/-- src/extensions/citations.c:1705-1722. -/
def fullName : Option Value → Option Value → Option Bytes
  | some f, some g => some (f.text ++ b!", " ++ g.text)
  | some f, none => some f.text
  | none, some g => some g.text
  | none, none => none

/-- src/extensions/citations.c:1656-1727 `parse_yaml_author`. -/
def author (base : Nat) (s : Bytes) : C (Option Value) := do
  let t := s.dropWhile fun c => isSpace c || c = c!"{" || c = c!"["
  let (f, g) ← names base t.length none none t
  let _ ← release f
  let _ ← release g
  .val ((fullName f g).map fun s => ⟨s, 0⟩)

/-- src/extensions/citations.c:1743-1810 `parse_yaml_date`: `parts` says whether `date-parts:` was seen. -/
def dateLoop (base : Nat) : Nat → Bool → Int → Bytes → Option Bytes
  | 0, _, _, _ => none
  | _, _, _, [] => none
  | n + 1, parts, d, c :: s =>
    if b!"date-parts:".isPrefixOf (c :: s) then
      let t := (s.drop 10).dropWhile fun c => isSpace c && c ≠ c!"\n"
      dateLoop base n true d (if t.head? = some c!"\n" then t.drop 1 else t)
    else if parts then
      if c = c!"[" then dateLoop base n parts (d + 1) s
      else if c = c!"]" then if d - 1 = 0 then none else dateLoop base n parts (d - 1) s
      else if c = c!"-" && s.head?.any isSpace && 1 ≤ d then
        let t := s.dropWhile isSpace
        if t.head? = some c!"-" then
          let u := (t.drop 1).dropWhile isSpace
          if u.takeWhile isDigit ≠ [] then some (u.takeWhile isDigit) else dateLoop base n parts d (u.dropWhile isDigit)
        else dateLoop base n parts d t
      else if c = c!"\n" then if indent s ≤ base && d = 0 then none else dateLoop base n parts d s
      else dateLoop base n parts d s
    else if b!"year:".isPrefixOf (c :: s) then
      let u := (s.drop 4).dropWhile isSpace
      if u.takeWhile isDigit ≠ [] then some (u.takeWhile isDigit) else none
    else dateLoop base n parts d s

/-- src/extensions/citations.c:1737-1813. -/
def date (base : Nat) (s : Bytes) : Option Bytes := dateLoop base s.length false 0 s

/-- What is kept while the lines are read. -/
structure St where
  items : List Item
  cur : Option Item
  inEntry : Bool

/-- src/extensions/citations.c:1852-1859, 1950-1955: the entry is added to the registry. -/
def St.add (st : St) : List Item := st.cur.toList ++ st.items

/-- A new value, if there is one. -/
def over (v old : Option Value) : Option Value := v.or old

/-- src/extensions/citations.c:1885-1942: a field of the entry.  `rest` is the text behind the line. -/
def set (key v : Bytes) (ind : Nat) (rest : Bytes) (e : Item) : C Item :=
  if key = b!"type" then .val { e with type := over (value v) e.type }
  else if key = b!"title" then .val { e with entry := { e.entry with title := over (value v) e.entry.title } }
  else if key = b!"author" then do
    let a ← author ind (if v = [] && (rest.head? = some c!"-" || b!"  ".isPrefixOf rest) then rest else v)
    .val { e with entry := { e.entry with author := over a e.entry.author } }
  else if key = b!"issued" || key = b!"year" then
    let y := date ind (if v = [] && (rest.head? = some c!" " || rest.head? = some c!"-") then rest else v)
    .val { e with entry := { e.entry with year := over (y.map fun y => ⟨y, 0⟩) e.entry.year } }
  else if key = b!"container-title" then .val { e with entry := { e.entry with container := over (value v) e.entry.container } }
  else if key = b!"publisher" then .val { e with entry := { e.entry with publisher := over (value v) e.entry.publisher } }
  else if key = b!"volume" then .val { e with entry := { e.entry with volume := over (value v) e.entry.volume } }
  else if key = b!"page" then .val { e with entry := { e.entry with page := over (value v) e.entry.page } }
  else .val e

/-- src/extensions/citations.c:1835-1945: a line, cut after 1023 bytes, with the text behind it. -/
def line (st : St) (l rest : Bytes) : C St :=
  let l := l.take 1023
  let t := trimBoth l
  if t = [] || t.head? = some c!"#" then .val st
  else if t.head? = some c!"-" && indent l = 0 then .val ⟨st.add, none, true⟩
  else if !st.inEntry || c!":" ∉ t then .val st
  else
    let key := trimBoth (t.takeWhile (· ≠ c!":"))
    let v := trimBoth ((t.dropWhile (· ≠ c!":")).drop 1)
    match st.cur with
    | none =>
      if key = b!"id" then
        match value v with
        | some x => do
          let _ ← free x
          .val { st with cur := some { entry := { id := x.text } } }
        | none => .val st
      else .val st
    | some e => do
      let e ← set key v (indent l) rest e
      .val { st with cur := some e }

/-- src/extensions/citations.c:1830-1948: the lines.  Behind a last line without a line end the text is read on. -/
def lines : Nat → St → Bytes → C St
  | 0, st, _ => .val st
  | _, st, [] => .val st
  | n + 1, st, s =>
    if c!"\n" ∈ s then do
      let st ← line st (s.takeWhile (· ≠ c!"\n")) (nextLine s)
      lines n st (nextLine s)
    else .ub

/-- src/extensions/citations.c:1818-1958 `apex_parse_csl_yaml`; the first entry is the last one of the file. -/
def yaml (s : Bytes) : C (List Item) := do
  let st ← lines s.length ⟨[], none, false⟩ s
  .val st.add

/-- src/extensions/citations.c:1572-1588 `apex_parse_csl_json`. -/
def json (_ : Bytes) : List Item := []

/-- src/extensions/citations.c:1189-1203: an entry is freed. -/
def freeItem (e : Item) : C Unit := if (e.type.toList ++ strings e.entry).all fun v => v.off == 0 then .val () else .ub

/-- src/extensions/citations.c:1136-1141 `bibliography_format_t`. -/
inductive Format
  | bibtex
  | json
  | yaml
  | unknown
deriving DecidableEq

/-- src/extensions/citations.c:1143-1160 `detect_bibliography_format`. -/
def format (path : Bytes) : Format :=
  if c!"." ∈ path then
    let e := (path.reverse.takeWhile (· ≠ c!".")).reverse.map toLower
    if e = b!"bib" || e = b!"bibtex" then .bibtex
    else if e = b!"json" then .json
    else if e = b!"yaml" || e = b!"yml" then .yaml
    else .unknown
  else .unknown

/-- src/extensions/citations.c:1963-1994 `apex_load_bibliography_file` on the content of the file.  In BibTeX the type of an entry is a string of its own. -/
def loadFile (path s : Bytes) : C (List Item) :=
  let tex : C (List Item) := do
    let es ← bibtex s
    .val (es.map fun e => { entry := e })
  match format path with
  | .bibtex => tex
  | .json => .val (json s)
  | .yaml => yaml s
  | .unknown => if c!"@" ∈ s && c!"{" ∈ s then tex else .val []

/-- src/extensions/citations.c:1106-1131 `resolve_bibliography_path`. -/
def resolve (path : Bytes) (base : Option Bytes) : Bytes :=
  if path.head? = some c!"/" || (path.head? = some c!"." && (path[1]? = some c!"/" || path[1]? = some c!".")) then path
  else
    match base with
    | some b => if b = [] then path else if b.getLast? = some c!"/" then b ++ path else b ++ b!"/" ++ path
    | none => path

/-- src/extensions/citations.c:2016-2034: the entries of a file; one whose identifier is known is freed. -/
def mergeItems : List Item → List Item → C (List Item)
  | m, [] => .val m
  | m, e :: l =>
    if m.any fun x => x.entry.id == e.entry.id then do
      let _ ← freeItem e
      mergeItems m l
    else mergeItems (e :: m) l

/-- src/extensions/citations.c:1999-2042 `apex_load_bibliography`; `disk` are the files that can be read, of at most 10 MB (1074-1101). -/
def load (disk : Bytes → Option Bytes) (base : Option Bytes) : List Item → List Bytes → C (List Item)
  | m, [] => .val m
  | m, p :: ps =>
    match disk (resolve p base) with
    | some s => do
      let l ← loadFile (resolve p base) s
      let m ← mergeItems m l
      load disk base m ps
    | none => load disk base m ps

/-- src/extensions/citations.c:1225-1237 `apex_find_bibliography_entry`. -/
def lookup (l : List Item) (id : Bytes) : Option Item := l.find? fun e => e.entry.id == id

end Verif.CslYaml
