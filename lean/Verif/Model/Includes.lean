/-
File includes: `apex_process_includes` of src/extensions/includes.c and what it calls.
The file system, `glob`, `dirname`, the metadata of a file and the regular expressions are an arbitrary `World`.
Simplified: `malloc` succeeds; lengths fit in `int`; file contents hold no NUL (they are read as C strings); a file
does not change while it is read.  Calls and loop rounds use up fuel, so that not finishing can be expressed.
-/
import Verif.Model.Address
import Verif.Model.Csv

namespace Verif.Includes

open Transforms (strstr)

/-- What a program sees of its surroundings. -/
structure World where
  /-- `read_file_contents` (includes.c:23-49): `none` when it cannot be opened or is larger than 10 MB -/
  read : Bytes → Option Bytes
  /-- `apex_file_exists` (includes.c:94-98) -/
  exist : Bytes → Bool
  /-- the first match of `glob` (includes.c:903-925) -/
  glob : Bytes → Option Bytes
  /-- `get_directory` (includes.c:78-89) -/
  dirname : Bytes → Bytes
  /-- the value of `transclude base` in the metadata of a file (includes.c:1164-1170, 1254-1260, 1395-1401 and 944) -/
  base : Bytes → Option Bytes
  /-- `regcomp` with `REG_EXTENDED`, and `regexec` -/
  regcomp : Bytes → Option (Bytes → Bool)

/-- A computation that may not finish (`none`) or step outside memory. -/
abbrev M (α : Type) := Option (C α)

def M.bind {α β : Type} (x : M α) (f : α → M β) : M β :=
  match x with
  | none => none
  | some .ub => some .ub
  | some (.val a) => f a

/-- `resolve_path` (includes.c:54-73). -/
def resolvePath (file : Bytes) (base : Option Bytes) : Bytes :=
  if file.head? = some c!"/" then file
  else match base with
    | none => file
    | some b => if b = [] then file else b ++ b!"/" ++ file

/-- `strpbrk(filepath, "*?[{")` -/
def hasGlob (file : Bytes) : Bool := file.any fun c => c == c!"*" || c == c!"?" || c == c!"[" || c == c!"{"

/-- The loop over the preferred extensions (includes.c:880-891). -/
def firstExisting (w : World) (name : Bytes) (base : Option Bytes) : List Bytes → Option Bytes
  | [] => none
  | e :: es =>
    let path := resolvePath ((name ++ e).take 1023) base
    if w.exist path then some path else firstExisting w name base es

/-- `apex_resolve_wildcard` (includes.c:857-930). -/
def resolveWildcard (w : World) (file : Bytes) (base : Option Bytes) : Option Bytes :=
  let wildcard := strstr file b!".*"
  let hasOther := hasGlob file && !(match wildcard with
    | some i => (file.drop (i + 1)).head? == none
    | none => false)
  let general :=
    if hasGlob file then w.glob (resolvePath file base) else some (resolvePath file base)
  match wildcard with
  | some i =>
    if !hasOther then
      if i ≥ 1024 then none
      else match firstExisting w (file.take i) base [b!".html", b!".md", b!".txt", b!".tex"] with
        | some p => some p
        | none => general
    else general
  | none => general

/-- `get_transclude_base` (includes.c:936-974); `tb` is the value in the metadata. -/
def transcludeBase (base tb : Option Bytes) : Option Bytes :=
  match tb with
  | none => base
  | some t =>
    if t.head? = some c!"/" then some t
    else if t.head? = some c!"." ∧ ((t.drop 1).head? = some c!"/" ∨ t.drop 1 = []) then
      (match base with | some b => some b | none => some b!".")
    else match base with
      | some b => some (b ++ b!"/" ++ t)
      | none => some t

/-- `apex_file_type_t` (includes.c:103-111); HTML, Markdown and text are treated alike. -/
inductive FileType where
  | image | csv | tsv | code | text
deriving DecidableEq, Repr

/-- What follows the last dot (`strrchr`). -/
def extension (file : Bytes) : Option Bytes :=
  if c!"." ∈ file then some (file.reverse.takeWhile (· != c!".")).reverse else none

/-- `apex_detect_file_type` (includes.c:129-167). -/
def fileType (file : Bytes) : FileType :=
  match extension file with
  | none => .text
  | some e =>
    let e := e.map toLower
    if e ∈ [b!"jpg", b!"jpeg", b!"png", b!"gif", b!"webp", b!"svg"] then .image
    else if e = b!"csv" then .csv
    else if e = b!"tsv" then .tsv
    else if e ∈ [b!"html", b!"htm", b!"md", b!"markdown", b!"mmd"] then .text
    else if e ∈ [b!"c", b!"h", b!"cpp", b!"py", b!"js", b!"java", b!"swift", b!"go", b!"rs", b!"sh"] then .code
    else .text

/-! ### Fences -/

/-- The round of `normalize_fence_delimiters` at a run of `n` backticks at the start of a line (includes.c:1000-1061):
how many are written, and the lengths of the open fence as found and as written. -/
def fence (open_ : Option (Nat × Nat)) (n : Nat) : Nat × Option (Nat × Nat) :=
  if n ≥ 3 then
    match open_ with
    | some (orig, norm) => if n = orig then (norm, none) else (n, open_)
    | none => let k := if n % 2 = 0 then n + 1 else n; (k, some (n, k))
  else (n, open_)

/-- The loop of `normalize_fence_delimiters` (includes.c:996-1066); `start` is `at_line_start`. -/
def normLoop (cap : Nat) : Nat → Bool → Option (Nat × Nat) → Bytes → Bytes → C Bytes
  | 0, _, _, out, _ => .val out
  | _ + 1, _, _, out, [] => .val out
  | fuel + 1, start, open_, out, c :: t =>
    if start && c == c!"`" then
      let n := ((c :: t).takeWhile (· == c!"`")).length
      let rest := (c :: t).dropWhile (· == c!"`")
      let f := fence open_ n
      let line := if n ≥ 3 then rest.takeWhile fun c => c != c!"\n" && c != c!"\r" else []
      puts cap out (List.replicate f.1 c!"`") >>= fun out =>
      puts cap out line >>= fun out =>
      normLoop cap fuel false f.2 out (rest.drop line.length)
    else
      put cap out c >>= fun out =>
      normLoop cap fuel (c == c!"\n") open_ out t

/-- `normalize_fence_delimiters` (includes.c:983-1070). -/
def normalize (text : Bytes) : C Bytes :=
  let cap := text.length * 2 + 1
  normLoop cap text.length true none [] text >>= fun out => finish cap out

/-! ### The includes -/

/-- The address after an include, if any: `[…]` (includes.c:1224-1241, 1368-1388).  What is read, and what follows. -/
def address (s : Bytes) : Option (Bytes × Bytes) :=
  if s.head? = some c!"[" then Address.upTo c!"]" (s.drop 1) else none

/-- The part of a file that the address selects. -/
def part (w : World) (fuel : Nat) (content : Bytes) (addr : Option (Bytes × Bytes)) : M Bytes :=
  match addr with
  | some (a, _) => if 0 < a.length ∧ a.length < 1024 then Address.select w.regcomp fuel content a else some (.val content)
  | none => some (.val content)

/-- Where includes in an included file start from (includes.c:1172-1179, 1285-1292, 1430-1437). -/
def innerBase (w : World) (path content : Bytes) : Option Bytes :=
  transcludeBase (some (w.dirname path)) (w.base content)

/-- A call of `apex_process_includes` on text from an included file: `recurse base tb text`. -/
abbrev Recurse := Option Bytes → Option Bytes → Bytes → M Bytes

/-- CSV and TSV files become tables (includes.c:1276-1283, 1419-1426). -/
def tabled (type : FileType) (content : Bytes) : M Bytes :=
  if type = .csv ∨ type = .tsv then
    match Csv.toTable content (type = .tsv) with
    | .ub => some .ub
    | .val none => some (.val content)
    | .val (some t) => some (.val t)
  else some (.val content)

/-- The result of an attempt: what to insert, and what is left to read.  `none`: no include here. -/
abbrev Step := Option (Bytes × Bytes)

/-- `/file` at the start of a line (includes.c:1121-1209). -/
def slash (w : World) (recurse : Recurse) (base : Option Bytes) (s : Bytes) : M Step :=
  let sep := fun c => c == c!" " || c == c!"\t" || c == c!"\n" || c == c!"\r"
  let file := (s.drop 1).takeWhile fun c => !sep c
  let rest := (s.drop 1).dropWhile fun c => !sep c
  if 0 < file.length ∧ file.length < 1024 then
    let path := resolvePath file base
    if w.exist path then
      match w.read path with
      | none => some (.val none)
      | some content =>
        match fileType path with
        | .image => some (.val (some (b!"![](" ++ file ++ b!")\n", rest)))
        | .csv | .tsv =>
          (match Csv.toTable content (fileType path = .tsv) with
          | .ub => some .ub
          | .val t => some (.val (some (t.getD [], rest))))
        | .code =>
          some (.val (some (b!"\n```" ++ (extension file).getD [] ++ b!"\n" ++ content ++ b!"\n```\n", rest)))
        | .text =>
          M.bind (recurse (innerBase w path content) (w.base content) content) fun t => some (.val (some (t, rest)))
    else some (.val none)
  else some (.val none)

/-- `{{file}}` (includes.c:1212-1332). -/
def braces (w : World) (fuel : Nat) (recurse : Recurse) (base : Option Bytes) (s : Bytes) : M Step :=
  match strstr (s.drop 2) b!"}}" with
  | none => some (.val none)
  | some i =>
    if 0 < i ∧ i < 1024 then
      let file := (s.drop 2).take i
      let after := (s.drop 2).drop (i + 2)
      let addr := address after
      let path := (resolveWildcard w file base).getD (resolvePath file base)
      match w.read path with
      | none => some (.val none)
      | some content =>
        M.bind (part w fuel content addr) fun text =>
        M.bind (tabled (fileType path) text) fun text =>
        M.bind (recurse (innerBase w path content) (w.base content) text) fun t =>
        some (.val (some (t, match addr with | some (_, rest) => rest | none => after)))
    else some (.val none)

/-- The language of a code include (includes.c:1459-1471). -/
def language (file : Bytes) : Bytes :=
  match extension file with
  | none => []
  | some e =>
    if e = b!"c" ∨ e = b!"h" then b!"c"
    else if e = b!"cpp" ∨ e = b!"cc" then b!"cpp"
    else if e = b!"py" then b!"python"
    else if e = b!"js" then b!"javascript"
    else if e = b!"rb" then b!"ruby"
    else if e = b!"sh" then b!"bash"
    else e

/-- `<<[file]`, `<<(file)`, `<<{file}` at the start of a line (includes.c:1334-1517). -/
def marked (w : World) (fuel : Nat) (recurse : Recurse) (base : Option Bytes) (s : Bytes) : M Step :=
  let close :=
    if (s.drop 2).head? = some c!"[" then some c!"]"
    else if (s.drop 2).head? = some c!"(" then some c!")"
    else if (s.drop 2).head? = some c!"{" then some c!"}"
    else none
  match close with
  | none => some (.val none)
  | some close =>
    match Address.upTo close (s.drop 3) with
    | none => some (.val none)
    | some (file, after) =>
      if 0 < file.length ∧ file.length < 1024 then
        let addr := address (Address.skipSpace after)
        let rest := match addr with | some (_, rest) => rest | none => after
        let path := resolvePath file base
        match w.read path with
        | none => some (.val (some ([], rest)))
        | some content =>
          M.bind (part w fuel content addr) fun text =>
          if close = c!"]" then
            M.bind (tabled (fileType path) text) fun text =>
            M.bind (recurse (innerBase w path content) (w.base content) text) fun t =>
            some (.val (some (t, rest)))
          else if close = c!")" then
            some (.val (some ((b!"\n```" ++ language file ++ b!"\n").take 127 ++ text ++ b!"\n```\n", rest)))
          else
            some (.val (some ((b!"<!--APEX_RAW_INCLUDE:" ++ path ++ b!"-->").take 1023, rest)))
      else some (.val none)

/-- The attempts in order (includes.c:1121-1516). -/
def step (w : World) (fuel : Nat) (recurse : Recurse) (base : Option Bytes) (start code : Bool) (s : Bytes) : M Step :=
  if !code && s.head? == some c!"/" && start then slash w recurse base s
  else if !code && b!"{{".isPrefixOf s then braces w fuel recurse base s
  else if !code && start && b!"<<".isPrefixOf s then marked w fuel recurse base s
  else some (.val none)

/-- The loop (includes.c:1108-1525): `start` tells whether the byte before is a newline or there is none. -/
def loop (w : World) (recurse : Recurse) (base : Option Bytes) (cap : Nat) : Nat → Bool → Bool → Bytes → Bytes → M Bytes
  | 0, _, _, _, _ => none
  | _ + 1, _, _, out, [] => some (finish cap out)
  | fuel + 1, start, code, out, c :: t =>
    let code := if c = c!"`" then !code else code
    M.bind (step w fuel recurse base start code (c :: t)) fun r =>
    match r with
    | some (insert, rest) =>
      if insert.length < cap - out.length then
        M.bind (some (puts cap out insert)) fun out => loop w recurse base cap fuel false code out rest
      else loop w recurse base cap fuel false code out rest
    | none =>
      if cap - out.length > 0 then
        M.bind (some (put cap out c)) fun out => loop w recurse base cap fuel (c == c!"\n") code out t
      else loop w recurse base cap fuel (c == c!"\n") code out t

/-- `apex_process_includes` (includes.c:1075-1535); `tb` is `transclude base` in the metadata. -/
def process (w : World) : Nat → Nat → Option Bytes → Option Bytes → Bytes → M Bytes
  | 0, _, _, _, _ => none
  | fuel + 1, depth, base, tb, text =>
    if depth > 10 then some (.val text)
    else
      M.bind (some (normalize text)) fun text =>
      loop w (fun base tb text => process w fuel (depth + 1) base tb text) (transcludeBase base tb)
        (max (text.length * 10) (1024 * 1024)) fuel true false [] text

end Verif.Includes
