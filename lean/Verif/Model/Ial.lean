/-
Model of the attribute lists of src/extensions/ial.c (parsing, definitions, references, merging, output).
-/
import Verif.Model.Text
import Verif.Model.DropBuf

namespace Verif.Ial

/-- ial.h:35-42 (`apex_attributes`). -/
structure Attrs where
  id : Option Bytes
  classes : List Bytes
  attrs : List (Bytes × Bytes)
deriving DecidableEq, Repr

/-- ial.c:52-55 (`create_attributes`). -/
def empty : Attrs := { id := none, classes := [], attrs := [] }

/-- ial.c:60-65 (`add_class`). -/
def addClass (a : Attrs) (c : Bytes) : Attrs := { a with classes := a.classes ++ [c] }

/-- ial.c:70-78 (`add_attribute`). -/
def addAttr (a : Attrs) (k v : Bytes) : Attrs := { a with attrs := a.attrs ++ [(k, v)] }

/-- `while (!stop(*p)) p++;` over the memory from `p` on: the bytes passed and the memory from the new `p`.
Reading behind the memory is undefined. -/
def scan (stop : Byte → Bool) : Bytes → C (Bytes × Bytes)
  | [] => .ub
  | c :: s => if stop c then .val ([], c :: s) else do
    let (x, r) ← scan stop s
    .val (c :: x, r)

/-- ial.c:141-142, 156-159: a curly quote (left or right) at `p`. -/
def curly : Bytes → C Bool
  | [] => .ub
  | c :: s => if c ≠ 0xE2 then .val false else match s with
    | [] => .ub
    | d :: s => if d ≠ 0x80 then .val false else match s with
      | [] => .ub
      | e :: _ => .val (e == 0x9C || e == 0x9D)

/-- ial.c:154-161: up to the closing curly quote or the end of the string. -/
def toCurly : Bytes → C (Bytes × Bytes)
  | [] => .ub
  | c :: s => if c = 0 then .val ([], c :: s) else do
    if ← curly (c :: s) then .val ([], c :: s) else do
      let (x, r) ← toCurly s
      .val (c :: x, r)

/-- ial.c:177-180: up to the closing straight quote or the end of the string; a backslash passes the next
byte too. -/
def toQuote (q : Byte) : Bytes → C (Bytes × Bytes)
  | [] => .ub
  | [c] => if c = 0 ∨ c = q then .val ([], [c]) else .ub
  | c :: d :: s =>
    if c = 0 ∨ c = q then .val ([], c :: d :: s)
    else if c = c!"\\" ∧ d ≠ 0 then do
      let (x, r) ← toQuote q s
      .val (c :: d :: x, r)
    else do
      let (x, r) ← toQuote q (d :: s)
      .val (c :: x, r)

/-- ial.c:138-195: the value after `=`, and where parsing goes on. A missing closing quote gives an empty value;
after a straight quote everything is skipped, after a curly one only the quote. -/
def value (s : Bytes) : C (Bytes × Bytes) := do
  if ← curly s then
    let s := s.drop 3
    let (x, r) ← toCurly s
    match r with
    | [] => .ub
    | c :: _ => if c = 0xE2 then .val (x, r.drop 3) else .val ([], s)
  else match s with
    | [] => .ub
    | q :: t =>
      if q = c!"\"" ∨ q = c!"'" then do
        let (x, r) ← toQuote q t
        match r with
        | [] => .ub
        | c :: r' => if c = q then .val (x, r') else .val ([], r)
      else scan (fun c => c == 0 || isSpace c || c == c!"}") s

/-- ial.c:204-263: the words with a meaning of their own. -/
def marker (w : Bytes) : Option Bytes :=
  if w = b!"@2x" then some b!"data-srcset-2x"
  else if w = b!"@3x" then some b!"data-srcset-3x"
  else if w = b!"webp" then some b!"data-srcset-webp"
  else if w = b!"avif" then some b!"data-srcset-avif"
  else if w = b!"webm" then some b!"data-video-webm"
  else if w = b!"ogg" then some b!"data-video-ogg"
  else if w = b!"mp4" then some b!"data-video-mp4"
  else if w = b!"mov" then some b!"data-video-mov"
  else if w = b!"m4v" then some b!"data-video-m4v"
  else if w = b!"auto" then some b!"data-apex-auto"
  else none

/-- Stop of ial.c:102 (`#id`). -/
def idStop (c : Byte) : Bool := c == 0 || isSpace c || c == c!"." || c == c!"}"
/-- Stop of ial.c:117 (`.class`). -/
def classStop (c : Byte) : Bool := c == 0 || isSpace c || c == c!"." || c == c!"#" || c == c!"}"
/-- Stop of ial.c:129 (key or word): other white space than blanks and tabs does not end it. -/
def keyStop (c : Byte) : Bool := c == 0 || c == c!"=" || c == c!" " || c == c!"\t" || c == c!"}"

/-- ial.c:98-267: one item, with `p` at a byte that is neither white space nor NUL. -/
def item (a : Attrs) (s : Bytes) : C (Attrs × Bytes) :=
  match s with
  | [] => .ub
  | c :: t =>
    if c = c!"#" then do
      let (x, r) ← scan idStop t
      .val (if x = [] then a else { a with id := some x }, r)
    else if c = c!"." then do
      let (x, r) ← scan classStop t
      .val (if x = [] then a else addClass a x, r)
    else do
      let (k, r) ← scan keyStop s
      match r with
      | [] => .ub
      | d :: r' =>
        if d = c!"=" then do
          let (v, r'') ← value r'
          .val (addAttr a k v, r'')
        else match marker k with
          | some m => .val (addAttr a m b!"1", r)
          | none => .val (a, r')

/-- ial.c:93-268: the loop. Every turn moves `p` forward, so as many turns as there are bytes in memory
are enough (`run_fuel` in Proof/Ial.lean); without turns left the result is `ub`. -/
def run : Nat → Attrs → Bytes → C Attrs
  | 0, _, _ => .ub
  | n + 1, a, s => do
    let (_, r) ← scan (fun c => !isSpace c) s
    match r with
    | [] => .ub
    | c :: _ => if c = 0 then .val a else do
      let (a, r) ← item a r
      run n a r

/-- ial.c:85-271 (`parse_ial_content`). The content is copied into an array of 2048 bytes (at most 2047 bytes of
it) and terminated; `after` is what lies in memory behind the terminator. -/
def parse (content after : Bytes) : C Attrs :=
  let buf := content.take 2047 ++ 0 :: after
  run (buf.length + 1) empty buf

/-- ial.c:277-318 (`is_ald_line`), without the parsing of the attributes: name and content of a definition.
The check for `{i:` (282-283) is implied by the next one. -/
def aldLine (line : Bytes) : Option (Bytes × Bytes) :=
  match line.dropWhile isSpace with
  | a :: b :: t =>
    if a = c!"{" ∧ b = c!":" then
      let name := t.takeWhile fun c => c ≠ c!":" ∧ c ≠ c!"}"
      match t.dropWhile fun c => c ≠ c!":" ∧ c ≠ c!"}" with
      | d :: u =>
        if d = c!":" ∧ name ≠ [] ∧ c!"}" ∈ u then some (name, u.takeWhile (· ≠ c!"}")) else none
      | [] => none
    else none
  | _ => none

/-- The loop over the lines of ial.c:334-375 and abbreviations.c:129-202: lines are cut to `cap - 1` bytes; those
for which `test` (told how many lines came before) gives something are left out and what it gives is kept.
`cur` is the part of the line read. -/
def keepLines {α : Type} (cap : Nat) (test : Nat → Bytes → C (Option (List α))) (cur : Bytes) (n : Nat) :
    Bytes → C (Bytes × List α)
  | [] => if cur = [] then .val ([], []) else do
    match ← test n (cur.take (cap - 1)) with
    | some a => .val ([], a)
    | none => .val (cur.take (cap - 1), [])
  | c :: t =>
    if c = c!"\n" then do
      match ← test n (cur.take (cap - 1)) with
      | some a => do
        let (o, b) ← keepLines cap test [] (n + 1) t
        .val (o, a ++ b)
      | none => do
        let (o, b) ← keepLines cap test [] (n + 1) t
        .val (cur.take (cap - 1) ++ c!"\n" :: o, b)
    else keepLines cap test (cur ++ [c]) n t

/-- ial.c:321-389 (`apex_extract_alds`): the text without the definitions, and the definitions. `after n` is the
memory behind the terminator when line `n` is parsed. -/
def extractAlds (after : Nat → Bytes) (text : Bytes) : C (Bytes × List (Bytes × Attrs)) :=
  keepLines 2048 (fun n line =>
    match aldLine line with
    | some (name, content) => do
      let a ← parse content (after n)
      .val (some [(name, a)])
    | none => .val none) [] 0 text

/-- ial.c:394-402 (`find_ald`). -/
def findAld (alds : List (Bytes × Attrs)) (name : Bytes) : Option Attrs :=
  (alds.find? fun e => e.1 = name).map (·.2)

/-- ial.c:409-417 (`find_attribute_index`) and :454-457: give the first attribute of that key another value. -/
def replace (k v : Bytes) : List (Bytes × Bytes) → Option (List (Bytes × Bytes))
  | [] => none
  | (k', v') :: l => if k' = k then some ((k, v) :: l) else (replace k v l).map ((k', v') :: ·)

/-- ial.c:451-462: one overriding attribute. -/
def override (l : List (Bytes × Bytes)) (kv : Bytes × Bytes) : List (Bytes × Bytes) :=
  (replace kv.1 kv.2 l).getD (l ++ [kv])

/-- ial.c:425-466 (`merge_attributes`). -/
def merge (base over : Attrs) : Attrs :=
  { id := match over.id with | some i => some i | none => base.id
    classes := base.classes ++ over.classes
    attrs := over.attrs.foldl override base.attrs }

/-- ial.c:534-545: white space at the end cut off; the first byte always stays. -/
def trimEnd (s : Bytes) : Bytes := (s.reverse.dropWhile isSpace).reverse

/-- ial.c:504-585: the attributes for the content of an attribute list, which may begin with the name of a
definition. What is looked up is not the first word but the whole content, because the byte behind the word has
been put back (line 529). `none`: the content is blank. -/
def resolve (alds : List (Bytes × Attrs)) (after content : Bytes) : C (Option Attrs) :=
  let b := content.take 2047
  let lead := b.dropWhile isSpace
  if lead = [] then .val none else
  let token := lead.takeWhile fun c => !isSpace c && c != c!"#" && c != c!"." && c != c!"="
  let found := if token = [] then none else findAld alds (trimEnd lead)
  match found with
  | some base =>
    if ((trimEnd lead).drop token.length).dropWhile isSpace = [] then .val (some (merge base empty))
    else do
      let more ← parse ((lead.drop token.length).dropWhile isSpace) after
      .val (some (merge base more))
  | none => do
    let a ← parse b after
    .val (some a)

/-- `strrchr(text, c)`: what follows the last `c`. -/
def afterLast (c : Byte) : Bytes → Option Bytes
  | [] => none
  | d :: t => match afterLast c t with
    | some r => some r
    | none => if d = c then some t else none

/-- ial.c:472-586 (`extract_ial_from_text`): an attribute list at the end of a text. -/
def extractIal (alds : List (Bytes × Attrs)) (after text : Bytes) : C (Option Attrs) :=
  match afterLast c!"{" text with
  | none => .val none
  | some t =>
    match t with
    | [] => .val none
    | c :: u =>
      if c = c!"i" ∧ u.head? = some c!":" then .val none
      else if c ≠ c!":" ∧ c ≠ c!"#" ∧ c ≠ c!"." then .val none
      else if c!"}" ∉ t then .val none
      else if ((t.dropWhile (· ≠ c!"}")).drop 1).any (fun c => !isSpace c) then .val none
      else
        let content := (if c = c!":" then u else t).takeWhile (· ≠ c!"}")
        if content = [] then .val none else resolve alds after content

/-! ### Output -/

/-- `snprintf` into an array of `n` bytes. -/
def snp (n : Nat) (s : Bytes) : Bytes := s.take (n - 1)

/-- ` key="value"`, without the blank for the first attribute. -/
def pair (first : Bool) (k v : Bytes) : Bytes :=
  (if first then [] else b!" ") ++ k ++ b!"=\"" ++ v ++ b!"\""

/-- ial.c:615-624. -/
def idToks (a : Attrs) : List Bytes :=
  match a.id with
  | some i => [snp 512 (pair true b!"id" i)]
  | none => []

/-- ial.c:627-639. -/
def classToks (first : Bool) (a : Attrs) : List Bytes :=
  match a.classes with
  | [] => []
  | c :: cs => [if first then b!"class=\"" else b!" class=\""] ++ c :: (cs.flatMap fun d => [b!" ", d]) ++ [b!"\""]

/-- ial.c:680-706: the number in a value that is digits or digits with `px`. -/
def pixels (v : Bytes) : Option Bytes :=
  if b!"px" <:+ v then
    if (v.take (v.length - 2)).all isDigit then some (v.take (v.length - 2)) else none
  else if v.all isDigit then some v else none

/-- State of the loop ial.c:662-743. -/
structure Sz where
  first : Bool
  toks : List Bytes
  style : Bytes
  has : Bool

/-- ial.c:662-743: one attribute. `int_val` has 64 bytes (710), `style_buffer` 1024 (651). -/
def size (z : Sz) (kv : Bytes × Bytes) : C Sz :=
  if kv.1 = b!"width" ∨ kv.1 = b!"height" then
    match pixels kv.2 with
    | some n =>
      if b!"px" <:+ kv.2 ∧ 64 ≤ n.length then .ub
      else .val { z with first := false, toks := z.toks ++ [snp 1024 (pair z.first kv.1 n)] }
    | none =>
      let s := z.style ++ (if z.has then b!"; " else []) ++ kv.1 ++ b!": " ++ kv.2
      if s.length < 1024 then .val { z with style := s, has := true } else .ub
  else .val z

/-- ial.c:765-784: attributes that are not written here. -/
def hidden : List Bytes :=
  [b!"width", b!"height", b!"style", b!"data-srcset-2x", b!"data-srcset-3x", b!"data-srcset-webp",
   b!"data-srcset-avif", b!"data-video-webm", b!"data-video-ogg", b!"data-video-mp4", b!"data-video-mov",
   b!"data-video-m4v", b!"data-apex-auto"]

/-- ial.c:758-794. -/
def otherToks (first : Bool) : List (Bytes × Bytes) → List Bytes
  | [] => []
  | (k, v) :: l =>
    if k ∈ hidden then otherToks first l else snp 1024 (pair first k v) :: otherToks false l

/-- ial.c:641-660: the first `style`. -/
def style0 (a : Attrs) : Bytes :=
  match a.attrs.find? fun kv => kv.1 = b!"style" with
  | some kv => kv.2.take 1023
  | none => []

/-- ial.c:666-743, over all attributes. -/
def sizes : Sz → List (Bytes × Bytes) → C Sz
  | z, [] => .val z
  | z, kv :: l => do
    let z ← size z kv
    sizes z l

/-- ial.c:592-800 (`attributes_to_html`). -/
def toHtml (a : Attrs) : C Bytes := do
  let t1 := idToks a
  let t2 := classToks t1.isEmpty a
  let z ← sizes { first := (t1 ++ t2).isEmpty, toks := [], style := style0 a, has := style0 a ≠ [] } a.attrs
  let t3 := if z.has then [snp 1024 (pair z.first b!"style" z.style)] else []
  let t4 := otherToks (z.first && !z.has) a.attrs
  DropBuf.run 4096 ((t1 ++ t2 ++ z.toks ++ t3 ++ t4).map .chunk)

end Verif.Ial
