/- src/extensions/index.c: entries of the index in the text, their marks in the page, and the index.  The allocations
succeed, the text has less than 2^31 bytes, and `ctype.h` and `strcasecmp` are those of the C locale, with a table that has
room for negative characters (as that of glibc).  The text has no zero byte. -/
import Verif.Model.Embed
import Verif.Model.Man

namespace Verif.Index
open Embed (find)

/-- The options `enable_mmark_index_syntax`, `enable_textindex_syntax` and `enable_leanpub_index_syntax`. -/
structure Options where
  mmark : Bool
  textindex : Bool
  leanpub : Bool

/-- src/extensions/index.h:29-37 `apex_index_entry`, without the place and the syntax, which nothing reads. -/
structure Entry where
  item : Bytes
  sub : Option Bytes
  primary : Bool
  anchor : Bytes
deriving DecidableEq

/-- src/extensions/index.c:21-24 `is_valid_index_char`. -/
def valid (c : Byte) : Bool :=
  isAlnum c || c == 32 || c == c!"-" || c == c!"_" || c == c!"/" || c == c!"." || c == c!"," || c == c!":" || c == c!";" ||
    c == c!"'" || c == c!"\""

/-- src/extensions/index.c:29-43 `trim_string`, as what it leaves in the block: the callers drop the pointer to the text
behind the leading blanks. -/
def trim (s : Bytes) : Bytes := s.takeWhile isSpace ++ ((s.dropWhile isSpace).reverse.dropWhile isSpace).reverse

/-- What a parser finds: the item, the item below it, the mark of a primary entry, and the text behind it. -/
abbrev Found := Option (Bytes × Option Bytes × Bool × Bytes)

/-- src/extensions/index.c:95-120: behind the item. -/
def mmarkSub (item : Bytes) (primary : Bool) : Bytes → Found
  | [] => none
  | c :: r =>
    if c = c!"," then
      let r := r.dropWhile isSpace
      let sub := r.takeWhile (· != c!")")
      if sub.any fun c => !valid c then none
      else match r.dropWhile (· != c!")") with
        | [] => none
        | _ :: r => some (trim item, if sub = [] then none else some (trim sub), primary, r)
    else some (trim item, none, primary, r)

/-- src/extensions/index.c:65-93: the item; `trim` leaves nothing of no text that has a byte (lines 83-86). -/
def mmarkItem (primary : Bool) (s : Bytes) : Found :=
  let item := s.takeWhile fun c => c != c!"," && c != c!")"
  if item.any fun c => !(valid c || c == c!"!") then none
  else if item = [] then none
  else mmarkSub item primary (s.dropWhile fun c => c != c!"," && c != c!")")

/-- src/extensions/index.c:49-137 `parse_mmark_index`. -/
def mmark (s : Bytes) : Found :=
  if s.length ≤ 3 then none
  else if b!"(!".isPrefixOf s then
    match s.drop 2 with
    | [] => none
    | c :: r => if c = c!"!" then mmarkItem true r else mmarkItem false (c :: r)
  else none

/-- src/extensions/index.c:180-202: the term in brackets before the mark; `back` is the text before it, backwards. -/
def bracket (back : Bytes) : Option Bytes :=
  if back.head? = some c!"]" then
    let t := (back.take 201).takeWhile (· != c!"[")
    if t.length < (back.take 201).length ∧ 1 < t.length then some (trim (t.drop 1).reverse) else none
  else none

/-- src/extensions/index.c:205-239: the words before the mark. -/
def phrase (back : Bytes) : Option Bytes :=
  let w := ((back.dropWhile isSpace).take 50).takeWhile fun c => isAlnum c || c == 32 || c == c!"-" || c == c!"_"
  if w = [] then none else some (trim w.reverse)

/-- src/extensions/index.c:247-260: the item below, in the parameters. -/
def params (s : Bytes) : Option Bytes :=
  match s.dropWhile fun c => c != 32 && c != c!"," with
  | [] => none
  | _ :: r => if r.dropWhile isSpace = [] then none else some (trim (r.dropWhile isSpace))

/-- src/extensions/index.c:146-273 `parse_textindex`. -/
def textindex (back s : Bytes) : Found :=
  if s.length ≤ 2 then none
  else if b!"{^".isPrefixOf s then
    match (s.drop 2).dropWhile fun c => c != c!"}" && c != 10 with
    | [] => none
    | c :: r =>
      if c = c!"}" then
        match (bracket back).or (phrase back) with
        | none => none
        | some t => some (t, params ((s.drop 2).takeWhile fun c => c != c!"}" && c != 10), false, r)
      else none
  else none

/-- src/extensions/index.c:278-297 `strip_leanpub_formatting`. -/
def strip : Bytes → Bytes
  | [] => []
  | c :: s => if c = c!"*" then
      match s with
      | [] => []
      | d :: t => if d = c!"*" then strip t else strip (d :: t)
    else c :: strip s

/-- src/extensions/index.c:324-338: the text up to the closing quotation mark, and what is behind it. -/
def quoted : Bytes → Option (Bytes × Bytes)
  | [] => none
  | c :: s => if c = c!"\"" then some ([], s)
    else if c = c!"\\" then
      match s with
      | [] => none
      | d :: t => (quoted t).map fun x => (c :: d :: x.1, x.2)
    else (quoted s).map fun x => (c :: x.1, x.2)

/-- src/extensions/index.c:340-356: the item and the item below it. -/
def levels (term : Bytes) : Bytes × Option Bytes :=
  match term.dropWhile (· != c!"!") with
  | [] => (trim (strip term), none)
  | _ :: r => (strip (trim (term.takeWhile (· != c!"!"))), some (strip (trim r)))

/-- src/extensions/index.c:386-395: the closing brace. -/
def closed (item : Bytes) (sub : Option Bytes) (s : Bytes) : Found :=
  match s.dropWhile fun c => c == 32 || c == 9 with
  | [] => none
  | c :: r => if c = c!"}" then some (item, sub, false, r) else none

/-- src/extensions/index.c:360-383: a term without quotation marks. -/
def unquoted (s : Bytes) : Found :=
  let t := s.takeWhile fun c => c != c!"}" && c != 10
  if t.any fun c => !valid c then none
  else if (s.dropWhile fun c => c != c!"}" && c != 10).head? ≠ some c!"}" then none
  else if t = [] then none
  else closed (trim t) none (s.dropWhile fun c => c != c!"}" && c != 10)

/-- src/extensions/index.c:304-406 `parse_leanpub_index`. -/
def leanpub (s : Bytes) : Found :=
  if s.length ≤ 4 then none
  else if b!"{i:".isPrefixOf s then
    match (s.drop 3).dropWhile fun c => c == 32 || c == 9 with
    | [] => none
    | c :: r =>
      if c = c!"\"" then
        match quoted r with
        | none => none
        | some (term, r) => closed (levels term).1 (levels term).2 r
      else unquoted (c :: r)
  else none

/-- src/extensions/index.c:523-541: the parsers, one after the other. -/
def parse (o : Options) (back s : Bytes) : Found :=
  ((if o.mmark then mmark s else none).or (if o.textindex then textindex back s else none)).or
    (if o.leanpub then leanpub s else none)

/-- src/extensions/index.c:548 `idxref-%d`. -/
def anchor (k : Nat) : Bytes := b!"idxref-" ++ Man.decimal k

/-- The placeholder (index.c:14-15, 572). -/
def placeholder (id : Bytes) : Bytes := b!"<!--IDX:" ++ id ++ b!"-->"

/-- src/extensions/index.c:561-575: the block after it has grown for the text `s`; `extra` is 1, or 0 for a byte that is
copied (580-592). -/
def grow (cap used len extra : Nat) : Nat := if cap - used < len + 1 then (used + len + extra) * 2 else cap

/-- src/extensions/index.c:519-597: the loop; the first entry of the registry is the last one of the text.  A parser never
returns an entry together with the whole text (`consumed > 0`), so as many turns as bytes suffice. -/
def loop (o : Options) : Nat → Nat → Bytes → List Entry → Nat → Bytes → Bytes → C (Bytes × List Entry)
  | _, _, _, es, cap, out, [] => finish cap out >>= fun r => .val (r, es)
  | 0, _, _, _, _, _, _ => .ub
  | n + 1, k, back, es, cap, out, c :: s =>
    match parse o back (c :: s) with
    | some (item, sub, primary, r) =>
      let p := placeholder (anchor k)
      let cap := grow cap out.length p.length 1
      puts cap out p >>= fun out =>
        loop o n (k + 1) (((c :: s).take ((c :: s).length - r.length)).reverse ++ back)
          (⟨item, sub, primary, anchor k⟩ :: es) cap out r
    | none =>
      let cap := grow cap out.length 1 0
      put cap out c >>= fun out => loop o n k (c :: back) es cap out s

/-- src/extensions/index.c:473-506: is there a start of an entry?  The loops stop before the last bytes. -/
def starts (o : Options) (text : Bytes) : Bool :=
  let has := fun (p : Bytes) (n : Nat) => (find p text).any fun x => x.1.length + n < text.length
  o.mmark && has b!"(!" 2 || o.textindex && has b!"{^" 1 || o.leanpub && has b!"{i:" 4

/-- src/extensions/index.c:461-601 `apex_process_index_entries`, with an empty registry; `none` for a null pointer, where
the caller keeps the text (apex.c:4191-4195). -/
def process (o : Options) (text : Bytes) : C (Option Bytes × List Entry) :=
  if starts o text then loop o text.length 0 [] [] (text.length * 2) [] text >>= fun r => .val (some r.1, r.2)
  else .val (none, [])

/-- src/extensions/index.c:635-637: up to `>` or `-->`; what is before it, and the text from there. -/
def idText : Bytes → Bytes × Bytes
  | [] => ([], [])
  | c :: s => if c = c!">" ∨ b!"-->".isPrefixOf (c :: s) then ([], c :: s) else ((c :: (idText s).1), (idText s).2)

/-- The marker in the page (index.c:658). -/
def span (id : Bytes) : Bytes := b!"<span class=\"index\" id=\"" ++ id ++ b!"\"></span>"

/-- src/extensions/index.c:665-679: a byte is copied.  At the end of the page, this is the terminator (line 677), and the next
byte is behind the page. -/
def copy (loop : Nat → Bytes → Bytes → C Bytes) (cap : Nat) (out : Bytes) : Bytes → C Bytes
  | [] => .ub
  | c :: s => put (grow cap out.length 1 0) out c >>= fun o => loop (grow cap out.length 1 0) o s

/-- src/extensions/index.c:620-679. -/
def marks : Nat → Nat → Bytes → Bytes → C Bytes
  | _, cap, out, [] => finish cap out
  | 0, _, _, _ => .ub
  | n + 1, cap, out, c :: s =>
    if b!"<!--IDX:".isPrefixOf (c :: s) then
      let x := idText ((c :: s).drop 8)
      if b!"-->".isPrefixOf x.2 ∧ x.1.length < 64 then
        puts (grow cap out.length (span x.1).length 1) out (span x.1) >>= fun o =>
          marks n (grow cap out.length (span x.1).length 1) o (x.2.drop 3)
      else copy (marks n) cap out x.2
    else copy (marks n) cap out (c :: s)

/-- src/extensions/index.c:606-682 `apex_render_index_markers`, with an entry in the registry. -/
def render (html : Bytes) : C Bytes := marks html.length (html.length * 2) [] html

/-- `strcasecmp`, as an order: `a` is not behind `b`. -/
def notAfter : Bytes → Bytes → Bool
  | [], _ => true
  | _ :: _, [] => false
  | a :: s, b :: t => toLower a < toLower b || toLower a == toLower b && notAfter s t

/-- src/extensions/index.c:687-705 `compare_index_entries`, as an order: `a` is not behind `b`. -/
def entryLe (a b : Entry) : Bool :=
  if notAfter a.item b.item && notAfter b.item a.item then
    match a.sub, b.sub with
    | some x, some y => notAfter x y
    | some _, none => false
    | none, _ => true
  else notAfter a.item b.item

/-- src/extensions/index.c:710-723 `get_first_letter`. -/
def firstLetter (term : Bytes) : Byte :=
  match term.dropWhile fun c => !isAlnum c with
  | [] => c!"?"
  | c :: _ => toUpper c

/-- src/extensions/index.c:847-850: the link, cut like `snprintf` into 256 bytes. -/
def link (e : Entry) : Bytes := (b!" <a class=\"index-return\" href=\"#" ++ e.anchor ++ b!"\"><sup>[go]</sup></a>").take 255

/-- src/extensions/index.c:795-827, 836-866: the texts that are appended for an entry. -/
def item (e : Entry) : List Bytes :=
  [(b!"<li>\n" ++ e.item).take 2047] ++ (if e.primary then [b!" <strong>"] else []) ++ [link e] ++
    (if e.primary then [b!"</strong>"] else []) ++
    (match e.sub with
      | some s => [b!"<ul>\n<li>\n", s, link e, b!"</li>\n</ul>\n"]
      | none => []) ++ [b!"</li>\n"]

/-- src/extensions/index.c:779-829: the entries by letter; `cur` is the letter of the open group. -/
def groups : Option Byte → List Entry → List Bytes
  | none, [] => []
  | some _, [] => [b!"</ul>\n</dd>\n</dl>\n"]
  | cur, e :: es =>
    let l := firstLetter e.item
    (if cur = some l then [] else
      (if cur = none then [] else [b!"</ul>\n</dd>\n</dl>\n"]) ++ [b!"<dl>\n<dt>" ++ [l] ++ b!"</dt>\n<dd>\n<ul>\n"]) ++
    item e ++ groups (some l) es

/-- src/extensions/index.c:775-880: everything that is appended, for the sorted entries. -/
def texts (byLetter : Bool) (es : List Entry) : List Bytes :=
  [b!"<h1 id=\"index-section\">Index</h1>\n", b!"<div class=\"index\">\n"] ++
    (if byLetter then groups none es else [b!"<ul>\n"] ++ es.flatMap item ++ [b!"</ul>\n"]) ++ [b!"</div>\n"]

/-- src/extensions/index.c:750-772 `APPEND`. -/
def append (b : Nat × Bytes) (s : Bytes) : C (Nat × Bytes) :=
  let cap := if s.length < b.1 - b.2.length then b.1 else (b.2.length + s.length + 1) * 2
  puts cap b.2 s >>= fun o => .val (cap, o)

/-- All texts, one after the other. -/
def appendAll : Nat × Bytes → List Bytes → C (Nat × Bytes)
  | b, [] => .val b
  | b, s :: l => append b s >>= fun b => appendAll b l

/-- src/extensions/index.c:728-886 `apex_generate_index_html`, behind `qsort`: `es` are the sorted entries. -/
def generate (byLetter : Bool) (es : List Entry) : C Bytes :=
  if es = [] then .val [] else appendAll (8192, []) (texts byLetter es) >>= fun b => finish b.1 b.2

/-- src/extensions/index.c:903-966: where the index goes. -/
def place (html index : Bytes) : Bytes :=
  match find b!"<!--INDEX-->" html with
  | some (x, y) => x ++ index ++ y
  | none =>
    match find b!"</body>" html with
    | some (x, y) => x ++ index ++ b!"</body>" ++ y
    | none => html ++ index

/-- src/extensions/index.c:891-967 `apex_insert_index`; `none` for a null pointer, where the page is kept (apex.c:5583-5587). -/
def insert (suppress byLetter : Bool) (html : Bytes) (es : List Entry) : C (Option Bytes) :=
  if es = [] ∨ suppress then .val none
  else generate byLetter es >>= fun index => if index = [] then .val none else .val (some (place html index))

end Verif.Index
