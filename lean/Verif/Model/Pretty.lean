/-
Model of src/pretty_html.c.
-/
import Verif.Model.DropBuf

namespace Verif.Pretty
open DropBuf (Tok)

/-- pretty_html.c:13-20. -/
def blockTags : List Bytes :=
  [b!"html", b!"head", b!"body", b!"div", b!"section", b!"article", b!"nav", b!"header", b!"footer",
   b!"main", b!"aside", b!"h1", b!"h2", b!"h3", b!"h4", b!"h5", b!"h6",
   b!"p", b!"blockquote", b!"pre", b!"ul", b!"ol", b!"li", b!"dl", b!"dt", b!"dd",
   b!"table", b!"thead", b!"tbody", b!"tfoot", b!"tr", b!"th", b!"td",
   b!"figure", b!"figcaption", b!"details", b!"summary"]

/-- pretty_html.c:23-27. -/
def inlineTags : List Bytes :=
  [b!"a", b!"strong", b!"em", b!"code", b!"span", b!"abbr", b!"mark", b!"del", b!"ins",
   b!"sup", b!"sub", b!"small", b!"i", b!"b", b!"u"]

/-- A byte of a tag name (pretty_html.c:58). -/
def nameByte (c : Byte) : Bool := !isSpace c && c != c!">" && c != c!"/"

/-- pretty_html.c:48-73 (`extract_tag_name`), behind the `<`: name, closing, self-closing. `none`: no name. -/
def tagName (t : Bytes) : Option (Bytes × Bool × Bool) :=
  let closing := t.head? = some c!"/"
  let u := if closing then t.drop 1 else t
  let name := u.takeWhile nameByte
  if name = [] then none
  else some (name, closing, ((u.dropWhile nameByte).dropWhile isSpace).head? = some c!"/")

/-- `tag_end` (e.g. pretty_html.c:199-201): up to the first `>`, or everything. -/
def tagText (s : Bytes) : Bytes :=
  s.takeWhile (· ≠ c!">") ++ (s.dropWhile (· ≠ c!">")).take 1

/-- pretty_html.c:90-93. `last_was_table_row` is left out: the branch that depends on it (:186-188) does nothing. -/
structure St where
  level : Nat
  atStart : Bool
  inPre : Bool
  inInline : Bool
deriving DecidableEq, Repr

/-- pretty_html.c:112-119 (`WRITE_INDENT`). -/
def indent (st : St) : List Tok × St :=
  if st.atStart && !st.inPre then (List.replicate st.level (.chunk b!"  "), { st with atStart := false }) else ([], st)

/-- pretty_html.c:207-219: the white space between `</tr>` and `<tr` or `</tbody>`, which is skipped. -/
def rowGap (rest : Bytes) : Bytes :=
  let w := rest.takeWhile fun c => c = c!" " ∨ c = c!"\t" ∨ c = c!"\n" ∨ c = c!"\r"
  if b!"<tr" <+: rest.drop w.length ∨ b!"</tbody>" <+: rest.drop w.length then w else []

/-- pretty_html.c:149-258, a block tag outside preformatted text: what is written, the state and the number of bytes
read. None of the block tags is a void tag. -/
def blockTag (st : St) (name : Bytes) (closing selfClosing : Bool) (s : Bytes) : List Tok × St × Nat :=
  let row : Bool := name = b!"tr"
  let (nl, st) : List Tok × St :=
    if closing then
      let st := { st with level := st.level - 1 }
      if !st.atStart && !st.inInline && !row then ([.byte c!"\n"], { st with atStart := true }) else ([], st)
    else if !st.atStart && !row then ([.byte c!"\n"], { st with atStart := true })
    else ([], st)
  let (ind, st) := indent st
  let tag := tagText s
  let gap := if closing && row then rowGap (s.drop tag.length) else []
  let st := { st with level := if !closing && !selfClosing then st.level + 1 else st.level, atStart := true }
  (nl ++ ind ++ [.chunk tag, .byte c!"\n"], st, tag.length + gap.length)

/-- pretty_html.c:142-146. -/
def enterPre (st : St) (name : Bytes) (closing : Bool) : St :=
  if name = b!"pre" ∨ name = b!"code" then { st with inPre := !closing } else st

/-- pretty_html.c:263-268. -/
def enterInline (st : St) (name : Bytes) (closing : Bool) : St :=
  if name ∈ inlineTags then { st with inInline := !closing } else st

/-- pretty_html.c:313-317. -/
def afterByte (st : St) (c : Byte) : St :=
  if c = c!"\n" then { st with atStart := true } else if !isSpace c then { st with atStart := false } else st

/-- pretty_html.c:307-309: the indentation before a byte. -/
def indentByte (st : St) (c : Byte) : List Tok × St :=
  if !st.atStart || st.inPre || c != c!"\n" then indent st else ([], st)

/-- pretty_html.c:121-316, one turn of the loop. -/
def step (st : St) (c : Byte) (t : Bytes) : List Tok × St × Nat :=
  match if c = c!"<" then tagName t else none with
  | some (name, closing, selfClosing) =>
    if name ∈ blockTags ∧ (enterPre st name closing).inPre = false then
      blockTag (enterPre st name closing) name closing selfClosing (c :: t)
    else ([.chunk (tagText (c :: t))], enterInline (enterPre st name closing) name closing, (tagText (c :: t)).length)
  | none => ((indentByte st c).1 ++ [.byte c], afterByte (indentByte st c).2 c, 1)

/-- pretty_html.c:121-316: what each turn writes. Every turn reads something. -/
def groups : Nat → St → Bytes → List (List Tok)
  | 0, _, _ => []
  | _, _, [] => []
  | n + 1, st, c :: t =>
    (step st c t).1 :: groups n (step st c t).2.1 ((c :: t).drop (step st c t).2.2)

/-- pretty_html.c:122-131 and the writing macros: when fewer than 100 bytes remain, the capacity is doubled, once.
`realloc` is assumed to succeed. -/
def writeGroup (b : DropBuf.St) (g : List Tok) : DropBuf.St :=
  g.foldl DropBuf.St.write (if b.cap - b.out.length < 100 then { b with cap := b.cap * 2 } else b)

/-- pretty_html.c:90-94, the beginning. -/
def start : St := ⟨0, true, false, false⟩

/-- pretty_html.c:326-349: the newlines beyond the second of a run are dropped. -/
def collapse : Nat → Bytes → Bytes
  | _, [] => []
  | run, c :: t =>
    if c = c!"\n" then
      if run + 1 ≤ 2 then c :: collapse (run + 1) t else collapse (run + 1) t
    else c :: collapse 0 t

/-- pretty_html.c:78-358 (`apex_pretty_print_html`). -/
def pretty (html : Bytes) : C Bytes := do
  let b := (groups html.length start html).foldl writeGroup ⟨html.length * 2, []⟩
  let o ← finish b.cap b.out
  .val (collapse 0 o)

end Verif.Pretty
