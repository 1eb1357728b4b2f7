/-
Documents as Pandoc JSON: src/ast_json.c. The buffers and the escaping of strings are in `Escape` and `GrowBuf`.
Simplified: trees of cmark nodes are values; nodes that are dropped or leaked are left out; `malloc` succeeds; `long` does not overflow.
-/
import Verif.Model.Escape

namespace Verif.AstJson
open Escape (jsonWriteString jsonReadString)

/-- Inline nodes of cmark, as ast_json.c:109-188 tells them apart. `other` is any other node, with its literal. -/
inductive Inl
  | text (lit : Bytes)
  | soft
  | line
  | code (lit : Bytes)
  | emph (kids : List Inl)
  | strong (kids : List Inl)
  | link (url title : Bytes) (kids : List Inl)
  | image (url title : Bytes) (kids : List Inl)
  | html (lit : Bytes)
  | other (lit : Bytes) (kids : List Inl)

/-- Block nodes of cmark, as ast_json.c:214-354 tells them apart. The children of a list are its items, lists of blocks. -/
inductive Blk
  | para (kids : List Inl)
  | heading (level : Nat) (kids : List Inl)
  | rule
  | html (lit : Bytes)
  | code (info lit : Bytes)
  | bullet (items : List (List Blk))
  | ordered (start : Nat) (items : List (List Blk))
  | quote (kids : List Blk)
  | other (lit : Bytes)

/-! ### Writing -/

/-- ast_json.c:87-97. -/
def quoted (s : Bytes) : Bytes :=
  match jsonWriteString s with
  | .val (some w) => w
  | _ => []

/-- `"%d"` of a number that is not negative. -/
def decimal (n : Nat) : Bytes := if n < 10 then [UInt8.ofNat (48 + n)] else decimal (n / 10) ++ [UInt8.ofNat (48 + n % 10)]

/-- ast_json.c:107-109. -/
def noAttr : Bytes := b!"[\"\",[],[]]"

mutual
/-- ast_json.c:111-194 (`write_inline`). -/
def writeInl : Inl → Bytes
  | .text s => b!"{\"t\":\"Str\",\"c\":" ++ quoted s ++ b!"}"
  | .soft => b!"{\"t\":\"SoftBreak\",\"c\":[]}"
  | .line => b!"{\"t\":\"LineBreak\",\"c\":[]}"
  | .code s => b!"{\"t\":\"Code\",\"c\":[" ++ noAttr ++ b!"," ++ quoted s ++ b!"]}"
  | .emph k => b!"{\"t\":\"Emph\",\"c\":[" ++ (b!"[" ++ writeInls k ++ b!"]") ++ b!"]}"
  | .strong k => b!"{\"t\":\"Strong\",\"c\":[" ++ (b!"[" ++ writeInls k ++ b!"]") ++ b!"]}"
  | .link u t k => b!"{\"t\":\"Link\",\"c\":[" ++ noAttr ++ b!"," ++ (b!"[" ++ writeInls k ++ b!"]") ++ b!",[" ++ quoted u ++ b!"," ++ quoted t ++ b!"]]}"
  | .image u t k => b!"{\"t\":\"Image\",\"c\":[" ++ noAttr ++ b!"," ++ (b!"[" ++ writeInls k ++ b!"]") ++ b!",[" ++ quoted u ++ b!"," ++ quoted t ++ b!"]]}"
  | .html s => b!"{\"t\":\"RawInline\",\"c\":[\"html\"," ++ quoted s ++ b!"]}"
  | .other s _ => b!"{\"t\":\"Str\",\"c\":" ++ quoted s ++ b!"}"

/-- ast_json.c:196-212 (`write_inlines`), between the brackets. -/
def writeInls : List Inl → Bytes
  | [] => []
  | [i] => writeInl i
  | i :: j :: r => writeInl i ++ b!"," ++ writeInls (j :: r)
end

/-- ast_json.c:253-258: without its last newline. -/
def chop (lit : Bytes) : Bytes := if lit.getLast? = some c!"\n" then lit.dropLast else lit

/-- ast_json.c:259-272: the attributes of a code block. -/
def codeAttr (info : Bytes) : Bytes :=
  b!"[[" ++ quoted [] ++ b!",[" ++ (if info ≠ [] then quoted info else []) ++
    (if info = b!"inc" then b!"],[[\"inc\",\"yes\"]]]," else b!"],[]]],")

mutual
/-- ast_json.c:214-357 (`write_block`). -/
def writeBlk : Blk → Bytes
  | .para k => b!"{\"t\":\"Para\",\"c\":" ++ (b!"[" ++ writeInls k ++ b!"]") ++ b!"}"
  | .heading l k => b!"{\"t\":\"Header\",\"c\":[" ++ decimal (if l = 0 then 1 else l) ++ b!"," ++ noAttr ++ b!"," ++ (b!"[" ++ writeInls k ++ b!"]") ++ b!"]}"
  | .rule => b!"{\"t\":\"HorizontalRule\",\"c\":[]}"
  | .html s => b!"{\"t\":\"RawBlock\",\"c\":[\"html\"," ++ quoted s ++ b!"]}"
  | .code info s => b!"{\"t\":\"CodeBlock\",\"c\":" ++ codeAttr info ++ quoted (chop s) ++ b!"]}"
  | .bullet items => b!"{\"t\":\"BulletList\",\"c\":[" ++ writeItems items ++ b!"]}"
  | .ordered start items =>
    b!"{\"t\":\"OrderedList\",\"c\":[" ++ (b!"[" ++ decimal (if start = 0 then 1 else start) ++ b!",\"Decimal\",\"Period\"],[") ++ writeItems items ++ b!"]}"
  | .quote k => b!"{\"t\":\"BlockQuote\",\"c\":[" ++ writeBlks k ++ b!"]}"
  | .other s => b!"{\"t\":\"Para\",\"c\":[" ++ b!"{\"t\":\"Str\",\"c\":" ++ quoted s ++ b!"}]}"

/-- ast_json.c:359-371 (`write_blocks`), 314-324 and 332-341. -/
def writeBlks : List Blk → Bytes
  | [] => []
  | [b] => writeBlk b
  | b :: c :: r => writeBlk b ++ b!"," ++ writeBlks (c :: r)

/-- ast_json.c:303-327: the items of a list. -/
def writeItems : List (List Blk) → Bytes
  | [] => []
  | [i] => b!"[" ++ writeBlks i ++ b!"]"
  | i :: j :: r => (b!"[" ++ writeBlks i ++ b!"]") ++ b!"," ++ writeItems (j :: r)
end

/-- ast_json.c:377-408 (`apex_cmark_to_pandoc_json`). -/
def toJson (doc : List Blk) : Bytes :=
  b!"{" ++ b!"\"pandoc-api-version\":[1,23,1],\"meta\":{},\"blocks\":[" ++ writeBlks doc ++ b!"]}"

/-! ### Reading. Every function returns the rest of the text as well, also when it fails: callers go on from there. -/

/-- ast_json.c:418-422. -/
def ws (s : Bytes) : Bytes := s.dropWhile isSpace

/-- ast_json.c:424-429: whether the character stands there, and the text behind it. -/
def char (c : Byte) (s : Bytes) : Bool × Bytes :=
  match ws s with
  | [] => (false, [])
  | d :: t => if d = c then (true, t) else (false, d :: t)

/-- ast_json.c:431-492; a text that is not closed is read to its end. -/
def str (s : Bytes) : Option Bytes × Bytes :=
  match jsonReadString s with
  | .val (some (o, r)) => (some o, r)
  | _ => (none, if (ws s).head? = some c!"\"" then [] else ws s)

/-- ast_json.c:494-507, for numbers that are not negative; a minus sign is read and left out. -/
def int (s : Bytes) : Nat × Bytes :=
  let t := match ws s with
    | c :: t => if c = c!"-" then t else c :: t
    | [] => []
  ((t.takeWhile isDigit).foldl (fun v c => v * 10 + (c.toNat - 48)) 0, t.dropWhile isDigit)

/-- ast_json.c:569-573: a byte of a number or a word. -/
def tokenByte (c : Byte) : Bool := c != 0 && !isSpace c && c != c!"," && c != c!"]" && c != c!"}"

mutual
/-- ast_json.c:514-575 (`json_skip_value`). The number bounds the calls. -/
def skip : Nat → Bytes → Bool × Bytes
  | 0, s => (false, s)
  | n + 1, s =>
    match ws s with
    | [] => (false, [])
    | c :: t =>
      if c = c!"\"" then ((str (c :: t)).1.isSome, (str (c :: t)).2)
      else if c = c!"{" then skipFields n t
      else if c = c!"[" then skipItems n t
      else (true, (c :: t).dropWhile tokenByte)

/-- ast_json.c:525-549: the members of an object. -/
def skipFields : Nat → Bytes → Bool × Bytes
  | 0, s => (false, s)
  | n + 1, s =>
    if (ws s).head? = some c!"}" then (true, (ws s).drop 1)
    else
      match str (ws s) with
      | (none, r) => (false, r)
      | (some _, r) =>
        match char c!":" r with
        | (false, r) => (false, r)
        | (true, r) =>
          match skip n r with
          | (false, r) => (false, r)
          | (true, r) =>
            if (ws r).head? = some c!"," then skipFields n ((ws r).drop 1)
            else if (ws r).head? = some c!"}" then skipFields n (ws r)
            else (true, ws r)

/-- ast_json.c:552-567: the elements of an array. -/
def skipItems : Nat → Bytes → Bool × Bytes
  | 0, s => (false, s)
  | n + 1, s =>
    if (ws s).head? = some c!"]" then (true, (ws s).drop 1)
    else
      match skip n (ws s) with
      | (false, r) => (false, r)
      | (true, r) =>
        if (ws r).head? = some c!"," then skipItems n ((ws r).drop 1)
        else if (ws r).head? = some c!"]" then skipItems n (ws r)
        else (true, ws r)
end

/-- The members `t` and `c` of an object that were found. -/
structure Obj where
  tag : Option Bytes := none
  c : Option Bytes := none

/-- ast_json.c:604-638 (for inlines) and 805-841 (for blocks): the members of an object behind its `{`. An inline without both members
is left behind its `}`, a block before it. -/
def fields (block : Bool) : Nat → Obj → Bytes → Option (Bytes × Bytes) × Bytes
  | 0, _, s => (none, s)
  | n + 1, o, s =>
    if (ws s).head? = some c!"}" then
      match o.tag, o.c with
      | some t, some c => (some (t, c), (ws s).drop 1)
      | _, _ => (none, if block then ws s else (ws s).drop 1)
    else
      match str (ws s) with
      | (none, r) => (none, r)
      | (some key, r) =>
        match char c!":" r with
        | (false, r) => (none, r)
        | (true, r) =>
          if key = b!"t" then
            match str r with
            | (none, r) => (none, r)
            | (some t, r) => fields block n { o with tag := some t } (if (ws r).head? = some c!"," then (ws r).drop 1 else ws r)
          else
            match skip n (ws r) with
            | (false, r) => (none, r)
            | (true, r') =>
              let o := if key = b!"c" then { o with c := some ((ws r).take ((ws r).length - r'.length)) } else o
              fields block n o (if (ws r').head? = some c!"," then (ws r').drop 1 else ws r')

/-- Two readers after one another: `[`, a value that is skipped, `,` (e.g. ast_json.c:672-674). -/
def pastAttr (n : Nat) (s : Bytes) : Option Bytes :=
  match char c!"[" s with
  | (false, _) => none
  | (true, r) =>
    match skip n r with
    | (false, _) => none
    | (true, r) =>
      match char c!"," r with
      | (false, _) => none
      | (true, r) => some r

/-- ast_json.c:699-739: inline and display formulas become raw HTML between dollars. -/
def math (s : Bytes) : Option Bytes := do
  let r ← if (char c!"[" s).1 then some (char c!"[" s).2 else none
  let r ← if (char c!"{" r).1 then some (char c!"{" r).2 else none
  let (_, r) ← (str r).1.map (·, (str r).2)
  let r ← if (char c!":" r).1 then some (char c!":" r).2 else none
  let (kind, r) ← (str r).1.map (·, (str r).2)
  let r ← if (char c!"}" r).1 then some (char c!"}" r).2 else none
  let r ← if (char c!"," r).1 then some (char c!"," r).2 else none
  let (code, _) ← (str r).1.map (·, (str r).2)
  let d := if kind = b!"DisplayMath" then b!"$$" else b!"$"
  some (d ++ code ++ d)

mutual
/-- ast_json.c:644-754: the inline an object stands for. `none`: the object is refused; `some none`: nothing is added. -/
def inline : Nat → Bytes → Bytes → Option (Option Inl)
  | 0, _, _ => none
  | n + 1, tag, c =>
    if tag = b!"Str" then (str c).1.map fun s => some (.text s)
    else if tag = b!"SoftBreak" then some (some .soft)
    else if tag = b!"LineBreak" then some (some .line)
    else if tag = b!"Emph" ∨ tag = b!"Strong" then
      if (char c!"[" c).1 = false then none
      else
        let kids := if (ws (char c!"[" c).2).head? ≠ some c!"]" then (inlines n (ws (char c!"[" c).2)).toList else []
        some (some (if tag = b!"Emph" then .emph kids else .strong kids))
    else if tag = b!"Code" then
      (pastAttr n c).bind fun r => (str r).1.map fun s => some (.code s)
    else if tag = b!"Span" then (pastAttr n c).map fun r => inlines n r
    else if tag = b!"Math" then (math c).map fun s => some (.html s)
    else if tag = b!"RawInline" then
      (pastAttr n c).bind fun r => (str r).1.map fun s => some (.html s)
    else some none

/-- ast_json.c:580-794 (`parse_inlines_array`). The children are unlinked one by one at the end (`cmark_node_unlink` clears `next`), so
that only the first can be reached from what is returned. No caller uses the position afterwards. -/
def inlines : Nat → Bytes → Option Inl
  | 0, _ => none
  | n + 1, s =>
    if (char c!"[" s).1 = false then none
    else if (ws (char c!"[" s).2).head? = some c!"]" then none
    else
      let (kids, r) := inlineLoop n (char c!"[" s).2
      if (char c!"]" r).1 then kids.head? else none

/-- ast_json.c:597-776: the objects of the array, and the position where the loop ends. -/
def inlineLoop : Nat → Bytes → List Inl × Bytes
  | 0, s => ([], s)
  | n + 1, s =>
    if (ws s).head? ≠ some c!"{" then ([], ws s)
    else
      match fields false n {} ((ws s).drop 1) with
      | (none, r) => ([], r)
      | (some (tag, c), r) =>
        match inline n tag c with
        | none => ([], r)
        | some i =>
          if (ws r).head? = some c!"," then
            let (k, r) := inlineLoop n ((ws r).drop 1)
            (i.toList ++ k, r)
          else (i.toList, ws r)
end

/-- A character that has to be there. -/
def need (c : Byte) (s : Bytes) : Option Bytes := if (char c s).1 then some (char c s).2 else none

/-- A value that is skipped. -/
def needSkip (n : Nat) (s : Bytes) : Option Bytes := if (skip n s).1 then some (skip n s).2 else none

/-- A string that has to be there. -/
def needStr (s : Bytes) : Option (Bytes × Bytes) := (str s).1.map (·, (str s).2)

/-- ast_json.c:875-891. The level is set when it is one of the six (cmark). -/
def heading (n : Nat) (c : Bytes) : Option Blk := do
  let r ← need c!"[" c
  let (level, r) := int r
  let r ← need c!"," r
  let r ← needSkip n r
  let r ← need c!"," r
  let level := if level = 0 then 1 else level
  some (.heading (if level ≤ 6 then level else 1) (inlines n r).toList)

/-- ast_json.c:895-904. -/
def rawBlock (n : Nat) (c : Bytes) : Option Blk := do
  let r ← need c!"[" c
  let r ← needSkip n r
  let r ← need c!"," r
  let (t, r) ← needStr r
  let _ ← need c!"]" r
  some (.html t)

/-- ast_json.c:905-932. A class that is no string is passed over. -/
def codeBlock (n : Nat) (c : Bytes) : Option Blk := do
  let r ← need c!"[" c
  let r ← need c!"[" r
  let r := (str r).2
  let r ← need c!"," r
  let r ← need c!"[" r
  let (lang, r) := if (ws r).head? ≠ some c!"]" then str (ws r) else (none, ws r)
  let r ← need c!"]" r
  let r ← need c!"," r
  let r ← needSkip n r
  let r ← need c!"]" r
  let r ← need c!"," r
  let (t, _) ← needStr r
  some (.code (lang.getD []) t)

/-- ast_json.c:935-945: up to the `,` in front of the items. -/
def listStart (n : Nat) (ordered : Bool) (c : Bytes) : Option Bytes := do
  let r ← need c!"[" c
  if !ordered then some r
  else
    let (_, r) := int r
    let r ← need c!"," r
    let r ← needSkip n r
    let r ← need c!"," r
    let r ← needSkip n r
    need c!"," r

mutual
/-- ast_json.c:801-1031 (`parse_block_object`). `none`: refused; `some none`: the temporary document of a `Div`, which cannot be
appended to anything. -/
def block : Nat → Bytes → Option (Option Blk) × Bytes
  | 0, s => (none, s)
  | n + 1, s =>
    match char c!"{" s with
    | (false, r) => (none, r)
    | (true, r) =>
      match fields true n {} r with
      | (none, r) => (none, r)
      | (some (tag, c), r) =>
        (if tag = b!"Para" then some (some (.para (inlines n c).toList))
         else if tag = b!"Header" then (heading n c).map some
         else if tag = b!"HorizontalRule" then (needSkip n c).map fun _ => some .rule
         else if tag = b!"RawBlock" then (rawBlock n c).map some
         else if tag = b!"CodeBlock" then (codeBlock n c).map some
         else if tag = b!"BulletList" ∨ tag = b!"OrderedList" then
           (listStart n (tag = b!"OrderedList") c).bind fun r =>
             (need c!"[" r).bind fun r =>
               (itemLoop n (ws r)).bind fun (items, r) =>
                 (need c!"]" r).bind fun r => (need c!"]" r).map fun _ =>
                   some (if tag = b!"OrderedList" then .ordered 1 items else .bullet items)
         else if tag = b!"BlockQuote" then
           (need c!"[" c).bind fun r =>
             let (k, r) := blocks n r
             (need c!"]" r).map fun _ => some (.quote (k.getD []))
         else if tag = b!"Div" then
           (pastAttr n c).bind fun r =>
             let (k, r) := blocks n r
             (need c!"]" r).bind fun _ => k.map fun _ => none
         else some (some (.para [])), r)

/-- ast_json.c:957-984: the items of a list. The number of the first is read and not set. -/
def itemLoop : Nat → Bytes → Option (List (List Blk) × Bytes)
  | 0, _ => none
  | n + 1, s =>
    if s.head? = some c!"]" then some ([], s)
    else
      (need c!"[" s).bind fun r =>
        let (k, r) := blocks n r
        (need c!"]" r).bind fun r =>
          if (ws r).head? = some c!"," then (itemLoop n ((ws r).drop 1)).map fun (l, r) => (k.getD [] :: l, r)
          else some ([k.getD []], ws r)

/-- ast_json.c:1033-1074 (`parse_blocks_array`). -/
def blocks : Nat → Bytes → Option (List Blk) × Bytes
  | 0, s => (none, s)
  | n + 1, s =>
    match char c!"[" s with
    | (false, r) => (none, r)
    | (true, r) =>
      if (ws r).head? = some c!"]" then (none, (ws r).drop 1)
      else
        let (k, r) := blockLoop n r
        match char c!"]" r with
        | (false, r) => (none, r)
        | (true, r) => (some k, r)

/-- ast_json.c:1044-1063: the objects of the array, and the position where the loop ends. -/
def blockLoop : Nat → Bytes → List Blk × Bytes
  | 0, s => ([], s)
  | n + 1, s =>
    match block n (ws s) with
    | (none, r) => ([], r)
    | (some b, r) =>
      if (ws r).head? = some c!"," then
        let (k, r) := blockLoop n ((ws r).drop 1)
        (b.toList ++ k, r)
      else (b.toList, ws r)
end

/-- ast_json.c:1092-1130: the members of the document. A second member `blocks` adds to the first. -/
def docFields : Nat → List Blk → Bytes → Option (List Blk)
  | 0, _, _ => none
  | n + 1, acc, s =>
    if (ws s).head? = some c!"}" then some acc
    else
      match str (ws s) with
      | (none, _) => none
      | (some key, r) =>
        (need c!":" r).bind fun r =>
          if key = b!"blocks" then
            let (k, r) := blocks n r
            let acc := acc ++ k.getD []
            if (ws r).head? = some c!"," then docFields n acc ((ws r).drop 1) else some acc
          else
            (needSkip n r).bind fun r =>
              if (ws r).head? = some c!"," then docFields n acc ((ws r).drop 1) else some acc

/-- ast_json.c:1080-1130 (`apex_pandoc_json_to_cmark`). Every call of the functions reads a byte or is the last at its place, so that
three times the length of the text bounds them. -/
def fromJson (json : Bytes) : Option (List Blk) :=
  (need c!"{" json).bind fun r => docFields (3 * json.length + 3) [] r

end Verif.AstJson
