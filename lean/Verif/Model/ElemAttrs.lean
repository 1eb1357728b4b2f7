/- src/html_renderer.c:48-156, 262-277, 298-1064: the attributes of elements put into the tags of the rendered page (`apex_render_html_with_attributes`).  The page rendered by
cmark-gfm and the tree it was rendered from are inputs; no text has a zero byte; allocations succeed.  The numbers of the kinds of nodes are those of cmark-gfm: a heading is followed by
a thematic break, a footnote, a table, a row and a cell (`CMARK_NODE_HEADING + 5` is a cell). -/
import Verif.Model.AutoMedia

namespace Verif.ElemAttrs
open Embed (find)
open AutoMedia (tagEnd attr withExt mime)

/-- A text is in another one. -/
def has (w s : Bytes) : Bool := (find w s).isSome

/-! ### The nodes with attributes -/

/-- The kinds of nodes. -/
inductive Kind
  | para | heading | rule | footnote | table | row | cell | quote | list | item | pre | link | image | strong | emph | code | text | other
deriving DecidableEq, Repr

/-- `type >= CMARK_NODE_HEADING && type <= CMARK_NODE_HEADING + 5`. -/
def headingLike : Kind → Bool
  | .heading | .rule | .footnote | .table | .row | .cell => true
  | _ => false

/-- html_renderer.c:391-408: the counter of a kind.  The branch for tables comes after that for headings. -/
def slot : Kind → Option Kind
  | .text | .other => none
  | k => some (if headingLike k then .heading else k)

/-- html_renderer.c:38-45: a node with attributes, with its number among those of its counter and the start of its text. -/
structure Mark where
  kind : Kind
  idx : Option Nat
  fp : Option Bytes
  attrs : Bytes
deriving DecidableEq, Repr

/-- The tree: its kind, the attributes, the literal text or the address, and the children. -/
inductive Tree
  | node (kind : Kind) (attrs lit : Option Bytes) (kids : List Tree)

/-- html_renderer.c:298-381 `get_node_text_fingerprint`.  That of an image is not used. -/
def fingerprint (k : Kind) (lit : Option Bytes) (kids : List Tree) : Option Bytes :=
  if k = .heading ∨ k = .para then
    match kids with
    | .node .text _ (some t) _ :: _ => some (t.take 50)
    | _ => none
  else if k = .link then lit.map (·.take 50)
  else none

/-- One more of that kind. -/
def bump (cnt : Kind → Nat) (k : Kind) : Kind → Nat := fun j => if j = k then cnt j + 1 else cnt j

/-- html_renderer.c:391-408: the number of the node, and the counters after it. -/
def counted (k : Kind) (cnt : Kind → Nat) : Option Nat × (Kind → Nat) :=
  match slot k with
  | some j => (some (cnt j), bump cnt j)
  | none => (none, cnt)

mutual
/-- html_renderer.c:383-434 `collect_nodes_with_attrs_recursive`, the list in the order of the document (436-449). -/
def collect : Tree → (Kind → Nat) → List Mark × (Kind → Nat)
  | .node k attrs lit kids, cnt =>
    match attrs with
    | some a =>
      if has b!"data-remove" a then ([⟨k, (counted k cnt).1, fingerprint k lit kids, a⟩], (counted k cnt).2)
      else (⟨k, (counted k cnt).1, fingerprint k lit kids, a⟩ :: (collectAll kids (counted k cnt).2).1, (collectAll kids (counted k cnt).2).2)
    | none => collectAll kids (counted k cnt).2
/-- html_renderer.c:431-433: the children. -/
def collectAll : List Tree → (Kind → Nat) → List Mark × (Kind → Nat)
  | [], cnt => ([], cnt)
  | t :: ts, cnt => ((collect t cnt).1 ++ (collectAll ts (collect t cnt).2).1, (collectAll ts (collect t cnt).2).2)
end

/-! ### Tags -/

/-- html_renderer.c:511-514: a byte of the name of a tag. -/
def nameByte (c : Byte) : Bool := !isSpace c && c != c!">" && c != c!"/"

/-- html_renderer.c:524-566: the kind of element of a tag. -/
def kindOf (name : Bytes) : Option Kind :=
  if name = b!"p" then some .para
  else if name ∈ [b!"h1", b!"h2", b!"h3", b!"h4", b!"h5", b!"h6"] then some .heading
  else if name = b!"blockquote" then some .quote
  else if name = b!"table" then some .table
  else if name = b!"ul" ∨ name = b!"ol" then some .list
  else if name = b!"li" then some .item
  else if name = b!"pre" then some .pre
  else if name = b!"a" then some .link
  else if name = b!"img" then some .image
  else if name = b!"strong" then some .strong
  else if name = b!"em" then some .emph
  else if name = b!"code" then some .code
  else none

/-- Elements in a line of text. -/
def inline (e : Kind) : Bool := e == .link || e == .image || e == .strong || e == .emph || e == .code

/-- html_renderer.c:577-578, 725-726. -/
def sameKind (m e : Kind) : Bool := m == e || (e == .heading && headingLike m)

/-- html_renderer.c:634-690: the start of the text in the page, or of the address; `cur` is where the loop is, `after` follows the name.  That of an image is not used. -/
def startOf (e : Kind) (cur after : Bytes) : Bytes :=
  if e = .link then
    match find b!"href=\"" cur with
    | some (_, t) => if c!"\"" ∈ t then (t.takeWhile (· != c!"\"")).take 50 else []
    | none => []
  else (((after.dropWhile (· != c!">")).drop 1).takeWhile (· != c!"<")).take 50

/-- html_renderer.c:696-758: the attributes belong to this element. -/
def fits (e : Kind) (i : Nat) (h : Bytes) (m : Mark) : Bool :=
  if e = .table then m.kind == .table
  else if e = .image then m.kind == .image && m.idx == some i
  else sameKind m.kind e &&
    match m.fp with
    | some f => h != [] && f == h && (!inline e || m.idx == some i)
    | none => m.idx == some i

/-- html_renderer.c:572-590: the node of that number is marked for removal. -/
def removes (e : Kind) (i : Nat) (ms : List Mark) : Bool :=
  match ms.find? fun m => sameKind m.kind e && m.idx == some i with
  | some m => has b!"data-remove" m.attrs
  | none => false

/-- The name, and a `>` or what else may follow it.  `memcmp` is taken to stop at the first difference. -/
def nameThen (p : Byte → Bool) (name s : Bytes) : Bool :=
  s.take name.length == name && match s[name.length]? with
    | some c => p c
    | none => false

/-- html_renderer.c:594-623: the text behind the end of an element to be removed.  The search begins at its own opening tag, with depth 1. -/
def skipEl (name : Bytes) : Nat → Bytes → Option Bytes
  | _, [] => none
  | d, c :: t =>
    if c = c!"<" then
      if t.head? = some c!"/" then
        if nameThen (fun c => c == c!">" || isSpace c) name (t.drop 1) then
          if d = 1 then some (((c :: t).dropWhile (· != c!">")).drop 1) else skipEl name (d - 1) t
        else skipEl name d t
      else if t.head? ≠ some c!"!" ∧ t.head? ≠ some c!"?" ∧ nameThen (fun c => c == c!">" || c == c!" ") name t then skipEl name (d + 1) t
      else skipEl name d t
    else skipEl name d t

/-! ### The attributes of a table with a caption -/

/-- html_renderer.c:95-99: a value up to and with its closing quote. -/
def closing (q : Byte) : Bytes → Bytes × Bytes
  | [] => ([], [])
  | c :: t =>
    if c = q then ([c], t)
    else if c = c!"\\" then
      match t with
      | [] => ([c], [])
      | d :: t => (c :: d :: (closing q t).1, (closing q t).2)
    else (c :: (closing q t).1, (closing q t).2)

/-- A byte of a name or an unquoted value. -/
def wordByte (c : Byte) : Bool := c != c!" " && c != c!"\t"

/-- html_renderer.c:90-105, 130-143: what follows the name. -/
def valued : Bytes → Bytes × Bytes
  | [] => ([], [])
  | c :: t =>
    if c = c!"=" then
      match t with
      | [] => ([c], [])
      | q :: t' =>
        if q = c!"\"" ∨ q = c!"'" then (c :: q :: (closing q t').1, (closing q t').2)
        else (c :: t.takeWhile wordByte, t.dropWhile wordByte)
    else ([], c :: t)

/-- A byte of a name. -/
def attrByte (c : Byte) : Bool := c != c!"=" && wordByte c

/-- html_renderer.c:80-85: attributes left out.  The length compared with that of `data-caption` is 11. -/
def internal (name : Bytes) : Bool :=
  (name.length == 11 && name == b!"data-caption".take 11) || name == b!"data-remove" || name == b!"colspan" || name == b!"rowspan"

/-- html_renderer.c:69-146: the loop; `n` bounds the number of turns. -/
def keep : Nat → Bytes → Bytes → Bytes
  | 0, out, _ => out
  | _, out, [] => out
  | n + 1, out, c :: s =>
    let name := (c :: s).takeWhile attrByte
    let v := valued ((c :: s).dropWhile attrByte)
    let rest := v.2.dropWhile isSpace
    if internal name then keep n out rest
    else keep n (out ++ (if out.getLast? = some c!" " then [] else b!" ") ++ name ++ v.1) rest

/-- html_renderer.c:48-156 `extract_ial_from_table_attrs`. -/
def tableAttrs (attrs : Bytes) : Option Bytes :=
  let r := keep attrs.length [] (attrs.dropWhile isSpace)
  if r = [] then none else some r

/-! ### Videos and pictures -/

/-- html_renderer.c:262-277 `extract_data_apex_picture_srcset`. -/
def pictureSet (attrs format : Bytes) : Option Bytes :=
  match find (b!"data-apex-picture-" ++ format ++ b!"=\"") attrs with
  | none => none
  | some (_, t) => if c!"\"" ∈ t then some (t.takeWhile (· != c!"\"")) else none

/-- A source of a video. -/
def videoSource (url type : Bytes) : Bytes := b!"<source src=\"" ++ url ++ b!"\" type=\"" ++ type ++ b!"\">"

/-- html_renderer.c:871-890: one more format, when asked for. -/
def format (attrs src ext type : Bytes) : Bytes :=
  if has (b!"data-apex-video-" ++ ext) attrs then
    match withExt src ext with
    | some u => videoSource u type
    | none => []
  else []

/-- html_renderer.c:866-892: a video but for its end. -/
def videoText (attrs src alt : Bytes) : Bytes :=
  b!"<video" ++ (if alt = [] then [] else b!" title=\"" ++ alt ++ b!"\"") ++ b!">" ++ format attrs src b!"webm" b!"video/webm" ++ format attrs src b!"ogg" b!"video/ogg" ++
    format attrs src b!"mp4" b!"video/mp4" ++ format attrs src b!"mov" b!"video/quicktime" ++ format attrs src b!"m4v" b!"video/mp4" ++ videoSource src (mime src)

/-- html_renderer.c:905-907: a picture but for the image in it. -/
def pictureText (attrs : Bytes) : Bytes :=
  b!"<picture>" ++ (match pictureSet attrs b!"avif" with | some s => b!"<source type=\"image/avif\" srcset=\"" ++ s ++ b!"\">" | none => []) ++
    (match pictureSet attrs b!"webp" with | some s => b!"<source type=\"image/webp\" srcset=\"" ++ s ++ b!"\">" | none => [])

/-- html_renderer.c:909-913. -/
def pictureEnd (src alt title : Bytes) : Bytes :=
  b!"<img src=\"" ++ src ++ b!"\" alt=\"" ++ alt ++ b!"\"" ++ (if title = [] then [] else b!" title=\"" ++ title ++ b!"\"") ++ b!"></picture>"

/-- html_renderer.c:842-853: the title of the tag, or that of the attributes. -/
def titleOf (tag attrs : Bytes) : Bytes :=
  match attr b!"title" true tag with
  | some (c :: t) => c :: t
  | _ => (attr b!"title" true (b!"<img " ++ attrs ++ b!">")).getD []

/-- What is done at an element. -/
inductive Act
  /-- The byte is copied. -/
  | copy
  /-- Pieces are written, then the loop goes on there. -/
  | put (pieces : List (Bool × Bytes)) (rest : Bytes)
  /-- The tag of a table with its attributes. -/
  | table (pre attrs rest : Bytes)
  /-- A text of that length in the place of the tag, when there is room. -/
  | swap (len : Nat) (text : C Bytes) (rest : Bytes)

/-- `snprintf` several times in a row into a block of `cap` bytes: beyond the block as soon as one more follows a text that did not fit; the copy of the block is read beyond it
otherwise.  A text that would fit without its terminator has it in the place of its last byte. -/
def swapped (cap : Nat) (text last rest : Bytes) : C Act :=
  if cap < text.length then .ub else .val (.swap (text ++ last).length (AutoMedia.build cap (text ++ last)) rest)

/-- html_renderer.c:836-939. -/
def replaced (tag rest attrs : Bytes) : C Act :=
  let src := (attr b!"src" true tag).getD []
  let alt := (attr b!"alt" true tag).getD []
  if has b!"data-apex-replace-video" attrs then swapped (256 + src.length * 4) (videoText attrs src alt) b!"</video>" rest
  else swapped (512 + src.length * 2 + ((pictureSet attrs b!"webp").getD []).length + ((pictureSet attrs b!"avif").getD []).length)
    (pictureText attrs) (pictureEnd src alt (titleOf tag attrs)) rest

/-! ### The page -/

/-- html_renderer.c:950-1007: in a line of text the attributes go to the end of the tag.  A piece is written when it fits, the first one only with a byte to spare; `stale` when
an element was removed in between, and the pointers are older than the place read. -/
def putInline (stale : Bool) (name after attrs : Bytes) : Act :=
  let pre (x : Bytes) : Bytes := if stale then [] else c!"<" :: name ++ x
  if c!">" ∈ after then
    let inside := after.takeWhile (· != c!">")
    if inside.getLast? = some c!"/" then
      let i := inside.dropLast
      .put [(true, pre (if i.getLast? = some c!" " then i.dropLast else i)), (false, b!" "), (false, attrs), (false, b!" ")] (b!"/" ++ after.dropWhile (· != c!">"))
    else .put [(true, pre inside), (false, b!" "), (false, attrs)] (after.dropWhile (· != c!">"))
  else .put [(true, pre (after.takeWhile isSpace)), (false, b!" "), (false, attrs)] (after.dropWhile isSpace)

/-- html_renderer.c:1008-1046: elsewhere they follow the name. -/
def putBlock (stale : Bool) (name after attrs : Bytes) : Act :=
  let sp := after.takeWhile isSpace
  .put [(true, if stale then [] else c!"<" :: name ++ sp), (false, if stale ∨ sp = [] then b!" " else []), (false, attrs)] (after.dropWhile isSpace)

/-- html_renderer.c:760-1047. -/
def act (e : Kind) (stale : Bool) (cur name after attrs : Bytes) : C Act :=
  if has b!"data-remove" attrs || has b!"colspan=" attrs || has b!"rowspan=" attrs then .val .copy
  else if has b!"data-caption" attrs && e == .table then
    match tableAttrs attrs with
    | none => .val .copy
    | some a =>
      if c!">" ∈ after then
        .val (.table (if stale then [] else c!"<" :: name ++ after.takeWhile (· != c!">")) ((if a.head? = some c!" " then [] else b!" ") ++ a) ((after.dropWhile (· != c!">")).drop 1))
      else .val .copy
  else if e == .image && (has b!"data-apex-replace-video" attrs || has b!"data-apex-replace-picture" attrs) then
    match tagEnd none cur with
    | none => .val .copy
    | some (tag, rest) => replaced tag rest attrs
  else if inline e then .val (putInline stale name after attrs) else .val (putBlock stale name after attrs)

/-- Pieces written while there is room: what is written, and the room left. -/
def emit : Nat → List (Bool × Bytes) → Bytes × Nat
  | room, [] => ([], room)
  | room, (tight, b) :: ps =>
    if (if tight then b.length < room else b.length ≤ room) then (b ++ (emit (room - b.length) ps).1, (emit (room - b.length) ps).2) else emit room ps

/-- html_renderer.c:505-1052: the loop; `n` bounds the number of turns, `ms` are the attributes not used yet, `pos` bytes are written and `room` bytes left. -/
def go : Nat → List Mark → (Kind → Nat) → Nat → Nat → Bytes → C Bytes
  | _, _, _, _, room, [] => if room = 0 then .ub else .val []
  | 0, _, _, _, _, _ :: _ => .ub
  | n + 1, ms, cnt, pos, room, c :: t =>
    let copy (ms : List Mark) (cnt : Kind → Nat) (cur : Bytes) : C Bytes :=
      if room = 0 then go n ms cnt pos room cur.tail else do
        let o ← go n ms cnt (pos + 1) (room - 1) cur.tail
        .val (cur.take 1 ++ o)
    if c = c!"<" ∧ t.head? ≠ some c!"/" ∧ t.head? ≠ some c!"!" then
      match kindOf (t.takeWhile nameByte) with
      | none => copy ms cnt (c :: t)
      | some e =>
        let name := t.takeWhile nameByte
        let after := t.dropWhile nameByte
        let element (stale : Bool) (ms : List Mark) (cur : Bytes) : C Bytes :=
          match ms.find? (fits e (cnt e) (startOf e cur after)) with
          | none => copy ms (bump cnt e) cur
          | some m =>
            let ms := ms.eraseP (fits e (cnt e) (startOf e cur after))
            match act e stale cur name after m.attrs with
            | .ub => .ub
            | .val .copy => copy ms (bump cnt e) cur
            | .val (.put ps rest) => do
              let o ← go n ms (bump cnt e) (pos + (emit room ps).1.length) (emit room ps).2 rest
              .val ((emit room ps).1 ++ o)
            | .val (.table pre attrs rest) => do
              let p := if pre.length ≤ room then pre else []
              let room' := if attrs.length ≤ room - p.length then room - p.length - attrs.length else (pos + p.length) + attrs.length + 2
              let q := if 0 < room' then b!">" else []
              let o ← go n ms (bump cnt e) (pos + p.length + attrs.length + q.length) (room' - q.length) rest
              .val (p ++ attrs ++ q ++ o)
            | .val (.swap len text rest) =>
              if len ≤ room then do
                let r ← text
                let o ← go n ms (bump cnt e) (pos + len) (room - len) rest
                .val (r ++ o)
              else copy ms (bump cnt e) cur
        if removes e (cnt e) ms then
          match skipEl name 1 (c :: t) with
          | none => element false ms (c :: t)
          | some cur =>
            let ms := ms.eraseP fun m => sameKind m.kind e && m.idx == some (cnt e)
            if cur.head? = some c!"<" then element true ms cur else go n ms (bump cnt e) pos room cur
        else element false ms (c :: t)
    else copy ms cnt (c :: t)

/-- html_renderer.c:471-479: the size of the block. -/
def capacity (ms : List Mark) (html : Bytes) : Nat := html.length + (ms.map fun m => m.attrs.length).sum + 1024

/-- html_renderer.c:454-1064 `apex_render_html_with_attributes`: the page as it is read later, up to a zero byte. -/
def inject (ms : List Mark) (html : Bytes) : C Bytes :=
  if ms = [] then .val html else do
    let o ← go ((ms.length + 1) * (html.length + 1)) ms (fun _ => 0) 0 (capacity ms html) html
    .val (o.takeWhile (· != 0))

/-- The tree and the page rendered from it. -/
def render (tree : Tree) (html : Bytes) : C Bytes := inject (collect tree fun _ => 0).1 html

end Verif.ElemAttrs
