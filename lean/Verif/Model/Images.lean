/-
src/extensions/ial.c:2332-4074: attributes of images and addresses of links, taken out of the text before it is parsed, and given to the
images of the document.  Allocations succeed, and lengths are less than 2³¹; no text has a zero byte.
-/
import Verif.Model.Media
import Verif.Model.Escape

namespace Verif.Images

open Ial (Attrs addAttr empty)

/-- ial.c:2585-2597: `urls`, are addresses encoded; `imgs`, are attributes of images read.  `image` and `ial` stand for
parse_image_attributes (Media.parse) and parse_ial_content (Ial.parse). -/
structure Env where
  urls : Bool
  imgs : Bool
  image : Bytes → C Attrs
  ial : Bytes → C Attrs

/-- The modes of apex, as far as they make a difference here. -/
inductive Mode
  | unified | mmd | kramdown | gfm | other
  deriving DecidableEq

/-- ial.c:2585-2601; in other modes nothing is done.  `after` is what lies in memory behind the texts that are parsed. -/
def env (after : Bytes) (m : Mode) : Option Env :=
  match m with
  | .unified | .mmd => some ⟨true, true, (Media.parse · after), (Ial.parse · after)⟩
  | .kramdown => some ⟨true, false, (Media.parse · after), (Ial.parse · after)⟩
  | .gfm => some ⟨false, true, (Media.parse · after), (Ial.parse · after)⟩
  | .other => none

/-- ial.c:2335-2367: an entry for an image.  `pos` is its place among the inline images, missing (-1) for a reference; `ref` is the name
of a reference. -/
structure Entry where
  url : Bytes
  attrs : Attrs
  pos : Option Nat
  ref : Option Bytes
  deriving DecidableEq

def blank (c : Byte) : Bool := c = c!" " || c = c!"\t"

def alpha (c : Byte) : Bool := (97 ≤ c && c ≤ 122) || (65 ≤ c && c ≤ 90)

def digit (c : Byte) : Bool := 48 ≤ c && c ≤ 57

/-- ial.c:2515-2527 `has_protocol`. -/
def hasProtocol (url : Bytes) : Bool :=
  match url with
  | [] => false
  | c :: s => alpha c && b!"://".isPrefixOf (s.dropWhile fun c => alpha c || digit c || c = c!"+" || c = c!"-" || c = c!".")

/-- ial.c:2484-2509 `looks_like_attribute_start`. -/
def attrStart (p : Bytes) : Bool :=
  let p := p.dropWhile blank
  let key := p.takeWhile fun c => c ≠ c!"=" && !blank c && c ≠ c!")"
  match p.dropWhile fun c => c ≠ c!"=" && !blank c && c ≠ c!")" with
  | [] => false
  | c :: _ => (c = c!"=" && key ≠ []) || c = c!"\"" || c = c!"'"

/-- ial.c:2558-2571 `looks_like_attr_key_equals`. -/
def keyEquals (p : Bytes) : Bool :=
  match p.dropWhile blank with
  | [] => false
  | c :: s =>
    c = c!"\"" || c = c!"'" ||
      let key := (c :: s).takeWhile fun c => alpha c || digit c || c = c!"_"
      key ≠ [] && ((c :: s).dropWhile fun c => alpha c || digit c || c = c!"_").head? = some c!"="

/-- ial.c:2685-2689, 3035-3039: `@2x` or `@3x`. -/
def retina : Bytes → Bool
  | a :: b :: c :: t => a = c!"@" && (b = c!"2" || b = c!"3") && c = c!"x" && t.head?.all isSpace
  | _ => false

/-- ial.c:2718-2728: nothing but a title in quotes. -/
def onlyTitle : Bytes → Bool
  | [] => false
  | q :: t => (q = c!"\"" || q = c!"'") && ((t.dropWhile (· ≠ q)).drop 1).all blank

/-- What follows an address. -/
inductive Tail
  | attrs
  | title
  | no

/-- The loops of ial.c:2677-2764, 3023-3076 and 3596-3621: the address, and what follows it, from the white space on; `f` says what this
is. -/
def cut (f : Bytes → Tail) : Bytes → Option (Bytes × Bytes × Bool)
  | [] => none
  | c :: s =>
    if blank c && (s.dropWhile blank ≠ []) then
      match f (s.dropWhile blank) with
      | .attrs => some ([], c :: s, true)
      | .title => some ([], c :: s, false)
      | .no => (cut f s).map fun x => (c :: x.1, x.2)
    else (cut f s).map fun x => (c :: x.1, x.2)

/-- ial.c:2684-2757. -/
def imageTail (imgs : Bool) (t : Bytes) : Tail :=
  if retina t then .attrs
  else if imgs then
    if t.head? = some c!"(" then .title else if onlyTitle t then .title else .attrs
  else if t.head? = some c!"\"" ∨ t.head? = some c!"'" ∨ t.head? = some c!"(" then .title
  else .no

/-- ial.c:3028-3071. -/
def defTail (imgs : Bool) (t : Bytes) : Tail :=
  if keyEquals t then .attrs
  else if retina t then .attrs
  else if t.head? = some c!"(" then .title
  else if imgs && t.head? = some c!"{" then .attrs
  else if imgs && attrStart t then .attrs
  else .no

/-- ial.c:3601-3615. -/
def linkTail (t : Bytes) : Tail :=
  if t.head? = some c!"\"" ∨ t.head? = some c!"'" ∨ t.head? = some c!"(" then .title else .no

/-- ial.c:3903-3909, the loop after the expansion of references. -/
def expandTail (t : Bytes) : Tail := if attrStart t then .attrs else .no

/-- Are there any attributes? -/
def none? (a : Attrs) : Bool := a.attrs = [] && a.id = none && a.classes = []

/-- ial.c:2800-2852: an attribute list behind an image; its attributes, and the text behind it. -/
def listBehind (E : Env) (a : Option Attrs) (s : Bytes) : C (Option Attrs × Bytes) :=
  match s.dropWhile blank with
  | b :: u =>
    if E.imgs && b = c!"{" && c!"}" ∈ u then
      let t := u.takeWhile (· ≠ c!"}")
      let rest := (u.dropWhile (· ≠ c!"}")).drop 1
      let content :=
        match t with
        | [] => []
        | c :: v => if c = c!":" then v else if c = c!"#" || c = c!"." || blank c || alpha c then t else []
      if content = [] then .val (a, rest)
      else do
        let l ← E.ial content
        let l ← if none? l then E.image content else .val l
        .val (if none? l then a else some (match a with | none => l | some a => Ial.merge a l), rest)
    else .val (a, s)
  | [] => .val (a, s)

/-- ial.c:2854-2859. -/
def wildcard (url : Bytes) : Bool := b!".*".isSuffixOf url

/-- What one turn of the main loop does: it writes `out`, makes an entry, goes to the next image, and goes on with `rest`. -/
structure Turn where
  out : Bytes
  entry : Option Entry
  image : Bool
  rest : Bytes

/-- ial.c:2861-2863, 3369-3370. -/
def encode (E : Env) (url : Bytes) : C Bytes := if E.urls && !hasProtocol url then Escape.ialUrlEncode url else .val url

/-- ial.c:2677-2776: the address in `inside`, the text between it and the attributes or the `)`, and the attributes. -/
def splitImage (imgs : Bool) (inside : Bytes) : Bytes × Bytes × Option Bytes :=
  match cut (imageTail imgs) inside with
  | some (u, w, true) => (u, w.takeWhile blank, some (w.dropWhile blank))
  | some (u, w, false) => if imgs then (u, w, none) else (inside, [], none)
  | none => (inside, [], none)

/-- ial.c:2787-2791, 3095-3101. -/
def attrsFor (E : Env) : Option Bytes → C (Option Attrs)
  | none => .val none
  | some t => do
    let a ← E.image t
    .val (some a)

/-- ial.c:2621-2996: `![alt](inside)`, with `s` behind the `)`. -/
def inlineImage (E : Env) (ix : Nat) (alt inside s : Bytes) : C Turn :=
  let (url, between, attr) := splitImage E.imgs inside
  if url = [] then .val ⟨[], none, false, c!"[" :: alt ++ b!"](" ++ inside ++ b!")" ++ s⟩
  else do
    let a ← attrsFor E attr
    let (a, rest) ← listBehind E a s
    let a := if E.imgs && wildcard url then some (addAttr (a.getD empty) b!"data-apex-auto" b!"1") else a
    let enc ← encode E url
    let entry := if a.isSome || Media.isVideo url || wildcard url then some ⟨enc, a.getD empty, some ix, none⟩ else none
    .val ⟨b!"![" ++ alt ++ b!"](" ++ enc ++ between ++ b!")", entry, true, rest⟩

/-- ial.c:2532-2551 `attrs_are_image_specific`. -/
def specific (a : Attrs) : Bool :=
  a.id.isSome || a.classes ≠ [] ||
    a.attrs.any fun kv => kv.1 ∈ [b!"width", b!"height", b!"style", b!"class", b!"id", b!"rel", b!"data-srcset-2x", b!"data-srcset-3x"]

/-- The end of a line. -/
def eol (c : Byte) : Bool := c = c!"\n" || c = c!"\r"

/-- ial.c:3436-3446, 3502-3522: a line break, and what follows it. -/
def newline : Bytes → Bytes × Bytes
  | c :: s =>
    if c = c!"\n" then ([c], s)
    else if c = c!"\r" then
      match s with
      | d :: t => if d = c!"\n" then ([c, d], t) else ([c], s)
      | [] => ([c], s)
    else ([], c :: s)
  | [] => ([], [])

def trim (s : Bytes) : Bytes := ((s.dropWhile isSpace).reverse.dropWhile isSpace).reverse

/-- ial.c:3020-3081: the address in a line, the rest of the line, and the attributes in it. -/
def splitDef (imgs : Bool) (line : Bytes) : Bytes × Bytes × Option Bytes :=
  match cut (defTail imgs) line with
  | some (u, w, true) => (u, w, some (w.dropWhile blank))
  | some (u, w, false) => (u, w, none)
  | none => (line, [], none)

/-- ial.c:2999-3565: `[name]:` and `s`, which begins with white space.  `none`: there is no address.  Lines 3106-3276 look for
attributes behind a title; they are not reached, for a title in quotes is taken for attributes before (3029, 2562). -/
def definition (E : Env) (name s : Bytes) : C (Option Turn) :=
  let gap := s.takeWhile blank
  let line := (s.dropWhile blank).takeWhile (!eol ·)
  let (nl, rest) := newline ((s.dropWhile blank).dropWhile (!eol ·))
  let (url, w, attr) := splitDef E.imgs line
  if url = [] then .val none
  else do
    let a ← attrsFor E attr
    let pre := b!"[" ++ name ++ b!"]:" ++ gap
    if (trim name).head? = some c!"^" then
      .val (some ⟨pre ++ line ++ (if nl = b!"\n" then nl else []), none, false, rest⟩)
    else do
      let enc ← encode E url
      if a.any specific then .val (some ⟨[], some ⟨enc, a.getD empty, none, some (trim name)⟩, false, rest⟩)
      else .val (some ⟨pre ++ enc ++ w ++ nl, none, false, rest⟩)

/-- ial.c:3594-3626: the address in `inside`, and the rest. -/
def splitLink (inside : Bytes) : Bytes × Bytes :=
  match cut linkTail inside with
  | some (u, w, _) => (u, w)
  | none => (inside, [])

/-- ial.c:3634-3635. -/
def encodeLink (E : Env) (url : Bytes) : C Bytes := if E.urls then Escape.ialUrlEncode url else .val url

/-- ial.c:3569-3678: `[label](` and `s`.  `none`: there is no address. -/
def link (E : Env) (label s : Bytes) : C (Option Turn) :=
  let inside := s.takeWhile fun c => c ≠ c!")" && c ≠ c!"\n"
  let s := s.dropWhile fun c => c ≠ c!")" && c ≠ c!"\n"
  let (url, w) := splitLink inside
  if url = [] then .val none
  else do
    let enc ← encodeLink E url
    let close := s.head? = some c!")"
    .val (some ⟨b!"[" ++ label ++ b!"](" ++ enc ++ w ++ (if close then b!")" else []), none, false, if close then s.drop 1 else s⟩)

/-- ial.c:2620-3698: one turn of the main loop, for a text that is not empty; `bang`: the byte in front of it is `!`.  The output has three
bytes for each byte of the text, which is enough (`Proof`: `turns_room`). -/
def turn (E : Env) (bang : Bool) (ix : Nat) (c : Byte) (s : Bytes) : C Turn :=
  if c = c!"!" && s.head? = some c!"[" then
    let s := s.drop 1
    let alt := s.takeWhile (· ≠ c!"]")
    match s.dropWhile (· ≠ c!"]") with
    | _ :: d :: u =>
      if d = c!"(" then
        let inside := u.takeWhile fun c => c ≠ c!")" && c ≠ c!"\n"
        match u.dropWhile fun c => c ≠ c!")" && c ≠ c!"\n" with
        | e :: v => if e = c!")" then inlineImage E ix alt inside v else .val ⟨[], none, false, c!"[" :: s⟩
        | [] => .val ⟨[], none, false, c!"[" :: s⟩
      else .val ⟨b!"![", none, false, s⟩
    | _ => .val ⟨b!"![", none, false, s⟩
  else if c = c!"[" then
    let name := s.takeWhile (· ≠ c!"]")
    match s.dropWhile (· ≠ c!"]") with
    | _ :: d :: u => do
      let t ← if d = c!":" && u.head?.any blank then definition E name u
        else if d = c!"(" && !bang && !(1 < name.length && b!"![".isPrefixOf name) then link E name u
        else .val none
      .val (t.getD ⟨[c], none, false, s⟩)
    | _ => .val ⟨[c], none, false, s⟩
  else .val ⟨[c], none, false, s⟩

/-- ial.c:2620-3699: the main loop; `n` turns are enough for `n` bytes.  The entries begin with the last one. -/
def turns (E : Env) : Nat → Bool → Nat → List Entry → Bytes → C (Bytes × List Entry)
  | _, _, _, es, [] => .val ([], es)
  | 0, _, _, es, _ => .val ([], es)
  | n + 1, bang, ix, es, c :: s => do
    let t ← turn E bang ix c s
    let read := (c :: s).take ((c :: s).length - t.rest.length)
    let (out, es) ← turns E n (read.getLast? = some c!"!") (if t.image then ix + 1 else ix) (t.entry.toList ++ es) t.rest
    .val (t.out ++ out, es)

/-- ial.c:2387-2464 `attributes_to_inline_format`, for attributes without identifier and classes, which references never have
(parse_image_attributes gives none). -/
def inlineFormat (a : Attrs) : Bytes :=
  (a.attrs.foldl (fun (o : Bytes × Bool) kv =>
    let v := kv.2
    let t := (if o.2 then [] else b!" ") ++ kv.1 ++ b!"=" ++
      if c!" " ∈ v ∨ c!";" ∈ v ∨ c!"\"" ∈ v then b!"\"" ++ v ++ b!"\"" else v
    let t := t.take 1023
    (if t.length < 4096 - o.1.length then o.1 ++ t else o.1, false)) ([], true)).1

/-- ial.c:3726-3770: `![alt][name]` at the start of a text, behind its `![`: alt, name, and the rest. -/
def reference (s : Bytes) : Option (Bytes × Bytes × Bytes) :=
  match s.dropWhile (· ≠ c!"]") with
  | _ :: d :: u =>
    if d = c!"[" && c!"]" ∈ u then
      let name := u.takeWhile (· ≠ c!"]")
      some (s.takeWhile (· ≠ c!"]"), trim (if name.head? = some c!"[" then name.drop 1 else name), (u.dropWhile (· ≠ c!"]")).drop 1)
    else none
  | _ => none

/-- ial.c:2473-2479 `find_image_attr_by_ref`. -/
def findRef (es : List Entry) (name : Bytes) : Option Entry := es.find? fun e => e.ref = some name

/-- ial.c:3774-3822: the inline image for a reference. -/
def inlined (alt : Bytes) (e : Entry) : Bytes :=
  b!"![" ++ alt ++ b!"](" ++ e.url ++ (if inlineFormat e.attrs = [] then [] else b!" " ++ inlineFormat e.attrs) ++ b!")"

/-- ial.c:3715-3850: images with the names of references become inline images.  `room` is what is left of the output, `made`, is there
such an image. -/
def expand (es : List Entry) : Nat → Nat → Nat → Bytes → Bytes × Bool
  | _, _, _, [] => ([], false)
  | 0, _, _, _ => ([], false)
  | n + 1, written, room, c :: s =>
    let hit := if c = c!"!" && s.head? = some c!"[" then
        (reference (s.drop 1)).bind fun x => (findRef es x.2.1).map fun e => (inlined x.1 e, x.2.2)
      else none
    match hit with
    | some (new, rest) =>
      let room := if room < new.length then (written + new.length + 1) * 2 - written else room
      let (out, _) := expand es n (written + new.length) (room - new.length) rest
      (new ++ out, true)
    | none =>
      if 0 < room then
        let (out, f) := expand es n (written + 1) (room - 1) s
        (c :: out, f)
      else expand es n written room s

/-- ial.c:3870-3990: the attributes of images that have been references. -/
def collect (E : Env) : Nat → List Entry → Bytes → C (Bytes × List Entry)
  | _, es, [] => .val ([], es)
  | 0, es, _ => .val ([], es)
  | n + 1, es, c :: s =>
    let hit : Option (Bytes × Bytes × Bytes × Bytes) :=
      if c = c!"!" && s.head? = some c!"[" then
        let t := s.drop 1
        match t.dropWhile (· ≠ c!"]") with
        | _ :: d :: u =>
          let inside := u.takeWhile fun c => c ≠ c!")" && c ≠ c!"\n"
          let v := u.dropWhile fun c => c ≠ c!")" && c ≠ c!"\n"
          if d = c!"(" && v.head? = some c!")" then
            match cut expandTail inside with
            | some (url, w, _) => if url = [] then none else some (t.takeWhile (· ≠ c!"]"), url, w.dropWhile blank, v.drop 1)
            | none => none
          else none
        | _ => none
      else none
    match hit with
    | some (alt, url, attr, rest) => do
      let a ← E.image attr
      let e : Entry := ⟨url, a, some (es.countP (·.pos.isSome)), none⟩
      let (out, es) ← collect E n (e :: es) rest
      .val (b!"![" ++ alt ++ b!"](" ++ url ++ b!")" ++ out, es)
    | none => do
      let (out, es) ← collect E n es s
      .val (c :: out, es)

/-- ial.c:2576-4002 `apex_preprocess_image_attributes`: the text and the entries. -/
def preprocess (E : Env) (text : Bytes) : C (Bytes × List Entry) := do
  let (out, es) ← turns E text.length false 0 [] text
  if (E.imgs && es ≠ []) || es.any (·.ref.isSome) then
    let (new, made) := expand es out.length 0 (out.length * 3) out
    if made then collect E new.length es new else .val (new, es)
  else .val (out, es)

/-- ial.c:4012-4073 `apex_apply_image_attributes`: the attributes for the images of the document, which are given by their addresses.  An
entry that has been used is marked with -2, here it is left out. -/
def apply (es : List Entry) (p : Nat) : List Bytes → List (Option Attrs)
  | [] => []
  | url :: l =>
    match es.find? fun e => e.pos = some p && e.url = url with
    | some e => some e.attrs :: apply (es.eraseP fun e => e.pos = some p && e.url = url) (p + 1) l
    | none => (es.find? fun e => e.pos = none && e.url = url).map (·.attrs) :: apply es p l

end Verif.Images
