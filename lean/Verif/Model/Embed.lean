/-
Images put into the page as data URLs: src/apex.c:218-252, :257-276, :281-316 and :322-486.
Simplified: the file system is a function from paths to the content of regular files that can be read; `malloc` and `realloc` succeed; the page and
the URLs are C strings, so they have no NUL byte.
-/
import Verif.Basic
import Verif.Model.Base64

namespace Verif.Embed

/-- `strstr`: the text in front of the first occurrence, and the text behind it. -/
def find (w : Bytes) : Bytes → Option (Bytes × Bytes)
  | [] => none
  | c :: t => if w <+: c :: t then some ([], (c :: t).drop w.length) else (find w t).map fun r => (c :: r.1, r.2)

/-- `apex_detect_mime_type`, src/apex.c:218-252.  What follows the last dot decides, up to a `?`, `#`, `/` or blank. -/
def mime (path : Bytes) : Bytes :=
  if c!"." ∉ path then b!"image/png"
  else
    let ext := (path.reverse.takeWhile (· != c!".")).reverse
    let ext := (ext.takeWhile fun c => c != c!"?" && c != c!"#" && c != c!"/" && c != c!" ").map toLower
    if ext = b!"jpg" then b!"image/jpeg"
    else if ext = b!"jpeg" then b!"image/jpeg"
    else if ext = b!"png" then b!"image/png"
    else if ext = b!"gif" then b!"image/gif"
    else if ext = b!"webp" then b!"image/webp"
    else if ext = b!"svg" then b!"image/svg+xml"
    else if ext = b!"bmp" then b!"image/bmp"
    else if ext = b!"ico" then b!"image/x-icon"
    else b!"image/png"

/-- `apex_resolve_image_path`, src/apex.c:257-276. -/
def resolve (path : Bytes) (base : Option Bytes) : Bytes :=
  if path.head? = some c!"/" then path
  else
    match base with
    | none => path
    | some d => if d = [] then path else d ++ b!"/" ++ path

/-- `apex_read_and_encode_image`, src/apex.c:281-316 (the limit is 10 MB). -/
def encoded (file : Bytes → Option Bytes) (path : Bytes) : C (Option Bytes) :=
  match file path with
  | none => .val none
  | some content => if content.length > 10485760 then .val none else Base64.encode content

/-- src/apex.c:370-398: the data URL for an image, if there is one. -/
def dataUrl (file : Bytes → Option Bytes) (base : Option Bytes) (url : Bytes) : C (Option Bytes) :=
  if b!"data:" <+: url ∨ b!"http://" <+: url ∨ b!"https://" <+: url ∨ b!"//" <+: url then .val none
  else
    match encoded file (resolve url base) with
    | .ub => .ub
    | .val none => .val none
    | .val (some e) => .val (some (b!"data:" ++ mime (resolve url base) ++ b!";base64," ++ e))

/-- src/apex.c:353-365: the text in front of `src=`, the URL, and the text behind the closing quotation mark.  `body` is the tag without its `>`;
an occurrence that begins in front of the `>` also ends there, so it is enough to search the body. -/
def source (body : Bytes) : Option (Bytes × Bytes × Bytes) :=
  match (match find b!"src=\"" body with
    | some r => some (r, c!"\"")
    | none => (find b!"src='" body).map fun r => (r, c!"'")) with
  | none => none
  | some ((before, rest), q) =>
    if q ∈ rest then some (before, rest.takeWhile (· != q), (rest.dropWhile (· != q)).tail) else none

/-- One thing written: a byte that is left out when there is no room (src/apex.c:343-348, :474-480), or a chunk for which room is made when less than
`need` bytes remain (src/apex.c:405-420, :456-471). -/
inductive Tok where
  | byte (c : Byte)
  | chunk (need : Nat) (w : Bytes)
deriving DecidableEq

/-- What is written for an `<img` tag, src/apex.c:353-472. -/
def tag (file : Bytes → Option Bytes) (base : Option Bytes) (body : Bytes) : C Tok :=
  match source body with
  | none => .val (.chunk (body.length + 1) (body ++ b!">"))
  | some (before, url, after) =>
    match dataUrl file base url with
    | .ub => .ub
    | .val none => .val (.chunk (body.length + 1) (body ++ b!">"))
    | .val (some d) => .val (.chunk (before.length + 5 + d.length + 1 + (after.length + 1) + 1) (before ++ b!"src=\"" ++ d ++ b!"\"" ++ after ++ b!">"))

/-- The loop, src/apex.c:336-482, with fuel for its turns. -/
def scan (file : Bytes → Option Bytes) (base : Option Bytes) : Nat → Bytes → C (List Tok)
  | 0, _ => .val []
  | _ + 1, [] => .val []
  | n + 1, c :: t =>
    if b!"<img" <+: c :: t ∧ c!">" ∈ c :: t then do
      let k ← tag file base ((c :: t).takeWhile (· != c!">"))
      let ks ← scan file base n ((c :: t).dropWhile (· != c!">")).tail
      .val (k :: ks)
    else do
      let ks ← scan file base n t
      .val (.byte c :: ks)

/-- Capacity and what has been written; `remaining` is the difference. -/
structure St where
  cap : Nat
  out : Bytes
deriving DecidableEq

/-- Writing. -/
def St.write (s : St) : Tok → C St
  | .byte c => if 0 < s.cap - s.out.length then .val { s with out := s.out ++ [c] } else .val s
  | .chunk need w =>
    let cap := if need > s.cap - s.out.length then (s.out.length + need + 1) * 2 else s.cap
    match puts cap s.out w with
    | .ub => .ub
    | .val o => .val { cap := cap, out := o }

/-- Writing all. -/
def writeAll (s : St) : List Tok → C St
  | [] => .val s
  | t :: ts =>
    match s.write t with
    | .ub => .ub
    | .val s' => writeAll s' ts

/-- `apex_embed_images`, src/apex.c:322-486, with `embed_images` set.  The terminating NUL (src/apex.c:484) is written without looking at what remains. -/
def embed (file : Bytes → Option Bytes) (base : Option Bytes) (html : Bytes) : C Bytes :=
  match scan file base html.length html with
  | .ub => .ub
  | .val ts =>
    match writeAll { cap := html.length * 3 + 1024, out := [] } ts with
    | .ub => .ub
    | .val s => finish s.cap s.out

end Verif.Embed
