/- src/html_renderer.c:158-255, 3459-3955: images that look for their own variants (`apex_expand_auto_media`).  The files are a parameter `ex`, telling for a path whether it is
that of a regular file; they stay the same while the page is written.  Allocations succeed; no text has a zero byte to begin with. -/
import Verif.Model.Media

namespace Verif.AutoMedia
open Embed (find)
open Media (lastDot)

/-! ### Tags -/

/-- html_renderer.c:219-234 `find_tag_end`, with the quote open: the text up to and with the `>`, and what follows. -/
def tagEnd : Option Byte → Bytes → Option (Bytes × Bytes)
  | _, [] => none
  | some q, c :: t =>
    if c = c!"\\" then
      match t with
      | [] => none
      | d :: t => (tagEnd (some q) t).map fun p => (c :: d :: p.1, p.2)
    else (tagEnd (if c = q then none else some q) t).map fun p => (c :: p.1, p.2)
  | none, c :: t =>
    if c = c!"\"" ∨ c = c!"'" then (tagEnd (some c) t).map fun p => (c :: p.1, p.2)
    else if c = c!">" then some ([c], t)
    else (tagEnd none t).map fun p => (c :: p.1, p.2)

/-- html_renderer.c:174-178: a value up to its closing quote; none without one. -/
def toQuote (q : Byte) : Bytes → Option Bytes
  | [] => none
  | c :: t =>
    if c = q then some []
    else if c = c!"\\" then
      match t with
      | [] => none
      | d :: t => (toQuote q t).map fun x => c :: d :: x
    else (toQuote q t).map (c :: ·)

/-- html_renderer.c:169-185: what follows `name=`. -/
def quoted : Bytes → Option Bytes
  | [] => none
  | q :: t => if q = c!"\"" ∨ q = c!"'" then toQuote q t else none

/-- The text begins with the name, in any case of letters, and `=`. -/
def named (name s : Bytes) : Bool := (s.take name.length).map toLower == name && s[name.length]? == some c!"="

/-- html_renderer.c:163-190 `extract_attr_from_tag`; `start` tells whether a name may begin here.  The names asked for are in lower case. -/
def attr (name : Bytes) : Bool → Bytes → Option Bytes
  | _, [] => none
  | start, c :: t => if start && named name (c :: t) then quoted ((c :: t).drop (name.length + 1)) else attr name (isSpace c) t

/-! ### Addresses -/

/-- Up to the first `?`, or up to the first `#` when there is none. -/
def path (url : Bytes) : Bytes := if c!"?" ∈ url then url.takeWhile (· != c!"?") else url.takeWhile (· != c!"#")

/-- html_renderer.c:196-214 `url_with_extension`. -/
def withExt (url ext : Bytes) : Option Bytes :=
  match lastDot url with
  | none => none
  | some (a, _) => if a.length < (path url).length then some (a ++ b!"." ++ ext ++ url.drop (path url).length) else none

/-- html_renderer.c:3487-3530 `url_with_2x_suffix_auto`, `url_with_3x_suffix_auto`. -/
def dense (mark url : Bytes) : Option Bytes :=
  match lastDot (path url) with
  | none => none
  | some (a, _) => some (a ++ mark ++ url.drop a.length)

/-- html_renderer.c:3473-3482 `resolve_path_for_check`; the directory is not empty. -/
def resolve (base url : Bytes) : Option Bytes :=
  if url = [] ∨ url.head? = some c!"/" ∨ (find b!"://" url).isSome then none else some (base ++ b!"/" ++ url)

/-- html_renderer.c:3556-3575 `is_video_url_auto`. -/
def isVideo (url : Bytes) : Bool :=
  match lastDot (path url) with
  | none => false
  | some (_, e) => decide (e.map toLower ∈ Media.videoExts)

/-- The text begins like this, in any case of letters. -/
def begins (w s : Bytes) : Bool := (s.take w.length).map toLower == w

/-- html_renderer.c:239-255 `video_type_from_url`. -/
def mime (url : Bytes) : Bytes :=
  match lastDot url with
  | none => b!"video/mp4"
  | some (_, ext) =>
    let e := path ext
    if begins b!"mp4" e then b!"video/mp4"
    else if begins b!"webm" e then b!"video/webm"
    else if begins b!"ogg" e || begins b!"ogv" e then b!"video/ogg"
    else if begins b!"mov" e then b!"video/quicktime"
    else b!"video/mp4"

/-- The address is that of a file: html_renderer.c:3630-3638 and the other checks. -/
def there (ex : Bytes → Bool) (base url : Bytes) : Bool :=
  match resolve base url with
  | none => false
  | some p => ex p

/-- A variant is there. -/
def some? (ex : Bytes → Bool) (base : Bytes) (u : Option Bytes) : Bool :=
  match u with
  | none => false
  | some u => there ex base u

/-- html_renderer.c:3645-3646: the extensions tried for `.*`. -/
def tried : List Bytes := [b!"mp4", b!"webm", b!"ogg", b!"ogv", b!"mov", b!"m4v", b!"jpg", b!"jpeg", b!"png", b!"gif", b!"webp", b!"avif"]

/-- html_renderer.c:3634-3690: the address used, when its file is there. -/
def source (ex : Bytes → Bool) (base src : Bytes) : Option Bytes :=
  if b!".*" <:+ src then (tried.filterMap (withExt src)).find? (there ex base)
  else if there ex base src then some src else none

/-! ### Replacements -/

/-- Several `snprintf` in a row into a block of `cap` bytes, the lengths wanted added up, and the block copied up to there: a text that does not fit is read beyond the block; one that
would fit without its terminator is copied with the terminator in the place of its last byte. -/
def build (cap : Nat) (s : Bytes) : C Bytes :=
  if s.length < cap then .val s else if s.length = cap then .val (s.take (cap - 1) ++ [0]) else .ub

/-- html_renderer.c:3709-3711. -/
def mimeOf (ext : Bytes) : Bytes :=
  if ext = b!"webm" then b!"video/webm" else if ext = b!"ogg" then b!"video/ogg" else if ext = b!"mov" then b!"video/quicktime" else b!"video/mp4"

/-- A source of a video. -/
def videoSource (url type : Bytes) : Bytes := b!"<source src=\"" ++ url ++ b!"\" type=\"" ++ type ++ b!"\">"

/-- html_renderer.c:3702-3723: the text for a video. -/
def videoText (ex : Bytes → Bool) (base src alt : Bytes) : Bytes :=
  b!"<video" ++ (if alt = [] then [] else b!" title=\"" ++ alt ++ b!"\"") ++ b!">" ++
    (Media.formats.flatMap fun f => match withExt src f with
      | none => []
      | some u => if there ex base u then videoSource u (mimeOf f) else []) ++
    videoSource src (mime src) ++ b!"</video>"

/-- `snprintf` at the end of a text in an array of 512 bytes. -/
def more (s t : Bytes) : Bytes := (s ++ t).take 511

/-- html_renderer.c:3806-3822, 3828-3844: the list of pictures of one format, cut to 511 bytes. -/
def set (ex : Bytes → Bool) (base src ext : Bytes) : Bytes :=
  let one := match withExt src ext with | some u => (u ++ b!" 1x").take 511 | none => []
  let add (s : Bytes) (mark word : Bytes) : Bytes :=
    match (dense mark src).bind fun u => withExt u ext with
    | some u => if (withExt src ext).isSome && there ex base u then more s ((if s = [] then [] else b!", ") ++ u ++ word) else s
    | none => s
  add (add one b!"@2x" b!" 2x") b!"@3x" b!" 3x"

/-- html_renderer.c:3744-3790: some picture of that format is there. -/
def offers (ex : Bytes → Bool) (base src ext : Bytes) : Bool :=
  some? ex base (withExt src ext) || ((withExt src ext).isSome &&
    (some? ex base ((dense b!"@2x" src).bind fun u => withExt u ext) || some? ex base ((dense b!"@3x" src).bind fun u => withExt u ext)))

/-- html_renderer.c:3822-3824, 3844-3846. -/
def pictureSource (ex : Bytes → Bool) (base src ext : Bytes) : Bytes :=
  if offers ex base src ext && set ex base src ext != [] then b!"<source type=\"image/" ++ ext ++ b!"\" srcset=\"" ++ set ex base src ext ++ b!"\">" else []

/-- html_renderer.c:3851-3868: the list of denser pictures, in an array of 512 bytes; the quote at its end is added without a check. -/
def srcset (ex : Bytes → Bool) (base src : Bytes) : C Bytes :=
  let has2 := some? ex base (dense b!"@2x" src)
  let has3 := some? ex base (dense b!"@3x" src)
  if has2 || has3 then
    let add (s : Bytes) (mark word : Bytes) : Bytes :=
      match dense mark src with
      | some u => if there ex base u then more s (b!", " ++ u ++ word) else s
      | none => s
    let s := add (add ((b!" srcset=\"" ++ src ++ b!" 1x").take 511) b!"@2x" b!" 2x") b!"@3x" b!" 3x"
    if s.length < 511 then .val (s ++ b!"\"") else .ub
  else .val []

/-- html_renderer.c:3725-3885: the replacement for a picture; none when no variant is there. -/
def picture (ex : Bytes → Bool) (base src alt title : Bytes) : C (Option Bytes) :=
  let need := offers ex base src b!"webp" || offers ex base src b!"avif"
  if need || some? ex base (dense b!"@2x" src) || some? ex base (dense b!"@3x" src) then do
    let s ← srcset ex base src
    let out ← build (1024 + src.length * 8) ((if need then b!"<picture>" else []) ++ pictureSource ex base src b!"avif" ++ pictureSource ex base src b!"webp" ++
      b!"<img src=\"" ++ src ++ b!"\" alt=\"" ++ alt ++ b!"\"" ++ (if title = [] then [] else b!" title=\"" ++ title ++ b!"\"") ++ s ++ b!">" ++
      (if need then b!"</picture>" else []))
    .val (some out)
  else .val none

/-- html_renderer.c:3622-3890: the replacement for a tag; none when it stays. -/
def replace (ex : Bytes → Bool) (base tag : Bytes) : C (Option Bytes) :=
  let src := (attr b!"src" true tag).getD []
  let alt := (attr b!"alt" true tag).getD []
  let title := (attr b!"title" true tag).getD []
  match source ex base src with
  | none => .val none
  | some src =>
    if isVideo src then do
      let out ← build (512 + src.length * 6) (videoText ex base src alt)
      .val (some out)
    else picture ex base src alt title

/-! ### Pages -/

/-- html_renderer.c:3597-3599: a tag of an image begins here. -/
def opens (s : Bytes) : Bool := (s.take 4).map toLower == b!"<img" && (s[4]? == some c!" " || s[4]? == some c!"\t" || s[4]? == some c!">" || s[4]? == some c!"/")

/-- html_renderer.c:3611. -/
def mark : Bytes := b!"data-apex-replace-auto=1"

/-- The room left after `n` bytes, with a block made larger by `extra` when they do not fit. -/
def grown (room n extra : Nat) (fit : Bool) : Nat := if fit then room - n else extra

/-- html_renderer.c:3596-3942: the loop; `n` bounds the number of turns, `len` is the length of the page, `room` what is left of the block. -/
def go (ex : Bytes → Bool) (base : Bytes) (len : Nat) : Nat → Nat → Bytes → C Bytes
  | _, _, [] => .val []
  | 0, _, _ :: _ => .ub
  | n + 1, room, c :: s =>
    if opens (c :: s) then
      match tagEnd none (c :: s) with
      | none => if room = 0 then .ub else do
        let o ← go ex base len n (room - 1) s
        .val (c :: o)
      | some (tag, rest) =>
        if (find mark (c :: s)).isNone then do
          let o ← go ex base len n (grown room tag.length 2048 (tag.length < room)) rest
          .val (tag ++ o)
        else do
          match ← replace ex base tag with
          | some r => do
            let o ← go ex base len n (grown room r.length 1024 (r.length ≤ room)) rest
            .val (r ++ o)
          | none => do
            let o ← go ex base len n (grown room tag.length 1024 (tag.length < room)) rest
            .val (tag ++ o)
    else do
      let o ← go ex base len n (grown room 1 (len + 1023) (2 ≤ room)) s
      .val (c :: o)

/-- html_renderer.c:3583-3955 `apex_expand_auto_media`: the page as it is read later, up to a zero byte. -/
def expand (ex : Bytes → Bool) (base html : Bytes) : C Bytes :=
  if base = [] then .val html else do
    let o ← go ex base html.length html.length (html.length * 2 + 2048) html
    .val (o.takeWhile (· != 0))

end Verif.AutoMedia
