/- src/extensions/ial.c:1748-2330: attributes of images, addresses of their variants, and the attributes written for them.  Allocations succeed; no text has a zero byte; addresses are
shorter than 2³¹ bytes. -/
import Verif.Model.Ial
import Verif.Model.Embed

namespace Verif.Media
open Embed (find)
open Ial (Attrs addAttr empty scan toQuote marker toHtml)

/-! ### Addresses -/

/-- ial.c:1913-1925, 1976-1981: what comes before the path, and the rest. -/
def start (url : Bytes) : Bytes × Bytes :=
  match find b!"://" url with
  | some (a, r) => if c!"/" ∈ r then (a ++ b!"://" ++ r.takeWhile (· != c!"/"), r.dropWhile (· != c!"/")) else ([], url)
  | none => if c!"/" ∈ url then (url.takeWhile (· != c!"/"), url.dropWhile (· != c!"/")) else ([], url)

/-- A byte of a path: not `?` or `#`. -/
def inPath (c : Byte) : Bool := c != c!"?" && c != c!"#"

/-- ial.c:1941-1954, 1987-1991: what is before the last dot, and what follows it. -/
def lastDot (s : Bytes) : Option (Bytes × Bytes) :=
  if c!"." ∈ s then some ((s.reverse.dropWhile (· != c!".")).tail.reverse, (s.reverse.takeWhile (· != c!".")).reverse) else none

/-- ial.c:1910-1966 `url_with_2x_suffix`, 2069-2123 `url_with_3x_suffix`: `mark` is `@2x` or `@3x`. -/
def dense (mark url : Bytes) : Option Bytes :=
  let (pre, rest) := start url
  match lastDot (rest.takeWhile inPath) with
  | none => none
  | some (a, e) => some (pre ++ a ++ mark ++ b!"." ++ e ++ rest.dropWhile inPath)

/-- ial.c:1973-2005 `url_with_extension`. -/
def withExt (url ext : Bytes) : Option Bytes :=
  let (pre, rest) := start url
  match lastDot (rest.takeWhile inPath) with
  | none => none
  | some (a, _) => some (pre ++ a ++ b!"." ++ ext ++ rest.dropWhile inPath)

/-- ial.c:2026-2031. -/
def videoExts : List Bytes := [b!"mp4", b!"mov", b!"webm", b!"ogg", b!"ogv", b!"m4v"]

/-- ial.c:2017-2031: the extension of a path, its dot not its first byte. -/
def isVideoPath (path : Bytes) : Bool :=
  match lastDot path with
  | none => false
  | some (a, e) => a != [] && decide (e.map toLower ∈ videoExts)

/-- ial.c:2011-2033 `is_video_url`: the path ends at the first `?`, or at the first `#` when there is none. -/
def isVideo (url : Bytes) : Bool :=
  isVideoPath (if c!"?" ∈ url then url.takeWhile (· != c!"?") else url.takeWhile (· != c!"#"))

/-! ### Attributes of images -/

/-- Stop of ial.c:1789 (key or word). -/
def keyStop (c : Byte) : Bool := c == 0 || c == c!"=" || isSpace c

/-- ial.c:1799-1822: the value after `=`; none without a closing quote. -/
def value (s : Bytes) : C (Option Bytes × Bytes) :=
  match s with
  | [] => .ub
  | q :: t =>
    if q = c!"\"" ∨ q = c!"'" then do
      let (x, r) ← toQuote q t
      match r with
      | [] => .ub
      | c :: r' => if c = q then .val (some x, r') else .val (none, r)
    else do
      let (x, r) ← scan (fun c => c == 0 || isSpace c) s
      .val (some x, r)

/-- ial.c:1770-1891: one item, with `p` at a byte that is neither white space nor NUL. -/
def item (a : Attrs) (s : Bytes) : C (Attrs × Bytes) :=
  match s with
  | [] => .ub
  | q :: t =>
    if q = c!"\"" ∨ q = c!"'" then do
      let (x, r) ← toQuote q t
      match r with
      | [] => .ub
      | c :: r' => if c = q then .val (addAttr a b!"title" x, r') else .val (a, r)
    else do
      let (k, r) ← scan keyStop s
      match r with
      | [] => .ub
      | d :: r' =>
        if d = c!"=" then do
          let (v, r'') ← value r'
          match v with
          | some v => .val (addAttr a k v, r'')
          | none => .val (a, r'')
        else match marker k with
          | some m => .val (addAttr a m b!"1", r)
          | none => .val (a, r')

/-- ial.c:1765-1892: the loop, with as many turns as bytes. -/
def run : Nat → Attrs → Bytes → C Attrs
  | 0, _, _ => .ub
  | n + 1, a, s => do
    let (_, r) ← scan (fun c => !isSpace c) s
    match r with
    | [] => .ub
    | c :: _ => if c = 0 then .val a else do
      let (a, r) ← item a r
      run n a r

/-- ial.c:1753-1895 `parse_image_attributes`; `after` is what lies in memory behind the terminator. -/
def parse (content after : Bytes) : C Attrs :=
  let buf := content.take 2047 ++ 0 :: after
  run (buf.length + 1) empty buf

/-! ### Attributes written -/

/-- ial.c:409-417 `find_attribute_index`, for its sign. -/
def has (a : Attrs) (k : Bytes) : Bool := a.attrs.any fun kv => kv.1 = k

/-- `snprintf` into a block of `n` bytes. -/
def clip (n : Nat) (s : Bytes) : Bytes := s.take (n - 1)

/-- The length of a text that may be missing, with what is added for it. -/
def room (o : Option Bytes) (n : Nat) : Nat :=
  match o with
  | some u => u.length + n
  | none => 0

/-- ial.c:2129-2171 `build_picture_srcset`. -/
def pictureSet (url ext : Bytes) (two three : Bool) : Option Bytes :=
  match withExt url ext with
  | none => none
  | some base =>
    let u2 := if two then (dense b!"@2x" url).bind fun u => withExt u ext else none
    let u3 := if three then (dense b!"@3x" url).bind fun u => withExt u ext else none
    some (clip (base.length + 32 + room u2 16 + room u3 16) (base ++ b!" 1x" ++ (match u2 with | some u => b!", " ++ u ++ b!" 2x" | none => []) ++
      (match u3 with | some u => b!", " ++ u ++ b!" 3x" | none => [])))

/-- ial.c:2225-2229: the formats, in the order they are written. -/
def formats : List Bytes := [b!"webm", b!"ogg", b!"mp4", b!"mov", b!"m4v"]

/-- ial.c:2224-2229. -/
def videoMarks (a : Attrs) : Bytes :=
  b!" data-apex-replace-video=1" ++ formats.flatMap fun f => if has a (b!"data-video-" ++ f) then b!" data-apex-video-" ++ f ++ b!"=1" else []

/-- Text in a block of `n` bytes, with its terminator. -/
def fits (n : Nat) (s : Bytes) : C Bytes := if s.length < n then .val s else .ub

/-- Blanks and tabs at the end left out. -/
def trimEnd (s : Bytes) : Bytes := (s.reverse.dropWhile fun c => c == c!" " || c == c!"\t").reverse

/-- ial.c:2234-2263: the marks for other formats. -/
def pictureMarks (webp avif : Option Bytes) : Bytes :=
  (match webp with | some s => b!" data-apex-replace-picture=1 data-apex-picture-webp=\"" ++ s ++ b!"\"" | none => []) ++
    (match avif with | some s => b!" data-apex-picture-avif=\"" ++ s ++ b!"\"" | none => []) ++
    (if webp.isNone && avif.isSome then b!" data-apex-replace-picture=1" else [])

/-- ial.c:2181-2330 `attributes_to_html_for_image`. -/
def forImage (url : Bytes) (a : Attrs) : C Bytes :=
  let three := has a b!"data-srcset-3x"
  let two := has a b!"data-srcset-2x" || three
  if has a b!"data-apex-auto" then do
    let base ← toHtml a
    fits (base.length + 64) (base ++ b!" data-apex-replace-auto=1")
  else if isVideo url then do
    let base ← toHtml a
    fits (base.length + 128) (base ++ videoMarks a)
  else if has a b!"data-srcset-webp" || has a b!"data-srcset-avif" then do
    let webp := if has a b!"data-srcset-webp" then pictureSet url b!"webp" two three else none
    let avif := if has a b!"data-srcset-avif" then pictureSet url b!"avif" two three else none
    let base ← toHtml a
    fits (base.length + 64 + room webp 32 + room avif 32) (base ++ pictureMarks webp avif)
  else
    match (if two then dense b!"@2x" url else none) with
    | none => toHtml a
    | some u2 => do
      let base ← toHtml a
      let u3 := if three then dense b!"@3x" url else none
      let set := clip (url.length + u2.length + 32 + room u3 16) (b!" srcset=\"" ++ url ++ b!" 1x, " ++ u2 ++ b!" 2x" ++ (match u3 with | some u => b!", " ++ u ++ b!" 3x" | none => []) ++ b!"\"")
      .val (set ++ if trimEnd base = [] then [] else b!" " ++ trimEnd base)

end Verif.Media
