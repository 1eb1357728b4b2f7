/- src/html_renderer.c:2718-3178: images and pictures with a caption become figures (`apex_convert_image_captions`).  The page has no zero byte; allocations succeed.  The pointer
before the start of the page, compared when an image comes first, is not modelled. -/
import Verif.Model.AutoMedia

namespace Verif.ImgCaptions
open Embed (find)
open AutoMedia (attr begins)

/-- html_renderer.c:2719-2727 `apex_trim_attr_value`. -/
def trim (s : Bytes) : Bytes := ((s.dropWhile isSpace).reverse.dropWhile isSpace).reverse

/-! ### Tags -/

/-- html_renderer.c:2749-2753: a picture begins here. -/
def opensPicture (s : Bytes) : Bool := begins b!"<picture" s && (s[8]? == some c!" " || s[8]? == some c!">" || s[8]? == some c!"\t")

/-- html_renderer.c:2815-2819: an image begins here. -/
def opensImage (s : Bytes) : Bool :=
  begins b!"<img" s && (s[4]? == some c!" " || s[4]? == some c!"\t" || s[4]? == some c!"\r" || s[4]? == some c!"\n" || s[4]? == some c!">" || s[4]? == some c!"/")

/-- html_renderer.c:2825-2839: the text up to the `>` that is not in quotes, and what follows it. -/
def tagStop : Option Byte → Bytes → Option (Bytes × Bytes)
  | _, [] => none
  | some q, c :: t => (tagStop (if c = q then none else some q) t).map fun r => (c :: r.1, r.2)
  | none, c :: t =>
    if c = c!"\"" ∨ c = c!"'" then (tagStop (some c) t).map fun r => (c :: r.1, r.2)
    else if c = c!">" then some ([], t)
    else (tagStop none t).map fun r => (c :: r.1, r.2)

/-- html_renderer.c:2866-2880: the last mark of a picture in front decides.  Here it is looked for from the front. -/
def inPicture : Bool → Bytes → Bool
  | st, [] => st
  | st, c :: t => inPicture (if opensPicture (c :: t) then true else if b!"</picture>" <+: c :: t then false else st) t

/-- html_renderer.c:3035-3049: the figures open in front. -/
def depth : Nat → Bytes → Nat
  | d, [] => d
  | d, c :: t =>
    depth (if begins b!"<figure" (c :: t) && ((c :: t)[7]?).any (fun x => x == c!">" || isSpace x) then d + 1
      else if begins b!"</figure" (c :: t) && ((c :: t)[8]?).any (fun x => x == c!">" || isSpace x) then d - 1 else d) t

/-! ### The attributes of an image -/

/-- What is known of the attributes: the title, the text, the caption, and the tag without it. -/
structure Found where
  title : Bytes := []
  alt : Bytes := []
  caption : Bytes := []
  cut : Option (Bytes × Bytes) := none
deriving DecidableEq, Repr

/-- html_renderer.c:2920-2923: a byte of a name. -/
def nameByte (c : Byte) : Bool := !isSpace c && c != c!"=" && c != c!">" && c != c!"/"

/-- html_renderer.c:2930-2931. -/
def tokenByte (c : Byte) : Bool := c != c!" " && c != c!"\t" && c != c!"\r" && c != c!"\n" && c != c!">"

/-- A byte of a value without quotes. -/
def valueByte (c : Byte) : Bool := !isSpace c && c != c!">"

/-- html_renderer.c:2960-2978: one attribute; `before` is the tag in front of its name, `rest` what follows its value. -/
def note (f : Found) (before name value rest : Bytes) : Found :=
  if name.map toLower = b!"title" then { f with title := value }
  else if name.map toLower = b!"alt" then { f with alt := value }
  else if name.map toLower = b!"caption" then
    { f with caption := value, cut := some (if before.getLast?.any isSpace then before.dropLast else before, rest) }
  else f

/-- html_renderer.c:2915-2980: the loop; `n` bounds the number of turns, `whole` is the text between `<img` and `>`. -/
def parse (whole : Bytes) : Nat → Bytes → Found → Found
  | 0, _, f => f
  | n + 1, s, f =>
    let s := s.dropWhile isSpace
    if s = [] ∨ s.head? = some c!"/" ∨ s.head? = some c!">" then f
    else
      let name := s.takeWhile nameByte
      let t := (s.dropWhile nameByte).dropWhile isSpace
      if t.head? = some c!"=" then
        match (t.drop 1).dropWhile isSpace with
        | [] => f
        | q :: v =>
          let before := whole.take (whole.length - s.length)
          if q = c!"\"" ∨ q = c!"'" then
            let rest := (v.dropWhile (· != q)).drop 1
            parse whole n rest (note f before name (v.takeWhile (· != q)) rest)
          else parse whole n ((q :: v).dropWhile valueByte) (note f before name ((q :: v).takeWhile valueByte) ((q :: v).dropWhile valueByte))
      else parse whole n (t.dropWhile tokenByte) f

/-- html_renderer.c:2982-3008: the caption of an image. -/
def captionOf (on titles : Bool) (f : Found) : Bytes :=
  if f.caption ≠ [] then trim f.caption
  else if !on then []
  else if f.title ≠ [] then trim f.title
  else if titles then [] else trim f.alt

/-- html_renderer.c:2758-2785: the caption of a picture, from the first image in it with an end. -/
def pictureCaption (on : Bool) (block : Bytes) : Bytes :=
  if on then
    match find b!"<img" block with
    | none => []
    | some (_, t) =>
      if c!">" ∈ t then
        let tag := b!"<img" ++ t.takeWhile (· != c!">") ++ b!">"
        match attr b!"title" true tag with
        | some (c :: v) => c :: v
        | _ => (attr b!"alt" true tag).getD []
      else []
  else []

/-! ### The page -/

/-- The figure. -/
def figure (inner caption : Bytes) : Bytes := b!"<figure>" ++ inner ++ b!"<figcaption>" ++ caption ++ b!"</figcaption></figure>"

/-- What is written for an image. -/
def image (on titles : Bool) (pre head inside : Bytes) : Bytes :=
  let f := parse inside inside.length inside {}
  let tag := head ++ inside ++ b!">"
  let c := captionOf on titles f
  if inPicture false pre || c == [] || 0 < depth 0 pre then tag
  else figure (match f.cut with
    | some (a, b) => head ++ a ++ b ++ b!">"
    | none => tag) c

/-- A text written to the block, which grows to twice what is needed when the text and a terminator do not fit: the room afterwards. -/
def reserve (need used room : Nat) : C Nat :=
  let room := if room ≤ need then (used + need + 1) * 2 - used else room
  if room < need then .ub else .val (room - need)

/-- html_renderer.c:2747-3166: the loop; `n` bounds the number of turns, `pre` is the page in front, `used` bytes are written and `room` are left. -/
def go (on titles : Bool) : Nat → Nat → Nat → Bytes → Bytes → C Bytes
  | 0, _, _, _, _ => .val []
  | _ + 1, _, _, _, [] => .val []
  | n + 1, used, room, pre, c :: t =>
    let copy : C Bytes := do
      let room := if room < 1 then (used + 64) * 2 - used else room
      if room < 1 then .ub else do
        let o ← go on titles n (used + 1) (room - 1) (pre ++ [c]) t
        .val (c :: o)
    let write (src new rest : Bytes) : C Bytes := do
      let room ← reserve new.length used room
      let o ← go on titles n (used + new.length) room (pre ++ src) rest
      .val (new ++ o)
    let img : C Bytes :=
      if opensImage (c :: t) then
        match tagStop none ((c :: t).drop 4) with
        | none => do
          let _ ← reserve (c :: t).length used room
          .val (c :: t)
        | some (inside, rest) => write ((c :: t).take 4 ++ inside ++ b!">") (image on titles pre ((c :: t).take 4) inside) rest
      else copy
    if opensPicture (c :: t) then
      match find b!"</picture>" (c :: t) with
      | some (body, rest) =>
        let block := body ++ b!"</picture>"
        let cap := pictureCaption on block
        write block (if cap = [] then block else figure block cap) rest
      | none => img
    else img

/-- html_renderer.c:2734-3178 `apex_convert_image_captions`. -/
def convert (on titles : Bool) (html : Bytes) : C Bytes := go on titles html.length 0 (html.length * 2 + 128) [] html

end Verif.ImgCaptions
