/-
Figures with captions: independently of the model.
-/
import Verif.Spec.AutoMedia

namespace Verif.ImgCaptions.Spec

/-! ### Any page -/

/-- A figure around something. -/
def figure (inner caption : Bytes) : Bytes := b!"<figure>" ++ inner ++ b!"<figcaption>" ++ caption ++ b!"</figcaption></figure>"

/-- The attribute that may be left out: `caption=` in any case of letters with what follows, and a blank in front of it. -/
def Removed (m : Bytes) : Prop :=
  m = [] ∨ ∃ w n sp v, m = w ++ n ++ sp ++ b!"=" ++ v ∧ w.length ≤ 1 ∧ (∀ c ∈ w ++ sp, isSpace c = true) ∧ n.map toLower = b!"caption"

/-- The start of an image or a picture. -/
def Starts (src : Bytes) : Prop := (src.take 4).map toLower = b!"<img" ∨ (src.take 8).map toLower = b!"<picture"

/-- What may become of a part of the page: it stays, or it is an image or a picture and is in a figure, possibly without the attribute for the caption, and the caption is from it. -/
def Turned (src new : Bytes) : Prop :=
  new = src ∨ ∃ a m b c, Starts src ∧ src = a ++ m ++ b ∧ Removed m ∧ new = figure (a ++ b) c ∧ c <:+: src ∧ c ≠ []

/-! ### Pages of tags -/

/-- An attribute of an image: blanks, a name, a quote and the value. -/
structure Attr where
  sp : Bytes
  name : Bytes
  q : Byte
  value : Bytes

/-- As it is written. -/
def Attr.text (a : Attr) : Bytes := a.sp ++ a.name ++ b!"=" ++ [a.q] ++ a.value ++ [a.q]

/-- It is written as said. -/
def Attr.Ok (a : Attr) : Prop :=
  a.sp ≠ [] ∧ (∀ c ∈ a.sp, isSpace c = true) ∧ a.name ≠ [] ∧ (∀ c ∈ a.name, isSpace c = false ∧ c ∉ b!"=>/\"'<") ∧ a.q ∈ b!"\"'" ∧ a.q ∉ a.value ∧ c!"<" ∉ a.value

/-- The value of the last attribute of that name. -/
def value (name : Bytes) (as : List Attr) : Bytes := (((as.filter fun a => a.name.map toLower == name).getLast?).map (·.value)).getD []

/-- Blanks at both ends left out. -/
def Trimmed (s t : Bytes) : Prop := ∃ a b, s = a ++ t ++ b ∧ (∀ c ∈ a ++ b, isSpace c = true) ∧ (∀ c, t.head? = some c → isSpace c = false) ∧ (∀ c, t.getLast? = some c → isSpace c = false)

/-- Where the caption of an image is taken from: the caption, or else, when asked for, the title, or the text unless only titles count. -/
def chosen (on titles : Bool) (as : List Attr) : Bytes :=
  if value b!"caption" as ≠ [] then value b!"caption" as
  else if on then (if value b!"title" as ≠ [] then value b!"title" as else if titles then [] else value b!"alt" as)
  else []

/-- A part of a page, up to the next `<`: an image, a picture, the start or the end of a figure, or anything else. -/
inductive Piece
  | other (x : Bytes)
  | opens (x : Bytes)
  | closes (x : Bytes)
  | image (as : List Attr) (sp slash text caption : Bytes)
  | picture (t : Bytes) (pre : List Bytes) (img : Bytes) (post : List Bytes) (text title alt : Bytes)

/-- The words a tag of another kind does not begin with. -/
def words : List Bytes := [b!"img", b!"picture", b!"/picture", b!"figure", b!"/figure"]

/-- A tag of another kind. -/
def Other (x : Bytes) : Prop := c!"<" ∉ x ∧ ∀ w ∈ words, ∀ a b, x = a ++ b → a.map toLower ≠ w

/-- A piece as it is written. -/
def Piece.bare : Piece → Bytes
  | .other x => b!"<" ++ x
  | .opens x => b!"<figure" ++ x
  | .closes x => b!"</figure" ++ x
  | .image as sp slash text _ => b!"<img" ++ as.flatMap Attr.text ++ sp ++ slash ++ b!">" ++ text
  | .picture t pre img post text _ _ =>
    b!"<picture>" ++ t ++ pre.flatMap (b!"<" ++ ·) ++ b!"<img" ++ img ++ b!">" ++ post.flatMap (b!"<" ++ ·) ++ b!"</picture>" ++ text

/-- A piece is written as said; its caption, or its title and text, are those of its attributes. -/
def Piece.Ok (on titles : Bool) : Piece → Prop
  | .other x => Other x
  | .opens x => c!"<" ∉ x ∧ ∃ c, x.head? = some c ∧ (c = c!">" ∨ isSpace c = true)
  | .closes x => c!"<" ∉ x ∧ ∃ c, x.head? = some c ∧ (c = c!">" ∨ isSpace c = true)
  | .image as sp slash text caption => (∀ a ∈ as, a.Ok) ∧ (∀ a ∈ as.head?, a.sp.head? ≠ some c!"\x0b" ∧ a.sp.head? ≠ some c!"\x0c") ∧
      (∀ c ∈ sp, c ∈ b!" \t\r\n") ∧ (slash = [] ∨ slash = b!"/") ∧ c!"<" ∉ text ∧ Trimmed (chosen on titles as) caption
  | .picture t pre img post text title alt => c!"<" ∉ t ∧ (∀ x ∈ pre ++ post, Other x) ∧ c!"<" ∉ img ∧ c!">" ∉ img ∧ c!"<" ∉ text ∧
      AutoMedia.Spec.Value b!"title" (b!"<img" ++ img ++ b!">") title ∧ AutoMedia.Spec.Value b!"alt" (b!"<img" ++ img ++ b!">") alt

/-- An attribute with a caption. -/
def Attr.isCaption (a : Attr) : Bool := a.name.map toLower == b!"caption"

/-- The attributes of an image without its last caption, and without the blank in front of it. -/
def uncaptioned : List Attr → Bytes
  | [] => []
  | a :: as => if a.isCaption && !as.any Attr.isCaption then a.sp.dropLast ++ as.flatMap Attr.text else a.text ++ uncaptioned as

/-- What becomes of a piece with `d` figures open. -/
def Piece.shown (on : Bool) (d : Nat) : Piece → Bytes
  | .image as sp slash text caption =>
    if caption = [] ∨ 0 < d then Piece.bare (.image as sp slash text caption)
    else figure (b!"<img" ++ uncaptioned as ++ sp ++ slash ++ b!">") caption ++ text
  | .picture t pre img post text title alt =>
    let block := b!"<picture>" ++ t ++ pre.flatMap (b!"<" ++ ·) ++ b!"<img" ++ img ++ b!">" ++ post.flatMap (b!"<" ++ ·) ++ b!"</picture>"
    let c := if title ≠ [] then title else alt
    (if on ∧ c ≠ [] then figure block c else block) ++ text
  | p => p.bare

/-- The figures open behind a piece. -/
def Piece.after (d : Nat) : Piece → Nat
  | .opens _ => d + 1
  | .closes _ => d - 1
  | _ => d

/-- The page. -/
def plain (ps : List Piece) : Bytes := ps.flatMap Piece.bare

/-- The page with figures. -/
def page (on : Bool) : Nat → List Piece → Bytes
  | _, [] => []
  | d, p :: ps => p.shown on d ++ page on (p.after d) ps

end Verif.ImgCaptions.Spec
