/-
Images that look for their own variants: independently of the model.
-/
import Verif.Basic

namespace Verif.AutoMedia.Spec

/-! ### Tags -/

/-- The inside of a quoted value; a backslash takes the next byte along. -/
inductive Body (q : Byte) : Bytes → Prop
  | nil : Body q []
  | plain {c s} : c ≠ q → c ≠ c!"\\" → Body q s → Body q (c :: s)
  | escaped {d s} : Body q s → Body q (c!"\\" :: d :: s)

/-- The inside of a tag: no `>` but in quotes. -/
inductive Inside : Bytes → Prop
  | nil : Inside []
  | plain {c s} : c ∉ b!"\"'>" → Inside s → Inside (c :: s)
  | quoted {q b s} : q ∈ b!"\"'" → Body q b → Inside s → Inside (q :: b ++ q :: s)

/-- A whole tag. -/
def Tag (t : Bytes) : Prop := ∃ a, t = a ++ b!">" ∧ Inside a

/-- A tag of an image begins here. -/
def Opens (s : Bytes) : Prop := ∃ n c t, s = n ++ c :: t ∧ n.map toLower = b!"<img" ∧ c ∈ b!" \t>/"

/-- A name can begin behind this text. -/
def Begins (a : Bytes) : Prop := a = [] ∨ ∃ x c, a = x ++ [c] ∧ isSpace c = true

/-- `name=`, in any case of letters, stands behind `a`. -/
def At (name s a b : Bytes) : Prop := ∃ n, s = a ++ n ++ b!"=" ++ b ∧ n.map toLower = name ∧ Begins a

/-- The first `name=` of the tag is followed by the value in quotes. -/
def Attr (name tag v : Bytes) : Prop :=
  ∃ a q b, At name tag a (q :: v ++ q :: b) ∧ q ∈ b!"\"'" ∧ Body q v ∧ ∀ a' b', At name tag a' b' → a.length ≤ a'.length

/-- There is no such attribute. -/
def NoAttr (name tag : Bytes) : Prop := ∀ a b, ¬ At name tag a b

/-! ### Pages -/

/-- A page and what becomes of it, when `R tag rest new` tells what becomes of the tag of an image in front of `rest`: everything else stays. -/
inductive Page (R : Bytes → Bytes → Bytes → Prop) : Bytes → Bytes → Prop
  | nil : Page R [] []
  | text {c s o} : ¬ Opens (c :: s) → Page R s o → Page R (c :: s) (c :: o)
  | cut {c s o} : Opens (c :: s) → (∀ t r, c :: s = t ++ r → ¬ Tag t) → Page R s o → Page R (c :: s) (c :: o)
  | tag {t r new o} : Opens (t ++ r) → Tag t → R t r new → Page R r o → Page R (t ++ r) (new ++ o)

/-- The mark of an image that looks for its variants. -/
def mark : Bytes := b!"data-apex-replace-auto=1"

/-! ### Replacements -/

/-- An address in a directory below the base: `stem.ext`, without query or section. -/
def Plain (src stem ext : Bytes) : Prop :=
  src = stem ++ b!"." ++ ext ∧ c!"." ∉ ext ∧ c!"/" ∉ ext ∧ c!"?" ∉ src ∧ c!"#" ∉ src ∧ src.head? ≠ some c!"/" ∧ ¬ b!"://" <:+: src

/-- The types of videos. -/
def types : List (Bytes × Bytes) :=
  [(b!"webm", b!"video/webm"), (b!"ogg", b!"video/ogg"), (b!"mp4", b!"video/mp4"), (b!"mov", b!"video/quicktime"), (b!"m4v", b!"video/mp4")]

/-- The type of the video itself. -/
def own : List (Bytes × Bytes) :=
  [(b!"mp4", b!"video/mp4"), (b!"webm", b!"video/webm"), (b!"ogg", b!"video/ogg"), (b!"ogv", b!"video/ogg"), (b!"mov", b!"video/quicktime"), (b!"m4v", b!"video/mp4")]

/-- A source of a video. -/
def source (url type : Bytes) : Bytes := b!"<source src=\"" ++ url ++ b!"\" type=\"" ++ type ++ b!"\">"

/-- A video, with the variants that are files, and itself. -/
def video (file : Bytes → Bool) (stem ext type alt : Bytes) : Bytes :=
  b!"<video" ++ (if alt = [] then [] else b!" title=\"" ++ alt ++ b!"\"") ++ b!">" ++
    ((types.filter fun t => file (stem ++ b!"." ++ t.1)).flatMap fun t => source (stem ++ b!"." ++ t.1) t.2) ++
    source (stem ++ b!"." ++ ext) type ++ b!"</video>"

/-- The denser variants that are files, each with a comma in front. -/
def denser (file : Bytes → Bool) (stem ext : Bytes) : Bytes :=
  (if file (stem ++ b!"@2x." ++ ext) then b!", " ++ (stem ++ b!"@2x." ++ ext) ++ b!" 2x" else []) ++
    (if file (stem ++ b!"@3x." ++ ext) then b!", " ++ (stem ++ b!"@3x." ++ ext) ++ b!" 3x" else [])

/-- A picture of that format is a file. -/
def offers (file : Bytes → Bool) (stem ext : Bytes) : Bool :=
  file (stem ++ b!"." ++ ext) || file (stem ++ b!"@2x." ++ ext) || file (stem ++ b!"@3x." ++ ext)

/-- The source for another format. -/
def other (file : Bytes → Bool) (stem ext : Bytes) : Bytes :=
  if offers file stem ext then b!"<source type=\"image/" ++ ext ++ b!"\" srcset=\"" ++ (stem ++ b!"." ++ ext) ++ b!" 1x" ++ denser file stem ext ++ b!"\">" else []

/-- The picture, when there is a variant. -/
def picture (file : Bytes → Bool) (stem ext alt title : Bytes) : Option Bytes :=
  let need := offers file stem b!"avif" || offers file stem b!"webp"
  let dense := file (stem ++ b!"@2x." ++ ext) || file (stem ++ b!"@3x." ++ ext)
  if need || dense then
    some ((if need then b!"<picture>" else []) ++ other file stem b!"avif" ++ other file stem b!"webp" ++
      b!"<img src=\"" ++ (stem ++ b!"." ++ ext) ++ b!"\" alt=\"" ++ alt ++ b!"\"" ++ (if title = [] then [] else b!" title=\"" ++ title ++ b!"\"") ++
      (if dense then b!" srcset=\"" ++ (stem ++ b!"." ++ ext) ++ b!" 1x" ++ denser file stem ext ++ b!"\"" else []) ++ b!">" ++
      (if need then b!"</picture>" else []))
  else none

/-- The value of an attribute, empty when there is none. -/
def Value (name tag v : Bytes) : Prop := Attr name tag v ∨ (v = [] ∧ ∀ w, ¬ Attr name tag w)

/-- The extensions tried for `.*`, in their order. -/
def tried : List Bytes := [b!"mp4", b!"webm", b!"ogg", b!"ogv", b!"mov", b!"m4v", b!"jpg", b!"jpeg", b!"png", b!"gif", b!"webp", b!"avif"]

/-- The file used for an address: its own, or for `.*` the first there is. -/
def Used (file : Bytes → Bool) (src stem ext : Bytes) : Prop :=
  (Plain src stem ext ∧ ext ≠ b!"*" ∧ file src = true) ∨
  (Plain src stem b!"*" ∧ ∃ x y, tried = x ++ ext :: y ∧ file (stem ++ b!"." ++ ext) = true ∧ ∀ e ∈ x, file (stem ++ b!"." ++ e) = false)

/-- The image is not a file below the base. -/
def Missing (file : Bytes → Bool) (src : Bytes) : Prop :=
  ¬ b!".*" <:+ src ∧ (src = [] ∨ src.head? = some c!"/" ∨ b!"://" <:+: src ∨ file src = false)

/-- What becomes of the tag of an image in front of `rest`. -/
inductive Turned (file : Bytes → Bool) (tag rest : Bytes) : Bytes → Prop
  | unmarked : ¬ mark <:+: tag ++ rest → Turned file tag rest tag
  | missing {src} : mark <:+: tag ++ rest → Value b!"src" tag src → Missing file src → Turned file tag rest tag
  | video {src alt stem ext type} : mark <:+: tag ++ rest → Value b!"src" tag src → Value b!"alt" tag alt → Used file src stem ext → (ext.map toLower, type) ∈ own →
      alt.length ≤ 270 → Turned file tag rest (video file stem ext type alt)
  | picture {src alt title stem ext} : mark <:+: tag ++ rest → Value b!"src" tag src → Value b!"alt" tag alt → Value b!"title" tag title → Used file src stem ext →
      (∀ type, (ext.map toLower, type) ∉ own) → src.length ≤ 145 → alt.length + title.length ≤ 400 → Turned file tag rest ((picture file stem ext alt title).getD tag)

/-- Every tag of an image has its end. -/
def Closed (s : Bytes) : Prop := ∀ a b, s = a ++ b → Opens b → ∃ t r, b = t ++ r ∧ Tag t

end Verif.AutoMedia.Spec
