/-
What embedding images means.
-/
import Verif.Basic
import Verif.Spec.Base64

namespace Verif.Embed

/-- A page: text, image tags with the text behind each, and possibly an image tag at the end that is not closed. -/
structure Page where
  text : Bytes
  /-- What stands between `<img` and `>`, and the text behind. -/
  imgs : List (Bytes × Bytes)
  tail : Bytes

def Page.html (p : Page) : Bytes := p.text ++ (p.imgs.flatMap fun i => b!"<img" ++ i.1 ++ b!">" ++ i.2) ++ p.tail

structure Page.Ok (p : Page) : Prop where
  text : ¬ b!"<img" <:+: p.text
  imgs : ∀ i ∈ p.imgs, c!">" ∉ i.1 ∧ ¬ b!"<img" <:+: i.2
  tail : p.tail = [] ∨ (b!"<img" <+: p.tail ∧ c!">" ∉ p.tail)

/-- The source of an image: the first `src="url"`, or if there is no `src="`, the first `src='url'`. -/
inductive Source : Bytes → Bytes → Bytes → Bytes → Prop
  | double {before url after : Bytes} : ¬ b!"src=\"" <:+: before → c!"\"" ∉ url → Source (before ++ b!"src=\"" ++ url ++ b!"\"" ++ after) before url after
  | single {before url after : Bytes} : ¬ b!"src=\"" <:+: before ++ b!"src='" ++ url ++ b!"'" ++ after → ¬ b!"src='" <:+: before → c!"'" ∉ url →
      Source (before ++ b!"src='" ++ url ++ b!"'" ++ after) before url after

/-- Neither a data URL nor an address on a server. -/
def Local (url : Bytes) : Prop := ¬ b!"data:" <+: url ∧ ¬ b!"http://" <+: url ∧ ¬ b!"https://" <+: url ∧ ¬ b!"//" <+: url

/-- The path of the file: absolute, or in the base directory. -/
inductive Path : Option Bytes → Bytes → Bytes → Prop
  | absolute (base : Option Bytes) (t : Bytes) : Path base (c!"/" :: t) (c!"/" :: t)
  | none (url : Bytes) : Path none url url
  | empty (url : Bytes) : Path (some []) url url
  | relative {dir url : Bytes} : dir ≠ [] → url.head? ≠ some c!"/" → Path (some dir) url (dir ++ b!"/" ++ url)

/-- Types of images by extension. -/
def types : List (Bytes × Bytes) :=
  [(b!"jpg", b!"image/jpeg"), (b!"jpeg", b!"image/jpeg"), (b!"png", b!"image/png"), (b!"gif", b!"image/gif"), (b!"webp", b!"image/webp"),
   (b!"svg", b!"image/svg+xml"), (b!"bmp", b!"image/bmp"), (b!"ico", b!"image/x-icon")]

/-- The extension: behind the last dot, up to a `?`, `#`, `/` or blank. -/
def Extension (path ext : Bytes) : Prop :=
  ∃ front rest, path = front ++ b!"." ++ ext ++ rest ∧ c!"." ∉ ext ++ rest ∧ (∀ c ∈ ext, c ∉ b!"?#/ ") ∧ ∀ c ∈ rest.head?, c ∈ b!"?#/ "

/-- The media type of a file: by its extension in any case, otherwise PNG. -/
inductive Media : Bytes → Bytes → Prop
  | known {path ext m : Bytes} : Extension path ext → (ext.map toLower, m) ∈ types → Media path m
  | unknown {path : Bytes} : (∀ ext m, Extension path ext → (ext.map toLower, m) ∉ types) → Media path b!"image/png"

/-- The image of this tag is a file with this content. -/
def Holds (file : Bytes → Option Bytes) (base : Option Bytes) (body before after content path : Bytes) : Prop :=
  ∃ url, Source body before url after ∧ Local url ∧ Path base url path ∧ file path = some content ∧ content ≠ [] ∧ content.length ≤ 10485760

/-- What may be shown for a tag: with the source replaced by a data URL whose Base64 text stands for the file's content, followed by `extra`; unchanged
if the image is no such file. -/
inductive Shown (file : Bytes → Option Bytes) (base : Option Bytes) : Bytes → Bytes → Prop
  | embedded {body before after content path m e : Bytes} {extra : Nat} : Holds file base body before after content path → Media path m →
      Base64.Spec.decode e = some (content ++ List.replicate extra 0) → (content.length ≤ 3 ∨ content.length % 3 = 0 → extra = 0) → extra ≤ 2 →
      Shown file base body (before ++ b!"src=\"data:" ++ m ++ b!";base64," ++ e ++ b!"\"" ++ after)
  | kept {body : Bytes} : (¬ ∃ before after content path, Holds file base body before after content path) → Shown file base body body

/-- The same for all tags of a page. -/
inductive Shows (file : Bytes → Option Bytes) (base : Option Bytes) : List (Bytes × Bytes) → List Bytes → Prop
  | nil : Shows file base [] []
  | cons {body t out : Bytes} {ps : List (Bytes × Bytes)} {outs : List Bytes} : Shown file base body out → Shows file base ps outs →
      Shows file base ((body, t) :: ps) (out :: outs)

/-- The page with these image tags. -/
def shown (p : Page) (outs : List Bytes) : Bytes := p.text ++ ((p.imgs.zip outs).flatMap fun i => b!"<img" ++ i.2 ++ b!">" ++ i.1.2) ++ p.tail

end Verif.Embed
