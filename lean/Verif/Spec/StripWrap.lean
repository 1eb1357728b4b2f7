/-
What becomes of the paragraphs around figures, videos and pictures, and around the images of figures: independently of
the model.
-/
import Verif.Basic

namespace Verif.StripWrap.Spec

/-- The tags of a page, without `<` and `>`, each with the text behind it. -/
abbrev Tags := List (Bytes × Bytes)

/-- The tags as HTML. -/
def html (l : Tags) : Bytes := l.flatMap fun x => b!"<" ++ x.1 ++ b!">" ++ x.2

/-- White space of C. -/
def White (c : Byte) : Prop := c = 9 ∨ c = 10 ∨ c = 11 ∨ c = 12 ∨ c = 13 ∨ c = 32

/-- Text of nothing but blanks, tabs and line ends. -/
def Blank (s : Bytes) : Prop := ∀ c ∈ s, c = 32 ∨ c = 9 ∨ c = 10 ∨ c = 13

/-- `w` is a tag of the given name, with or without attributes. -/
def Named (n w : Bytes) : Prop := ∃ x y, w = x ++ y ∧ x.map toLower = n ∧ (y = [] ∨ ∃ c z, y = c :: z ∧ White c)

/-- Every quotation mark of a tag is closed in the tag. -/
inductive Quoted : Bytes → Prop
  | nil : Quoted []
  | char {c s} : c ≠ c!"\"" → c ≠ c!"'" → Quoted s → Quoted (c :: s)
  | value {q v s} : q = c!"\"" ∨ q = c!"'" → q ∉ v → Quoted s → Quoted (q :: v ++ q :: s)

/-- The tags and texts of a page. -/
def Good (l : Tags) : Prop := ∀ x ∈ l, c!"<" ∉ x.1 ∧ c!">" ∉ x.1 ∧ Quoted x.1 ∧ c!"<" ∉ x.2

/-- In `l`, the opening and closing tags of a name match. -/
inductive Balanced (n : Bytes) : Tags → Prop
  | nil : Balanced n []
  | other {x l} : ¬ Named n x.1 → ¬ Named (c!"/" :: n) x.1 → Balanced n l → Balanced n (x :: l)
  | nested {o a c b} : Named n o.1 → Balanced n a → Named (c!"/" :: n) c.1 → Balanced n b → Balanced n (o :: a ++ c :: b)

/-- An element of the given name, without the text behind it: `o` opens it, `c` closes it. -/
def Element (n : Bytes) (o : Bytes × Bytes) (inner : Tags) (c : Bytes) : Prop :=
  Named n o.1 ∧ Balanced n inner ∧ Named (c!"/" :: n) c

/-- `l` begins with a paragraph of nothing but a figure, a video or a picture: `block` is its HTML, `t` the text behind
the paragraph, `rest` what follows. -/
def Wraps (l : Tags) (block t : Bytes) (rest : Tags) : Prop :=
  ∃ n p w o inner c w' q, (n = b!"figure" ∨ n = b!"video" ∨ n = b!"picture") ∧
    l = (p, w) :: o :: inner ++ (c, w') :: (q, t) :: rest ∧ Named b!"p" p ∧ Blank w ∧ Element n o inner c ∧ Blank w' ∧
    Named b!"/p" q ∧ block = html (o :: inner) ++ b!"<" ++ c ++ b!">"

/-- Each paragraph of nothing but a figure, a video or a picture becomes that block; everything else stays. -/
inductive Unwrapped : Tags → Bytes → Prop
  | nil : Unwrapped [] []
  | keep {x l o} : (∀ block t rest, ¬ Wraps (x :: l) block t rest) → Unwrapped l o → Unwrapped (x :: l) (html [x] ++ o)
  | unwrap {l block t rest o} : Wraps l block t rest → Unwrapped rest o → Unwrapped l (block ++ t ++ o)

/-- The opening tag of a paragraph, with the white space behind it. -/
def Opener (f : Bytes) : Prop := ∃ t w, f = b!"<" ++ t ++ b!">" ++ w ∧ c!">" ∉ t ∧ Named b!"p" t ∧ Blank w

/-- The closing tag of a paragraph, with the white space before it. -/
def Closer (e : Bytes) : Prop := ∃ w t, e = w ++ b!"<" ++ t ++ b!">" ∧ Blank w ∧ c!">" ∉ t ∧ Named b!"/p" t

/-- Around some parts of a page, what is in front of them and behind them is removed. -/
inductive Less (front : Bytes → Prop) (back : Bytes → Bytes → Prop) : Bytes → Bytes → Prop
  | nil : Less front back [] []
  | keep {c s o} : Less front back s o → Less front back (c :: s) (c :: o)
  | remove {f b e r o} : front f → back e r → Less front back r o → Less front back (f ++ b ++ e ++ r) (b ++ o)

/-- The tag of an image. -/
def Image (w : Bytes) : Prop :=
  ∃ x y, w = x ++ y ∧ x.map toLower = b!"img" ∧ (y = [] ∨ ∃ c z, y = c :: z ∧ (c = 32 ∨ c = 9 ∨ c = c!"/"))

/-- White space, maybe with the character `<`. -/
def Lead (w : Bytes) : Prop := Blank w ∨ ∃ a b, w = a ++ b!"&lt;" ++ b ∧ Blank a ∧ Blank b

/-- `l` begins with a paragraph of nothing but an image, maybe with the character `<` before it. -/
def Holds (l : Tags) (image t : Bytes) (rest : Tags) : Prop :=
  ∃ p w i w' q, l = (p, w) :: (i, w') :: (q, t) :: rest ∧ Named b!"p" p ∧
    Lead w ∧ Image i ∧ Blank w' ∧ Named b!"/p" q ∧
    image = b!"<" ++ i ++ b!">"

/-- In figures, each paragraph of nothing but an image becomes that image; everything else stays.  `d` figures are open;
in the end all of them are closed. -/
inductive Freed : Nat → Tags → Bytes → Prop
  | nil : Freed 0 [] []
  | figure {d x l o} : Named b!"figure" x.1 → Freed (d + 1) l o → Freed d (x :: l) (html [x] ++ o)
  | closed {d x l o} : Named b!"/figure" x.1 → Freed d l o → Freed (d + 1) (x :: l) (html [x] ++ o)
  | keep {d x l o} : ¬ Named b!"figure" x.1 → ¬ Named b!"/figure" x.1 →
      (d = 0 ∨ ∀ image t rest, ¬ Holds (x :: l) image t rest) → Freed d l o → Freed d (x :: l) (html [x] ++ o)
  | free {d l image t rest o} : Holds l image t rest → Freed (d + 1) rest o → Freed (d + 1) l (image ++ t ++ o)

/-- The opening tag of a paragraph, with white space and maybe the character `<` behind it. -/
def LeadOpener (f : Bytes) : Prop := ∃ t w, f = b!"<" ++ t ++ b!">" ++ w ∧ c!">" ∉ t ∧ Named b!"p" t ∧ Lead w

/-- The closing tag of a paragraph, with the white space before it; at the end of the page it may lack its `>`. -/
def LastCloser (e r : Bytes) : Prop :=
  Closer e ∨ r = [] ∧ ∃ w t, e = w ++ b!"<" ++ t ∧ Blank w ∧ c!">" ∉ t ∧ Named b!"/p" t

end Verif.StripWrap.Spec
