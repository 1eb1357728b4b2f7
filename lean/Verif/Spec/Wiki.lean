/- What wiki links are to become, independently of the code. -/
import Verif.Model.Wiki
import Verif.Spec.Slug
import Verif.Spec.Utf8
import Verif.Spec.Transforms

namespace Verif.Wiki.Spec

open Slug Utf8.Spec Transforms.Spec

/-! ### Page names -/

/-- Quotes, the apostrophe, the backquote, the acute accent, curly quotes, and the combining marks. -/
def Removed (n : Nat) : Prop :=
  n ∈ [0x27, 0x22, 0x60, 0xB4, 0x2018, 0x2019, 0x201C, 0x201D] ∨ 0x300 ≤ n ∧ n ≤ 0x36F

/-- Letters without their accents: the code points for each. -/
def accents : List (Bytes × List Nat) :=
  [(b!"a", [0xC0, 0xC1, 0xC2, 0xC3, 0xC4, 0xC5, 0xE0, 0xE1, 0xE2, 0xE3, 0xE4, 0xE5]),
   (b!"ae", [0xC6, 0xE6]),
   (b!"c", [0xC7, 0xE7]),
   (b!"e", [0xC8, 0xC9, 0xCA, 0xCB, 0xE8, 0xE9, 0xEA, 0xEB]),
   (b!"i", [0xCC, 0xCD, 0xCE, 0xCF, 0xEC, 0xED, 0xEE, 0xEF]),
   (b!"d", [0xD0, 0xF0]),
   (b!"n", [0xD1, 0xF1]),
   (b!"o", [0xD2, 0xD3, 0xD4, 0xD5, 0xD6, 0xD8, 0xF2, 0xF3, 0xF4, 0xF5, 0xF6, 0xF8]),
   (b!"u", [0xD9, 0xDA, 0xDB, 0xDC, 0xF9, 0xFA, 0xFB, 0xFC]),
   (b!"y", [0xDD, 0xFD, 0xFF]),
   (b!"ss", [0xDF])]

def Accent (n : Nat) (w : Bytes) : Prop := ∃ l, (w, l) ∈ accents ∧ n ∈ l

/-- ASCII letters, digits, the slash and the dot. -/
def Plain (c : Byte) : Prop := isAlnum c = true ∨ c = c!"/" ∨ c = c!"."

/-- A page name read from left to right. Bytes of other characters separate words; the byte behind a `C3`
goes with it. -/
inductive Reads : Bytes → List Piece → Prop
  | nil : Reads [] []
  | removed {n t ps} : Removed n → Reads t ps → Reads (encode n ++ t) (.gone :: ps)
  | accent {n w t ps} : Accent n w → Reads t ps → Reads (encode n ++ t) (.keep w :: ps)
  | plain {c t ps} : Plain c → Reads t ps → Reads (c :: t) (.keep [toLower c] :: ps)
  | latin {d t ps} : (∀ n w, Accent n w → encode n ≠ [0xC3, d]) → Reads t ps →
      Reads (0xC3 :: d :: t) (.brk :: ps)
  | other {c t ps} : ¬ Plain c → (∀ n, Removed n → ¬ encode n <+: c :: t) → (c = 0xC3 → t = []) →
      Reads t ps → Reads (c :: t) (.brk :: ps)

/-- What stands between words. -/
def sep : SpaceMode → Option Byte
  | .dash => some c!"-"
  | .none => none
  | .underscore => some c!"_"
  | .space => some c!" "

/-- Without sanitising only spaces change. -/
def spaced (m : SpaceMode) (page : Bytes) : Bytes :=
  page.flatMap fun c => if c = 32 then (sep m).toList else [c]

/-- The extension, with a dot in front if it has none. -/
def extension (ext : Bytes) : Bytes :=
  if ext = [] ∨ ext.head? = some c!"." then ext else c!"." :: ext

/-- A part with its mark in front of it, if there is one. -/
def marked (c : Byte) : Option Bytes → Bytes
  | some s => c :: s
  | none => []

/-- `content` is a page, perhaps a section of it, perhaps a text to show: `page#section|display`. -/
def Content (content page : Bytes) (display sec : Option Bytes) : Prop :=
  content = page ++ marked c!"#" sec ++ marked c!"|" display ∧
    c!"|" ∉ page ∧ c!"#" ∉ page ∧ ∀ s, sec = some s → c!"|" ∉ s

/-! ### Splitting a text -/

/-- A piece of the text: as it is, or a link with what stands between its brackets. -/
inductive Part where
  | text (s : Bytes)
  | link (content : Bytes)

/-- The part in the text. -/
def Part.source : Part → Bytes
  | .text s => s
  | .link c => b!"[[" ++ c ++ b!"]]"

/-- A text, unless it is empty. -/
def some? (s : Bytes) : List Part := if s = [] then [] else [.text s]

/-- From left to right: the next `[[` and the next `]]` behind it make a link; without a `]]` the rest is
text, and `[[]]` is text. -/
inductive Splits : Bytes → List Part → Prop
  | none {s} : ¬ b!"[[" <:+: s → Splits s (some? s)
  | unclosed {s pre r} : FirstOcc b!"[[" s pre r → ¬ b!"]]" <:+: r →
      Splits s (some? pre ++ [.text (b!"[[" ++ r)])
  | empty {s pre r ps} : FirstOcc b!"[[" s pre (b!"]]" ++ r) → Splits r ps →
      Splits s (some? pre ++ .text b!"[[]]" :: ps)
  | link {s pre t c r ps} : FirstOcc b!"[[" s pre t → FirstOcc b!"]]" t c r → c ≠ [] → Splits r ps →
      Splits s (some? pre ++ .link c :: ps)

/-- The node a part becomes. -/
def Becomes (cfg : Config) : Part → Node → Prop
  | .text s, n => n = .text s
  | .link c, n => ∃ page display sec url, Content c page display sec ∧ pageToUrl cfg page sec = .val url ∧
      n = .link url (display.getD page)

/-- The parts become the nodes, one each. -/
inductive All (cfg : Config) : List Part → List Node → Prop
  | nil : All cfg [] []
  | cons {p ps n ns} : Becomes cfg p n → All cfg ps ns → All cfg (p :: ps) (n :: ns)

mutual
/-- A tree with the texts that hold a `[[` split; what else there is stays in its place. -/
inductive Linked (cfg : Config) : Tree → List Tree → Prop
  | plain {s} : ¬ b!"[[" <:+: s → Linked cfg (.text s) [.text s]
  | text {s ps ns} : b!"[[" <:+: s → Splits s ps → All cfg ps ns → Linked cfg (.text s) (ns.map Node.tree)
  | node {k kids ts} : LinkedAll cfg kids ts → Linked cfg (.node k kids) [.node k ts]
inductive LinkedAll (cfg : Config) : List Tree → List Tree → Prop
  | nil : LinkedAll cfg [] []
  | cons {t ts a b} : Linked cfg t a → LinkedAll cfg ts b → LinkedAll cfg (t :: ts) (a ++ b)
end

end Verif.Wiki.Spec
