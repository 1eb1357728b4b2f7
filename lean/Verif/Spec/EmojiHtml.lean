/- Pages with names of emoji. -/
import Verif.Spec.Emoji

namespace Verif.EmojiHtml.Spec

open Emoji (Entry pattern blanks)
open Emoji.Spec (IsName Align folded)

/-- No tag starts or ends in the text, as such or with entities for its brackets. -/
def Free (s : Bytes) : Prop := c!"<" ∉ s ∧ c!">" ∉ s ∧ ¬ b!"&lt;" <:+: s ∧ ¬ b!"&gt;" <:+: s

/-- `inside` is the text of the tag that is open behind `before`.  An entity with which a page starts does not count. -/
def Open (before inside : Bytes) : Prop :=
  Free inside ∧ ((∃ a, before = a ++ b!"<" ++ inside) ∨ ∃ a, a ≠ [] ∧ before = a ++ b!"&lt;" ++ inside)

/-- What is behind `before` is in the value of an attribute. -/
def InAttr (before : Bytes) : Prop :=
  ∃ key ws value, Open before (key ++ b!"=" ++ ws ++ value) ∧ (∀ c ∈ ws, isSpace c = true) ∧ c!"=" ∉ value ∧
    ((∃ q v, (q = c!"\"" ∨ q = c!"'") ∧ value = q :: v ∧ q ∉ v) ∨
     (∃ c v, value = c :: v ∧ c ≠ c!"\"" ∧ c ≠ c!"'" ∧ ∀ x ∈ value, isSpace x = false))

/-- What is behind `before` is within 50 bytes of the start of an image. -/
def InImg (before : Bytes) : Prop :=
  ∃ a i m g s v, before = a ++ c!"<" :: i :: m :: g :: s :: v ∧ toLower i = c!"i" ∧ toLower m = c!"m" ∧ toLower g = c!"g" ∧
    isSpace s = true ∧ v.length < 45 ∧ c!"<" ∉ v ∧ c!">" ∉ v

/-- The image for a name. -/
def image (url name : Bytes) : Bytes :=
  b!"<img class=\"emoji\" src=\"" ++ url ++ b!"\" alt=\":" ++ name ++ b!":\" height=\"20\" width=\"20\" align=\"absmiddle\">"

/-- What a `:name:` is replaced by: an alignment of a table and an unknown name by themselves, the name of an emoji by its
Unicode form, or an image if it has none. -/
inductive Picture (tab : List Entry) : Bytes → Bytes → Prop
  | align {name} : Align name → Picture tab name (pattern name)
  | emoji {name pre post e u} : ¬ Align name → tab = pre ++ e :: post → e.name = folded name →
      (∀ e' ∈ pre, e'.name ≠ folded name) → e.unicode = some u → Picture tab name u
  | image {name pre post e url} : ¬ Align name → tab = pre ++ e :: post → e.name = folded name →
      (∀ e' ∈ pre, e'.name ≠ folded name) → e.unicode = none → e.image = some url → Picture tab name (image url e.name)
  | unknown {name} : ¬ Align name → folded name ∉ tab.map (·.name) → Picture tab name (pattern name)

/-- The colon of a mark of the index. -/
def AtMark (before s : Bytes) : Prop := (∃ a, before = a ++ b!"<!--IDX") ∧ s.head? = some c!":" ∧ b!"-->" <:+: s

/-- The page behind `before` with its names replaced, but not in the values of attributes and in marks of the index. -/
inductive Html (tab : List Entry) : Bytes → Bytes → Bytes → Prop
  | nil {b} : Html tab b [] []
  | mark {b x rest o} : AtMark b (x ++ b!"-->" ++ rest) → ¬ b!"-->" <:+: x → Html tab (b ++ (x ++ b!"-->")) rest o →
      Html tab b (x ++ b!"-->" ++ rest) (x ++ b!"-->" ++ o)
  | name {b name u rest o} : ¬ AtMark b (pattern name ++ rest) → ¬ InAttr b → IsName blanks name → Picture tab name u →
      Html tab (b ++ pattern name) rest o → Html tab b (pattern name ++ rest) (u ++ o)
  | byte {b c t o} : ¬ AtMark b (c :: t) →
      (InAttr b ∨ ¬ ∃ name u rest, IsName blanks name ∧ Picture tab name u ∧ c :: t = pattern name ++ rest) →
      Html tab (b ++ [c]) t o → Html tab b (c :: t) (c :: o)

/-- Colons in images are in attributes. -/
def Images (html : Bytes) : Prop := ∀ a t, html = a ++ c!":" :: t → InImg a → InAttr a

/-- No tag is written like `<1h>`. -/
def Headings (html : Bytes) : Prop := ∀ d h, c!"1" ≤ d ∧ d ≤ c!"6" → h = c!"h" ∨ h = c!"H" → ¬ [c!"<", d, h, c!">"] <:+: html

/-- `name` is the longest name of the emoji `u`, the first one of them. -/
def Longest (tab : List Entry) (u name : Bytes) : Prop :=
  ∃ pre e post, tab = pre ++ e :: post ∧ e.unicode = some u ∧ e.name = name ∧
    (∀ e' ∈ pre, e'.unicode = some u → e'.name.length < name.length) ∧ (∀ e' ∈ post, e'.unicode = some u → e'.name.length ≤ name.length)

end Verif.EmojiHtml.Spec
