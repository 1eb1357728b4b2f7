/-
Elements with a `markdown` attribute, and what becomes of them: independently of the model.
-/
import Verif.Spec.StripWrap

namespace Verif.InHtml.Spec
open StripWrap.Spec (Tags html White Named Balanced Good)

/-- Somewhere, `markdown=` is behind white space. -/
def Mentions (w : Bytes) : Prop := ∃ x c y, w = x ++ c :: b!"markdown=" ++ y ∧ White c

/-- An attribute other than `markdown`. -/
def Other (a : Bytes) : Prop :=
  (∃ c x, a = c :: x ∧ ¬ White c) ∧ (∃ x c, a = x ++ [c] ∧ ¬ White c) ∧ ¬ b!"markdown=" <+: a ∧ ¬ Mentions a

/-- The attribute `markdown` with the value `v`, in quotation marks or without them. -/
def Attribute (a v : Bytes) : Prop :=
  (∃ q, (q = c!"\"" ∨ q = c!"'") ∧ q ∉ v ∧ c!"\\" ∉ v ∧ a = b!"markdown=" ++ q :: v ++ [q]) ∨
  (∀ c ∈ v, ¬ White c ∧ c ≠ c!"\"" ∧ c ≠ c!"'") ∧ a = b!"markdown=" ++ v

/-- Attributes, each with a blank before it. -/
def attributes (l : List Bytes) : Bytes := l.flatMap fun a => b!" " ++ a

/-- A name of up to 63 letters, digits, `-` and `_`. -/
def Name (n : Bytes) : Prop := n ≠ [] ∧ n.length < 64 ∧ ∀ c ∈ n, isAlnum c = true ∨ c = c!"-" ∨ c = c!"_"

/-- The tag `w` has the name `n` and a `markdown` attribute with the value `v`, which has up to 63 bytes; without it, the tag
is `w'`. -/
def Marked (w n v w' : Bytes) : Prop :=
  ∃ a m b, w = n ++ attributes (a ++ m :: b) ∧ w' = n ++ attributes (a ++ b) ∧ Name n ∧ (∀ x ∈ a ++ b, Other x) ∧ Attribute m v ∧ v.length < 64

/-- A tag without the attribute. -/
def Plain (w : Bytes) : Prop := ¬ Mentions w

/-- The content of an element becomes blocks, or a line of text, or stays as it is. -/
inductive Kind (v : Bytes) : Option Bool → Prop
  | one : v = b!"1" → Kind v (some false)
  | block : v = b!"block" → Kind v (some false)
  | span : v = b!"span" → Kind v (some true)
  | none : v ∉ [b!"1", b!"block", b!"span"] → Kind v .none

/-- A line of text loses the paragraph around it. -/
inductive Trimmed : Bool → Bytes → Bytes → Prop
  | block {h} : Trimmed false h h
  | paragraph {h} : Trimmed true (b!"<p>" ++ h ++ b!"</p>\n") h
  | other {h} : (∀ x, h ≠ b!"<p>" ++ x ++ b!"</p>\n") → Trimmed true h h

/-- `l` is an element of the given name, without its opening tag, and `rest`. -/
def Closed (n : Bytes) (l inner : Tags) (c : Bytes) (t : Bytes) (rest : Tags) : Prop :=
  l = inner ++ (c, t) :: rest ∧ Balanced (n.map toLower) inner ∧ Named (c!"/" :: n.map toLower) c

/-- What becomes of the tags of a text: `conv` is what becomes of Markdown.  `sizes` has, for each element that is converted,
the length of its content, the length of this content when the elements in it are converted, and the length of the
opening tag. -/
inductive Converted (conv : Bytes → Bytes) : Tags → List (Nat × Nat × Nat) → Bytes → Prop
  | nil : Converted conv [] [] []
  | plain {x l sizes out} : Plain x.1 → Converted conv l sizes out → Converted conv (x :: l) sizes (html [x] ++ out)
  /-- The element is not closed. -/
  | unclosed {x n v w l sizes out} : Marked x.1 n v w → (∀ inner c t rest, ¬ Closed n l inner c t rest) → Converted conv l sizes out →
    Converted conv (x :: l) sizes (html [x] ++ out)
  /-- The content stays as it is. -/
  | kept {x n v w l inner c t rest sizes out} : Marked x.1 n v w → Closed n l inner c t rest → Kind v none ∨ x.2 ++ html inner = [] →
    Converted conv rest sizes out → Converted conv (x :: l) sizes (html (x :: inner ++ [(c, t)]) ++ out)
  /-- The content is converted: first, the elements in it. -/
  | converted {x n v w l inner c t rest sizes out inline sizes' i h} : Marked x.1 n v w → Closed n l inner c t rest → Kind v (some inline) →
    x.2 ++ html inner ≠ [] → Converted conv inner sizes' i → Trimmed inline (conv (x.2 ++ i)) h → Converted conv rest sizes out →
    Converted conv (x :: l) (((x.2 ++ html inner).length, (x.2 ++ i).length, w.length + 2) :: sizes' ++ sizes)
      (b!"<" ++ w ++ b!">" ++ h ++ b!"<" ++ c ++ b!">\n" ++ t ++ out)

end Verif.InHtml.Spec
