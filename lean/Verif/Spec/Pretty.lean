/-
Specification for pretty printing.
-/
import Verif.Spec.Transforms

namespace Verif.Pretty.Spec
open Transforms.Spec (White)

instance : DecidablePred White := fun c => by unfold White; infer_instance

/-- What is left of a text without its white space. -/
def ink (s : Bytes) : Bytes := s.filter fun c => decide (¬ White c)

/-- No three newlines in a row. -/
def NoGap (s : Bytes) : Prop := ¬ b!"\n\n\n" <:+: s

/-- Every `<` is followed by a `>`. -/
def Closed (s : Bytes) : Prop := ∀ u v, s = u ++ c!"<" :: v → c!">" ∈ v

/-- Tags are shorter than `n` bytes: behind every `<` there is a `>`, fewer than `n` bytes on. -/
def TagsBelow (n : Nat) (s : Bytes) : Prop :=
  ∀ u v, s = u ++ c!"<" :: v → ∃ x y, v = x ++ c!">" :: y ∧ c!">" ∉ x ∧ x.length + 2 < n

/-- Elements of text (HTML calls them phrasing content). -/
def phrasing : List Bytes :=
  [b!"a", b!"abbr", b!"b", b!"br", b!"cite", b!"code", b!"del", b!"dfn", b!"em", b!"i", b!"img", b!"input", b!"ins", b!"kbd",
   b!"mark", b!"q", b!"s", b!"samp", b!"small", b!"span", b!"strong", b!"sub", b!"sup", b!"time", b!"u", b!"var"]

/-- Elements that hold a paragraph of text. -/
def holders : List Bytes :=
  [b!"p", b!"h1", b!"h2", b!"h3", b!"h4", b!"h5", b!"h6", b!"li", b!"dt", b!"dd", b!"td", b!"th", b!"figcaption",
   b!"summary", b!"blockquote", b!"div"]

/-- What stands between `<` and `>` in a tag of an element of text. -/
def PhraseTag (y : Bytes) : Prop :=
  ∃ n ∈ phrasing, ∃ w, (y = n ++ w ∨ y = c!"/" :: n ++ w) ∧ (w = [] ∨ ∃ d r, w = d :: r ∧ (White d ∨ d = c!"/"))

/-- Text without newlines in which all tags are those of elements of text. -/
def Phrase (x : Bytes) : Prop :=
  c!"\n" ∉ x ∧ ∀ u v, x = u ++ c!"<" :: v → ∃ y z, v = y ++ c!">" :: z ∧ c!">" ∉ y ∧ PhraseTag y

end Verif.Pretty.Spec
