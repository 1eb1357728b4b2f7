/-
What `x^2`, `H~2~O` and `~underline~` mean.
-/
import Verif.Spec.Highlight
import Verif.Model.SupSub

namespace Verif.SupSub.Spec

/-- A plain byte, or raised, lowered or underlined text.  Raised and lowered text may be closed by its marker. -/
inductive Seg where
  | plain (c : Byte)
  | sup (x : Bytes) (closed : Bool)
  | sub (x : Bytes) (closed : Bool)
  | under (x : Bytes)

/-- How it is written. -/
def Seg.source : Seg → Bytes
  | plain c => [c]
  | sup x closed => b!"^" ++ x ++ if closed then b!"^" else []
  | sub x closed => b!"~" ++ x ++ if closed then b!"~" else []
  | under x => b!"~" ++ x ++ b!"~"

/-- The HTML. -/
def Seg.html : Seg → Bytes
  | plain c => [c]
  | sup x _ => b!"<sup>" ++ x ++ b!"</sup>"
  | sub x _ => b!"<sub>" ++ x ++ b!"</sub>"
  | under x => b!"<u>" ++ x ++ b!"</u>"

/-- The bytes that end a word: blanks, newlines and the punctuation of a sentence. -/
def EndsWord (c : Byte) : Prop := c ∈ b!" \t\n.,;:!?"

/-- What the marked text may be: raised and lowered text is one word, underlined text one line. -/
def Seg.Ok : Seg → Prop
  | plain _ => True
  | sup x _ => x ≠ [] ∧ ∀ c ∈ x, ¬ EndsWord c ∧ c ≠ c!"^"
  | sub x _ => x ≠ [] ∧ ∀ c ∈ x, ¬ EndsWord c ∧ c ≠ c!"~"
  | under x => x ≠ [] ∧ c!"\n" ∉ x ∧ ∀ c, x.getLast? = some c → isSpace c = false

/-- A piece of text with no markup, no code and no mathematics, of which no line is indented. -/
structure Plain (a : Bytes) : Prop where
  ordinary : ∀ c ∈ a, c ≠ c!"^" ∧ c ≠ c!"~" ∧ c ≠ c!"`" ∧ c ≠ c!"$" ∧ c ≠ c!"{" ∧ c ≠ c!"\t"
  flush : ¬ b!"    " <:+: a

end Verif.SupSub.Spec
