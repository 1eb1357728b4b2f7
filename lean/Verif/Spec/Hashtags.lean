/- What is expected of hashtags and of proofreading. -/
import Verif.Basic

namespace Verif.Hashtags.Spec

/-- A part of the text: a tag, or one byte of anything else. -/
structure Part where
  tag : Bool
  text : Bytes

/-- The text of the parts. -/
def source (ps : List Part) : Bytes := ps.flatMap fun p => p.text

/-- With each tag in a span of a class. -/
def shown (cls : Bytes) (ps : List Part) : Bytes := ps.flatMap fun p => if p.tag then b!"<span class=\"" ++ cls ++ b!"\">" ++ p.text ++ b!"</span>" else p.text

/-- The line which a text ends in. -/
def lastLine (s : Bytes) : Bytes := (s.reverse.takeWhile fun c => c != c!"\n").reverse

/-- A line starts with four spaces, or with a tab behind less; a carriage return does not count. -/
def Indented (line : Bytes) : Prop :=
  let l := line.filter fun c => c != c!"\r"
  4 ≤ (l.takeWhile fun c => c = c!" ").length ∨ (l.dropWhile fun c => c = c!" ").head? = some c!"\t"

/-- A place for a tag: at the start, or behind a space, tab or line feed, and not in an indented line. -/
def Place (before : Bytes) : Prop := (before = [] ∨ ∃ x c, before = x ++ [c] ∧ (c = c!" " ∨ c = c!"\t" ∨ c = c!"\n")) ∧ ¬Indented (lastLine before)

/-- What ends a tag. -/
def enders : Bytes := b!"# \n,;.!)]"

/-- A Latin letter or a digit. -/
def Letter (c : Byte) : Prop := c!"a" ≤ c ∧ c ≤ c!"z" ∨ c!"A" ≤ c ∧ c ≤ c!"Z" ∨ c!"0" ≤ c ∧ c ≤ c!"9"

/-- A text starts with `#` and a letter. -/
def StartsTag (s : Bytes) : Prop := ∃ c r, s = c!"#" :: c :: r ∧ Letter c

/-- A whole tag in front of a text: up to what ends it, with a `#` at the end if there is one. -/
def WholeTag (t after : Bytes) : Prop :=
  StartsTag t ∧ ((∃ x, t = c!"#" :: (x ++ [c!"#"]) ∧ ∀ c ∈ x, c ∉ enders) ∨ (∃ x, t = c!"#" :: x ∧ (∀ c ∈ x, c ∉ enders) ∧ (after = [] ∨ ∃ c r, after = c :: r ∧ c ∈ enders ∧ c ≠ c!"#")))

/-- A part of a text to be proofread. -/
inductive Piece
  | byte (c : Byte)
  | high (s : Bytes)
  | gone (s : Bytes)
  | code (s : Bytes)
  | fence (s : Bytes)
  deriving DecidableEq

/-- As it is written. -/
def Piece.source : Piece → Bytes
  | byte c => [c]
  | high s => b!"==" ++ s ++ b!"=="
  | gone s => b!"~~" ++ s ++ b!"~~"
  | code s => b!"`" ++ s ++ b!"`"
  | fence s => b!"```" ++ s ++ b!"```"

/-- In CriticMarkup. -/
def Piece.critic : Piece → Bytes
  | byte c => [c]
  | high s => b!"{==" ++ s ++ b!"==}"
  | gone s => b!"{--" ++ s ++ b!"--}"
  | code s => b!"`" ++ s ++ b!"`"
  | fence s => b!"```" ++ s ++ b!"```"

/-- A text starts with a passage between two marks. -/
def StartsMark (s : Bytes) : Prop := ∃ m x r, (m = b!"==" ∨ m = b!"~~") ∧ s = m ++ x ++ m ++ r

/-- Pieces as one writes them: bytes which are no marks, passages without marks, and code without backticks. -/
def Piece.Tidy : Piece → Prop
  | byte c => c ∉ b!"=~`"
  | high s => ∀ c ∈ s, c ∉ b!"=`"
  | gone s => ∀ c ∈ s, c ∉ b!"~`"
  | code s => s ≠ [] ∧ c!"`" ∉ s
  | fence s => s ≠ [] ∧ c!"`" ∉ s

/-- Code has a mark of its own. -/
def Piece.ticks : Piece → Bool
  | code _ | fence _ => true
  | _ => false

/-- No code right behind code. -/
def Apart : List Piece → Prop
  | p :: q :: ps => ¬(p.ticks = true ∧ q.ticks = true) ∧ Apart (q :: ps)
  | _ => True

end Verif.Hashtags.Spec
