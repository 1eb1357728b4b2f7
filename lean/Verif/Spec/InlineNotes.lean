/-
What inline footnotes are supposed to do, in terms of the pieces of a document.
-/
import Verif.Basic

namespace Verif.InlineNotes

/-- Texts in which every bracket has its partner. -/
inductive Balanced : Bytes → Prop
  | nil : Balanced []
  | other {c : Byte} {t : Bytes} : c ≠ c!"[" → c ≠ c!"]" → Balanced t → Balanced (c :: t)
  | group {a t : Bytes} : Balanced a → Balanced t → Balanced (b!"[" ++ a ++ b!"]" ++ t)

/-- The pieces of a document. -/
inductive Piece where
  /-- Ordinary text. -/
  | text (t : Bytes)
  /-- `^[text]`. -/
  | caret (t : Bytes)
  /-- `[^text with spaces]`. -/
  | spaced (t : Bytes)
  /-- `[^name]`. -/
  | ref (name : Bytes)
  /-- Code between backticks. -/
  | span (t : Bytes)
  /-- A fenced code block; `f` is the byte the fences are made of. -/
  | fence (f : Byte) (t : Bytes)
deriving DecidableEq

/-- How a piece is written. -/
def Piece.source : Piece → Bytes
  | .text t => t
  | .caret t => b!"^[" ++ t ++ b!"]"
  | .spaced t => b!"[^" ++ t ++ b!"]"
  | .ref name => b!"[^" ++ name ++ b!"]"
  | .span t => b!"`" ++ t ++ b!"`"
  | .fence f t => [f, f, f] ++ t ++ [f, f, f] ++ b!"\n"

/-- Text without code and footnotes. -/
def Plain (t : Bytes) : Prop := c!"`" ∉ t ∧ ¬ b!"~~~" <:+: t ∧ ¬ b!"^[" <:+: t ∧ ¬ b!"[^" <:+: t

/-- Conditions on the single pieces. -/
def Piece.Ok : Piece → Prop
  | .text t => t ≠ [] ∧ Plain t ∧ t.getLast? ≠ some c!"^" ∧ t.getLast? ≠ some c!"[" ∧ t.getLast? ≠ some c!"~"
  | .caret t => Balanced t
  | .spaced t => c!"]" ∉ t ∧ c!"\n" ∉ t ∧ ∃ c ∈ t, isSpace c = true
  | .ref name => Plain name ∧ name.head? ≠ some c!"[" ∧ c!"]" ∉ name ∧ ∀ c ∈ name, isSpace c = false
  | .span t => t ≠ [] ∧ c!"`" ∉ t ∧ ¬ b!"~~~" <:+: t
  | .fence f t => (f = c!"`" ∨ f = c!"~") ∧ t ≠ [] ∧ t.head? ≠ some f ∧ t.getLast? ≠ some f ∧ ¬ b!"```" <:+: t ∧ ¬ b!"~~~" <:+: t

/-- No code block follows directly on a backtick. -/
def Apart : List Piece → Prop
  | .span _ :: .fence _ _ :: _ => False
  | _ :: ps => Apart ps
  | [] => True

/-- A number in decimal digits. -/
def number (n : Nat) : Bytes := (Nat.toDigits 10 n).map fun c => c.toUInt8

/-- The text of the document when `k` footnotes came before: every inline footnote has become a reference. -/
def body (k : Nat) : List Piece → Bytes
  | [] => []
  | .caret _ :: ps => b!"[^fn" ++ number (k + 1) ++ b!"]" ++ body (k + 1) ps
  | .spaced _ :: ps => b!"[^fn" ++ number (k + 1) ++ b!"]" ++ body (k + 1) ps
  | p :: ps => p.source ++ body k ps

/-- The texts of the inline footnotes. -/
def notes : List Piece → List Bytes
  | [] => []
  | .caret t :: ps => t :: notes ps
  | .spaced t :: ps => t :: notes ps
  | _ :: ps => notes ps

/-- Their definitions, when `k` came before. -/
def defs (k : Nat) : List Bytes → Bytes
  | [] => []
  | t :: ts => b!"[^fn" ++ number (k + 1) ++ b!"]: " ++ t ++ b!"\n" ++ defs (k + 1) ts

/-- The document with references and definitions. -/
def expected (ps : List Piece) : Bytes := body 0 ps ++ if notes ps = [] then [] else b!"\n\n" ++ defs 0 (notes ps)

/-- The bytes of a document that are not in inline footnotes. -/
def outside : List Piece → Nat
  | [] => 0
  | .caret _ :: ps => outside ps
  | .spaced _ :: ps => outside ps
  | p :: ps => p.source.length + outside ps

end Verif.InlineNotes
