/- Texts with addresses. -/
import Verif.Basic

namespace Verif.Autolinks.Spec

/-- A byte that can be in an address: no white space, and no angle bracket. -/
def inWord (c : Byte) : Prop := isSpace c = false ∧ c ≠ c!"<" ∧ c ≠ c!">"

instance (c : Byte) : Decidable (inWord c) := by unfold inWord; infer_instance

/-- Punctuation that does not end an address. -/
def punct (c : Byte) : Prop := c = c!"." ∨ c = c!"," ∨ c = c!";" ∨ c = c!":"

instance (c : Byte) : Decidable (punct c) := by unfold punct; infer_instance

/-- A piece of a text. -/
inductive Piece
  /-- a byte that stays -/
  | same (c : Byte)
  /-- an address that becomes a link -/
  | bare (u : Bytes)
  /-- a mail address that becomes a link -/
  | mail (u : Bytes)
  /-- an address in angle brackets -/
  | angle (u : Bytes)

/-- The link to an address. -/
def link (text href : Bytes) : Bytes := b!"[" ++ text ++ b!"](" ++ href ++ b!")"

/-- The piece in the text. -/
def Piece.source : Piece → Bytes
  | same c => [c]
  | bare u => u
  | mail u => u
  | angle u => b!"<" ++ u ++ b!">"

/-- The piece in the new text. -/
def Piece.result : Piece → Bytes
  | same c => [c]
  | bare u => link u u
  | mail u => link u (b!"mailto:" ++ u)
  | angle u => link u u

/-- The protocols. -/
def Protocol (s : Bytes) : Prop := b!"http://" <+: s ∨ b!"https://" <+: s ∨ b!"mailto:" <+: s

/-- A word that does not end with punctuation. -/
def Word (u : Bytes) : Prop := (∀ c ∈ u, inWord c) ∧ ∃ a c, u = a ++ [c] ∧ ¬ punct c

/-- A mail address: a user whose last byte is a letter or a digit, and a domain with a dot. -/
def Mail (u : Bytes) : Prop :=
  ∃ user c dom d rest, u = user ++ [c] ++ b!"@" ++ dom ++ b!"." ++ d :: rest ∧ c!"@" ∉ user ∧ isAlnum c = true ∧
    (∀ x ∈ dom, isAlnum x = true ∨ x = c!"-" ∨ x = c!"_") ∧ isAlnum d = true

/-- The piece is what it should be. -/
def Piece.Ok : Piece → Prop
  | same _ => True
  | bare u => Word u ∧ (Protocol u ∨ u = b!"mailto")
  | mail u => Word u ∧ Mail u
  | angle u => c!">" ∉ u ∧ Protocol u ∧ u ≠ b!"mailto:"

/-- Behind an address there is punctuation, and then no byte of an address. -/
def Stop (s : Bytes) : Prop := ∃ e r, s = e ++ r ∧ (∀ c ∈ e, punct c) ∧ ∀ c, r.head? = some c → ¬ inWord c

/-- What may be behind a piece. -/
def Piece.Before : Piece → Bytes → Prop
  | bare u, s => Stop s ∧ Protocol (u ++ s)
  | mail _, s => Stop s
  | _, _ => True

def source (ps : List Piece) : Bytes := ps.flatMap Piece.source

def result (ps : List Piece) : Bytes := ps.flatMap Piece.result

/-- The pieces are pieces of a text that goes on with `rest`. -/
def Ok (rest : Bytes) : List Piece → Prop
  | [] => True
  | p :: ps => p.Ok ∧ p.Before (source ps ++ rest) ∧ Ok rest ps

/-! ### Documents -/

/-- A word: its text, and what becomes of it. -/
inductive Token
  /-- no address -/
  | plain (w : Bytes)
  /-- `a`, an address, and punctuation -/
  | bare (a u e : Bytes)
  /-- a mail address, and punctuation -/
  | mail (u e : Bytes)

def Token.source : Token → Bytes
  | plain w => w
  | bare a u e => a ++ u ++ e
  | mail u e => u ++ e

def Token.result : Token → Bytes
  | plain w => w
  | bare a u e => a ++ link u u ++ e
  | mail u e => link u (b!"mailto:" ++ u) ++ e

/-- No address starts in `a` before `b`, except behind a parenthesis. -/
def NoneIn (a b : Bytes) : Prop := ∀ x c y, a = x ++ c :: y → Protocol (c :: y ++ b) → x.getLast? = some c!"("

/-- The word is not empty, has no marks in it, and is what the piece says: the first address in a word counts, but not one
directly behind a parenthesis; a mail address has to be the whole word. -/
def Token.Ok (t : Token) : Prop :=
  t.source ≠ [] ∧ (∀ c ∈ t.source, inWord c ∧ c ≠ c!"[" ∧ c ≠ c!"]" ∧ c ≠ c!"`" ∧ c ≠ c!"{") ∧
  match t with
  | plain w => ¬ Mail w ∧ NoneIn w []
  | bare a u e => Word u ∧ (∀ c ∈ e, punct c) ∧ Protocol (u ++ e) ∧ (a ≠ [] → ¬ Mail (a ++ u ++ e)) ∧ NoneIn a (u ++ e) ∧ a.getLast? ≠ some c!"("
  | mail u e => Word u ∧ (∀ c ∈ e, punct c) ∧ Mail (u ++ e) ∧ ¬ Protocol (u ++ e)

/-- Parts of a document. -/
inductive Item
  | word (t : Token)
  /-- an address in angle brackets -/
  | angle (u : Bytes)
  /-- a comment -/
  | comment (s : Bytes)
  /-- a code span -/
  | span (code : Bytes)
  /-- a code block with a fence of `n` backticks; `code` has the rest of the line of the fence in it -/
  | block (n : Nat) (code : Bytes)
  /-- a link -/
  | link (text url : Bytes)
  /-- a Liquid tag -/
  | liquid (s : Bytes)
  /-- a tag without addresses -/
  | tag (s : Bytes)
  /-- a tag with an address in an attribute -/
  | attr (front url back : Bytes)

def Item.source : Item → Bytes
  | word t => t.source
  | angle u => b!"<" ++ u ++ b!">"
  | comment s => b!"<!--" ++ s ++ b!"-->"
  | span code => b!"`" ++ code ++ b!"`"
  | block n code => List.replicate n c!"`" ++ code ++ List.replicate n c!"`"
  | link text url => b!"[" ++ text ++ b!"](" ++ url ++ b!")"
  | liquid s => b!"{%" ++ s ++ b!"%}"
  | tag s => b!"<" ++ s ++ b!">"
  | attr front url back => b!"<" ++ front ++ b!"=\"" ++ url ++ b!"\"" ++ back ++ b!">"

/-- Only words and addresses in angle brackets change. -/
def Item.result : Item → Bytes
  | word t => t.result
  | angle u => Spec.link u u
  | i => i.source

/-- All tags that begin in the text end in it. -/
def Closed (s : Bytes) : Prop := ∀ a b, s = a ++ c!"<" :: b → c!">" ∈ b

/-- Bytes of a tag without addresses. -/
def inTag (c : Byte) : Prop := c ∉ b!"<>[]`{:@\n"

instance (c : Byte) : Decidable (inTag c) := by unfold inTag; infer_instance

def Item.Ok : Item → Prop
  | word t => t.Ok
  | angle u => c!">" ∉ u ∧ Protocol u ∧ u ≠ b!"mailto:"
  | comment s => ¬ b!"-->" <:+: b!"<!--" ++ s
  | span code => code ≠ [] ∧ (∀ c ∈ code, c ∉ b!"`{\n") ∧ Closed code
  | block n code => 3 ≤ n ∧ n ≤ 10 ∧ (∀ c ∈ code, c ∉ b!"`{") ∧ (∃ a, code = a ++ b!"\n") ∧ Closed code
  | link text url => (∀ c ∈ text, inTag c) ∧ (∀ c ∈ url, c ∉ b!"()`{@\n") ∧ Closed url
  | liquid s => ¬ b!"%}" <:+: s ∧ Closed s
  | tag s => (∀ c ∈ s, inTag c) ∧ s.head? ≠ some c!"!"
  | attr front url back => (∀ c ∈ front, inTag c) ∧ front.head? ≠ some c!"!" ∧ (∀ c ∈ url, c ∉ b!"<>[]`{@\"" ∧ isSpace c = false) ∧
      (∀ a b, url = a ++ b → Protocol b → c!"=" ∉ a) ∧ ∀ c ∈ back, inTag c

/-- White space between the parts; lines are not indented. -/
def Sep (s : Bytes) : Prop := (∀ c ∈ s, isSpace c = true) ∧ ∀ a c b, s = a ++ 10 :: c :: b → c ≠ 32 ∧ c ≠ 9

/-- Parts, each with white space behind it, but for the last. -/
def DocOk : List (Item × Bytes) → Prop
  | [] => True
  | (i, s) :: ds => i.Ok ∧ Sep s ∧ (ds ≠ [] → s ≠ []) ∧ DocOk ds

def docSource (ds : List (Item × Bytes)) : Bytes := ds.flatMap fun d => d.1.source ++ d.2

def docResult (ds : List (Item × Bytes)) : Bytes := ds.flatMap fun d => d.1.result ++ d.2

end Verif.Autolinks.Spec
