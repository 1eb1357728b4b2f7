/- Fonts in man pages: what roff prints in which font, and what a document asks for. -/
import Verif.Spec.Man

namespace Verif.Man.Spec

inductive Font | roman | bold | italic
  deriving DecidableEq, Repr

/-- The characters roff prints, each with its font, from the current and the previous font on.  `\f[B]`,
`\f[I]` and `\fR` select a font and remember the one before; `\f[]` goes back to the remembered one (and
remembers the one it leaves); the other escapes are as in `printed`. -/
def styled (cur prev : Font) : Bytes → List (Byte × Font)
  | 92 :: 102 :: 91 :: 66 :: 93 :: t => styled .bold cur t
  | 92 :: 102 :: 91 :: 73 :: 93 :: t => styled .italic cur t
  | 92 :: 102 :: 91 :: 93 :: t => styled prev cur t
  | 92 :: 102 :: 82 :: t => styled .roman cur t
  | 92 :: 101 :: t => (92, cur) :: styled cur prev t
  | 92 :: 45 :: t => (45, cur) :: styled cur prev t
  | 92 :: 38 :: t => styled cur prev t
  | 92 :: 91 :: 101 :: 109 :: 93 :: t => (0xE2, cur) :: (0x80, cur) :: (0x94, cur) :: styled cur prev t
  | c :: t => (c, cur) :: styled cur prev t
  | [] => []

/-- A text in one font. -/
def inFont (f : Font) (s : Bytes) : List (Byte × Font) := s.map fun c => (c, f)

mutual
/-- What an inline node is to look like where the font is `f`: strong text bold, emphasised text italic,
code roman, a link followed by its URL in parentheses, a hard break a `.br` line. -/
def inlineStyled (f : Font) : Node → List (Byte × Font)
  | .mk k kids =>
    match k with
    | .text lit => inFont f (enDash lit)
    | .code lit => inFont .roman (enDash lit)
    | .lineBreak => inFont f b!"\n.br\n"
    | .softBreak => inFont f b!" "
    | .strong => inlinesStyled .bold kids
    | .emph => inlinesStyled .italic kids
    | .link url =>
      inlinesStyled f kids ++ (if url ≠ [] then inFont f (b!" (" ++ enDash url ++ b!")") else [])
    | .htmlInline => []
    | _ => inlinesStyled f kids
def inlinesStyled (f : Font) : List Node → List (Byte × Font)
  | [] => []
  | n :: ns => inlineStyled f n ++ inlinesStyled f ns
end

mutual
/-- No emphasis within emphasis; `inside` says that the node already is in one. -/
def flat (inside : Bool) : Node → Bool
  | .mk k kids =>
    match k with
    | .strong | .emph => !inside && flats true kids
    | .text _ | .code _ | .lineBreak | .softBreak | .htmlInline => true
    | _ => flats inside kids
def flats (inside : Bool) : List Node → Bool
  | [] => true
  | n :: ns => flat inside n && flats inside ns
end

/-! ### Fragments of definition lists -/

/-- HTML text in one font: tags other than strong and code count for nothing, the five entities for
their characters, en dashes for two hyphens. -/
inductive Piece (f : Font) : Bytes → List (Byte × Font) → Prop
  | nil : Piece f [] []
  | plain {c t o} : c ≠ c!"<" → c ≠ c!"&" → ¬ (c = 0xE2 ∧ ∃ r, t = 0x80 :: 0x93 :: r) → Piece f t o →
      Piece f (c :: t) ((c, f) :: o)
  | dash {t o} : Piece f t o → Piece f (0xE2 :: 0x80 :: 0x93 :: t) ((45, f) :: (45, f) :: o)
  | entity {e c t o} :
      (e, c) ∈ [(b!"&lt;", c!"<"), (b!"&gt;", c!">"), (b!"&amp;", c!"&"), (b!"&quot;", c!"\""), (b!"&#39;", c!"'")] →
      Piece f t o → Piece f (e ++ t) ((c, f) :: o)
  | tag {w t o} : c!">" ∉ w → w ∉ [b!"strong", b!"/strong", b!"code", b!"/code"] → Piece f t o →
      Piece f (c!"<" :: w ++ c!">" :: t) o

/-- The inside of a strong element: bold, with code in roman. -/
inductive Bold : Bytes → List (Byte × Font) → Prop
  | piece {s o} : Piece .bold s o → Bold s o
  | code {a b t o₁ o₂ o₃} : Piece .bold a o₁ → Piece .roman b o₂ → Bold t o₃ →
      Bold (a ++ (b!"<code>" ++ (b ++ (b!"</code>" ++ t)))) (o₁ ++ (o₂ ++ o₃))

/-- A fragment with strong and code elements, not nested in themselves. -/
inductive Fragment : Bytes → List (Byte × Font) → Prop
  | piece {s o} : Piece .roman s o → Fragment s o
  | code {a b t o₁ o₂ o₃} : Piece .roman a o₁ → Piece .roman b o₂ → Fragment t o₃ →
      Fragment (a ++ (b!"<code>" ++ (b ++ (b!"</code>" ++ t)))) (o₁ ++ (o₂ ++ o₃))
  | strong {a b t o₁ o₂ o₃} : Piece .roman a o₁ → Bold b o₂ → Fragment t o₃ →
      Fragment (a ++ (b!"<strong>" ++ (b ++ (b!"</strong>" ++ t)))) (o₁ ++ (o₂ ++ o₃))

/-! ### The title -/

mutual
/-- The texts and code spans of a node, in order. -/
def pieces : Node → List Bytes
  | .mk k kids =>
    match k with
    | .text lit => [lit]
    | .code lit => [lit]
    | _ => piecesAll kids
def piecesAll : List Node → List Bytes
  | [] => []
  | n :: ns => pieces n ++ piecesAll ns
end

/-- `n` is a level-1 heading with these children. -/
def IsH1 (n : Node) (kids : List Node) : Prop := n = .mk (.heading 1) kids

end Verif.Man.Spec
