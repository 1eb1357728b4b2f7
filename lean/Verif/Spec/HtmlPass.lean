/- What the passes over HTML are to do, independently of the code. -/
import Verif.Basic

namespace Verif.HtmlPass.Spec

/-! ### Header levels -/

/-- `<h`, a level, then `>` or white space and anything up to a `>`: an opening heading tag. -/
def openTag (l : Nat) (attrs : Bytes) : Bytes := b!"<h" ++ [.ofNat (48 + l)] ++ attrs ++ b!">"
/-- `</hN>`. -/
def closeTag (l : Nat) : Bytes := b!"</h" ++ [.ofNat (48 + l)] ++ b!">"

def Level (l : Nat) : Prop := 1 ≤ l ∧ l ≤ 6
/-- Attributes: nothing, or white space and anything without `>`. -/
def Attrs (a : Bytes) : Prop := (a = [] ∨ ∃ c r, a = c :: r ∧ isSpace c) ∧ c!">" ∉ a

/-- A heading tag starts the text. -/
def TagHere (s : Bytes) : Prop :=
  (∃ l a t, Level l ∧ Attrs a ∧ s = openTag l a ++ t) ∨ ∃ l t, Level l ∧ s = closeTag l ++ t

/-- Every heading tag of level `l` gets the level `min 6 (l + b - 1)`; all else stays. -/
inductive Leveled (b : Nat) : Bytes → Bytes → Prop
  | nil : Leveled b [] []
  | openTag {l a t o} : Level l → Attrs a → Leveled b t o →
      Leveled b (Spec.openTag l a ++ t) (Spec.openTag (min 6 (l + b - 1)) a ++ o)
  | closeTag {l t o} : Level l → Leveled b t o →
      Leveled b (Spec.closeTag l ++ t) (Spec.closeTag (min 6 (l + b - 1)) ++ o)
  | other {c t o} : ¬ TagHere (c :: t) → Leveled b t o → Leveled b (c :: t) (c :: o)

/-! ### White space in tags -/

/-- `<` opens a tag unless followed by `/`, `!` or `?`. -/
def Opens (c : Byte) (t : Bytes) : Prop := c = c!"<" ∧ ∀ d, t.head? = some d → d ∉ b!"/!?"

mutual
/-- Outside tags nothing changes. -/
inductive Outside : Bytes → Bytes → Prop
  | nil : Outside [] []
  | char {c t o} : ¬ Opens c t → Outside t o → Outside (c :: t) (c :: o)
  | enter {c t o} : Opens c t → Inside t o → Outside (c :: t) (c :: o)
/-- Inside a tag white space before the `>` goes, other white space becomes one space. -/
inductive Inside : Bytes → Bytes → Prop
  | nil : Inside [] []
  | char {c t o} : isSpace c = false → c ≠ c!">" → Inside t o → Inside (c :: t) (c :: o)
  | close {w t o} : (∀ c ∈ w, isSpace c = true) → Outside t o → Inside (w ++ c!">" :: t) (c!">" :: o)
  | space {w d t o} : w ≠ [] → (∀ c ∈ w, isSpace c = true) → isSpace d = false → d ≠ c!">" →
      Inside (d :: t) o → Inside (w ++ d :: t) (32 :: o)
  | trail {w} : w ≠ [] → (∀ c ∈ w, isSpace c = true) → Inside w [32]
end

/-! ### Newlines between tags -/

/-- Space, tab, newline, carriage return. -/
def Gap (w : Bytes) : Prop := ∀ c ∈ w, c ∈ b!" \t\n\r"
/-- The line ends in a gap. -/
def lineEnds (w : Bytes) : Nat := w.count 10 + w.count 13

/-- A gap with line ends follows, then a `<`. -/
def GapHere (t : Bytes) : Prop := ∃ w r, t = w ++ c!"<" :: r ∧ Gap w ∧ 0 < lineEnds w

/-- Gaps with line ends between `>` and `<` become one newline, or two if there are at least two line
ends; all else stays. A `>` directly behind an ordinary `>` is not looked at. -/
inductive Collapsed : Bytes → Bytes → Prop
  | nil : Collapsed [] []
  | char {c t o} : c ≠ c!">" → Collapsed t o → Collapsed (c :: t) (c :: o)
  | gap {w t o} : Gap w → 0 < lineEnds w → Collapsed (c!"<" :: t) o →
      Collapsed (c!">" :: (w ++ c!"<" :: t)) (c!">" :: (List.replicate (min 2 (lineEnds w)) 10 ++ o))
  | pass {d t o} : ¬ GapHere (d :: t) → Collapsed t o → Collapsed (c!">" :: d :: t) (c!">" :: d :: o)

/-- Only white space between a `>` and a `<` differs. -/
inductive OnlyGaps : Bytes → Bytes → Prop
  | nil : OnlyGaps [] []
  | char {c t o} : OnlyGaps t o → OnlyGaps (c :: t) (c :: o)
  | gap {w v t o} : Gap w → Gap v → v.length ≤ w.length → OnlyGaps (c!"<" :: t) o →
      OnlyGaps (c!">" :: (w ++ c!"<" :: t)) (c!">" :: (v ++ o))

/-- The number of `>` the text ends in. -/
def trailing (s : Bytes) : Nat := (s.reverse.takeWhile (· == c!">")).length

/-! ### Blank lines in tables -/

/-- An opening or a closing table tag starts the text. -/
def TableOpen (s : Bytes) : Prop := ∃ t, s = b!"<table>" ++ t ∨ s = b!"<table " ++ t
def TableClose (s : Bytes) : Prop := ∃ t, s = b!"</table>" ++ t

/-- The last table tag of the text is an opening one. -/
def InTable (s : Bytes) : Prop :=
  ∃ a b, s = a ++ b ∧ TableOpen b ∧ ∀ x y, b = x ++ y → ¬ TableClose y

/-- Blanks, then a newline. -/
def BlankLine (l : Bytes) : Prop := ∃ w, l = w ++ [10] ∧ ∀ c ∈ w, c ∈ b!" \t\r"
/-- A line with its newline. -/
def IsLine (l : Bytes) : Prop := ∃ w, l = w ++ [10] ∧ (10 : Byte) ∉ w

/-- From the text before it on, the blank lines inside tables are deleted; the other lines, and the rest
without a newline, stay. -/
inductive Deleted : Bytes → Bytes → Bytes → Prop
  | rest {pre r} : (10 : Byte) ∉ r → Deleted pre r r
  | drop {pre l t o} : IsLine l → BlankLine l → InTable pre → Deleted (pre ++ l) t o → Deleted pre (l ++ t) o
  | keep {pre l t o} : IsLine l → ¬ (BlankLine l ∧ InTable pre) → Deleted (pre ++ l) t o →
      Deleted pre (l ++ t) (l ++ o)

/-! ### Empty paragraphs -/

/-- White space and zero-width spaces. -/
inductive Void : Bytes → Prop
  | nil : Void []
  | blank {c t} : c ∈ b!" \t\n\r" → Void t → Void (c :: t)
  | entity {t} : Void t → Void (b!"&#8203;" ++ t)
  | utf8 {t} : Void t → Void ([0xE2, 0x80, 0x8B] ++ t)

/-- An empty paragraph starts the text. -/
def ParaHere (s : Bytes) : Prop := ∃ w t, w ≠ [] ∧ Void w ∧ s = b!"<p>" ++ w ++ b!"</p>" ++ t

/-- The empty paragraphs removed; all else stays. -/
inductive Stripped : Bytes → Bytes → Prop
  | nil : Stripped [] []
  | para {w t o} : w ≠ [] → Void w → Stripped t o → Stripped (b!"<p>" ++ w ++ b!"</p>" ++ t) o
  | char {c t o} : ¬ ParaHere (c :: t) → Stripped t o → Stripped (c :: t) (c :: o)

/-! ### Shifting -/

/-- Every line that starts with `#` gets `n` more; `first` says that a line starts here. -/
def shifted (n : Nat) : Bool → Bytes → Bytes
  | _, [] => []
  | first, c :: t => (if first ∧ c = c!"#" then List.replicate n c!"#" else []) ++ c :: shifted n (c == 10) t

/-- Some line starts with `#`. -/
def HasHeader (s : Bytes) : Prop := (∃ t, s = c!"#" :: t) ∨ ∃ a t, s = a ++ 10 :: c!"#" :: t

end Verif.HtmlPass.Spec
