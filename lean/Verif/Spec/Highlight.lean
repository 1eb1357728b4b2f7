/-
What `==text==` and `++text++` mean.
-/
import Verif.Model.Highlight

namespace Verif.Highlight.Spec

/-- A plain byte, marked text, or marked text with an attribute list. -/
inductive Seg where
  | plain (c : Byte)
  | marked (x : Bytes)
  | styled (x gap ial : Bytes)

def twice (r : Rule) : Bytes := [r.mark, r.mark]

/-- How a segment is written. -/
def Seg.source (r : Rule) : Seg → Bytes
  | plain c => [c]
  | marked x => twice r ++ x ++ twice r
  | styled x gap ial => twice r ++ x ++ twice r ++ gap ++ b!"{" ++ ial ++ b!"}"

/-- The text alone. -/
def Seg.text : Seg → Bytes
  | plain c => [c]
  | marked x => x
  | styled x _ _ => x

/-- The HTML. -/
def Seg.html (r : Rule) : Seg → Bytes
  | plain c => [c]
  | marked x => r.openTag ++ x ++ r.closeTag
  | styled x _ ial => b!"<ins markdown=\"span\"" ++ (r.attrs ial).getD [] ++ b!">" ++ x ++ r.closeTag

/-- A list item: a bullet or a number, then a blank. -/
def ListItem (s : Bytes) : Prop :=
  (∃ b d r, s = b :: d :: r ∧ (b = c!"-" ∨ b = c!"*" ∨ b = c!"+") ∧ (d = c!" " ∨ d = c!"\t")) ∨
  (∃ ds d r, s = ds ++ c!"." :: d :: r ∧ ds ≠ [] ∧ (∀ c ∈ ds, isDigit c = true) ∧ (d = c!" " ∨ d = c!"\t"))

/-- The rest of the text starts with a line of indented code: a tab or at least four spaces, and no list item. -/
def IndentedCode (s : Bytes) : Prop :=
  (∃ r, s = c!"\t" :: r ∧ ¬ ListItem r) ∨
  (∃ n r, 4 ≤ n ∧ s = List.replicate n c!" " ++ r ∧ r.head? ≠ some c!" " ∧ ¬ ListItem r)

/-- Marked text may end here: `y` is the text, `z` what follows the closing marker. -/
def Ends (r : Rule) (y z : Bytes) : Prop :=
  y.getLast? ≠ some c!" " ∧ y.getLast? ≠ some c!"\t" ∧ y.getLast? ≠ some c!"+" ∧ ∀ b ∈ r.bad, z.head? ≠ some b

/-- Marked text `x` after the byte `before` (if there is one) and in front of `after`.  Texts never contain NUL. -/
structure Span (r : Rule) (before : Option Byte) (x after : Bytes) : Prop where
  notCritic : before ≠ some c!"{"
  fresh : ∀ b ∈ r.bad, before ≠ some b
  opens : ∃ c y, x = c :: y ∧ c ∉ r.bad ∧ c ≠ c!"}" ∧ c ≠ 0 ∧ c ≠ c!"\n" ∧ c ≠ c!"\r" ∧ c ≠ c!" " ∧ c ≠ c!"\t"
  oneLine : c!"\n" ∉ x ∧ c!"\r" ∉ x
  ends : Ends r x after
  first : ∀ y z, x ++ twice r ++ after = y ++ twice r ++ z → y.length < x.length → ¬ Ends r y z

/-- An attribute list follows. -/
def Ial (after gap ial rest : Bytes) : Prop :=
  after = gap ++ b!"{" ++ ial ++ b!"}" ++ rest ∧ (∀ c ∈ gap, c = c!" " ∨ c = c!"\t") ∧ c!"}" ∉ ial

/-- Whether the place where `s` starts is in code, given whether the byte in front was: `k` says so for fenced,
inline and indented code. -/
structure Code (r : Rule) (k : Flags) (before : Option Byte) (s : Bytes) (k' : Flags) : Prop where
  indent : if r.indented = true ∧ (before = none ∨ before = some c!"\n") then k'.indent = true ↔ IndentedCode s
    else k'.indent = k.indent
  fence : k'.fence = if b!"```" <+: s then !k.fence else k.fence
  inline : k'.inline = if b!"`" <+: s ∧ ¬ b!"```" <+: s ∧ k.fence = false then !k.inline else k.inline

def Free (k : Flags) : Prop := k.fence = false ∧ k.inline = false ∧ k.indent = false

/-- How a text is read: from left to right, marked whenever possible. -/
inductive Reads (r : Rule) : Flags → Option Byte → Bytes → List Seg → Prop where
  | nil {k before} : Reads r k before [] []
  | plain {k k' before c t d} : Code r k before (c :: t) k' →
      ¬ (Free k' ∧ ∃ x after, c :: t = twice r ++ x ++ twice r ++ after ∧ Span r before x after) →
      Reads r k' (some c) t d → Reads r k before (c :: t) (.plain c :: d)
  | marked {k k' before x after d} : Code r k before (twice r ++ x ++ twice r ++ after) k' → Free k' →
      Span r before x after → (∀ gap ial rest, Ial after gap ial rest → r.attrs ial = none) →
      Reads r k' (some r.mark) after d → Reads r k before (twice r ++ x ++ twice r ++ after) (.marked x :: d)
  | styled {k k' before x after gap ial rest d a} : Code r k before (twice r ++ x ++ twice r ++ after) k' → Free k' →
      Span r before x after → Ial after gap ial rest → r.attrs ial = some a →
      Reads r k' (some c!"}") rest d → Reads r k before (twice r ++ x ++ twice r ++ after) (.styled x gap ial :: d)

/-- The whole text. -/
def Read (r : Rule) (text : Bytes) (d : List Seg) : Prop := Reads r ⟨false, false, false⟩ none text d

end Verif.Highlight.Spec
