/-
What becomes of a page when it gets attributes for accessibility: independently of the model.
-/
import Verif.Basic

namespace Verif.Aria.Spec

/-- The tags of a page, without `<` and `>`, each with the text behind it. -/
abbrev Tags := List (Bytes × Bytes)

/-- The tags as HTML. -/
def html (l : Tags) : Bytes := l.flatMap fun x => b!"<" ++ x.1 ++ b!">" ++ x.2

/-- A number in decimal notation. -/
def number (n : Nat) : Bytes := (Nat.toDigits 10 n).map fun c => c.toUInt8

/-- The tags of a page; an ID of a caption is in double quotation marks, which are closed. -/
def Good (l : Tags) : Prop :=
  ∀ x ∈ l, c!"<" ∉ x.1 ∧ c!">" ∉ x.1 ∧ c!"<" ∉ x.2 ∧
    (b!"figcaption" <+: x.1 → ¬ b!"id='" <:+: x.1 ∧ ∀ a v, x.1 = a ++ b!"id=\"" ++ v → c!"\"" ∈ v)

/-- `c` begins with a figure whose class marks it as one of a table; `post` is what follows `c`. -/
def Figure (c post : Bytes) : Prop :=
  b!"<figure" <+: c ∧ (b!"class=\"table-figure\"" <:+: c ∨ ¬ b!"class=\"table-figure\"" <:+: c ++ post ∧ b!"class='table-figure'" <:+: c)

/-- The last figure of a table in `pre`, less than `n` bytes before its end, begins behind `a`. -/
def FigureOf (n : Nat) (pre post a : Bytes) : Prop :=
  ∃ c, pre = a ++ c ∧ c ≠ [] ∧ c.length < n ∧ Figure c post ∧ ∀ a' c', pre = a' ++ c' → c' ≠ [] → c'.length < c.length → ¬ Figure c' post

/-- The first ID in a tag. -/
def GivenId (w v : Bytes) : Prop :=
  ∃ b c, w = b ++ b!"id=\"" ++ v ++ b!"\"" ++ c ∧ ¬ b!"id=\"" <:+: b ++ b!"id=" ∧ c!"\"" ∉ v

/-- The captions of figures of tables, each with what is in front of its figure and its ID; `k` of them have got a number. -/
inductive Captions : Bytes → Nat → Tags → List (Bytes × Bytes) → Prop
  | nil {pre k} : Captions pre k [] []
  | other {pre k x l ids} : (b!"figcaption" <+: x.1 → GivenId x.1 [] ∨ ∀ a, ¬ FigureOf 200 pre (html (x :: l)) a) →
      Captions (pre ++ html [x]) k l ids → Captions pre k (x :: l) ids
  | given {pre k x l ids a v} : b!"figcaption" <+: x.1 → FigureOf 200 pre (html (x :: l)) a → GivenId x.1 v → v ≠ [] →
      Captions (pre ++ html [x]) k l ids → Captions pre k (x :: l) ((a, v) :: ids)
  | new {pre k x l ids a} : b!"figcaption" <+: x.1 → FigureOf 200 pre (html (x :: l)) a → ¬ b!"id=\"" <:+: x.1 →
      Captions (pre ++ html [x]) (k + 1) l ids → Captions pre k (x :: l) ((a, b!"table-caption-" ++ number (k + 1)) :: ids)

/-- The ID of the caption of the table behind `pre`: the last caption of the same figure. -/
def Described (ids : List (Bytes × Bytes)) (pre post id : Bytes) : Prop :=
  ∃ a x y, FigureOf 500 pre post a ∧ ids = x ++ (a, id) :: y ∧ ∀ i, (a, i) ∉ y

/-- The class of a table of contents. -/
def Toc (w post : Bytes) : Prop :=
  b!"class=\"toc\"" <:+: w ∨ ¬ b!"class=\"toc\"" <:+: b!"<" ++ w ++ b!">" ++ post ∧ b!"class='toc'" <:+: w

/-- The attributes for a tag `w` behind `pre`; `k` captions have got a number before, and `k'` with this tag. -/
inductive Attributes (ids : List (Bytes × Bytes)) (pre w post : Bytes) (k : Nat) : Nat → Bytes → Prop
  | toc : b!"nav" <+: w → Toc w post → ¬ b!"aria-label=" <:+: w → Attributes ids pre w post k k b!" aria-label=\"Table of contents\""
  | figure : b!"figure" <+: w → ¬ b!"role=" <:+: w → Attributes ids pre w post k k b!" role=\"figure\""
  | table {r d} : b!"table" <+: w → (b!"role=" <:+: w ∧ r = [] ∨ ¬ b!"role=" <:+: w ∧ r = b!" role=\"table\"") →
      ((b!"aria-describedby=" <:+: w ∨ ∀ id, ¬ Described ids pre (b!"<" ++ w ++ b!">" ++ post) id) ∧ d = [] ∨
        ¬ b!"aria-describedby=" <:+: w ∧ ∃ id, Described ids pre (b!"<" ++ w ++ b!">" ++ post) id ∧
          d = (b!" aria-describedby=\"" ++ id ++ b!"\"").take 255) →
      Attributes ids pre w post k k (r ++ d)
  | caption {a} : b!"figcaption" <+: w → FigureOf 200 pre (b!"<" ++ w ++ b!">" ++ post) a → ¬ b!"id=\"" <:+: w →
      Attributes ids pre w post k (k + 1) (b!" id=\"table-caption-" ++ number (k + 1) ++ b!"\"")
  | other : (b!"nav" <+: w → b!"aria-label=" <:+: w ∨ ¬ Toc w post) → (b!"figure" <+: w → b!"role=" <:+: w) → ¬ b!"table" <+: w →
      (b!"figcaption" <+: w → b!"id=\"" <:+: w ∨ ∀ a, ¬ FigureOf 200 pre (b!"<" ++ w ++ b!">" ++ post) a) →
      Attributes ids pre w post k k []

/-- Each tag gets its attributes, behind those it has; everything else stays. -/
inductive Labelled (ids : List (Bytes × Bytes)) : Bytes → Nat → Tags → Bytes → Prop
  | nil {pre k} : Labelled ids pre k [] []
  | tag {pre k k' x l as o} : Attributes ids pre x.1 (x.2 ++ html l) k k' as → Labelled ids (pre ++ html [x]) k' l o →
      Labelled ids pre k (x :: l) (b!"<" ++ x.1 ++ as ++ b!">" ++ x.2 ++ o)

end Verif.Aria.Spec
