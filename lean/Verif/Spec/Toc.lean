/-
What a table of contents should be.
-/
import Verif.Model.Toc

namespace Verif.Toc.Spec

/-! ### The outline, as a browser reads it -/

/-- The tags that matter. -/
inductive Tag
  | ul | ulEnd | li | liEnd | a
deriving DecidableEq, Repr

/-- The tag that starts behind a `<`. -/
def tagAt (s : Bytes) : Option Tag :=
  if b!"ul>" <+: s then some .ul
  else if b!"/ul>" <+: s then some .ulEnd
  else if b!"li>" <+: s then some .li
  else if b!"/li>" <+: s then some .liEnd
  else if b!"a " <+: s then some .a
  else none

/-- The tags of a page. -/
def tags : Bytes → List Tag
  | [] => []
  | c :: s => if c = c!"<" then (tagAt s).toList ++ tags s else tags s

/-- Open elements, innermost first. -/
inductive Elem
  | ul | li
deriving DecidableEq, Repr

/-- The rules of HTML for lists: an end tag of a list closes the items in it, an item closes the item before it in the same
list, and an end tag of an item without such an item is ignored. -/
def step (st : List Elem) : Tag → List Elem
  | .ul => .ul :: st
  | .ulEnd => match st with
    | .ul :: st => st
    | .li :: .ul :: st => st
    | st => st
  | .li => match st with
    | .li :: st => .li :: st
    | st => .li :: st
  | .liEnd => match st with
    | .li :: st => st
    | st => st
  | .a => st

/-- For each link the number of lists it is in. -/
def depths (st : List Elem) : List Tag → List Nat
  | [] => []
  | t :: ts => (if t = .a then [st.count .ul] else []) ++ depths (step st t) ts

/-- The depths of the links of a page. -/
def outline (page : Bytes) : List Nat := depths [] (tags page)

/-- Strict nesting: every end tag ends the innermost element. -/
def strict : List Elem → List Tag → Bool
  | st, [] => st == []
  | st, .ul :: ts => strict (.ul :: st) ts
  | st, .li :: ts => strict (.li :: st) ts
  | st, .a :: ts => strict st ts
  | .ul :: st, .ulEnd :: ts => strict st ts
  | .li :: st, .liEnd :: ts => strict st ts
  | _, _ => false

/-! ### The entries -/

/-- The headings the table is about. -/
def shown (min max : Int) (es : List Entry) : List Entry := es.filter fun e => min ≤ e.level ∧ (e.level : Int) ≤ max

/-- A link to a heading. -/
def link (e : Entry) : Bytes := b!"<li><a href=\"#" ++ e.id ++ b!"\">" ++ e.text ++ b!"</a>"

/-- A table of contents: links and, between them, tags of lists and items. -/
inductive Table : List Entry → Bytes → Prop
  | nil : Table [] []
  | link {e es s} : Table es s → Table (e :: es) (link e ++ s)
  | tag {t es s} : t ∈ [b!"<ul>\n", b!"</ul>\n", b!"</li>\n"] → Table es s → Table es (t ++ s)

/-- A rough bound on the size of the table. -/
def size (es : List Entry) : Nat := (es.map fun e => e.id.length + e.text.length + 55).sum + 30

/-- Levels that start at one and never go down by more than one. -/
def Steps : Nat → List Entry → Prop
  | _, [] => True
  | l, e :: es => 1 ≤ e.level ∧ e.level ≤ l + 1 ∧ Steps e.level es

/-- Levels that never go up either. -/
def Descends : Nat → List Entry → Prop
  | _, [] => True
  | l, e :: es => 1 ≤ e.level ∧ l ≤ e.level ∧ e.level ≤ l + 1 ∧ Descends e.level es

/-- Text without tags. -/
def Plain (e : Entry) : Prop := c!"<" ∉ e.id ∧ c!"<" ∉ e.text

/-! ### The marker -/

/-- The two kinds of markers. -/
def marks : List Bytes := [b!"<!--TOC", b!"{{TOC"]

/-- How they start and end. -/
def kinds : List (Bytes × Bytes) := [(b!"<!--TOC", b!"-->"), (b!"{{TOC", b!"}}")]

/-- `r` is what follows the first marker that starts at the end of `a`, and `y` is between its start `m` and its end. -/
def MarkerAt (html a m y r : Bytes) : Prop :=
  ∃ z, (m, z) ∈ kinds ∧ html = a ++ m ++ y ++ z ++ r ∧ ∀ p q, y ++ z ++ r = p ++ z ++ q → y.length ≤ p.length

/-- An opening tag of a `code` or `pre` element. -/
def OpenTag (t : Bytes) : Prop :=
  ∃ n c r, t = c!"<" :: n ++ c :: r ∧ n.map toLower ∈ [b!"code", b!"pre"] ∧ (c = c!">" ∨ c = 32 ∨ c = 9 ∨ c = 10)

/-- Text that ends in an element `code` or `pre`: behind its opening tag there is no end tag. -/
def InCode (before : Bytes) : Prop := ∃ a t, before = a ++ t ∧ OpenTag t ∧ ¬ b!"</" <:+: t

/-- Text without code. -/
def NoCode (before : Bytes) : Prop := ∀ a t, before = a ++ t → ¬ OpenTag t

end Verif.Toc.Spec
