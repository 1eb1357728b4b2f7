/- Texts with Liquid tags, and pages with their placeholders. -/
import Verif.Model.Liquid

namespace Verif.Liquid.Spec

/-- A text: Liquid tags, each with the text in front of it and what is between its marks, and the text behind them. -/
structure Doc where
  tags : List (Bytes × Bytes)
  rest : Bytes

/-- A tag begins at the first `{%` and ends at the first `%}` behind it; behind the last tag there is no other. -/
def Doc.Ok (d : Doc) : Prop :=
  (∀ t ∈ d.tags, ¬ b!"{%" <:+: t.1 ∧ ¬ b!"%}" <:+: t.2) ∧
  (¬ b!"{%" <:+: d.rest ∨ ∃ a b, d.rest = a ++ b!"{%" ++ b ∧ ¬ b!"{%" <:+: a ∧ ¬ b!"%}" <:+: b)

/-- A tag with its marks. -/
def tagText (inner : Bytes) : Bytes := b!"{%" ++ inner ++ b!"%}"

/-- The text. -/
def Doc.source (d : Doc) : Bytes := d.tags.flatMap (fun t => t.1 ++ tagText t.2) ++ d.rest

/-- The tags of the text, in order. -/
def Doc.tagTexts (d : Doc) : List Bytes := d.tags.map fun t => tagText t.2

/-- The text with placeholders for its tags, counted from `k`. -/
def marked (k : Nat) : List (Bytes × Bytes) → Bytes → Bytes
  | [], rest => rest
  | t :: ts, rest => t.1 ++ placeholder k ++ marked (k + 1) ts rest

/-- A page: placeholders, each with the text in front of it, and the text behind them. -/
structure Page where
  items : List (Bytes × Nat)
  rest : Bytes

/-- The page as bytes. -/
def Page.html (p : Page) : Bytes := p.items.flatMap (fun i => i.1 ++ placeholder i.2) ++ p.rest

/-- The page with the tags in their places. -/
def Page.filled (p : Page) (tags : List Bytes) : Bytes := p.items.flatMap (fun i => i.1 ++ tags.getD i.2 []) ++ p.rest

/-- No digit in front. -/
def NoDigit (s : Bytes) : Prop := ∀ c, s.head? = some c → isDigit c = false

/-- The texts hold no beginning of a placeholder, those behind a placeholder do not begin with a digit, and the
placeholders are those of tags. -/
def Page.Ok (p : Page) (tags : List Bytes) : Prop :=
  (∀ i ∈ p.items, ¬ mark <:+: i.1 ∧ i.2 < tags.length) ∧ ¬ mark <:+: p.rest ∧
  (∀ i ∈ p.items.tail, NoDigit i.1) ∧ (p.items ≠ [] → NoDigit p.rest)

end Verif.Liquid.Spec
