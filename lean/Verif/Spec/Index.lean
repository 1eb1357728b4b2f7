/-
Entries of the index and the index: independently of the model.
-/
import Verif.Basic

namespace Verif.Index.Spec

/-- A character that an item may have. -/
def IndexChar (c : Byte) : Prop := isAlnum c = true ∨ c ∈ b!" -_/.,:;'\""

/-- The text without the blanks at its end; a blank text stays. -/
def Trimmed (raw v : Bytes) : Prop :=
  ∃ z, raw = v ++ z ∧ (∀ c ∈ z, isSpace c = true) ∧
    ((∃ x c, v = x ++ [c] ∧ isSpace c = false) ∨ z = [] ∧ ∀ c ∈ raw, isSpace c = true)

/-- What an entry says: the item, the item below it, and whether it is a primary one. -/
structure Term where
  item : Bytes
  sub : Option Bytes
  primary : Bool

/-- `(!item)`, `(!item, item below)` and, for a primary entry, `(!!item)`. -/
def Mmark (src : Bytes) (t : Term) : Prop :=
  ∃ raw bang, raw ≠ [] ∧ (∀ c ∈ raw, (IndexChar c ∨ c = c!"!") ∧ c ≠ c!",") ∧
    (bang = b!"!" ∧ t.primary = true ∨ bang = [] ∧ t.primary = false ∧ raw.head? ≠ some c!"!") ∧ Trimmed raw t.item ∧
    (src = b!"(!" ++ bang ++ raw ++ b!")" ∧ t.sub = none ∨
      ∃ ws rs, (∀ c ∈ ws, isSpace c = true) ∧ (∀ c ∈ rs, IndexChar c) ∧ (∀ c, rs.head? = some c → isSpace c = false) ∧
        src = b!"(!" ++ bang ++ raw ++ b!"," ++ ws ++ rs ++ b!")" ∧
        (rs = [] ∧ t.sub = none ∨ rs ≠ [] ∧ ∃ v, Trimmed rs v ∧ t.sub = some v))

/-- A term in brackets at the end of the text. -/
def Bracket (pre raw : Bytes) : Prop :=
  raw ≠ [] ∧ raw.length < 200 ∧ c!"[" ∉ raw ∧ ∃ a, pre = a ++ b!"[" ++ raw ++ b!"]"

/-- A character of a phrase. -/
def PhraseChar (c : Byte) : Prop := isAlnum c = true ∨ c ∈ b!" -_"

/-- The words at the end of the text, up to 50 characters. -/
def Phrase (pre raw : Bytes) : Prop :=
  ∃ a ws, pre = a ++ raw ++ ws ∧ raw ≠ [] ∧ (∀ c ∈ ws, isSpace c = true) ∧ (∀ c, raw.getLast? = some c → isSpace c = false) ∧
    (∀ c ∈ raw, PhraseChar c) ∧ raw.length ≤ 50 ∧ (raw.length = 50 ∨ ∀ c, a.getLast? = some c → ¬ PhraseChar c)

/-- The item below, in the parameters: behind the first blank or comma. -/
def Params (p : Bytes) (sub : Option Bytes) : Prop :=
  (∀ c ∈ p, c ≠ 32 ∧ c ≠ c!",") ∧ sub = none ∨
  ∃ a c r, p = a ++ [c] ++ r ∧ (∀ c ∈ a, c ≠ 32 ∧ c ≠ c!",") ∧ (c = 32 ∨ c = c!",") ∧
    ((∀ c ∈ r, isSpace c = true) ∧ sub = none ∨
      ∃ ws x v, r = ws ++ x ∧ (∀ c ∈ ws, isSpace c = true) ∧ (∃ d y, x = d :: y ∧ isSpace d = false) ∧ Trimmed x v ∧ sub = some v)

/-- `{^}` and `{^parameters}` behind a term in brackets or a phrase. -/
def Textindex (pre src : Bytes) (t : Term) : Prop :=
  ∃ p, src = b!"{^" ++ p ++ b!"}" ∧ (∀ c ∈ p, c ≠ c!"}" ∧ c ≠ 10) ∧ Params p t.sub ∧ t.primary = false ∧
    ((∃ raw, Bracket pre raw ∧ Trimmed raw t.item) ∨ (∀ raw, ¬ Bracket pre raw) ∧ ∃ raw, Phrase pre raw ∧ Trimmed raw t.item)

/-- Text with no quotation mark but behind a backslash. -/
inductive Escaped : Bytes → Prop
  | nil : Escaped []
  | plain {c s} : c ≠ c!"\"" → c ≠ c!"\\" → Escaped s → Escaped (c :: s)
  | escape {c s} : Escaped s → Escaped (c!"\\" :: c :: s)

/-- The text without stars. -/
def noStars (s : Bytes) : Bytes := s.filter (· != c!"*")

/-- `{i: item}`, `{i: "item"}` and `{i: "item!item below"}`. -/
def Leanpub (src : Bytes) (t : Term) : Prop :=
  ∃ ws, (∀ c ∈ ws, c = 32 ∨ c = 9) ∧ t.primary = false ∧
    ((∃ raw, src = b!"{i:" ++ ws ++ raw ++ b!"}" ∧ (∃ d y, raw = d :: y ∧ d ≠ c!"\"" ∧ d ≠ 32) ∧ (∀ c ∈ raw, IndexChar c) ∧
      Trimmed raw t.item ∧ t.sub = none) ∨
    ∃ q ws', src = b!"{i:" ++ ws ++ b!"\"" ++ q ++ b!"\"" ++ ws' ++ b!"}" ∧ Escaped q ∧ (∀ c ∈ ws', c = 32 ∨ c = 9) ∧
      (c!"!" ∉ q ∧ Trimmed (noStars q) t.item ∧ t.sub = none ∨
        ∃ a b x y, q = a ++ b!"!" ++ b ∧ c!"!" ∉ a ∧ Trimmed a x ∧ Trimmed b y ∧ t.item = noStars x ∧ t.sub = some (noStars y)))

/-- The syntaxes that are switched on. -/
structure On where
  mmark : Bool
  textindex : Bool
  leanpub : Bool

/-- `src` is an entry, behind the text `pre`. -/
def Form (o : On) (pre src : Bytes) (t : Term) : Prop :=
  o.mmark = true ∧ Mmark src t ∨ o.textindex = true ∧ Textindex pre src t ∨ o.leanpub = true ∧ Leanpub src t

/-- A number in decimal notation. -/
def number (n : Nat) : Bytes := (Nat.toDigits 10 n).map fun c => c.toUInt8

/-- The comment that takes the place of an entry. -/
def comment (k : Nat) : Bytes := b!"<!--IDX:idxref-" ++ number k ++ b!"-->"

/-- The entries of a text behind `pre`, from the left, each replaced by a comment with its number; all other bytes stay. -/
inductive Marked (o : On) : Nat → Bytes → Bytes → List Term → Bytes → Prop
  | nil {k pre} : Marked o k pre [] [] []
  | entry {k pre src s t ts out} : Form o pre src t → Marked o (k + 1) (pre ++ src) s ts out →
      Marked o k pre (src ++ s) (t :: ts) (comment k ++ out)
  | copy {k pre c s ts out} : (∀ src r t, c :: s = src ++ r → ¬ Form o pre src t) → Marked o k (pre ++ [c]) s ts out →
      Marked o k pre (c :: s) ts (c :: out)

/-- A term, and the number of its comment. -/
abbrev Listed := Term × Nat

/-- Items in the order of the alphabet, capital letters like small ones; an item alone is before those with an item below. -/
def InOrder (a b : Listed) : Prop :=
  a.1.item.map toLower < b.1.item.map toLower ∨ a.1.item.map toLower = b.1.item.map toLower ∧
    (match a.1.sub, b.1.sub with
      | none, _ => True
      | some _, none => False
      | some x, some y => x.map toLower ≤ y.map toLower)

/-- The link back to the text. -/
def link (k : Nat) : Bytes := b!" <a class=\"index-return\" href=\"#idxref-" ++ number k ++ b!"\"><sup>[go]</sup></a>"

/-- An entry of the index. -/
def entryHtml (e : Listed) : Bytes :=
  b!"<li>\n" ++ e.1.item ++ (if e.1.primary then b!" <strong>" ++ link e.2 ++ b!"</strong>" else link e.2) ++
    (match e.1.sub with
      | some s => b!"<ul>\n<li>\n" ++ s ++ link e.2 ++ b!"</li>\n</ul>\n"
      | none => []) ++ b!"</li>\n"

/-- The letter of an item: its first letter or digit, as a capital letter. -/
def Letter (item : Bytes) (l : Byte) : Prop :=
  (∀ c ∈ item, isAlnum c = false) ∧ l = c!"?" ∨
    ∃ a c b, item = a ++ c :: b ∧ (∀ c ∈ a, isAlnum c = false) ∧ isAlnum c = true ∧ l = toUpper c

/-- A group of the index. -/
def groupHtml (g : Byte × List Listed) : Bytes :=
  b!"<dl>\n<dt>" ++ [g.1] ++ b!"</dt>\n<dd>\n<ul>\n" ++ g.2.flatMap entryHtml ++ b!"</ul>\n</dd>\n</dl>\n"

/-- The groups of the entries: neighbours with the same letter belong together. -/
def Groups (es : List Listed) (gs : List (Byte × List Listed)) : Prop :=
  gs.flatMap (·.2) = es ∧ (∀ g ∈ gs, g.2 ≠ [] ∧ ∀ e ∈ g.2, Letter e.1.item g.1) ∧
    ∀ a g h b, gs = a ++ g :: h :: b → g.1 ≠ h.1

/-- The index. -/
def indexHtml (body : Bytes) : Bytes :=
  b!"<h1 id=\"index-section\">Index</h1>\n<div class=\"index\">\n" ++ body ++ b!"</div>\n"

/-- A page: a text, and numbered comments, each with the text behind it. -/
def page (t : Bytes) (l : List (Bytes × Bytes)) : Bytes := t ++ l.flatMap fun x => b!"<!--IDX:" ++ x.1 ++ b!"-->" ++ x.2

/-- The page with places to link to. -/
def linked (t : Bytes) (l : List (Bytes × Bytes)) : Bytes :=
  t ++ l.flatMap fun x => b!"<span class=\"index\" id=\"" ++ x.1 ++ b!"\"></span>" ++ x.2

/-- The index goes to the first `<!--INDEX-->`, before the first `</body>`, or to the end. -/
def Placed (html index out : Bytes) : Prop :=
  (∃ x y, html = x ++ b!"<!--INDEX-->" ++ y ∧ ¬ b!"<!--INDEX-->" <:+: x ∧ out = x ++ index ++ y) ∨
  ¬ b!"<!--INDEX-->" <:+: html ∧
    ((∃ x y, html = x ++ b!"</body>" ++ y ∧ ¬ b!"</body>" <:+: x ∧ out = x ++ index ++ b!"</body>" ++ y) ∨
      ¬ b!"</body>" <:+: html ∧ out = html ++ index)

end Verif.Index.Spec
