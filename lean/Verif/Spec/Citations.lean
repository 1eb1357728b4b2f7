/-
Citations: independently of the model, of which only the types of citations and entries are used.
-/
import Verif.Model.Citations

namespace Verif.Citations.Spec

/-- White space of ASCII. -/
def White (c : Byte) : Prop := c ∈ [9, 10, 11, 12, 13, 32]

/-- A character of a key. -/
def KeyByte (c : Byte) : Prop := isAlnum c = true ∨ c ∈ b!"_:.#$%&-+?<>~/"

/-- A text that does not go on with such a character. -/
def Ends (p : Byte → Prop) (s : Bytes) : Prop := ∀ c t, s = c :: t → ¬ p c

/-- A key, and what is behind it: a letter, a digit or `_`, and all characters of keys behind it; or a key in braces. -/
inductive Key : Bytes → Bytes → Bytes → Prop
  | plain {c k r} : (isAlnum c = true ∨ c = c!"_") → (∀ x ∈ k, KeyByte x) → Ends KeyByte r → Key ([c] ++ k ++ r) ([c] ++ k) r
  | braced {k r} : k ≠ [] → (∀ x ∈ k, KeyByte x) → Key (b!"{" ++ k ++ b!"}" ++ r) k r

/-- The name of a standard. -/
def Standard (k : Bytes) : Prop :=
  (∀ x ∈ k, isAlnum x = true ∨ x ∈ b!".-#") ∧
    ((∃ p ∈ [b!"RFC", b!"BCP", b!"STD"], ∃ d t, k = p ++ d :: t ∧ isDigit d = true) ∨ (∃ p ∈ [b!"I-D.", b!"W3C."], p <+: k))

/-- `[@RFC2535]`, `[@!RFC2535]`, `[@?RFC2535]` and `[@-RFC2535]`, also with a semicolon in front of the bracket. -/
def Mmark (s : Bytes) (x : Citation) (r : Bytes) : Prop :=
  ∃ m k e, m ∈ [[], b!"!", b!"?", b!"-"] ∧ Standard k ∧ e ∈ [[], b!";"] ∧ s = b!"[@" ++ m ++ k ++ e ++ b!"]" ++ r ∧
    x = { key := k, suppressed := m == b!"-" }

/-- The locator is in brackets, at the end of the text before. -/
def Before (pre : Bytes) (l : Option Bytes) : Prop :=
  (∃ a x, pre = a ++ b!"[" ++ x ++ b!"]" ∧ c!"[" ∉ x ∧ x ≠ [] ∧ l = some x) ∨
    (∀ a x, pre = a ++ b!"[" ++ x ++ b!"]" → c!"[" ∉ x → x = []) ∧ l = none

/-- `[#key]` and `[locator][#key]`. -/
def Mmd (pre s : Bytes) (x : Citation) (r : Bytes) : Prop :=
  ∃ t k l, s = b!"[#" ++ t ∧ Key t k (b!"]" ++ r) ∧ Before pre l ∧ x = { key := k, locator := l }

/-- `@key` and `@key [locator]`; white space behind the key belongs to it. -/
def InText (s : Bytes) (x : Citation) (r : Bytes) : Prop :=
  ∃ t k w, s = b!"@" ++ t ∧ (∀ c ∈ w, White c) ∧
    ((∃ l, Key t k (w ++ b!"[" ++ l ++ b!"]" ++ r) ∧ c!"]" ∉ l ∧ x = { key := k, locator := some l, inText := true }) ∨
      Key t k (w ++ r) ∧ Ends White r ∧ (∀ l z, r = b!"[" ++ l ++ b!"]" ++ z → False) ∧ x = { key := k, inText := true })

/-- A locator begins with a digit, or has such a word. -/
def Locates (y : Bytes) : Prop :=
  (∃ d t, y = d :: t ∧ isDigit d = true) ∨ ∃ w ∈ [b!"p.", b!"pp.", b!"chap.", b!"chapter", b!"sec.", b!"section"], w <:+: y

/-- The locator or the suffix: what is behind the first comma, without the white space before it. -/
def Details (y : Bytes) (l f : Option Bytes) : Prop :=
  c!"," ∉ y ∧ l = none ∧ f = none ∨
  ∃ a w z, y = a ++ b!"," ++ w ++ z ∧ c!"," ∉ a ∧ (∀ c ∈ w, White c) ∧ Ends White z ∧
    (z = [] ∧ l = none ∧ f = none ∨ z ≠ [] ∧ Locates z ∧ l = some z ∧ f = none ∨ z ≠ [] ∧ ¬ Locates z ∧ l = none ∧ f = some z)

/-- `[@key, details]` and `[-@key, details]`; the text is read up to `]`, `;`, or its end. -/
def Bracketed (s : Bytes) (x : Citation) (r : Bytes) : Prop :=
  ∃ m t k y z l f, m ∈ [[], b!"-"] ∧ s = b!"[" ++ m ++ b!"@" ++ t ∧ Key t k (y ++ z) ∧ (∀ c ∈ y, c ≠ c!"]" ∧ c ≠ c!";") ∧
    (z = b!"]" ++ r ∨ z = r ∧ (r = [] ∨ ∃ q, r = b!";" ++ q)) ∧ Details y l f ∧
    x = { key := k, «prefix» := if m = [] then none else some m, locator := l, suffix := f, suppressed := m != [] }

/-- At the front of `s`, behind the text `pre`, there is the citation `x`, and `r` is behind it; `u` is Unified mode. -/
def Cite (u : Bool) (pre s : Bytes) (x : Citation) (r : Bytes) : Prop :=
  Mmd pre s x r ∨ u = true ∧ (Mmark s x r ∨ (∀ x' r', ¬ Mmark s x' r') ∧ (InText s x r ∨ Bracketed s x r))

/-- The comment that takes the place of a citation. -/
def comment (k : Bytes) : Bytes := b!"<!--CITE:" ++ k ++ b!"-->"

/-- Code: three backticks begin and end a block, and another backtick outside of blocks begins or ends code in a line. -/
inductive Tick : Bool → Bool → Bytes → Bool → Bool → Prop
  | three {b i s} : Tick b i (b!"```" ++ s) (!b) i
  | one {i s} : ¬ b!"```" <+: b!"`" ++ s → Tick false i (b!"`" ++ s) false (!i)
  | block {i s} : ¬ b!"```" <+: b!"`" ++ s → Tick true i (b!"`" ++ s) true i
  | other {b i c s} : c ≠ c!"`" → Tick b i (c :: s) b i

/-- The citations of a text behind `pre`, from the left, each replaced by a comment; all other bytes, and those of code, stay. -/
inductive Cited (u : Bool) : Bool → Bool → Bytes → Bytes → List Citation → Bytes → Prop
  | nil {b i pre} : Cited u b i pre [] [] []
  | code {b i b' i' pre c s xs out} : Tick b i (c :: s) b' i' → (b' = true ∨ i' = true) → Cited u b' i' (pre ++ [c]) s xs out →
      Cited u b i pre (c :: s) xs (c :: out)
  | cite {b i pre src r x xs out} : Tick b i (src ++ r) false false → Cite u pre (src ++ r) x r → Cited u false false (pre ++ src) r xs out →
      Cited u b i pre (src ++ r) (x :: xs) (comment x.key ++ out)
  | copy {b i pre c s xs out} : Tick b i (c :: s) false false → (∀ x r, ¬ Cite u pre (c :: s) x r) → Cited u false false (pre ++ [c]) s xs out →
      Cited u b i pre (c :: s) xs (c :: out)

/-- A text with `[@` or `[#`, or with `@` at its front or behind white space or `(`, but not at its end. -/
def Detected (s : Bytes) : Prop :=
  b!"[@" <:+: s ∨ b!"[#" <:+: s ∨ ∃ a z, s = a ++ b!"@" ++ z ∧ z ≠ [] ∧ (a = [] ∨ ∃ y c, a = y ++ [c] ∧ (White c ∨ c = c!"("))

/-- The text of a citation, with the entry of its key. -/
inductive Text : Option Entry → Citation → Bytes → Prop
  | inText {e x a y} : x.inText = true → e.author = some a → e.year = some y → Text (some e) x (a ++ b!" (" ++ y ++ b!")")
  | author {e x a} : x.inText = true → e.author = some a → e.year = none → Text (some e) x a
  | key {e x} : x.inText = true → (∀ e', e = some e' → e'.author = none) → Text e x x.key
  | both {e x a y} : x.inText = false → x.suppressed = false → e.author = some a → e.year = some y → Text (some e) x (b!"(" ++ a ++ b!" " ++ y ++ b!")")
  | year {e x y} : x.inText = false → (x.suppressed = true ∨ e.author = none) → e.year = some y → Text (some e) x (b!"(" ++ y ++ b!")")
  | brackets {e x} : x.inText = false → (∀ e', e = some e' → e'.year = none) → Text e x (b!"(" ++ x.key ++ b!")")

/-- A citation as HTML: a link to its entry, or a part of the text. -/
def html (link : Bool) (k t : Bytes) : Bytes :=
  if link then b!"<a href=\"#ref-" ++ k ++ b!"\" class=\"citation\" data-cites=\"" ++ k ++ b!"\">" ++ t ++ b!"</a>"
  else b!"<span class=\"citation\" data-cites=\"" ++ k ++ b!"\">" ++ t ++ b!"</span>"

/-- What takes the place of the comment with the key `k`: nothing if the key is not cited; `cs` are the citations, the last one of
the text first, and `bib` are the entries. -/
def Shows (link : Bool) (bib : List Entry) (cs : List Citation) (k h : Bytes) : Prop :=
  (∀ x ∈ cs, x.key ≠ k) ∧ h = [] ∨
  ∃ a x b t, cs = a ++ x :: b ∧ x.key = k ∧ (∀ y ∈ a, y.key ≠ k) ∧ Text (bib.find? fun e => e.id == k) x t ∧ h = html link k t

/-- A page where `f` takes the place of the comments; all other bytes stay. -/
inductive Shown (f : Bytes → Bytes) : Bytes → Bytes → Prop
  | nil : Shown f [] []
  | comment {k r out} : ¬ b!"-->" <:+: k → Shown f r out → Shown f (comment k ++ r) (f k ++ out)
  | copy {c s out} : (∀ k r, c :: s ≠ Spec.comment k ++ r) → Shown f s out → Shown f (c :: s) (c :: out)

end Verif.Citations.Spec
