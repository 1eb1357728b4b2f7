/-
Files in BibTeX, and bibliographies: independently of the model, of which only the types of citations and entries are used.
-/
import Verif.Spec.Citations

namespace Verif.Bibliography.Spec
open Citations (Entry Citation)
open Citations.Spec (White)

/-- Text with braces in pairs. -/
inductive Braces : Bytes → Prop
  | nil : Braces []
  | char {c s} : c ≠ c!"{" → c ≠ c!"}" → Braces s → Braces (c :: s)
  | group {a s} : Braces a → Braces s → Braces (b!"{" ++ a ++ b!"}" ++ s)

/-- A text that is not empty, and neither begins nor ends with white space. -/
def Solid (s : Bytes) : Prop := (∃ c t, s = c :: t ∧ ¬ White c) ∧ ∃ t c, s = t ++ [c] ∧ ¬ White c

/-- All of it is white space. -/
def Blank (w : Bytes) : Prop := ∀ c ∈ w, White c

/-- The text `s`, as it is written behind `=`, says `v`: in braces, of which the inner ones do not count, or bare. -/
def Says (s v : Bytes) : Prop :=
  (∃ raw w, s = b!"{" ++ raw ++ b!"}" ∧ Braces raw ∧ raw.filter (fun c => c != c!"{" && c != c!"}") = v ++ w ∧ Blank w ∧ (v = [] ∧ w = [] ∨ Solid v)) ∨
  ∃ w, s = v ++ w ∧ Blank w ∧ Solid v ∧ v.head? ≠ some c!"{" ∧ ∀ c ∈ v, c ≠ c!"," ∧ c ≠ c!"}"

/-- A field `name = value`. -/
def Field (s name v : Bytes) : Prop :=
  ∃ w1 w2 b, s = name ++ w1 ++ b!"=" ++ w2 ++ b ∧ Blank w1 ∧ Blank w2 ∧ Solid name ∧ c!"=" ∉ name ∧ name.head? ≠ some c!"," ∧ name.head? ≠ some c!"}" ∧
    Says b v

/-- Fields, each with a comma before it; there may be a comma behind the last one. -/
inductive Fields : Bytes → List (Bytes × Bytes) → Prop
  | nil : Fields [] []
  | comma {w} : Blank w → Fields (b!"," ++ w) []
  | cons {w f w' s n v l} : Blank w → Field f n v → Blank w' → Fields s l → Fields (b!"," ++ w ++ f ++ w' ++ s) ((n, v) :: l)

/-- An entry `@type{id, fields}`. -/
def Item (s id : Bytes) (l : List (Bytes × Bytes)) : Prop :=
  ∃ type w w' f, s = b!"@" ++ type ++ b!"{" ++ w ++ id ++ w' ++ f ++ b!"}" ∧ type ≠ [] ∧ (∀ c ∈ type, c ≠ c!"{" ∧ ¬ White c) ∧ Blank w ∧ Blank w' ∧
    Solid id ∧ (∀ c ∈ id, c ≠ c!"," ∧ c ≠ c!"}") ∧ Fields f l ∧ c!"@" ∉ type ++ id ++ f

/-- A file with these entries, and other text without `@`. -/
inductive File : Bytes → List (Bytes × List (Bytes × Bytes)) → Prop
  | nil {s} : c!"@" ∉ s → File s []
  | cons {t s r id l es} : c!"@" ∉ t → Item s id l → File r es → File (t ++ s ++ r) ((id, l) :: es)

/-- The value of a field; of several ones, the last. -/
def value (n : Bytes) (l : List (Bytes × Bytes)) : Option Bytes := (l.reverse.find? fun f => f.1.map toLower == n).map (·.2)

/-- The entry of an item. -/
def entry (id : Bytes) (l : List (Bytes × Bytes)) : Entry :=
  { id := id, title := value b!"title" l, author := value b!"author" l, year := value b!"year" l, container := value b!"journal" l,
    publisher := value b!"publisher" l, volume := value b!"volume" l, page := value b!"pages" l }

/-- The parts of an entry, each with what is before it if it is not the first one. -/
def parts (e : Entry) : List (Bytes × Bytes) :=
  let part (sp pre post : Bytes) (v : Option Bytes) : List (Bytes × Bytes) := if v.getD [] = [] then [] else [(sp, pre ++ v.getD [] ++ post)]
  part [] [] [] e.author ++ part b!" " [] [] e.year ++ part b!". " b!"<em>" b!"</em>" e.title ++ part b!". " b!"<em>" b!"</em>" e.container ++
    part b!" " [] [] e.volume ++ part b!": " [] [] e.page ++ part b!". " [] [] e.publisher

/-- The parts one after the other. -/
def content : List (Bytes × Bytes) → Bytes
  | [] => []
  | p :: l => p.2 ++ l.flatMap fun p => p.1 ++ p.2

/-- An entry of the bibliography. -/
def entryHtml (e : Entry) : Bytes := b!"<div id=\"ref-" ++ e.id ++ b!"\" class=\"csl-entry\">" ++ content (parts e) ++ b!"</div>\n"

/-- The entries of the citations, each once, in the order of the first citation of each; `bib` are all entries. -/
def Listed (bib : List Entry) (cs : List Citation) (es : List Entry) : Prop :=
  (es.map (·.id)).Nodup ∧ (∀ e, e ∈ es ↔ ∃ x ∈ cs, bib.find? (fun e => e.id == x.key) = some e) ∧
  ∀ a e b, es = a ++ e :: b → ∃ u x v, cs = u ++ x :: v ∧ x.key = e.id ∧ ∀ y ∈ u, bib.find? (fun e => e.id == y.key) = none ∨ ∃ d ∈ a, d.id = y.key

/-- The bibliography. -/
def refsHtml (es : List Entry) : Bytes := b!"<div id=\"refs\" class=\"references csl-bib-body\">\n" ++ es.flatMap entryHtml ++ b!"</div>\n"

/-- `w` is in the page for the first time behind `x` and before `y`. -/
def First (w page x y : Bytes) : Prop := page = x ++ w ++ y ∧ ∀ a b, page = a ++ w ++ b → x.length ≤ a.length

/-- The bibliography goes to the first `<!-- REFERENCES -->`, else to the first `{backmatter}`, else to the end of the first
`<div id="refs">`, else to the end of the page. -/
def Placed (page refs out : Bytes) : Prop :=
  (∃ x y, First b!"<!-- REFERENCES -->" page x y ∧ out = x ++ refs ++ y) ∨
  ¬ b!"<!-- REFERENCES -->" <:+: page ∧ ((∃ x y, First b!"{backmatter}" page x y ∧ out = x ++ refs ++ y) ∨
  ¬ b!"{backmatter}" <:+: page ∧ ((∃ x y u v, First b!"<div id=\"refs\">" page x y ∧ First b!"</div>" y u v ∧
      out = x ++ b!"<div id=\"refs\">" ++ u ++ refs ++ b!"</div>" ++ v) ∨
  (∀ x y, First b!"<div id=\"refs\">" page x y → ¬ b!"</div>" <:+: y) ∧ out = page ++ refs))

end Verif.Bibliography.Spec
