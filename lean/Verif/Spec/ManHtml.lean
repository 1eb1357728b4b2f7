/- What is expected of manual pages as HTML: a small grammar of HTML, and what a tree of nodes says. -/
import Verif.Basic
import Verif.Model.Man

namespace Verif.ManHtml.Spec
open Man (Node Kind)

/-- The references used for characters which HTML gives a meaning. -/
def entities : List (Bytes × Byte) := [(b!"&amp;", c!"&"), (b!"&lt;", c!"<"), (b!"&gt;", c!">"), (b!"&quot;", c!"\""), (b!"&#39;", c!"'")]

/-- A value between double quotes, and what it means. -/
inductive Value : Bytes → Bytes → Prop
  | nil : Value [] []
  | char (c : Byte) {s v : Bytes} : c ≠ c!"\"" → c ≠ c!"&" → Value s v → Value (c :: s) (c :: v)
  | entity (e : Bytes) (c : Byte) {s v : Bytes} : (e, c) ∈ entities → Value s v → Value (e ++ s) (c :: v)

/-- Names of elements and attributes. -/
def Word (w : Bytes) : Prop := w ≠ [] ∧ ∀ c ∈ w, isAlnum c = true

/-- The attributes of a tag, with their values. -/
inductive Attrs : Bytes → List (Bytes × Bytes) → Prop
  | nil : Attrs [] []
  | cons (w : Bytes) {raw v s : Bytes} {as : List (Bytes × Bytes)} : Word w → Value raw v → Attrs s as → Attrs (b!" " ++ w ++ b!"=\"" ++ raw ++ b!"\"" ++ s) ((w, v) :: as)

/-- Elements without an end tag. -/
def void : List Bytes := [b!"br", b!"hr", b!"meta", b!"link"]

/-- Well-formed HTML: each start tag has its end tag and they nest; no bare `<` or `&`.  Second the text which is shown, third the attributes of all the elements in order. -/
inductive Html : Bytes → Bytes → List (Bytes × Bytes) → Prop
  | nil : Html [] [] []
  | char (c : Byte) {s t : Bytes} {as : List (Bytes × Bytes)} : c ≠ c!"<" → c ≠ c!"&" → Html s t as → Html (c :: s) (c :: t) as
  | entity (e : Bytes) (c : Byte) {s t : Bytes} {as : List (Bytes × Bytes)} : (e, c) ∈ entities → Html s t as → Html (e ++ s) (c :: t) as
  | empty (w : Bytes) {x s t : Bytes} {as bs : List (Bytes × Bytes)} : w ∈ void → Attrs x as → Html s t bs → Html (b!"<" ++ w ++ x ++ b!">" ++ s) t (as ++ bs)
  | elem (w : Bytes) {x i s t u : Bytes} {as bs cs : List (Bytes × Bytes)} : Word w → w ∉ void → Attrs x as → Html i t bs → Html s u cs →
      Html (b!"<" ++ w ++ x ++ b!">" ++ i ++ b!"</" ++ w ++ b!">" ++ s) (t ++ u) (as ++ bs ++ cs)

/-- The values of the attributes of this name. -/
def valuesOf (w : Bytes) (as : List (Bytes × Bytes)) : List Bytes := (as.filter fun a => a.1 = w).map fun a => a.2

/-- A text without its white space. -/
def ink (s : Bytes) : Bytes := s.filter fun c => !isSpace c

mutual
/-- All that is written in a tree: texts and code, in order. -/
def prose : Node → Bytes
  | .mk k kids =>
    match k with
    | .text s => s
    | .code s => s
    | .codeBlock s => s
    | _ => proses kids
/-- And in several. -/
def proses : List Node → Bytes
  | [] => []
  | n :: ns => prose n ++ proses ns
end

mutual
/-- The targets of all the links of a tree, in order. -/
def targets : Node → List Bytes
  | .mk k kids =>
    match k with
    | .link url => (if url = [] then [] else [url]) ++ targetss kids
    | _ => targetss kids
/-- And of several. -/
def targetss : List Node → List Bytes
  | [] => []
  | n :: ns => targets n ++ targetss ns
end

/-- Kinds of a run of text. -/
def inlineKind : Kind → Bool
  | .text _ | .code _ | .lineBreak | .softBreak | .htmlInline => true
  | .strong | .emph | .link _ | .other => true
  | _ => false

/-- Kinds without children. -/
def leafKind : Kind → Bool
  | .text _ | .code _ | .lineBreak | .softBreak | .htmlInline | .codeBlock _ | .thematicBreak | .htmlBlock _ => true
  | _ => false

mutual
/-- A tree of runs of text. -/
def inlineTree : Node → Bool
  | .mk k kids => inlineKind k && (!leafKind k || kids.isEmpty) && inlineTrees kids
/-- And several. -/
def inlineTrees : List Node → Bool
  | [] => true
  | n :: ns => inlineTree n && inlineTrees ns
end

mutual
/-- A tree of headings, paragraphs, lists, items, quotes, code and rules; tables, lists of definitions and blocks of HTML are left out. -/
def plainTree : Node → Bool
  | .mk k kids =>
    match k with
    | .heading _ => inlineTrees kids
    | .paragraph => inlineTrees kids
    | .document => plainTrees kids
    | .list _ => plainTrees kids
    | .item _ => plainTrees kids
    | .blockQuote => plainTrees kids
    | .codeBlock _ => kids.isEmpty
    | .thematicBreak => kids.isEmpty
    | _ => false
/-- And several. -/
def plainTrees : List Node → Bool
  | [] => true
  | n :: ns => plainTree n && plainTrees ns
end

mutual
/-- No block of HTML in a tree. -/
def noHtml : Node → Bool
  | .mk k kids =>
    match k with
    | .htmlBlock _ => false
    | _ => noHtmls kids
/-- And in several. -/
def noHtmls : List Node → Bool
  | [] => true
  | n :: ns => noHtml n && noHtmls ns
end

/-- The sections of a page: the headings of level 1, by their children. -/
def sectionsOf (doc : List Node) : List (List Node) :=
  doc.filterMap fun n => match n with | .mk (.heading 1) kids => some kids | _ => none

/-- White space of a line. -/
def gap (c : Byte) : Prop := c = c!" " ∨ c = c!"\t" ∨ c = c!"\n" ∨ c = c!"\r"

instance (c : Byte) : Decidable (gap c) := inferInstanceAs (Decidable (_ ∨ _))

/-- A text is made of these words, with white space between them and perhaps around them. -/
inductive Spaced : List Bytes → Bytes → Prop
  | nil {g : Bytes} : (∀ c ∈ g, gap c) → Spaced [] g
  | cons {g w s : Bytes} {ws : List Bytes} : (∀ c ∈ g, gap c) → w ≠ [] → (∀ c ∈ w, ¬gap c) → (s = [] ∨ ∃ c r, s = c :: r ∧ gap c) → Spaced ws s → Spaced (w :: ws) (g ++ w ++ s)

/-- Words with one space between them. -/
def join (ws : List Bytes) : Bytes := (ws.intersperse b!" ").flatten

/-- The anchor of a text: its letters, digits and hyphens, with a hyphen for each space or tab. -/
def anchor (s : Bytes) : Bytes :=
  s.filterMap fun c => if c = c!" " ∨ c = c!"\t" then some c!"-" else if isAlnum c = true ∨ c = c!"-" then some c else none

/-- The text a heading starts with. -/
def firstText : List Node → Bytes
  | .mk (.text s) _ :: _ => s
  | _ => []

end Verif.ManHtml.Spec
