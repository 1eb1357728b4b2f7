/-
What keeping the last words of headings together means.
-/
import Verif.Basic
import Verif.Spec.Text

namespace Verif.Widont
open Text.Spec (joined)

/-- Some blanks and tabs have become `&nbsp;`, nothing else has changed. -/
inductive Joins : Bytes → Bytes → Prop
  | nil : Joins [] []
  | same (c : Byte) {s t : Bytes} : Joins s t → Joins (c :: s) (c :: t)
  | nbsp {c : Byte} {s t : Bytes} : c = c!" " ∨ c = c!"\t" → Joins s t → Joins (c :: s) (b!"&nbsp;" ++ t)

/-- Words that stay on one line. -/
def glued : List Bytes → Bytes
  | [] => []
  | [x] => x
  | x :: y :: r => x ++ b!"&nbsp;" ++ glued (y :: r)

/-- The words of a heading without markup. -/
def Words (ws : List Bytes) : Prop := ∀ w ∈ ws, w ≠ [] ∧ ∀ c ∈ w, c ∉ b!" \t\n\r<>"

/-- The last words belong together: they are all words, or take more than ten bytes, and (from three words on) no fewer would do. -/
def Together (front back : List Bytes) : Prop :=
  (front = [] ∨ 10 < (joined c!" " back).length) ∧ (back.length ≤ 2 ∨ (joined c!" " back.tail).length ≤ 10)

/-- The heading with the last words kept together. -/
def kept (front back : List Bytes) : Bytes := if front = [] then glued back else joined c!" " front ++ b!" " ++ glued back

/-- A heading: its level, attributes, content, and the text behind it. -/
structure Heading where
  level : Byte
  attrs : Bytes
  content : Bytes
  behind : Bytes

def Heading.opening (h : Heading) : Bytes := b!"<h" ++ [h.level] ++ h.attrs ++ b!">"
def Heading.closing (h : Heading) : Bytes := b!"</h" ++ [h.level] ++ b!">"
def Heading.source (h : Heading) (content : Bytes) : Bytes := h.opening ++ content ++ h.closing ++ h.behind

/-- A heading begins here. -/
def Begins (s : Bytes) : Prop := ∃ l t, s = b!"<h" ++ [l] ++ t ∧ 49 ≤ l ∧ l ≤ 54

/-- Text without headings. -/
def Free (s : Bytes) : Prop := ∀ u, u <:+ s → ¬ Begins u

structure Heading.Ok (h : Heading) : Prop where
  level : 49 ≤ h.level ∧ h.level ≤ 54
  attrs : c!">" ∉ h.attrs
  content : ¬ h.closing <:+: h.content
  behind : Free h.behind

/-- The end of a page: nothing, a tag that is not closed, or a heading that is not closed. -/
inductive Tail : Bytes → Prop
  | nil : Tail []
  | tag {s : Bytes} : Begins s → c!">" ∉ s → Tail s
  | heading {l : Byte} {attrs rest : Bytes} : 49 ≤ l ∧ l ≤ 54 → c!">" ∉ attrs → ¬ b!"</h" ++ [l] ++ b!">" <:+: rest → Tail (b!"<h" ++ [l] ++ attrs ++ b!">" ++ rest)

/-- A page: text, headings, and the end. -/
structure Page where
  text : Bytes
  headings : List Heading
  tail : Bytes

structure Page.Ok (p : Page) : Prop where
  text : Free p.text
  headings : ∀ h ∈ p.headings, h.Ok
  tail : Tail p.tail

def Page.html (p : Page) : Bytes := p.text ++ (p.headings.flatMap fun h => h.source h.content) ++ p.tail

/-- The page with other contents of its headings. -/
def Page.with (p : Page) (contents : List Bytes) : Bytes := p.text ++ ((p.headings.zip contents).flatMap fun h => h.1.source h.2) ++ p.tail

end Verif.Widont
