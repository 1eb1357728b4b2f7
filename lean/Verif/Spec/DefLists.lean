/-
Definition lists: independently of the model.
-/
import Verif.Spec.Text

namespace Verif.DefLists.Spec
open Text.Spec (ended)

/-- Blanks and tabs. -/
def Gap (w : Bytes) : Prop := ∀ c ∈ w, c = c!" " ∨ c = c!"\t"

/-- `c` is the first byte of the line that is no blank or tab. -/
def Lead (l : Bytes) (c : Byte) : Prop := ∃ w r, l = w ++ c :: r ∧ Gap w ∧ c ≠ c!" " ∧ c ≠ c!"\t"

/-! ### Content of terms and definitions -/

/-- A text that may have Markdown in it. -/
def Marked (t : Bytes) : Prop :=
  (∃ c ∈ t, c ∈ b!"*_[]!`\\") ∨ ∃ x c y, t = x ++ [c!"<", c] ++ y ∧ (c = c!"!" ∨ isAlnum c = true)

/-- The identifiers of the references in a text, `[text][id]` and `[id][]`, from left to right. -/
inductive Refs : Bytes → List Bytes → Prop
  | nil : Refs [] []
  | char {c s l} : c ≠ c!"[" → Refs s l → Refs (c :: s) l
  | full {x i s l} : c!"]" ∉ x → c!"]" ∉ i → i ≠ [] → Refs s l → Refs (b!"[" ++ x ++ b!"][" ++ i ++ b!"]" ++ s) (i :: l)
  | short {x s l} : c!"]" ∉ x → x ≠ [] → Refs s l → Refs (b!"[" ++ x ++ b!"][]" ++ s) (x :: l)
  | none {s l} : Refs s l → Refs (b!"[][]" ++ s) l
  | other {s l} : (∀ x i r, c!"]" ∉ x → c!"]" ∉ i → s ≠ x ++ b!"][" ++ i ++ b!"]" ++ r) → Refs s l → Refs (b!"[" ++ s) l

/-- The line defines the reference `i`. -/
def Defines (l i : Bytes) : Prop := ∃ w r, l = w ++ b!"[" ++ i ++ b!"]:" ++ r ∧ Gap w ∧ c!"]" ∉ i

/-- The lines that define one of these references, in order. -/
inductive Needed (ids : List Bytes) : List Bytes → List Bytes → Prop
  | nil : Needed ids [] []
  | take {l i ls rs} : Defines l i → i ∈ ids → Needed ids ls rs → Needed ids (l :: ls) (l :: rs)
  | skip {l ls rs} : (∀ i, Defines l i → i ∉ ids) → Needed ids ls rs → Needed ids (l :: ls) rs

/-- A byte in HTML. -/
def escaped (c : Byte) : Bytes :=
  if c = c!"&" then b!"&amp;" else if c = c!"<" then b!"&lt;" else if c = c!">" then b!"&gt;" else if c = c!"\"" then b!"&quot;" else [c]

/-- What is in the element of a paragraph, if all of it is one. -/
inductive Inner : Bytes → Bytes → Prop
  | both {x} : Inner (b!"<p>" ++ x ++ b!"</p>\n") x
  | front {x} : ¬ b!"</p>\n" <:+ x → Inner (b!"<p>" ++ x) x
  | back {x} : ¬ b!"<p>" <+: x ++ b!"</p>\n" → Inner (x ++ b!"</p>\n") x
  | none {x} : ¬ b!"<p>" <+: x → ¬ b!"</p>\n" <:+ x → Inner x x

/-- The content `h` of a term or definition with the text `t`, in a document with these lines: text without Markdown is escaped; else it is
what `md` makes of the text with the definitions of the references it has. -/
def Content (md : Bytes → Bytes) (ls : List Bytes) (t h : Bytes) : Prop :=
  (¬ Marked t ∧ h = t.flatMap escaped) ∨ (Marked t ∧ ∃ ids rs, Refs t ids ∧ Needed ids ls rs ∧ Inner (md (ended rs ++ t)) h)

/-! ### Lines -/

/-- Signs of quotations, each with a blank or tab behind it, or none. -/
inductive Quotes : Nat → Bytes → Prop
  | nil : Quotes 0 []
  | cons {d q g} : Quotes d q → g = [] ∨ g = b!" " ∨ g = b!"\t" → Quotes (d + 1) (b!">" ++ g ++ q)

/-- The line is a definition, `d` quotations deep. -/
def Definition (l : Bytes) (d : Nat) (t : Bytes) : Prop :=
  ∃ n q w, n ≤ 3 ∧ l = List.replicate n c!" " ++ q ++ b!":" ++ w ++ t ∧ Quotes d q ∧ Gap w ∧ w ≠ [] ∧ ∀ c ∈ t.head?, c ≠ c!" " ∧ c ≠ c!"\t"

/-- The line opens code. -/
def Fence (l : Bytes) : Prop := ∃ w r, l = w ++ b!"```" ++ r ∧ Gap w

/-- The line can close code. -/
def Closes (l : Bytes) : Prop := ∃ w g r, l = w ++ b!"```" ++ g ++ r ∧ Gap w ∧ Gap g ∧ (r = [] ∨ r.head? = some c!"\r")

/-- An item of a list. -/
def Item (l : Bytes) : Prop :=
  ∃ w r, l = w ++ r ∧ Gap w ∧ w.length ≤ 4 ∧
    ((∃ b g s, r = b :: g :: s ∧ b ∈ b!"-*+" ∧ (g = c!" " ∨ g = c!"\t")) ∨
     ∃ n g s, r = n ++ b!"." ++ g :: s ∧ n ≠ [] ∧ (∀ c ∈ n, isDigit c = true) ∧ (g = c!" " ∨ g = c!"\t"))

/-- A row of a table, a heading, or an item: never a term. -/
def Whole (l : Bytes) : Prop := Lead l c!"|" ∨ Lead l c!"#" ∨ Item l

/-- Text that could be a term, but for its length. -/
def Plain (l : Bytes) : Prop := (∃ c, Lead l c ∧ c ≠ c!"\r") ∧ ¬ Fence l ∧ ¬ Whole l ∧ ∀ d t, ¬ Definition l d t

/-- The depth and the content of a term: outside of quotations all of it. -/
def Term (t : Bytes) (d : Nat) (c : Bytes) : Prop :=
  (d = 0 ∧ c = t ∧ ¬ Lead t c!">") ∨
  (0 < d ∧ ∃ w q, t = w ++ q ++ c ∧ Gap w ∧ Quotes d q ∧ ∀ x ∈ c.head?, x ≠ c!">" ∧ x ≠ c!" " ∧ x ≠ c!"\t")

/-! ### Documents -/

/-- Signs of quotations in the result. -/
def signs (d : Nat) : Bytes := (List.replicate d b!"> ").flatten

/-- Definitions, with empty lines between them. -/
inductive Defs (html : Bytes → Bytes) (q : Bytes) : List Bytes → Bytes → Prop
  | nil : Defs html q [] []
  | empty {ds o} : Defs html q ds o → Defs html q ([] :: ds) o
  | cons {l d t ds o} : Definition l d t → Defs html q ds o → Defs html q (l :: ds) (q ++ b!"<dd>" ++ html t ++ b!"</dd>\n" ++ o)

/-- What comes behind a list, and the end of the list. -/
inductive Close (q : Bytes) : List Bytes → Bytes → Prop
  | last : Close q [] (q ++ b!"</dl>\n")
  | code {l ls} : Fence l → Close q (l :: ls) b!"</dl>\n"
  | text {l c ls} : Lead l c → c ≠ c!"|" → c ≠ c!"\r" → ¬ Fence l → (∀ d t, ¬ Definition l d t) → Close q (l :: ls) (q ++ b!"</dl>\n\n")

/-- A document with these lines and what becomes of it; the truth value says that it has a list.  A term and its definitions become a
list; all other lines stay, but of several empty lines behind text there is one. -/
inductive Doc (html : Bytes → Bytes) : Bool → List Bytes → Bytes → Prop
  | nil : Doc html false [] []
  | empty {b ls o} : Doc html b ls o → Doc html b ([] :: ls) (b!"\n" ++ o)
  | whole {b l ls o} : Whole l → Doc html b ls o → Doc html b (l :: ls) (l ++ b!"\n" ++ o)
  | long {b l ls o} : Plain l → 4095 ≤ l.length → Doc html b ls o → Doc html b (l :: ls) (l ++ b!"\n" ++ o)
  | code {b l cs c ls o} : Fence l → (∀ x ∈ cs, ¬ Closes x) → Closes c → Doc html b ls o → Doc html b (l :: cs ++ c :: ls) (ended (l :: cs ++ [c]) ++ o)
  | rest {l cs} : Fence l → (∀ x ∈ cs, ¬ Closes x) → Doc html false (l :: cs) (ended (l :: cs))
  | text {b l e ls o} : Plain l → l.length < 4095 → (∀ x ∈ e, x = []) → (∀ x ∈ ls.head?, (∃ c, Lead x c ∧ c ≠ c!"\r") ∧ ¬ Fence x ∧ ∀ d t, ¬ Definition x d t) → Doc html b ls o →
      Doc html b (l :: e ++ ls) (l ++ b!"\n" ++ (if e = [] then [] else b!"\n") ++ o)
  | list {b t d c e l d' x ds o' ls k o} : Plain t → t.length < 4095 → Term t d c → (∀ x ∈ e, x = []) → Definition l d' x →
      Defs html (signs (max d d')) (l :: ds) o' → Close (signs (max d d')) ls k → Doc html b ls o →
      Doc html true (t :: e ++ l :: ds ++ ls)
        (signs (max d d') ++ b!"<dl>\n" ++ signs (max d d') ++ b!"<dt>" ++ html c ++ b!"</dt>\n" ++ o' ++ k ++ o)

end Verif.DefLists.Spec
