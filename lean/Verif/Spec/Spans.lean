/-
Bracketed spans: independently of the model.
-/
import Verif.Spec.IalLines
import Verif.Spec.Ial

namespace Verif.Spans.Spec
open Bibliography.Spec (First)
open Citations.Spec (White)
open IalLines.Spec (IsLine)
open Ial.Spec (Written Sizes attrsOf meaning pieces between)

/-- Text with brackets in pairs. -/
inductive Brackets : Bytes → Prop
  | nil : Brackets []
  | char {c s} : c ≠ c!"[" → c ≠ c!"]" → Brackets s → Brackets (c :: s)
  | group {a s} : Brackets a → Brackets s → Brackets (b!"[" ++ a ++ b!"]" ++ s)

/-- Blanks and tabs. -/
def Gap (w : Bytes) : Prop := ∀ c ∈ w, c = c!" " ∨ c = c!"\t"

/-- The text has a line `[i]: ...`. -/
def Def (text i : Bytes) : Prop := ∃ l w r, IsLine text l ∧ l = w ++ b!"[" ++ i ++ b!"]:" ++ r ∧ Gap w ∧ i ≠ [] ∧ c!"]" ∉ i

/-- The words of a text in small letters; all white space is the same. -/
def words : Bytes → List Bytes
  | [] => []
  | c :: s =>
    if isSpace c then words s
    else
      match s with
      | [] => [[toLower c]]
      | d :: _ =>
        if isSpace d then [toLower c] :: words s
        else
          match words s with
          | [] => [[toLower c]]
          | w :: ws => (toLower c :: w) :: ws

/-- There is never more than one white space in a row. -/
def Tidy (s : Bytes) : Prop := ∀ x y a b, s = x ++ [a, b] ++ y → ¬ (White a ∧ White b)

/-- `[x]` is a reference: a definition has the same words. -/
def Ref (text x : Bytes) : Prop := ∃ i, Def text i ∧ words i = words x

/-- The attribute list `a` means the attributes `h`; nothing of it is long. -/
def Means (a h : Bytes) : Prop :=
  ∃ items sized decls, Written a items ∧ a.length < 2048 ∧ Sizes (attrsOf items) sized decls ∧ (∀ p ∈ pieces (meaning items) sized decls, p.length ≤ 500) ∧
    h = between b!" " (pieces (meaning items) sized decls) ∧ h.length < 4096

/-- `[x]{a}` becomes an element with the attributes, unless `[x]` is a reference; code and all the rest stay.  Double backticks are
not taken for code. -/
inductive Spans (ref : Bytes → Prop) : Bytes → Bytes → Prop
  | nil : Spans ref [] []
  | char {c s o} : c ≠ c!"`" → c ≠ c!"[" → Spans ref s o → Spans ref (c :: s) (c :: o)
  | code {x s o} : x ≠ [] → c!"`" ∉ x → Spans ref s o → Spans ref (b!"`" ++ x ++ b!"`" ++ s) (b!"`" ++ x ++ b!"`" ++ o)
  | open {x} : x ≠ [] → c!"`" ∉ x → Spans ref (b!"`" ++ x) (b!"`" ++ x)
  | two {s o} : s.head? ≠ some c!"`" → Spans ref s o → Spans ref (b!"``" ++ s) (b!"``" ++ o)
  | fence {x s o} : x ≠ [] → x.head? ≠ some c!"`" → First b!"```" (x ++ b!"```") x [] → s.head? ≠ some c!"`" → Spans ref s o →
      Spans ref (b!"```" ++ x ++ b!"```" ++ s) (b!"```" ++ x ++ b!"```" ++ o)
  | span {x w a h s o} : Brackets x → Gap w → c!"}" ∉ a → ¬ ref x → Means a h → Spans ref s o →
      Spans ref (b!"[" ++ x ++ b!"]" ++ w ++ b!"{" ++ a ++ b!"}" ++ s) (b!"<span markdown=\"span\"" ++ h ++ b!">" ++ x ++ b!"</span>" ++ o)
  | other {s o} : (∀ x w a r, s = x ++ b!"]" ++ w ++ b!"{" ++ a ++ b!"}" ++ r → Brackets x → Gap w → ref x) → Spans ref s o → Spans ref (b!"[" ++ s) (b!"[" ++ o)

end Verif.Spans.Spec
