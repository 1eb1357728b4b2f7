/- What definition lists with two colons are, without the program. -/
import Verif.Model.DefTree

namespace Verif.DefTree.Spec

/-- A part of a document: a plain paragraph, or a term with its definition. -/
inductive Item
  | plain (p : Bytes)
  | entry (term definition : Bytes)

/-- The lines that are written, with blank lines between them. -/
def Item.write : Item → List Bytes
  | .plain p => [p]
  | .entry t d => [t, b!":: " ++ d]

/-- What is meant. -/
def Item.means : Item → List Block
  | .plain p => [.para [] [.text p]]
  | .entry t d => [.list [.text t] [.data [.text d]]]

/-- What is to be shown. -/
def Item.html : Item → Bytes
  | .plain p => b!"<p>" ++ p ++ b!"</p>\n"
  | .entry t d => b!"<dl>\n<dt>" ++ t ++ b!"</dt>\n<dd>" ++ d ++ b!"</dd>\n</dl>\n"

/-- Text that does not begin with a colon or a space. -/
def Plain (p : Bytes) : Prop := ∃ c s, p = c :: s ∧ c ≠ c!":" ∧ c ≠ c!" "

/-- The text of a definition: it does not begin with a space, and has no braces. -/
def Body (d : Bytes) : Prop := (∃ c s, d = c :: s ∧ c ≠ c!" ") ∧ c!"{" ∉ d

/-- Every text is as it should be. -/
def Item.Ok : Item → Prop
  | .plain p => Plain p
  | .entry t d => Plain t ∧ Body d

/-! ### What is read -/

/-- A text without the colons and spaces in front of it, if there are two colons and a space. -/
def bare (s : Bytes) : Bytes := if b!":: " <+: s then (s.drop 3).dropWhile (· = c!" ") else s

/-- What one reads in a paragraph. -/
def readPara (content : Bytes) : List Inl → List Inl
  | [] => if bare content = [] then [] else [.text (bare content)]
  | .text s :: ks => .text (bare s) :: ks
  | ks => ks

/-- What one reads in a block. -/
def read : Block → List Inl
  | .para c ks => readPara c ks
  | .list t rest => t ++ rest.flatMap fun
    | .data ks => ks
    | .para c ks => readPara c ks
  | .empty => []
  | .other s => [.other s]

/-- A list as it is opened: with a term and nothing behind it, and without a term of nothing but breaks. -/
def Fresh : Block → Prop
  | .list t rest => rest = [] ∧ ((∀ x ∈ t, x = .brk) → t = [])
  | .empty => False
  | _ => True

/-! ### Safety -/

/-- No list without a term has a paragraph behind it that is no definition. -/
def Careful (doc : List Block) : Prop :=
  ∀ pre t rest c k post, doc = pre ++ .list t rest :: .para c k :: post →
    (∃ x ∈ t, x ≠ .brk) ∨ k = [] ∨ b!":: " <+: c ∨ ∃ s ks, k = .text s :: ks ∧ b!":: " <+: s

end Verif.DefTree.Spec
