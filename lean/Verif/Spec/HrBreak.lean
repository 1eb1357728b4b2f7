/-
Specification for turning horizontal rules into page breaks.
-/
import Verif.Basic

namespace Verif.HrBreak.Spec

/-- The page break, docs of the option `--hr-page-break`: a division a style sheet and the printer understand. -/
def pageBreak : Bytes :=
  b!"<div class=\"mkpagebreak manualbreak\" title=\"Page break created from HR\" data-description=\"PAGE (HR)\" style=\"page-break-after:always\"><span style=\"display:none\">&nbsp;</span></div>"

/-- A horizontal rule with its attributes. -/
def rule (attrs : Bytes) : Bytes := b!"<hr" ++ attrs ++ b!">"

/-- A page with horizontal rules: text before each, its attributes; and the text behind the last. -/
def page (l : List (Bytes × Bytes)) (tail : Bytes) : Bytes := l.flatMap (fun x => x.1 ++ rule x.2) ++ tail

/-- The same page with page breaks. -/
def broken (l : List (Bytes × Bytes)) (tail : Bytes) : Bytes := l.flatMap (fun x => x.1 ++ pageBreak) ++ tail

/-- `l` and `tail` are the rules of a page and what is between them: no other rule begins in the texts, attributes end
with the first `>`, and no complete rule is in the tail. -/
def Cut (l : List (Bytes × Bytes)) (tail : Bytes) : Prop :=
  (∀ x ∈ l, ¬ b!"<hr" <:+: x.1 ∧ c!">" ∉ x.2) ∧ ∀ a b, tail = a ++ b!"<hr" ++ b → c!">" ∉ b

end Verif.HrBreak.Spec
