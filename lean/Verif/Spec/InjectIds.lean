/-
Pages whose headings have been given ids.
-/
import Verif.Spec.Transforms

namespace Verif.InjectIds.Spec
open Transforms.Spec (White)

/-- `s` starts with the tag of a heading with these attributes, and goes on with `r`. -/
def Tag (s : Bytes) (d : Byte) (attrs r : Bytes) : Prop :=
  s = b!"<h" ++ [d] ++ attrs ++ b!">" ++ r ∧ d ∈ b!"123456" ∧ c!">" ∉ attrs ∧ ∀ c, attrs.head? = some c → White c

/-- The page `out` is the page with an id, from the list, for each heading: the first id for the first heading and so on, as long
as there are ids. -/
inductive Named : List Bytes → Bytes → Bytes → Prop
  | nil {ids} : Named ids [] []
  | char {ids c s out} : (∀ d attrs r, ¬ Tag (c :: s) d attrs r) → Named ids s out → Named ids (c :: s) (c :: out)
  | heading {id ids s d attrs r out} : Tag s d attrs r → Named ids r out →
      Named (id :: ids) s (b!"<h" ++ [d] ++ attrs ++ b!" id=\"" ++ id ++ b!"\">" ++ out)
  | rest {s} : Named [] s s

/-- The same with anchors behind the tags. -/
inductive Anchored : List Bytes → Bytes → Bytes → Prop
  | nil {ids} : Anchored ids [] []
  | char {ids c s out} : (∀ d attrs r, ¬ Tag (c :: s) d attrs r) → Anchored ids s out → Anchored ids (c :: s) (c :: out)
  | heading {id ids s d attrs r out} : Tag s d attrs r → Anchored ids r out →
      Anchored (id :: ids) s (b!"<h" ++ [d] ++ attrs ++ b!">" ++
        b!"<a href=\"#" ++ id ++ b!"\" aria-hidden=\"true\" class=\"anchor\" id=\"" ++ id ++ b!"\"></a>" ++ out)
  | rest {s} : Anchored [] s s

/-- No heading has an id yet, nor an attribute whose name ends in `id`. -/
def NoIds (html : Bytes) : Prop := ∀ a s d attrs r, html = a ++ s → Tag s d attrs r → ¬ b!"id=" <:+: attrs

end Verif.InjectIds.Spec
