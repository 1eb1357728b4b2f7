/- What is meant by the style of some classes. -/
import Verif.Basic

namespace Verif.Term.Class

/-- A class has a style in a table: the first that stands there for it. -/
def Has (table : List (Bytes × Bytes)) (w st : Bytes) : Prop := ∃ a b, table = a ++ (w, st) :: b ∧ w ∉ a.map (·.1)

/-- The style of some classes: that of the first that has one. -/
inductive Style (table : List (Bytes × Bytes)) : List Bytes → Option Bytes → Prop
  | none {ws : List Bytes} (h : ∀ w ∈ ws, w ∉ table.map (·.1)) : Style table ws none
  | some {a b : List Bytes} {w st : Bytes} (h : ∀ x ∈ a, x ∉ table.map (·.1)) (hw : Has table w st) : Style table (a ++ w :: b) (some st)

end Verif.Term.Class
