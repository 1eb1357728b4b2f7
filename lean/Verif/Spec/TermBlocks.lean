/- What is meant by lists and quotes on a terminal. -/
import Verif.Spec.Term

namespace Verif.Term.Blocks
open Term.Spec

/-- A number in digits, without zeros in front. -/
def Digits (n : Nat) (s : Bytes) : Prop :=
  s ≠ [] ∧ (∀ c ∈ s, 48 ≤ c.toNat ∧ c.toNat ≤ 57) ∧ s.foldl (fun v c => 10 * v + (c.toNat - 48)) 0 = n ∧ (s.head? = some c!"0" → n = 0)

/-- An item with one paragraph. -/
def item (ks : List Node) : Node := .mk .item none [.mk .para none ks]

/-- Lines on which the texts are, one for each, behind a number that goes up from `n`. -/
inductive Numbered (emoji : Bytes → Bytes) (pad : Bytes) : Nat → List (List Node) → Bytes → Prop
  | nil (n : Nat) : Numbered emoji pad n [] []
  | cons {n : Nat} {ks : List Node} {l : List (List Node)} {d gap s : Bytes} (hd : Digits n d) (hg : ∀ c ∈ gap, c = c!" ") (h : Numbered emoji pad (n + 1) l s) :
    Numbered emoji pad n (ks :: l) (pad ++ d ++ b!". " ++ gap ++ readAll emoji ks ++ b!"\n" ++ s)

/-- A paragraph of several lines. -/
def joined : List (List Node) → List Node
  | [] => []
  | [l] => l
  | l :: ls => l ++ .mk .soft none [] :: joined ls

/-- What is no line break. -/
def NoBreak (n : Node) : Prop := n.kind ≠ .soft

end Verif.Term.Blocks
