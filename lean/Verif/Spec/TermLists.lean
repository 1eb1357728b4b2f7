/- What is meant by the levels of lists on a terminal. -/
import Verif.Spec.Term

namespace Verif.Term.Lists
open Term.Spec

/-- An item of a list: its text and the items within it. -/
inductive Item
  | mk (text : List Node) (sub : List Item)

mutual
/-- The item as a node: a paragraph and, if there are items within it, a list with bullets. -/
def Item.node : Item → Node
  | .mk ks sub => .mk .item none (.mk .para none ks :: (if sub.isEmpty then [] else [.mk (.list true 0) none (nodes sub)]))
/-- The items as nodes. -/
def nodes : List Item → List Node
  | [] => []
  | i :: is => i.node :: nodes is
end

mutual
/-- The texts of an item and of all within it, each with its level, in the order in which they are written. -/
def Item.levels (d : Nat) : Item → List (Nat × List Node)
  | .mk ks sub => (d, ks) :: levels (d + 1) sub
/-- The same for several items. -/
def levels (d : Nat) : List Item → List (Nat × List Node)
  | [] => []
  | i :: is => i.levels d ++ levels d is
end

/-- Lines on which the texts are, one for each, behind a bullet that is two columns further in for each level;
empty lines may be between them. -/
inductive Shown (emoji : Bytes → Bytes) : List (Nat × List Node) → Bytes → Prop
  | nil {b : Bytes} (hb : ∀ c ∈ b, c = c!"\n") : Shown emoji [] b
  | cons {b gap s : Bytes} {d : Nat} {ks : List Node} {l : List (Nat × List Node)} (hb : ∀ c ∈ b, c = c!"\n")
    (hg : ∀ c ∈ gap, c = c!" ") (h : Shown emoji l s) :
    Shown emoji ((d, ks) :: l) (b ++ List.replicate (2 * d) c!" " ++ b!"* " ++ gap ++ readAll emoji ks ++ b!"\n" ++ s)

end Verif.Term.Lists
