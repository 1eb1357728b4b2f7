/- What is meant by lists in man pages. -/
import Verif.Spec.Man
import Verif.Spec.TermBlocks

namespace Verif.Man.Spec

/-- Roff of a list: for each item a request with its mark, a bullet or its number, and below it what roff
prints as its text. -/
inductive Listed : Bool → List (Nat × Bytes) → Bytes → Prop
  | nil (b : Bool) : Listed b [] []
  | bullet {i : Nat} {t e s : Bytes} {l : List (Nat × Bytes)} (he : printed e = enDash t) (h : Listed true l s) :
    Listed true ((i, t) :: l) (b!"\n.IP \\(bu 2\n" ++ e ++ b!"\n" ++ s)
  | number {i : Nat} {d t e s : Bytes} {l : List (Nat × Bytes)} (hd : Term.Blocks.Digits i d)
    (he : printed e = enDash t) (h : Listed false l s) :
    Listed false ((i, t) :: l) (b!"\n.IP \"" ++ d ++ b!".\" 4\n" ++ e ++ b!"\n" ++ s)

/-- An item with a paragraph of text, and its number. -/
def textItem (p : Nat × Bytes) : Node := .mk (.item p.1) [.mk .paragraph [.mk (.text p.2) []]]

/-- A node is an item of a list. -/
def IsItem : Node → Prop
  | .mk (.item _) _ => True
  | _ => False

end Verif.Man.Spec
