/-
Lines of a text and parts of a line.
-/
import Verif.Basic

namespace Verif.Text.Spec

/-- Lines, each with its newline. -/
def ended (ls : List Bytes) : Bytes := ls.flatMap fun l => l ++ [c!"\n"]

/-- `ls` are the lines of the text; the last one need not end in a newline. -/
def Lines (text : Bytes) (ls : List Bytes) : Prop :=
  (∀ l ∈ ls, c!"\n" ∉ l) ∧
  (text = ended ls ∨ ∃ front last, ls = front ++ [last] ∧ last ≠ [] ∧ text = ended front ++ last)

/-- The parts, with `d` between them. -/
def joined (d : Byte) : List Bytes → Bytes
  | [] => []
  | [x] => x
  | x :: y :: r => x ++ d :: joined d (y :: r)

/-- `ps` are the parts of the line. -/
def Parts (d : Byte) (line : Bytes) (ps : List Bytes) : Prop :=
  ps ≠ [] ∧ (∀ p ∈ ps, d ∉ p) ∧ line = joined d ps

end Verif.Text.Spec
