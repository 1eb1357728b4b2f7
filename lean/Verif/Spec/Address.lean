/-
Which part of a file an address selects.
-/
import Verif.Spec.Text
import Verif.Model.Address

namespace Verif.Address.Spec

/-- A number written in decimal, below 2³¹. -/
structure Number (ds : Bytes) (n : Nat) : Prop where
  ne : ds ≠ []
  digits : ∀ c ∈ ds, isDigit c = true
  value : Markers.value ds = n
  small : n < 2 ^ 31

/-- Lines, each after a prefix and with its newline. -/
def marked (pre : Bytes) (ls : List Bytes) : Bytes := ls.flatMap fun l => pre ++ l ++ [c!"\n"]

/-- Lines `n` to `m - 1`, counted from 1. -/
def between (n m : Nat) (ls : List Bytes) : List Bytes := (ls.take (m - 1)).drop (n - 1)

/-- What a file consists of: lines that end in a newline, and perhaps an unfinished line. -/
def File (content : Bytes) (ls : List Bytes) (last : Bytes) : Prop :=
  (∀ l ∈ ls, c!"\n" ∉ l) ∧ c!"\n" ∉ last ∧ content = Text.Spec.ended ls ++ last

/-- Lines with a prefix on those that are not empty. -/
def quoted (pre : Bytes) (ls : List Bytes) : Bytes :=
  ls.flatMap fun l => (if l = [] then [] else pre ++ l) ++ [c!"\n"]

/-- The prefix parameter of an address. -/
def prefixText : Option Bytes → Bytes
  | none => []
  | some p => b!";prefix=\"" ++ p ++ b!"\""

end Verif.Address.Spec
