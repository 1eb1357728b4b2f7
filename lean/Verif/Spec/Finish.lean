/- What is meant by a result that is written as a whole. -/
import Verif.Basic

namespace Verif.Finish

/-- The width that holds: that of the command line, or else that of the metadata; one that is not positive is none. -/
inductive Width (w tw : Int) : Option Nat → Prop
  | line (n : Nat) (h : w = n) (hn : 0 < n) : Width w tw (some n)
  | metadata (n : Nat) (h : w ≤ 0) (ht : tw = n) (hn : 0 < n) : Width w tw (some n)
  | none (h : w ≤ 0) (ht : tw ≤ 0) : Width w tw none

end Verif.Finish
