/-
Specification for the fences of code blocks in texts with includes.
-/
import Verif.Basic

namespace Verif.Fences.Spec

/-- A line: the backticks it begins with and the rest. -/
abbrev Line := Nat × Bytes

def Line.text (l : Line) : Bytes := List.replicate l.1 c!"`" ++ l.2

/-- The rest of a line does not begin with a backtick and ends before the newline. -/
def Line.Ok (l : Line) : Prop := l.2.head? ≠ some c!"`" ∧ c!"\n" ∉ l.2

/-- Lines, with a newline between each two. -/
def join : List Line → Bytes
  | [] => []
  | [l] => l.text
  | l :: m :: r => l.text ++ b!"\n" ++ join (m :: r)

/-- What becomes of the lines. The first argument is the open fence, as it was and as it is written. A fence of an even
number of backticks gets one more, and the line that closes it the same number; every other line stays. -/
inductive Fixed : Option (Nat × Nat) → List Line → List Line → Prop
  | nil {s} : Fixed s [] []
  | text {s n r l o} : n < 3 → Fixed s l o → Fixed s ((n, r) :: l) ((n, r) :: o)
  | odd {n r l o} : 3 ≤ n → n % 2 = 1 → Fixed (some (n, n)) l o → Fixed none ((n, r) :: l) ((n, r) :: o)
  | even {n r l o} : 3 ≤ n → n % 2 = 0 → Fixed (some (n, n + 1)) l o → Fixed none ((n, r) :: l) ((n + 1, r) :: o)
  | close {n k r l o} : 3 ≤ n → Fixed none l o → Fixed (some (n, k)) ((n, r) :: l) ((k, r) :: o)
  | inside {n m k r l o} : 3 ≤ n → n ≠ m → Fixed (some (m, k)) l o → Fixed (some (m, k)) ((n, r) :: l) ((n, r) :: o)

end Verif.Fences.Spec
