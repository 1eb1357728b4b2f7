/- What code in a man page should look like. -/
import Verif.Basic

namespace Verif.Man.Spec

/-- A text without its empty lines: of several newlines in a row one is left. -/
def squeeze : Bytes → Bytes
  | [] => []
  | [c] => [c]
  | c :: d :: t => if c = 10 ∧ d = 10 then squeeze (d :: t) else c :: squeeze (d :: t)

/-- Two newlines follow one another nowhere. -/
def NoEmptyLine (s : Bytes) : Prop := ¬ b!"\n\n" <:+: s

end Verif.Man.Spec
