/- What a user of the buffer expects to read back. -/
import Verif.Model.Buffer

namespace Verif.Buffer.Spec

/-- Text accumulated by a history of calls, starting from `acc`. -/
def text (acc : Bytes) : List Op → Bytes
  | [] => acc
  | .append d :: ops => text (acc ++ d) ops
  | .appendStr s :: ops => text (acc ++ s.takeWhile (· != 0)) ops
  | .appendChar c :: ops => text (acc ++ [c]) ops
  | .clear :: ops => text [] ops

/-- The buffer holds exactly `t`, NUL-terminated, inside its allocation. -/
def Holds (b : Buf) (t : Bytes) : Prop :=
  ∃ blk, b.data = some blk ∧ blk.length = b.capacity ∧ b.size = t.length ∧
    blk.take (t.length + 1) = t.map some ++ [some 0] ∧ t.length < b.capacity

end Verif.Buffer.Spec
