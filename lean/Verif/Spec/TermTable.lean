/- How a table looks on a terminal.  Uses the tree of the model, not its functions. -/
import Verif.Spec.Term

namespace Verif.Term.Spec

/-- The places a text takes: each character begins with a byte that does not continue one. -/
def width (v : Bytes) : Nat := (v.filter fun c => c.toNat < 128 ∨ 192 ≤ c.toNat).length

/-- Plain text of one place for each byte. -/
def Narrow (s : Bytes) : Prop := ∀ c ∈ s, 32 ≤ c.toNat ∧ c.toNat < 127

/-- Text, code and emphasis of one place for each byte. -/
def Even (emoji : Bytes → Bytes) : Kind → Prop
  | .text s => Narrow s ∧ emoji s = s ∧ ¬ b!"APEXLTLT" <:+: s
  | .code s => Narrow s
  | .emph => True
  | .strong => True
  | _ => False

/-- The text a cell stands in: at the left, at the right, or in the middle of `w` places. -/
inductive Aligned (w : Nat) (t : Bytes) : Align → Bytes → Prop
  | left {r a} : a ≠ .right → a ≠ .center → t.length + r = w → Aligned w t a (t ++ List.replicate r c!" ")
  | right {l} : l + t.length = w → Aligned w t .right (List.replicate l c!" " ++ t)
  | center {l r} : l + t.length + r = w → l ≤ r → r ≤ l + 1 → Aligned w t .center (List.replicate l c!" " ++ t ++ List.replicate r c!" ")

/-- The line of a row: each text in its column with a blank on both sides, and bars between them. -/
inductive Line : List Nat → List (Bytes × Align) → Bytes → Prop
  | nil : Line [] [] []
  | cons {w ws t a x ts v} : Aligned w t a x → Line ws ts v → Line (w :: ws) ((t, a) :: ts) (b!" " ++ x ++ b!" │" ++ v)

/-- The strokes of a rule over the columns. -/
def strokes (sep right : Bytes) : List Nat → Bytes
  | [] => []
  | [w] => (List.replicate (w + 2) b!"─").flatten ++ right
  | w :: ws => (List.replicate (w + 2) b!"─").flatten ++ sep ++ strokes sep right ws

/-- A table of columns of these widths: its first row over a rule, and the others. -/
def drawing (ind : Bytes) (ws : List Nat) : List Bytes → Bytes
  | [] => []
  | v :: vs =>
    ind ++ b!"┌" ++ strokes b!"┬" b!"┐" ws ++ b!"\n" ++ ind ++ b!"│" ++ v ++ b!"\n" ++ ind ++ b!"├" ++ strokes b!"┼" b!"┤" ws ++ b!"\n" ++
      vs.flatMap (fun v => ind ++ b!"│" ++ v ++ b!"\n") ++ ind ++ b!"└" ++ strokes b!"┴" b!"┘" ws ++ b!"\n\n"

/-- A cell that is no part of a joined one. -/
structure Single (emoji : Bytes → Bytes) (n : Node) : Prop where
  kind : n.kind = .cell
  colspan : ∀ a, n.attrs = some a → ¬ b!"colspan" <:+: a
  rowspan : ∀ a, n.attrs = some a → ¬ b!"rowspan" <:+: a
  kept : ∀ a, n.attrs = some a → ¬ b!"data-remove" <:+: a
  even : Alls (Even emoji) n.kids

/-- A cell that is not of equal signs, by which feet of tables are marked. -/
def Worded (n : Node) : Prop := ∀ s, n.kids.head?.map Node.kind = some (.text s) → ∃ c ∈ s, c ≠ c!"=" ∧ isSpace c = false

end Verif.Term.Spec
