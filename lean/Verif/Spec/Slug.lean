/- Turning a title into an identifier: what becomes of its characters, and how the words are joined. -/
import Verif.Basic

namespace Verif.Slug

/-- What becomes of a character: it goes, it is written as some bytes, or it separates words. -/
inductive Piece where
  | gone
  | keep (w : Bytes)
  | brk
  deriving DecidableEq, Repr

/-- The text between separators, which may be empty. -/
def groups : List Piece → List Bytes
  | [] => [[]]
  | .gone :: ps => groups ps
  | .brk :: ps => [] :: groups ps
  | .keep w :: ps =>
    match groups ps with
    | [] => [w]
    | g :: gs => (w ++ g) :: gs

/-- The words. -/
def words (ps : List Piece) : List Bytes := (groups ps).filter (· ≠ [])

/-- The words with one separator between them, or with none. -/
def joined (sep : Option Byte) (ps : List Piece) : Bytes :=
  match sep with
  | some c => List.intercalate [c] (words ps)
  | none => (words ps).flatten

/-- No separator at the start, at the end, or next to another one. -/
def Tidy (c : Byte) (s : Bytes) : Prop :=
  s.head? ≠ some c ∧ s.getLast? ≠ some c ∧ ¬ [c, c] <:+: s

end Verif.Slug
