/- What is meant by a line of progress. -/
import Verif.Basic

namespace Verif.Progress

/-- The last of the two options says whether progress is wanted; without any, the environment; without that, whether the standard error is a terminal. -/
inductive Wanted (env : Option Bytes) (tty : Bool) (args : List Bytes) : Bool → Prop
  | yes (pre post : List Bytes) (h : args = pre ++ b!"--progress" :: post) (hn : b!"--no-progress" ∉ post) : Wanted env tty args true
  | no (pre post : List Bytes) (h : args = pre ++ b!"--no-progress" :: post) (hn : b!"--progress" ∉ post) : Wanted env tty args false
  | envYes (v : Bytes) (h1 : b!"--progress" ∉ args) (h2 : b!"--no-progress" ∉ args) (he : env = some v) (hv : v ∈ [b!"1", b!"yes", b!"true"]) : Wanted env tty args true
  | envNo (v : Bytes) (h1 : b!"--progress" ∉ args) (h2 : b!"--no-progress" ∉ args) (he : env = some v) (hv : v ∈ [b!"0", b!"no", b!"false"]) : Wanted env tty args false
  | terminal (h1 : b!"--progress" ∉ args) (h2 : b!"--no-progress" ∉ args) (he : ∀ v ∈ env, v ∉ [b!"1", b!"yes", b!"true", b!"0", b!"no", b!"false"]) : Wanted env tty args tty

/-- A line of a terminal: what it shows, and the column of the cursor. -/
structure Line where
  shows : Bytes
  col : Nat

/-- A byte is sent to the terminal: a carriage return goes to the first column, all else replaces what stands under the cursor. -/
def Line.put (l : Line) (c : Byte) : Line :=
  if c = c!"\r" then ⟨l.shows, 0⟩ else ⟨l.shows.take l.col ++ c :: l.shows.drop (l.col + 1), l.col + 1⟩

/-- What a line shows after the bytes are sent to it, empty before. -/
def screen (s : Bytes) : Line := s.foldl Line.put ⟨[], 0⟩

/-- The line is blank and the cursor is at its begin. -/
def Line.Blank (l : Line) : Prop := l.col = 0 ∧ ∀ c ∈ l.shows, c = c!" "

/-- A name of a stage whose message fits into 80 columns, and that does not move the cursor. -/
def Fits (stage : Bytes) : Prop := stage.length ≤ 65 ∧ c!"\r" ∉ stage

/-- The names apex gives to its stages. -/
def apexStages : List Bytes := [b!"Processing citations", b!"Processing indices", b!"Processing autolinks", b!"Processing relaxed tables", b!"Processing wiki links"]

end Verif.Progress
