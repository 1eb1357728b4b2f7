/- Which script a filter is, and what a shell makes of a command, without the program. -/
import Verif.Spec.Install
import Verif.Model.FilterRun

namespace Verif.FilterRun.Spec
open Install.Spec (Safe)

/-- A byte that stands for itself in a command for the shell. -/
def Bare (c : Byte) : Prop := isAlnum c = true ∨ c ∈ b!"/._-+"

/-- A word of a command, and what it stands for. -/
inductive Token : Bytes → Bytes → Prop
  | bare {w} : w ≠ [] → (∀ c ∈ w, Bare c) → Token w w
  | quoted {w} : Safe w → Token (b!"\"" ++ w ++ b!"\"") w

/-- A command, and its words. -/
inductive Line : Bytes → List Bytes → Prop
  | one {t w} : Token t w → Line t [w]
  | more {t w s ws} : Token t w → Line s ws → Line (t ++ b!" " ++ s) (w :: ws)

/-- The directory of filters. -/
def Root (xdg home : Option Bytes) (root : Bytes) : Prop :=
  (∃ x, x ≠ [] ∧ xdg = some x ∧ root = x ++ b!"/apex/filters") ∨ (xdg = none ∨ xdg = some []) ∧ ∃ h, h ≠ [] ∧ home = some h ∧ root = h ++ b!"/.config/apex/filters"

/-- The files that can be the filter with a name, in the order of preference. -/
def candidates (isDir : Prop) [Decidable isDir] (root name : Bytes) : List Bytes :=
  let p := root ++ b!"/" ++ name
  [p, p ++ b!".lua", p ++ b!".py", p ++ b!".rb"] ++
    if isDir then [p ++ b!"/" ++ name, p ++ b!"/" ++ name ++ b!".lua", p ++ b!"/" ++ name ++ b!".py", p ++ b!"/" ++ name ++ b!".rb"] else []

/-- `p` is the script of the filter: the first of these that is a file. -/
def Script (stat : Stat) (root name p : Bytes) : Prop :=
  ∃ a b, candidates (stat (root ++ b!"/" ++ name) = some .dir) root name = a ++ p :: b ∧ stat p = some .reg ∧ ∀ x ∈ a, stat x ≠ some .reg

/-- The words of the command for a script: one in Lua is run by `lua`. -/
def call (p : Bytes) : List Bytes := if b!".lua" <:+ p then [b!"lua", p] else [p]

end Verif.FilterRun.Spec
