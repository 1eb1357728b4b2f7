/-
Installing and removing: what a shell makes of a command, independently of the model.
-/
import Verif.Basic

namespace Verif.Install.Spec

/-- A byte that stands for itself between double quotes: not `"`, `$`, a backquote or a backslash. -/
def Plain (c : Byte) : Prop := c ≠ c!"\"" ∧ c ≠ c!"$" ∧ c ≠ 96 ∧ c ≠ 92

/-- Text that stands for itself between double quotes. -/
def Safe (s : Bytes) : Prop := ∀ c ∈ s, Plain c

/-- A word of a command for the shell, and what it stands for: letters, digits, `-` and `+`; `[`; `]`; or a text between double quotes. -/
inductive Word : Bytes → Bytes → Prop
  | bare {w} : w ≠ [] → (∀ c ∈ w, isAlnum c = true ∨ c = c!"-" ∨ c = c!"+") → Word w w
  | left : Word b!"[" b!"["
  | right : Word b!"]" b!"]"
  | quoted {w} : Safe w → Word (b!"\"" ++ w ++ b!"\"") w

/-- A command for the shell, and its words. -/
inductive Words : Bytes → List Bytes → Prop
  | one {t w} : Word t w → Words t [w]
  | more {t w s ws} : Word t w → Words s ws → Words (t ++ b!" " ++ s) (w :: ws)

/-- A shell runs another command within the command: it is in `$(…)` between double quotes. -/
def RunsInside (s cmd : Bytes) : Prop := ∃ a b z, s = a ++ b!"\"" ++ b ++ b!"$(" ++ cmd ++ b!")" ++ z ∧ c!"\"" ∉ a ∧ Safe b ∧ c!")" ∉ cmd

/-- A name of a file or directory in a directory: not a path. -/
def Name (s : Bytes) : Prop := s ≠ [] ∧ c!"/" ∉ s ∧ s ≠ b!"." ∧ s ≠ b!".."

/-- A path below a directory. -/
def Below (root p : Bytes) : Prop := ∃ n, Name n ∧ p = root ++ b!"/" ++ n

/-- The commands meant, as words: for a directory of plugins, a repository, and names of plugins. -/
inductive Meant (root repo : Bytes) (name : Bytes → Prop) : List Bytes → Prop
  | mkdir : Meant root repo name [b!"mkdir", b!"-p", root]
  | test {n} : name n → Meant root repo name [b!"[", b!"-d", root ++ b!"/" ++ n, b!"]"]
  | clone {n} : name n → Meant root repo name [b!"git", b!"clone", repo, root ++ b!"/" ++ n]
  | rm {n} : b!".apex_install_" <+: n → name n → Meant root repo name [b!"rm", b!"-rf", root ++ b!"/" ++ n]
  | mv {n m} : name n → name m → Meant root repo name [b!"mv", root ++ b!"/" ++ n, root ++ b!"/" ++ m]

/-- The command of a manifest, in the directory of the plugin. -/
def Hook (root : Bytes) (name hook : Bytes → Prop) (cmd : Bytes) : Prop := ∃ n h, name n ∧ hook h ∧ cmd = b!"cd \"" ++ root ++ b!"/" ++ n ++ b!"\" && " ++ h

/-- The repository an argument stands for: an address as it is, or with `.git` when it is one of GitHub without; a user and a name, at GitHub. -/
inductive Repo : Bytes → Bytes → Prop
  | address {a} : (b!"://" <:+: a ∨ c!"@" ∈ a) → ¬ ((b!"https://github.com/" <+: a ∨ b!"http://github.com/" <+: a ∨ b!"git@github.com:" <+: a) ∧ ¬ b!".git" <:+ a) → Repo a a
  | github {a} : (b!"://" <:+: a ∨ c!"@" ∈ a) → (b!"https://github.com/" <+: a ∨ b!"http://github.com/" <+: a ∨ b!"git@github.com:" <+: a) → ¬ b!".git" <:+ a → Repo a (a ++ b!".git")
  | short {u r} : u ≠ [] → c!"/" ∉ u → r ≠ [] → ¬ b!"://" <:+: u ++ b!"/" ++ r → c!"@" ∉ u ++ b!"/" ++ r → Repo (u ++ b!"/" ++ r) (b!"https://github.com/" ++ u ++ b!"/" ++ r ++ b!".git")

end Verif.Install.Spec
