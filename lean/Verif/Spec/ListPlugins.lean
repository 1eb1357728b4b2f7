/- The list of plugins, without the program. -/
import Verif.Model.ListPlugins

namespace Verif.ListPlugins.Spec
open Metadata (Meta)

/-- The last value for a key. -/
def Last (m : Meta) (key : Bytes) (v : Option Bytes) : Prop :=
  match v with
  | none => ∀ x ∈ m, x.1 ≠ key
  | some w => ∃ a b, m = a ++ (key, w) :: b ∧ ∀ x ∈ b, x.1 ≠ key

/-- `i` describes the plugin `name`, whose manifest has these items: without an id it is the name of its directory. -/
def Describes (name : Bytes) (m : Meta) (i : Item) : Prop :=
  (Last m b!"id" (some i.id) ∨ Last m b!"id" none ∧ i.id = name) ∧ Last m b!"title" i.title ∧ Last m b!"author" i.author ∧
    Last m b!"description" i.description ∧ Last m b!"homepage" i.homepage

/-- There is a plugin in the subdirectory `name` of `dir`, described by `plugin.yml`, or else by `plugin.yaml`. -/
def Plugin (k : Disk) (load : Bytes → Meta) (dir name : Bytes) (i : Item) : Prop :=
  let p := dir ++ b!"/" ++ name
  (∀ s, name ≠ c!"." :: s) ∧ k.dir p = some true ∧
    ∃ s, (k.file (p ++ b!"/plugin.yml") = some s ∨ k.file (p ++ b!"/plugin.yml") = none ∧ k.file (p ++ b!"/plugin.yaml") = some s) ∧
      load s ≠ [] ∧ Describes name (load s) i

/-- `i` describes a plugin in one of these directories, and no plugin that comes before it has its id. -/
def First (k : Disk) (load : Bytes → Meta) (dirs : List Bytes) (i : Item) : Prop :=
  ∃ a d b x n y, dirs = a ++ d :: b ∧ k.names d = some (x ++ n :: y) ∧ Plugin k load d n i ∧
    (∀ d' ∈ a, ∀ l, k.names d' = some l → ∀ n' ∈ l, ∀ j, Plugin k load d' n' j → j.id ≠ i.id) ∧
    ∀ n' ∈ x, ∀ j, Plugin k load d n' j → j.id ≠ i.id

/-- The paths are shorter than the buffers. -/
def Short (k : Disk) (dirs : List Bytes) : Prop := ∀ d ∈ dirs, ∀ l, k.names d = some l → ∀ n ∈ l, (d ++ b!"/" ++ n).length < 1200

/-- How a plugin is shown. -/
structure Shown (i : Item) (s : Bytes) : Prop where
  first : ∃ pad rest, s = i.id ++ pad ++ b!" - " ++ (match i.title with | some t => t | none => i.id) ++ rest ∧ (∀ c ∈ pad, c = c!" ") ∧ (20 ≤ (i.id ++ pad).length)
  author : ∀ a, i.author = some a → a ≠ [] → b!"  (author: " ++ a ++ b!")\n" <:+: s
  description : ∀ a, i.description = some a → a ≠ [] → b!"\n    " ++ a ++ b!"\n" <:+: s
  homepage : ∀ a, i.homepage = some a → a ≠ [] → b!"\n    homepage: " ++ a ++ b!"\n" <:+ s

end Verif.ListPlugins.Spec
