/- What a bibliography in YAML says, without the program. -/
import Verif.Basic
import Verif.Model.Citations

namespace Verif.CslYaml.Spec

/-- An entry of a bibliography: its identifier, fields, the author (family and given name), the year, and more fields. -/
structure Entry where
  id : Bytes
  before : List (Bytes × Bytes)
  names : Option (Bytes × Bytes)
  year : Option Bytes
  after : List (Bytes × Bytes)

/-- A field. -/
def field (f : Bytes × Bytes) : Bytes := b!"  " ++ f.1 ++ b!": " ++ f.2 ++ b!"\n"

/-- The author. -/
def author (f g : Bytes) : Bytes := b!"  author:\n    - family: " ++ f ++ b!"\n      given: " ++ g ++ b!"\n"

/-- One name in the list of authors. -/
def name (n : Bytes × Bytes) : Bytes := b!"    - family: " ++ n.1 ++ b!"\n      given: " ++ n.2 ++ b!"\n"

/-- The date. -/
def issued (y : Bytes) : Bytes := b!"  issued:\n    year: " ++ y ++ b!"\n"

/-- What is written below the identifier. -/
def Entry.fields (e : Entry) : Bytes :=
  e.before.flatMap field ++ ((e.names.map fun n => author n.1 n.2).getD [] ++ ((e.year.map issued).getD [] ++ e.after.flatMap field))

/-- The entry with its dash on a line of its own. -/
def Entry.write (e : Entry) : Bytes := b!"-\n  id: " ++ e.id ++ b!"\n" ++ e.fields

/-- The entry as it is usually written, with the identifier behind the dash. -/
def Entry.usual (e : Entry) : Bytes := b!"- id: " ++ e.id ++ b!"\n" ++ e.fields

/-- The last value of a field. -/
def Entry.get (e : Entry) (k : Bytes) : Option Bytes := ((e.before ++ e.after).reverse.find? fun f => f.1 == k).map (·.2)

/-- What the entry says. -/
def Entry.known (e : Entry) : Citations.Entry :=
  { id := e.id, title := e.get b!"title", author := e.names.map fun n => n.1 ++ b!", " ++ n.2, year := e.year, container := e.get b!"container-title",
    publisher := e.get b!"publisher", volume := e.get b!"volume", page := e.get b!"page" }

/-! ### Plain entries -/

/-- A text on one line without quotes at its front, comments, and white space at its ends. -/
def Text (v : Bytes) : Prop :=
  (∀ c ∈ v, c ≠ c!"\n" ∧ c ≠ c!"\r" ∧ c ≠ c!"#") ∧ (∃ c t, v = c :: t ∧ isSpace c = false ∧ c ≠ c!"\"" ∧ c ≠ c!"'") ∧
    (∃ t c, v = t ++ [c] ∧ isSpace c = false) ∧ v.length < 500

/-- A line in which no name begins, and that does not end with a dash. -/
def Quiet (l : Bytes) : Prop := ¬ b!"family:" <:+: l ∧ ¬ b!"given:" <:+: l ∧ l.getLast? ≠ some c!"-"

/-- A field that is not that of the author or of the date. -/
def Field (f : Bytes × Bytes) : Prop :=
  Text f.1 ∧ c!":" ∉ f.1 ∧ f.1 ≠ b!"author" ∧ f.1 ≠ b!"issued" ∧ f.1 ≠ b!"year" ∧ Text f.2 ∧ Quiet (f.1 ++ b!": " ++ f.2)

/-- The entry is plain. -/
def Entry.Plain (e : Entry) : Prop :=
  Text e.id ∧ Quiet (b!"id: " ++ e.id) ∧ (∀ f ∈ e.before, Field f) ∧ (∀ f ∈ e.after, Field f) ∧ (∀ n, e.names = some n → Text n.1 ∧ Text n.2) ∧
    ∀ y, e.year = some y → y ≠ [] ∧ y.length < 500 ∧ ∀ c ∈ y, isDigit c = true

/-! ### Files -/

/-- At the end there is a dash with nothing but white space behind it. -/
def Dangling (s : Bytes) : Prop := ∃ a b, s = a ++ c!"-" :: b ∧ b ≠ [] ∧ ∀ c ∈ b, isSpace c = true

/-- There are no quotes. -/
def Unquoted (s : Bytes) : Prop := c!"\"" ∉ s ∧ c!"'" ∉ s

end Verif.CslYaml.Spec
