/- What is meant by a list of definitions and by its look on a terminal. -/
import Verif.Basic

namespace Verif.Term.Defs

/-- A term with its definitions. -/
structure Item where
  term : Bytes
  defs : List Bytes

/-- A definition in HTML. -/
def Item.dd (d : Bytes) : Bytes := b!"<dd>" ++ d ++ b!"</dd>\n"

/-- An item in HTML. -/
def Item.html (i : Item) : Bytes := b!"<dt>" ++ i.term ++ b!"</dt>\n" ++ i.defs.flatMap Item.dd

/-- The list in HTML. -/
def html (l : List Item) : Bytes := b!"<dl>\n" ++ l.flatMap Item.html ++ b!"</dl>\n"

/-- A text on one line. -/
def oneLine (t : Bytes) : Bytes := t.map fun c => if c = c!"\n" ∨ c = c!"\r" then c!" " else c

/-- An item on a terminal: the term on a line, and below it each definition on a line that begins with `pad`. -/
def Item.shown (pad : Bytes) (i : Item) : Bytes := oneLine i.term ++ b!"\n" ++ i.defs.flatMap fun d => pad ++ oneLine d ++ b!"\n"

/-- The items on a terminal, with an empty line between any two. -/
def shown (pad : Bytes) : List Item → Bytes
  | [] => []
  | [i] => i.shown pad
  | i :: l => i.shown pad ++ b!"\n" ++ shown pad l

/-- No tags in the texts. -/
def Plain (i : Item) : Prop := c!"<" ∉ i.term ∧ ∀ d ∈ i.defs, c!"<" ∉ d

end Verif.Term.Defs
