/-
What callouts are.
-/
import Verif.Model.Callouts

namespace Verif.Callouts

/-- The first line of a callout: the word for its type in any case, a sign for folding, blanks, and the title. -/
structure Line where
  word : Bytes
  sign : Option Bool
  blanks : Bytes
  title : Bytes

/-- How it is written. -/
def Line.source (l : Line) : Bytes :=
  b!"[!" ++ l.word ++ b!"]" ++ (match l.sign with | some true => b!"+" | some false => b!"-" | none => b!"") ++ l.blanks ++ l.title

/-- The types of callouts, and the words for each. -/
def types : List (Bytes × List Bytes) := [
  (b!"note", [b!"NOTE"]),
  (b!"abstract", [b!"ABSTRACT", b!"SUMMARY", b!"TLDR"]),
  (b!"info", [b!"INFO"]),
  (b!"todo", [b!"TODO"]),
  (b!"tip", [b!"TIP", b!"HINT", b!"IMPORTANT"]),
  (b!"success", [b!"SUCCESS", b!"CHECK", b!"DONE"]),
  (b!"question", [b!"QUESTION", b!"HELP", b!"FAQ"]),
  (b!"warning", [b!"WARNING", b!"CAUTION", b!"ATTENTION"]),
  (b!"failure", [b!"FAILURE", b!"FAIL", b!"MISSING"]),
  (b!"danger", [b!"DANGER", b!"ERROR"]),
  (b!"bug", [b!"BUG"]),
  (b!"example", [b!"EXAMPLE"]),
  (b!"quote", [b!"QUOTE", b!"CITE"])]

/-- `name` is the type that the word stands for, in any case. -/
def Names (word name : Bytes) : Prop := ∃ ws, (name, ws) ∈ types ∧ word.map toUpper ∈ ws

/-- Conditions on the parts: without them the line would be divided differently. -/
def Line.Ok (l : Line) : Prop :=
  (∀ c ∈ l.blanks, c = c!" " ∨ c = c!"\t") ∧ l.title.head? ≠ some c!" " ∧ l.title.head? ≠ some c!"\t" ∧
  (l.sign = none → l.blanks = [] → l.title.head? ≠ some c!"+" ∧ l.title.head? ≠ some c!"-")

/-- The HTML in front of a callout. -/
def before (name : Bytes) (sign : Option Bool) (title : Bytes) : Bytes :=
  match sign with
  | none => b!"<div class=\"callout callout-" ++ name ++ b!"\">\n<div class=\"callout-title\">" ++ title ++ b!"</div>\n<div class=\"callout-content\">\n"
  | some true => b!"<details class=\"callout callout-" ++ name ++ b!"\" open>\n<summary>" ++ title ++ b!"</summary>\n<div class=\"callout-content\">\n"
  | some false => b!"<details class=\"callout callout-" ++ name ++ b!"\">\n<summary>" ++ title ++ b!"</summary>\n<div class=\"callout-content\">\n"

/-- The HTML behind it. -/
def behind (sign : Option Bool) : Bytes := if sign = none then b!"\n</div>\n</div>" else b!"\n</div>\n</details>"

/-- A quote with this first line and this content. -/
def quote (lit : Bytes) (l : Line) (p : Bytes) (t : List Node) (more rest : List Node) : Node :=
  .mk .quote lit (.mk .para p (.mk .text l.source t :: more) :: rest)

/-- The first text of a block quote, if it begins with a paragraph that begins with text. -/
def firstText : Node → Option Bytes
  | .mk .quote _ (.mk .para _ (.mk .text lit _ :: _) :: _) => some lit
  | _ => none

mutual
/-- No quote in a tree is a callout. -/
def Without : Node → Prop
  | .mk kind lit kids => (∀ t, firstText (.mk kind lit kids) = some t → ¬ ∃ word name rest, t = b!"[!" ++ word ++ b!"]" ++ rest ∧ Names word name) ∧ Withouts kids
def Withouts : List Node → Prop
  | [] => True
  | n :: ns => Without n ∧ Withouts ns
end

end Verif.Callouts
