/-
Callouts: src/extensions/callouts.c, called for the parsed document by src/apex.c:5079.
Simplified: a tree has its kinds of nodes, texts and children and nothing else; `strdup` succeeds.
-/
import Verif.Basic

namespace Verif.Callouts

/-- Kinds of nodes; the others are numbered. -/
inductive Kind where
  | quote | para | text | html | other (n : Nat)
deriving DecidableEq, Repr

/-- A node of the document. -/
inductive Node where
  | mk (kind : Kind) (literal : Bytes) (children : List Node)

/-- src/extensions/callouts.c:26-38 with :47-63: the words in capitals, and the names of their types. -/
def words : List (Bytes × Bytes) := [
  (b!"NOTE", b!"note"), (b!"ABSTRACT", b!"abstract"), (b!"SUMMARY", b!"abstract"), (b!"TLDR", b!"abstract"), (b!"INFO", b!"info"),
  (b!"TODO", b!"todo"), (b!"TIP", b!"tip"), (b!"HINT", b!"tip"), (b!"IMPORTANT", b!"tip"), (b!"SUCCESS", b!"success"),
  (b!"CHECK", b!"success"), (b!"DONE", b!"success"), (b!"QUESTION", b!"question"), (b!"HELP", b!"question"), (b!"FAQ", b!"question"),
  (b!"WARNING", b!"warning"), (b!"CAUTION", b!"warning"), (b!"ATTENTION", b!"warning"), (b!"FAILURE", b!"failure"), (b!"FAIL", b!"failure"),
  (b!"MISSING", b!"failure"), (b!"DANGER", b!"danger"), (b!"ERROR", b!"danger"), (b!"BUG", b!"bug"), (b!"EXAMPLE", b!"example"),
  (b!"QUOTE", b!"quote"), (b!"CITE", b!"quote")]

/-- `detect_callout_type` and `callout_type_name`, src/extensions/callouts.c:15-63. -/
def typeName (s : Bytes) : Option Bytes := if s.length ≥ 64 then none else (words.find? fun w => w.1 == s.map toUpper).map (·.2)

/-- What is found out about a callout: the name of its type, whether it can be folded and is open, its title. -/
structure Head where
  name : Bytes
  fold : Option Bool
  title : Option Bytes
deriving DecidableEq, Repr

/-- The part of `is_bear_callout` that reads the text, src/extensions/callouts.c:85-126. -/
def readHead (text : Bytes) : Option Head :=
  if b!"[!" <+: text then
    let s := text.drop 2
    let type := s.takeWhile (· != c!"]")
    match s.drop type.length with
    | [] => none
    | _ :: rest =>
      if type = [] then none
      else
        (typeName type).map fun name =>
          let fold := match rest with | c :: _ => if c = c!"+" then some true else if c = c!"-" then some false else none | [] => none
          let rest := if fold.isSome then rest.drop 1 else rest
          let rest := rest.dropWhile fun c => c == c!" " || c == c!"\t"
          { name := name, fold := fold, title := if rest = [] then none else some (rest.takeWhile (· != c!"\n")) }
  else none

/-- `is_bear_callout`, src/extensions/callouts.c:70-127, for the children of a block quote. -/
def callout : List Node → Option Head
  | .mk .para _ (.mk .text lit _ :: _) :: _ => readHead lit
  | _ => none

/-- src/extensions/callouts.c:141-153: the HTML in front, at most 1023 bytes of it. -/
def opening (h : Head) : Bytes :=
  let title := h.title.getD h.name
  (match h.fold with
  | some isOpen => b!"<details class=\"callout callout-" ++ h.name ++ b!"\"" ++ (if isOpen then b!" open" else b!"") ++ b!">\n<summary>" ++ title ++
      b!"</summary>\n<div class=\"callout-content\">\n"
  | none => b!"<div class=\"callout callout-" ++ h.name ++ b!"\">\n<div class=\"callout-title\">" ++ title ++
      b!"</div>\n<div class=\"callout-content\">\n").take 1023

/-- src/extensions/callouts.c:146, :152: the HTML behind. -/
def ending (h : Head) : Bytes := if h.fold.isSome then b!"\n</div>\n</details>" else b!"\n</div>\n</div>"

/-- src/extensions/callouts.c:155-173: the children of the quote without the first line. -/
def strip : List Node → List Node
  | .mk k l (.mk .text lit kids :: more) :: rest =>
    match (lit.dropWhile (· != c!"\n")).drop 1 with
    | [] => .mk k l more :: rest
    | t => .mk k l (.mk .text t kids :: more) :: rest
  | ns => ns

mutual
/-- `apex_process_callouts_in_tree`, src/extensions/callouts.c:192-215: what stands in the place of a node afterwards. -/
def process : Node → List Node
  | .mk kind lit kids =>
    match if kind = .quote then callout kids else none with
    | some h => [.mk .html (opening h) [], .mk kind lit (strip kids), .mk .html (ending h) []]
    | none => [.mk kind lit (processAll kids)]
/-- The loop over the children, :209-214. -/
def processAll : List Node → List Node
  | [] => []
  | n :: ns => process n ++ processAll ns
end

end Verif.Callouts
