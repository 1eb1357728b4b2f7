/- What a standalone page is. -/
import Verif.Model.Standalone
import Verif.Spec.Html

namespace Verif.Standalone.Spec

/-- The rules for highlighted code. -/
def rules : Bytes :=
  syntaxOpen ++ b!"    /* Pygments classes */\n" ++ syntaxPygments ++ b!"    /* Skylighting classes */\n" ++ syntaxSkylighting ++ syntaxClose

/-- The page up to the stylesheets. -/
def top (language title : Bytes) (highlighted : Bool) : Bytes :=
  b!"<!DOCTYPE html>\n<html lang=\"" ++ language ++ b!"\">\n<head>\n" ++ b!"  <meta charset=\"UTF-8\">\n" ++
  b!"  <meta name=\"viewport\" content=\"width=device-width, initial-scale=1.0\">\n" ++
  b!"  <meta name=\"generator\" content=\"Apex 0.1.85\">\n" ++ b!"  <title>" ++ title ++ b!"</title>\n" ++
  (if highlighted then rules else [])

/-- The page behind the stylesheets. -/
def bottom (highlighted : Bool) (header footer : Option Bytes) (content : Bytes) : Bytes :=
  (header.elim [] fun h => b!"  " ++ h ++ b!"\n") ++
  (if highlighted then b!"</head>\n<body class=\"code-highlighted\">\n\n" else b!"</head>\n<body>\n\n") ++ content ++
  (footer.elim [] fun f => b!"\n" ++ f) ++ b!"\n</body>\n</html>\n"

/-- A stylesheet that is linked. -/
def linked (path : Bytes) : Bytes := b!"  <link rel=\"stylesheet\" href=\"" ++ path ++ b!"\">\n"

/-- The links to these stylesheets, or the styles for pages without any. -/
def looks (list : Option (List Bytes)) : Bytes := list.elim styles fun l => l.flatMap linked

/-- A stylesheet that is in the page. -/
def inlined (css : Bytes) : Bytes := b!"  <style>\n" ++ css ++ b!"\n  </style>\n"

/-- The whole page. -/
def page (language title : Option Bytes) (highlighted : Bool) (sheets : Bytes) (header footer : Option Bytes) (content : Bytes) : Bytes :=
  top (language.getD b!"en") (title.getD b!"Document") highlighted ++ sheets ++ bottom highlighted header footer content

/-- Scripts, each in its own line. -/
def scriptLines (tags : Option (List Bytes)) : Bytes := ((tags.getD []).filter (· ≠ [])).flatMap (· ++ b!"\n")

/-- The footer with the scripts behind it. -/
def foot (footer : Option Bytes) (tags : Option (List Bytes)) : Option Bytes :=
  match footer with
  | none => if scriptLines tags = [] then none else some (scriptLines tags)
  | some f => if f = [] ∨ scriptLines tags = [] then some (f ++ scriptLines tags) else some (f ++ b!"\n" ++ scriptLines tags)

/-- An array of `count` entries lists these paths: they are all its entries, or a null pointer ends them. -/
def Lists (mem : List (Option Bytes)) (count : Nat) (l : List Bytes) : Prop :=
  ∃ rest, mem = l.map some ++ rest ∧ (count = l.length ∨ l.length < count ∧ rest.head? = some none)

/-- The text is shorter than 2 GB. -/
def Small (s : Bytes) : Prop := s.length < 2147483000

/-- All of these texts are. -/
def Sized (texts : List (Option Bytes)) : Prop := ∀ x ∈ texts, Small (x.getD [])

/-- The stylesheets are given as they should be: none, or an array that lists some. -/
def Given (sheets : Option (List (Option Bytes))) (count : Nat) : Prop :=
  sheets = none ∨ count = 0 ∨ ∃ mem l, sheets = some mem ∧ Lists mem count l ∧ ∀ q ∈ l, Small q

/-- The title that a browser shows: what is between the first `<title>` and the `</title>` behind it. -/
def titleOf (page : Bytes) : Option Bytes :=
  match Embed.find b!"<title>" page with
  | none => none
  | some (_, rest) => (Embed.find b!"</title>" rest).map fun r => Html.decode r.1

/-- The language that a browser takes: the value of the first `lang="…"`. -/
def languageOf (page : Bytes) : Option Bytes :=
  (Embed.find b!"lang=\"" page).map fun r => Html.decode (r.2.takeWhile (· != c!"\""))

/-- A heading: text, and tags without `>` in them. -/
inductive Piece where
  | text (t : Bytes)
  | tag (t : Bytes)

def Piece.Ok : Piece → Prop
  | .text t => c!"<" ∉ t ∧ c!">" ∉ t
  | .tag t => c!"<" ∉ t ∧ c!">" ∉ t

def Piece.src : Piece → Bytes
  | .text t => t
  | .tag t => b!"<" ++ t ++ b!">"

def Piece.shown : Piece → Bytes
  | .text t => t
  | .tag _ => []

/-- A blank. -/
def Blank (c : Byte) : Prop := c ∈ b!" \t\n\r"

/-- `t` is `s` without the blanks around it. -/
def Trimmed (s t : Bytes) : Prop :=
  ∃ a b, s = a ++ t ++ b ∧ (∀ c ∈ a, Blank c) ∧ (∀ c ∈ b, Blank c) ∧ (∀ c ∈ t.head?, ¬ Blank c) ∧ ∀ c ∈ t.getLast?, ¬ Blank c

/-- The stylesheet at this path can be put into the page: it can be read there, or in the base directory, it is not empty,
smaller than 10 MB and without NUL, and the path is not too long. -/
def Readable (files : Bytes → Option Bytes) (base : Option Bytes) (path css : Bytes) : Prop :=
  (files path = some css ∨ files path = none ∧ ∃ d, base = some d ∧ d ≠ [] ∧ files (d ++ b!"/" ++ path) = some css) ∧
  css ≠ [] ∧ css.length < 10485760 ∧ 0 ∉ css ∧ path.length < 2000

/-- There is no file at this path, nor in the base directory. -/
def Missing (files : Bytes → Option Bytes) (base : Option Bytes) (path : Bytes) : Prop :=
  files path = none ∧ ∀ d, base = some d → d ≠ [] → files (d ++ b!"/" ++ path) = none

/-- `css` tells for each of the paths what is there. -/
def Files (files : Bytes → Option Bytes) (base : Option Bytes) (css : Bytes → Option Bytes) (l : List Bytes) : Prop :=
  ∀ p ∈ l, (∀ c, css p = some c → Readable files base p c) ∧ (css p = none → Missing files base p)

/-- The stylesheets of a page that needs no other files: those that are there are in it, the others are linked. -/
def embedded (css : Bytes → Option Bytes) (l : List Bytes) : Bytes := l.flatMap fun p => (css p).elim (linked p) inlined

/-- A path that can stand in a link. -/
def Plain (path : Bytes) : Prop := c!"<" ∉ path ∧ c!"\n" ∉ path

end Verif.Standalone.Spec
