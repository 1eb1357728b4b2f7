/- Definition lists with two colons, in the tree of a document (src/extensions/definition_list.c). -/
import Verif.Basic

namespace Verif.DefTree

/-! The parser itself (cmark-gfm) is not part of the repository.  Inline nodes are texts, breaks and others; a paragraph has its source as well as its children, because the source is used when there are no children. -/

/-- Children of paragraphs, terms and definitions. -/
inductive Inl
  | text (s : Bytes)
  | brk
  | other (src : Bytes)
deriving DecidableEq

/-- Children of a definition list behind its term. -/
inductive Kid
  | data (kids : List Inl)
  | para (content : Bytes) (kids : List Inl)
deriving DecidableEq

/-- Blocks of a document: `empty` is a definition list without children. -/
inductive Block
  | para (content : Bytes) (kids : List Inl)
  | list (term : List Inl) (rest : List Kid)
  | empty
  | other (src : Bytes)
deriving DecidableEq

/-! ### Opening a list -/

/-- definition_list.c:69-96 `is_definition_line`. -/
def defLineText (s : Bytes) : Bool :=
  match s.drop (min 3 (s.takeWhile (· = c!" ")).length) with
  | c :: d :: r =>
    c = c!":" && (if d = c!":" then r.head? = some c!" " || r.head? = some c!"\t" else d = c!" " || d = c!"\t")
  | _ => false

/-- definition_list.c:405-424: the line contains a list of attributes. -/
def hasAttrs : Bytes → Bool
  | [] => false
  | c :: s => (c = c!"{" && (s.head? = some c!"#" || s.head? = some c!"." || s.head? = some c!":") && c!"}" ∈ s) || hasAttrs s

/-- definition_list.c:379-424, 69-96: the tests of the line itself. -/
def opens (s : Bytes) : Bool := (s.takeWhile (· = c!" ")).length < 4 && defLineText s && !hasAttrs s

/-- The block in front is a paragraph, definition_list.c:431-462. -/
def afterPara : List Block → Bool
  | .para _ _ :: _ => true
  | _ => false

/-- definition_list.c:373-515 `open_block`, for a document of plain paragraphs of one line each: a line that opens a list makes a list with a term without children behind the paragraph in front of it; the line itself becomes the next paragraph, because the parser closes a list that cannot contain paragraphs (550-574 `can_contain`).  `done` are the blocks before, the nearest one first; a paragraph keeps no source once its children are parsed. -/
def build (done : List Block) : List Bytes → List Block
  | [] => done.reverse
  | s :: l =>
    let p := Block.para [] [.text (s.dropWhile (· = c!" "))]
    if opens s && afterPara done then build (p :: .list [] [] :: done) l else build (p :: done) l

/-! ### After parsing -/

/-- definition_list.c:1702-1711 `term_is_effectively_empty`. -/
def emptyTerm (t : List Inl) : Bool := t.all fun
  | .brk => true
  | _ => false

/-- definition_list.c:1782-1795 `paragraph_is_def_line`. -/
def defLine (content : Bytes) (kids : List Inl) : Bool :=
  b!":: ".isPrefixOf content ||
    match kids with
    | .text s :: _ => b!":: ".isPrefixOf s
    | _ => false

/-- definition_list.c:1740-1759 `move_paragraph_inlines_to_term`, with 1717-1734 `ensure_node_has_content_from_block`. -/
def move (t : List Inl) (content : Bytes) (kids : List Inl) : List Inl :=
  if t ++ kids = [] then (if content = [] then [] else [.text content]) else t ++ kids

/-- definition_list.c:1765-1776 `strip_def_prefix_from_dd`. -/
def strip : List Inl → List Inl
  | .text s :: ks => if b!":: ".isPrefixOf s then .text ((s.drop 3).dropWhile (· = c!" ")) :: ks else .text s :: ks
  | ks => ks

/-- definition_list.c:1801-1848 `create_dd_from_paragraph`: the children of the definition. -/
def dd (content : Bytes) (kids : List Inl) : List Inl :=
  if strip kids = [] then
    if b!":: ".isPrefixOf content && (content.drop 3).dropWhile (· = c!" ") ≠ [] then [.text ((content.drop 3).dropWhile (· = c!" "))] else []
  else strip kids

/-- definition_list.c:1854-1861 `convert_def_line_paragraph_to_dd`. -/
def convert : List Kid → List Kid
  | .para c k :: r => if defLine c k then .data (dd c k) :: r else .para c k :: r
  | r => r

/-- definition_list.c:1918-1922: the term is taken from the paragraph behind the list.  The term, and whether that paragraph was freed. -/
def fromNext (t : List Inl) : List Block → List Inl × Bool
  | .para c k :: _ => if k ≠ [] && !defLine c k then (move t c k, true) else (t, false)
  | _ => (t, false)

/-- definition_list.c:1913-1923: the term, the blocks before the list, and whether the paragraph behind it was freed. -/
def fill (t : List Inl) (done next : List Block) : List Inl × List Block × Bool :=
  if emptyTerm t then
    match done with
    | .para c k :: d => if defLine c k then ((fromNext t next).1, done, (fromNext t next).2) else (move t c k, d, false)
    | _ => ((fromNext t next).1, done, (fromNext t next).2)
  else (t, done, false)

/-- definition_list.c:1867-1957 `postprocess`, without the output for debugging: `done` are the blocks before, the nearest one first.  When the paragraph behind the list was freed its type is read all the same (1926-1929). -/
def post (done : List Block) : List Block → C (List Block)
  | [] => .val done.reverse
  | .list t rest :: .para c k :: l =>
    let x := fill t done (.para c k :: l)
    if x.2.2 then .ub
    else if defLine c k then post (.list x.1 (.data (dd c k) :: convert rest) :: x.2.1) l
    else post (.list x.1 (convert rest) :: x.2.1) (.para c k :: l)
  | .list t rest :: l =>
    let x := fill t done l
    post (.list x.1 (convert rest) :: x.2.1) l
  | .empty :: .para c k :: l =>
    match done with
    | .para c0 k0 :: d => if defLine c k then post (.list (move [] c0 k0) [.data (dd c k)] :: d) l else post (.empty :: done) (.para c k :: l)
    | _ => post (.empty :: done) (.para c k :: l)
  | b :: l => post (b :: done) l

/-- definition_list.c:1962-1988 `html_render`: a list, with the HTML of its inline nodes; the paragraphs that are children are left out. -/
def html (f : Inl → Bytes) : Block → Bytes
  | .list t rest => b!"<dl>\n<dt>" ++ t.flatMap f ++ b!"</dt>\n" ++ (rest.flatMap fun
      | .data ks => b!"<dd>" ++ ks.flatMap f ++ b!"</dd>\n"
      | .para _ ks => ks.flatMap f) ++ b!"</dl>\n"
  | .empty => b!"<dl>\n</dl>\n"
  | .para _ ks => b!"<p>" ++ ks.flatMap f ++ b!"</p>\n"
  | .other s => s

end Verif.DefTree
