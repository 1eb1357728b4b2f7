/- src/ast_markdown.c: writing a document tree as Markdown.

   Not modelled: the growth of the output buffer (lines 27-50; src/ast_json.c has the same code, modelled in
   `Verif.GrowBuf`) — what is written here is the sequence of bytes appended, and the allocations succeed.
   cmark-gfm is not part of the checkout; its accessors are taken to behave as documented: a literal is NULL except for
   text, code, HTML and custom nodes, and the URL and title of a link or image are never NULL. -/
import Verif.Basic
import Verif.Model.Escape
import Verif.Model.Embed
import Verif.Model.Man

namespace Verif.ToMarkdown

open Escape (Dialect escapeMarkdown)

/-- The node types of cmark-gfm the writer distinguishes (src/ast_markdown.c:107-211 and 219-385), and those reaching its
`default` branches: inline HTML, strikethrough, footnote references, tables, rows, cells and anything else. -/
inductive Kind
  | document | paragraph | heading (level : Nat) | codeBlock (info literal : Bytes) | quote
  | list (ordered : Bool) (start : Nat) | item | rule | htmlBlock (literal : Bytes)
  | text (literal : Bytes) | softBreak | lineBreak | code (literal : Bytes) | emph | strong
  | link (url title : Bytes) | image (url title : Bytes)
  | htmlInline (literal : Bytes) | strike | noteRef (label : Bytes) | table | row | cell | other
  deriving DecidableEq

/-- A node with its children. -/
inductive Node
  | mk (kind : Kind) (kids : List Node)

/-- `cmark_node_get_type`, with the data of the node. -/
def Node.kind : Node → Kind
  | .mk k _ => k

/-- The children of a node, `cmark_node_first_child` and then `cmark_node_next`. -/
def Node.kids : Node → List Node
  | .mk _ ks => ks

/-- `CMARK_NODE_LINK`. -/
def Node.isLink (n : Node) : Bool :=
  match n.kind with
  | .link _ _ => true
  | _ => false

/-- `CMARK_NODE_LIST` or `CMARK_NODE_ITEM`. -/
def Node.isList (n : Node) : Bool :=
  match n.kind with
  | .list _ _ => true
  | .item => true
  | _ => false

/-- `CMARK_NODE_SOFTBREAK`. -/
def Node.isSoft (n : Node) : Bool :=
  match n.kind with
  | .softBreak => true
  | _ => false

/-- src/ast_markdown.c:108-135, a text node. -/
def text (d : Dialect) (s : Bytes) : Bytes :=
  if d = .mmd then
    match Embed.find b!"{{TOC" s with
    | some (a, r) =>
      -- the search for the end starts at the marker, whose own bytes hold no "}}"
      match Embed.find b!"}}" (b!"{{TOC" ++ r) with
      | some (_, r') => escapeMarkdown d a ++ b!"{{TOC}}" ++ escapeMarkdown d r'
      | none => escapeMarkdown d a ++ escapeMarkdown d s
    | none => escapeMarkdown d s
  else escapeMarkdown d s

/-- src/ast_markdown.c:177-184 and 193-200, what follows the description of a link or image. -/
def target (url title : Bytes) : Bytes := b!"](" ++ url ++ b!" \"" ++ title ++ b!"\"" ++ b!")"

mutual
/-- src/ast_markdown.c:101-211 `serialize_inline`. -/
def inline (d : Dialect) : Node → Bytes
  | .mk k kids =>
    match k with
    | .text s => text d s
    | .softBreak => b!"\n"
    | .lineBreak => b!"  \n"
    | .code s => b!"`" ++ s ++ b!"`"
    | .emph => b!"*" ++ inlines d kids ++ b!"*"
    | .strong => b!"**" ++ inlines d kids ++ b!"**"
    | .link url title => b!"[" ++ linkKids d kids ++ target url title
    | .image url title => b!"![" ++ target url title
    | _ => inlines d kids
/-- The loops over children, e.g. src/ast_markdown.c:155-157. -/
def inlines (d : Dialect) : List Node → Bytes
  | [] => []
  | n :: ns => inline d n ++ inlines d ns
/-- src/ast_markdown.c:171-175: links inside a link are left out. -/
def linkKids (d : Dialect) : List Node → Bytes
  | [] => []
  | n :: ns => (if n.isLink then [] else inline d n) ++ linkKids d ns
end

/-- src/ast_markdown.c:232-245, the test for a paragraph made of a TOC marker. -/
def tocPara (d : Dialect) (kids : List Node) : Bool :=
  d = .mmd &&
    match kids with
    | [.mk (.text s) _] => b!"{{TOC".isPrefixOf s
    | _ => false

/-- src/ast_markdown.c:286-305, the children of a paragraph in a block quote; `first` is `first_item`. -/
def quoted (d : Dialect) (first : Bool) : List Node → Bytes
  | [] => []
  | n :: ns =>
    if n.isSoft then b!"\n> " ++ quoted d false ns
    else (if first then b!"> " else []) ++ inline d n ++ quoted d false ns

mutual
/-- src/ast_markdown.c:214-386 `serialize_block`: what is appended.  (The byte taken back in lines 319-322 is a newline
just appended, and another newline is appended behind it.) -/
def block (d : Dialect) : Node → Bytes
  | .mk k kids =>
    match k with
    | .document => docKids d kids
    | .paragraph => if tocPara d kids then b!"{{TOC}}\n\n" else inlines d kids ++ b!"\n\n"
    | .heading level => List.replicate level c!"#" ++ b!" " ++ inlines d kids ++ b!"\n\n"
    | .codeBlock info s => b!"```" ++ info ++ b!"\n" ++ s ++ b!"\n```\n\n"
    | .quote => quoteKids d kids
    | .list ordered start => items d ordered start 0 kids ++ b!"\n"
    | .item => blocks d kids
    | .rule => b!"---\n\n"
    | .htmlBlock s =>
      if d = .mmd ∧ (Embed.find b!"<!--TOC" s).isSome then b!"{{TOC}}\n\n" else s ++ b!"\n\n"
    | _ => blocks d kids
/-- The loops over children, e.g. src/ast_markdown.c:350-352 and 381-383. -/
def blocks (d : Dialect) : List Node → Bytes
  | [] => []
  | n :: ns => block d n ++ blocks d ns
/-- src/ast_markdown.c:220-227, the children of the document. -/
def docKids (d : Dialect) : List Node → Bytes
  | [] => []
  | n :: ns => block d n ++ (if n.isList then [] else b!"\n") ++ docKids d ns
/-- src/ast_markdown.c:281-327, the children of a block quote. -/
def quoteKids (d : Dialect) : List Node → Bytes
  | [] => []
  | n :: ns =>
    (match n.kind with
      | .paragraph => quoted d true n.kids ++ (if ns = [] then b!"\n\n" else b!"\n")
      | _ =>
        let s := b!"> " ++ block d n
        if ns = [] then s else (if s.getLast? = some 10 then s.dropLast else s) ++ b!"\n") ++
      quoteKids d ns
/-- src/ast_markdown.c:331-345, the items of a list; `i` is `item_index`. -/
def items (d : Dialect) (ordered : Bool) (start i : Nat) : List Node → Bytes
  | [] => []
  | n :: ns =>
    (if ordered then Man.decimal (start + i) ++ b!". " else b!"- ") ++ block d n ++ items d ordered start (i + 1) ns
end

/-- src/ast_markdown.c:388-409 `apex_cmark_to_markdown`; `none` is the NULL for a node that is no document. -/
def markdown (d : Dialect) (doc : Node) : Option Bytes :=
  match doc.kind with
  | .document => some (block d doc)
  | _ => none

end Verif.ToMarkdown
