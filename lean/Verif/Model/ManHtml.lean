/- src/ast_man.c: manual pages as HTML.

   Trees of nodes are those of `Verif.Man`; a NULL literal or URL is an empty one, and texts have no zero byte.  The buffer (lines 31-48) is that of `Verif.GrowBuf`; allocations succeed.  Colouring of code
   (lines 822-828 and 912-918) is that of `Verif.CodeColor` and left out here. -/
import Verif.Basic
import Verif.Model.Man
import Verif.Model.Embed

namespace Verif.ManHtml
open Man (Node Kind plainText plainTexts isDlBlock decimal)

/-- ast_man.c:591-603 `man_buf_append_html_escaped`. -/
def esc (s : Bytes) : Bytes :=
  s.flatMap fun c => if c = c!"&" then b!"&amp;" else if c = c!"<" then b!"&lt;" else if c = c!">" then b!"&gt;" else if c = c!"\"" then b!"&quot;" else if c = c!"'" then b!"&#39;" else [c]

mutual
/-- ast_man.c:627-679 `render_inline_man_html`. -/
def inline : Node → Bytes
  | .mk k kids =>
    match k with
    | .text s => esc s
    | .code s => b!"<code>" ++ esc s ++ b!"</code>"
    | .lineBreak => b!"<br>\n"
    | .softBreak => b!" "
    | .strong => b!"<strong>" ++ inlines kids ++ b!"</strong>"
    | .emph => b!"<em>" ++ inlines kids ++ b!"</em>"
    | .link url => if url ≠ [] then b!"<a href=\"" ++ esc url ++ b!"\">" ++ inlines kids ++ b!"</a>" else inlines kids
    | .htmlInline => []
    | _ => inlines kids
/-- The loops over children. -/
def inlines : List Node → Bytes
  | [] => []
  | n :: ns => inline n ++ inlines ns
end

/-- The literal of a text. -/
def literal : Node → Option Bytes
  | .mk (.text s) _ => some s
  | _ => none

/-- ast_man.c:685-690: the id of a text. -/
def slug (s : Bytes) : Bytes := s.flatMap fun c => if c = c!" " || c = c!"\t" then b!"-" else if isAlnum c || c = c!"-" then [c] else []

mutual
/-- ast_man.c:681-696 `section_id_from_heading`. -/
def sectionId : Node → Bytes
  | .mk _ kids => sectionIds kids
/-- ast_man.c:682-695: the loop over children, up to the first text. -/
def sectionIds : List Node → Bytes
  | [] => []
  | n :: ns =>
    match literal n with
    | some s => slug s
    | none => sectionId n ++ sectionIds ns
end

mutual
/-- ast_man.c:732-809 `render_block_man_html`; `inItem` says whether the node is the first child of an item. -/
def block (inItem : Bool) : Node → Bytes
  | .mk k kids =>
    match k with
    | .heading level =>
      let tag := b!"h" ++ decimal (min (level + 1) 4)
      b!"\n<div class=\"man-section\"><" ++ tag ++ b!" id=\"" ++ sectionIds kids ++ b!"\">" ++ inlines kids ++ b!"</" ++ tag ++ b!"></div>\n"
    | .paragraph => if inItem then inlines kids ++ b!"\n" else b!"<p>" ++ inlines kids ++ b!"</p>\n"
    | .list bullet => (if bullet then b!"\n<ul>\n" else b!"\n<ol>\n") ++ blocks false kids ++ (if bullet then b!"</ul>\n" else b!"</ol>\n")
    | .item _ => b!"<li>" ++ blocks true kids ++ b!"</li>\n"
    | .codeBlock s => b!"\n<pre><code>" ++ esc s ++ b!"</code></pre>\n"
    | .blockQuote => b!"\n<blockquote>\n" ++ blocks false kids ++ b!"</blockquote>\n"
    | .thematicBreak => b!"\n<hr>\n"
    | .htmlBlock s => if isDlBlock s then s else []
    | _ => blocks false kids
/-- The loops over children. -/
def blocks (inItem : Bool) : List Node → Bytes
  | [] => []
  | n :: ns => block inItem n ++ blocks false ns
end

/-- ast_man.c:605-622 `man_html_css`. -/
def css : Bytes :=
  b!"body { font-family: 'Helvetica Neue', Helvetica, Arial, sans-serif; max-width: 65em; margin: 1em auto; padding: 0 1em; line-height: 1.4; color: #333; }\n" ++
  b!"body.man-standalone { margin: 0; }\n" ++
  b!".man-headline { font-size: 1.75rem; font-weight: bold; margin: 0.5em 0 0.75em; border-bottom: none; color: #a02172; }\n" ++
  b!".man-nav { position: fixed; left: 0; top: 0; width: 14em; height: 100vh; overflow-y: auto; padding: 1.25em 1.5em; border-right: 1px solid #e0ddd6; background: #f5f4f0; font-size: 0.9rem; }\n" ++
  b!".man-nav ul { list-style: none; padding: 0; margin: 0; }\n" ++
  b!".man-nav li { margin: 0.35em 0; }\n" ++
  b!".man-nav a { color: #444; text-decoration: none; display: block; padding: 0.2em 0; }\n" ++
  b!".man-nav a:hover { color: #2376b1; background: rgba(0,0,0,0.03); }\n" ++
  b!".man-main { margin-left: 16em; padding: 1.5em 2em; max-width: 65em; }\n" ++
  b!".man-section { font-weight: bold; margin-top: 1em; margin-bottom: 0.25em; }\n" ++
  b!".man-section h2, .man-section h3, .man-section h4 { font-size: 1em; margin: 0; color: #3f789b; }\n" ++
  b!"p { margin: 0.5em 0; }\n" ++
  b!"strong, .man-option { color: #a02172; font-weight: bold; }\n" ++
  b!"code, .man-option { font-family: monospace; background: #f5f5f5; padding: 0 0.2em; }\n" ++
  b!"pre { background: #f5f5f5; padding: 0.75em; overflow-x: auto; }\n" ++
  b!"ul, ol { margin: 0.5em 0; padding-left: 1.5em; }\n" ++
  b!"a { color: #2376b1; }\n"

/-- The kinds and children of nodes. -/
def isH1 : Node → Bool
  | .mk (.heading 1) _ => true
  | _ => false

/-- Its children. -/
def kidsOf : Node → List Node
  | .mk _ kids => kids

/-- ast_man.c:701-730 `collect_man_sections`, on the children of the document: ids and labels of 48 sections at most, cut to 71 bytes. -/
def sections (doc : List Node) : List (Bytes × Bytes) := ((doc.filter isH1).take 48).map fun n => ((sectionIds (kidsOf n)).take 71, (plainText n).take 71)

/-- ast_man.c:292-307: the text of the first paragraph up to the next heading. -/
def firstPara : List Node → Option Bytes
  | [] => none
  | .mk .paragraph kids :: _ => if plainTexts kids ≠ [] then some (plainTexts kids) else none
  | .mk (.heading _) _ :: _ => none
  | _ :: ns => firstPara ns

/-- ast_man.c:275-310 `get_name_section_paragraph_text`. -/
def nameLine : List Node → Option Bytes
  | [] => none
  | n :: ns => if isH1 n && plainText n = b!"NAME" then firstPara ns else nameLine ns

/-- The white space of ast_man.c:313-327. -/
def gap (c : Byte) : Bool := c = c!" " || c = c!"\t" || c = c!"\n" || c = c!"\r"

/-- ast_man.c:317-324: each run of white space becomes one space. -/
def squeeze : Bool → Bytes → Bytes
  | _, [] => []
  | after, c :: s => if gap c then (if after then squeeze true s else c!" " :: squeeze true s) else c :: squeeze false s

/-- ast_man.c:313-327 `normalize_whitespace`. -/
def normalise (s : Bytes) : Bytes := ((squeeze false (s.dropWhile gap)).reverse.dropWhile fun c => c = c!" " || c = c!"\t").reverse

/-- ast_man.c:834-862: the name and what it does. -/
def headline (title : Bytes) (doc : List Node) : Bytes × Bytes :=
  let h :=
    match nameLine doc with
    | some line =>
      match Embed.find b!" - " line with
      | some (a, b) => (normalise a, normalise b)
      | none => (normalise line, b!"manual page")
    | none => (b!"Document", b!"manual page")
  if title ≠ [] ∧ c!"(" ∈ title ∧ c!")" ∈ title then (title, h.2) else h

/-- ast_man.c:884-896: the navigation. -/
def nav (doc : List Node) : Bytes :=
  if sections doc = [] then []
  else
    b!"<nav class=\"man-nav\"><ul>\n" ++
    (sections doc).flatMap (fun s => if s.1 ≠ [] then b!"<li><a href=\"#" ++ esc s.1 ++ b!"\">" ++ esc s.2 ++ b!"</a></li>\n" else []) ++
    b!"</ul></nav>\n"

/-- ast_man.c:867-908: a page of its own, for a document with these children. -/
def page (title : Bytes) (sheets : List Bytes) (doc : List Node) : Bytes :=
  let h := headline title doc
  b!"<!DOCTYPE html>\n<html lang=\"en\">\n<head>\n<meta charset=\"utf-8\">\n<title>" ++ esc h.1 ++ b!" — " ++ esc h.2 ++ b!"</title>\n<style>\n" ++ css ++ b!"</style>\n" ++
  sheets.flatMap (fun s => b!"<link rel=\"stylesheet\" href=\"" ++ esc s ++ b!"\">\n") ++
  b!"</head>\n<body class=\"man-standalone\">\n" ++ nav doc ++ b!"<main class=\"man-main\">\n<h1 class=\"man-headline\">" ++ esc h.1 ++ b!" — " ++ esc h.2 ++ b!"</h1>\n" ++ blocks false doc ++
  b!"\n</main>\n</body>\n</html>"

end Verif.ManHtml
