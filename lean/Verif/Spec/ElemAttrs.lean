/-
Attributes of elements put into the tags of a page: independently of the model, whose types of nodes are used here.
-/
import Verif.Model.ElemAttrs
import Verif.Spec.AutoMedia

namespace Verif.ElemAttrs.Spec

/-! ### Pages -/

/-- The tags of the elements that can have attributes. -/
def tags : List (Bytes × Kind) :=
  [(b!"p", .para), (b!"h1", .heading), (b!"h2", .heading), (b!"h3", .heading), (b!"h4", .heading), (b!"h5", .heading), (b!"h6", .heading), (b!"blockquote", .quote),
   (b!"table", .table), (b!"ul", .list), (b!"ol", .list), (b!"li", .item), (b!"pre", .pre), (b!"a", .link), (b!"img", .image), (b!"strong", .strong), (b!"em", .emph), (b!"code", .code)]

/-- What ends the name of a tag. -/
def bounds : Bytes := b!" \t\n\x0b\x0c\r>/"

/-- A piece of a page, up to the next `<`: an end of an element, a comment or the tag of something else; or the tag of an element, with blanks, other attributes, a slash and text. -/
inductive Piece
  | raw (x : Bytes)
  | elem (k : Kind) (name sp body slash text : Bytes)

/-- Elements in a line of text. -/
def lineKinds : List Kind := [.link, .image, .strong, .emph, .code]

/-- A piece is written as said. -/
def Ok : Piece → Prop
  | .raw x => c!"<" ∉ x ∧ (x.head? = some c!"/" ∨ x.head? = some c!"!" ∨ ∀ n r k, x = n ++ r → (n, k) ∈ tags → ∃ c, r.head? = some c ∧ c ∉ bounds)
  | .elem k name sp body slash text => (name, k) ∈ tags ∧ (∀ c ∈ sp, isSpace c = true) ∧ (sp = [] → body = []) ∧ (∀ c, body.head? = some c → isSpace c = false) ∧
      c!"<" ∉ sp ++ body ∧ c!">" ∉ sp ++ body ∧ c!"<" ∉ text ∧
      ((slash = [] ∧ body.getLast? ≠ some c!"/") ∨ (k ∈ lineKinds ∧ ((slash = b!"/" ∧ (sp ++ body).getLast? ≠ some c!" ") ∨ slash = b!" /")))

/-- A piece without attributes. -/
def bare : Piece → Bytes
  | .raw x => b!"<" ++ x
  | .elem _ name sp body slash text => b!"<" ++ name ++ sp ++ body ++ slash ++ b!">" ++ text

/-- A piece with attributes: at the end of a tag in a line of text, in front of the other attributes elsewhere. -/
def dressed (a : Bytes) : Piece → Bytes
  | .raw x => b!"<" ++ x
  | .elem k name sp body slash text =>
    if k ∈ lineKinds then b!"<" ++ name ++ sp ++ body ++ b!" " ++ a ++ (if slash = [] then [] else b!" /") ++ b!">" ++ text
    else b!"<" ++ name ++ sp ++ (if sp = [] then b!" " else []) ++ a ++ body ++ b!">" ++ text

/-- The page without attributes. -/
def plain (ps : List Piece) : Bytes := ps.flatMap bare

/-- The page in which the `i`th element of a kind has the attributes `f` tells. -/
def page (f : Kind → Nat → Option Bytes) : (Kind → Nat) → List Piece → Bytes
  | _, [] => []
  | cnt, .raw x :: ps => bare (.raw x) ++ page f cnt ps
  | cnt, .elem k name sp body slash text :: ps =>
    (match f k (cnt k) with
      | some a => dressed a (.elem k name sp body slash text)
      | none => bare (.elem k name sp body slash text)) ++ page f (fun j => if j = k then cnt j + 1 else cnt j) ps

/-- The elements of a kind, in the order of the page. -/
def elems (k : Kind) (ps : List Piece) : List Piece := ps.filter fun | .elem j .. => j == k | .raw _ => false

/-- How the element starts: the first bytes of its text, or of the address of a link. -/
def Starts (f : Bytes) : Piece → Prop
  | .raw _ => False
  | .elem k _ sp body slash text =>
    if k = .link then ∃ a b url, sp ++ body ++ slash = a ++ b!"href=\"" ++ url ++ b!"\"" ++ b ∧ ¬ b!"href=\"" <:+: a ∧ c!"\"" ∉ url ∧ f = url.take 50
    else f = text.take 50

/-! ### Trees -/

/-- A node: its kind, its attributes, and the start of its text. -/
structure Node where
  kind : Kind
  attrs : Option Bytes
  start : Option Bytes

/-- The text of the first child, or the address of a link. -/
def start (k : Kind) (lit : Option Bytes) (kids : List Tree) : Option Bytes :=
  match k, kids with
  | .link, _ => lit.map (·.take 50)
  | .heading, .node .text _ (some t) _ :: _ => some (t.take 50)
  | .para, .node .text _ (some t) _ :: _ => some (t.take 50)
  | _, _ => none

mutual
/-- The nodes of a tree, from the top. -/
def nodes : Tree → List Node
  | .node k attrs lit kids => ⟨k, attrs, start k lit kids⟩ :: nodesAll kids
/-- Those of several trees. -/
def nodesAll : List Tree → List Node
  | [] => []
  | t :: ts => nodes t ++ nodesAll ts
end

/-- The attributes of the `i`th node of a kind. -/
def attrsOf (ns : List Node) (k : Kind) (i : Nat) : Option Bytes := ((ns.filter fun n => n.kind == k)[i]?).bind (·.attrs)

/-- Attributes without a meaning of their own. -/
def Simple (a : Bytes) : Prop :=
  ¬ b!"data-remove" <:+: a ∧ ¬ b!"colspan=" <:+: a ∧ ¬ b!"rowspan=" <:+: a ∧ ¬ b!"data-apex-replace-video" <:+: a ∧ ¬ b!"data-apex-replace-picture" <:+: a

/-- The kinds numbered together with the headings. -/
def tableLike : List Kind := [.rule, .footnote, .table, .row, .cell]

/-- The elements of the page are those of the tree: the `i`th of each kind starts with the text of the `i`th node, and a paragraph or heading with attributes starts like no other. -/
def Shows (ns : List Node) (ps : List Piece) : Prop :=
  ∀ (k : Kind) (i : Nat) (n : Node) (f : Bytes), (ns.filter fun n => n.kind == k)[i]? = some n → n.attrs.isSome → n.start = some f →
    f ≠ [] ∧ ∀ j p, (elems k ps)[j]? = some p → (j = i → Starts f p) ∧ (k ≠ .link → j ≠ i → ¬ Starts f p)

/-! ### Single elements with attributes -/

/-- The node is the only one with attributes, and the first of its kind. -/
def Only (tree : Tree) (k : Kind) (a : Bytes) : Prop :=
  ∃ x st y, nodes tree = x ++ ⟨k, some a, st⟩ :: y ∧ (∀ n ∈ x ++ y, n.attrs = none) ∧ ∀ n ∈ x, n.kind ≠ k

/-- Attributes in a row, each with a blank in front. -/
def row (as : List (Bytes × Bytes)) : Bytes := as.flatMap fun p => b!" " ++ p.1 ++ b!"=\"" ++ p.2 ++ b!"\""

/-- An attribute: a name and a value that needs no escapes. -/
def Plain (p : Bytes × Bytes) : Prop := p.1 ≠ [] ∧ (∀ c ∈ p.1, isSpace c = false ∧ c ≠ c!"=") ∧ c!"\"" ∉ p.2 ∧ c!"\\" ∉ p.2

/-- Attributes apex uses itself, as the comment of the function lists them. -/
def own : List Bytes := [b!"data-caption", b!"data-remove", b!"colspan", b!"rowspan"]

/-- Those left out. -/
def leftOut : List Bytes := [b!"data-captio", b!"data-remove", b!"colspan", b!"rowspan"]

/-- A video: the formats asked for, and itself. -/
def video (asked : Bytes → Bool) (stem ext type alt : Bytes) : Bytes :=
  b!"<video" ++ (if alt = [] then [] else b!" title=\"" ++ alt ++ b!"\"") ++ b!">" ++
    ((AutoMedia.Spec.types.filter fun t => asked t.1).flatMap fun t => AutoMedia.Spec.source (stem ++ b!"." ++ t.1) t.2) ++
    AutoMedia.Spec.source (stem ++ b!"." ++ ext) type ++ b!"</video>"

/-- A format is asked for by the attributes. -/
def Asks (a : Bytes) (asked : Bytes → Bool) : Prop := ∀ t ∈ AutoMedia.Spec.types, asked t.1 = true ↔ b!"data-apex-video-" ++ t.1 <:+: a

/-- The images of a format, as the attributes have them: behind the first `data-apex-picture-` of that format. -/
def Set (a format : Bytes) (v : Option Bytes) : Prop :=
  match v with
  | some v => ∃ x y, a = x ++ b!"data-apex-picture-" ++ format ++ b!"=\"" ++ v ++ b!"\"" ++ y ∧ c!"\"" ∉ v ∧
      ∀ x' y', a = x' ++ b!"data-apex-picture-" ++ format ++ b!"=\"" ++ y' → x.length ≤ x'.length
  | none => ¬ b!"data-apex-picture-" ++ format ++ b!"=\"" <:+: a

/-- A source of a picture. -/
def source (format : Bytes) : Option Bytes → Bytes
  | some v => b!"<source type=\"image/" ++ format ++ b!"\" srcset=\"" ++ v ++ b!"\">"
  | none => []

/-- A picture: the formats there are, and the image itself. -/
def picture (avif webp : Option Bytes) (src alt title : Bytes) : Bytes :=
  b!"<picture>" ++ source b!"avif" avif ++ source b!"webp" webp ++
    b!"<img src=\"" ++ src ++ b!"\" alt=\"" ++ alt ++ b!"\"" ++ (if title = [] then [] else b!" title=\"" ++ title ++ b!"\"") ++ b!"></picture>"

/-- The title of the tag, or else that of the attributes. -/
def Title (tag a t : Bytes) : Prop :=
  (AutoMedia.Spec.Attr b!"title" tag t ∧ t ≠ []) ∨ (AutoMedia.Spec.Value b!"title" tag [] ∧ AutoMedia.Spec.Value b!"title" (b!"<img " ++ a ++ b!">") t)

end Verif.ElemAttrs.Spec
