import Verif.Model.IalTree

namespace Verif.IalTree.Spec

/-- An attribute list. -/
def list (c : Bytes) : Bytes := b!"{:" ++ c ++ b!"}"

/-- The content of an attribute list that is not empty. -/
def Content (c : Bytes) : Prop := c ≠ [] ∧ c!"{" ∉ c ∧ c!"}" ∉ c

mutual
/-- There is no `{` in the texts. -/
def Plain : Inl → Prop
  | .text s => c!"{" ∉ s
  | .elem _ _ sub => Plains sub
  | _ => True
def Plains : List Inl → Prop
  | [] => True
  | x :: l => Plain x ∧ Plains l
end

/-- A block without what is below it. -/
inductive Shape
  | para (l : List Inl)
  | heading (l : List Inl)
  | html
  | leaf (takes : Bool)
  | box (takes : Bool)

/-- A block with attributes. -/
def Shape.block (d : Option Bytes) (sub : List Blk) : Shape → Blk
  | .para l => .para d l
  | .heading l => .heading d l
  | .html => .html
  | .leaf t => .leaf t d
  | .box t => .box t d sub

/-- Can it have attributes? -/
def Shape.takes : Shape → Prop
  | .para _ | .heading _ => True
  | .html => False
  | .leaf t | .box t => t = true

def Shape.plain : Shape → Prop
  | .para l | .heading l => Plains l
  | _ => True

/-- A document: blocks, what is below them, and their attribute lists, which are paragraphs of their own; between a block and its list
are some blocks of HTML. -/
inductive Src
  | node (b : Shape) (sub : List Src) (att : Option (Nat × Bytes))

/-- Behind a block as it is written. -/
def tail : Option (Nat × Bytes) → List Blk
  | none => []
  | some (n, c) => List.replicate n .html ++ [.para none [.text (list c)]]

/-- And without the list. -/
def gap : Option (Nat × Bytes) → List Blk
  | none => []
  | some (n, _) => List.replicate n .html

mutual
/-- The document as it is written. -/
def write : Src → List Blk
  | .node b sub att => b.block none (writes sub) :: tail att
def writes : List Src → List Blk
  | [] => []
  | s :: l => write s ++ writes l
end

mutual
/-- The document with the attributes in their place; `a` gives the attributes for the content of a list. -/
def want (a : Bytes → Bytes) : Src → List Blk
  | .node b sub att => b.block (att.map fun x => a x.2) (wants a sub) :: gap att
def wants (a : Bytes → Bytes) : List Src → List Blk
  | [] => []
  | s :: l => want a s ++ wants a l
end

mutual
/-- The texts have no `{`, and attribute lists stand behind blocks that can have attributes; `P` holds for the contents of the lists. -/
def Good (P : Bytes → Prop) : Src → Prop
  | .node b sub att => b.plain ∧ Goods P sub ∧ ∀ n c, att = some (n, c) → b.takes ∧ Content c ∧ P c
def Goods (P : Bytes → Prop) : List Src → Prop
  | [] => True
  | s :: l => Good P s ∧ Goods P l
end

/-- A text, if it is not empty. -/
def txt (s : Bytes) : List Inl := if s = [] then [] else [.text s]

/-- An inline element, its attribute list, and the text behind it. -/
structure Piece where
  k : Kind
  sub : List Inl
  att : Option Bytes
  t : Bytes

def Piece.write (p : Piece) : List Inl := .elem p.k none p.sub :: txt ((p.att.map list).getD [] ++ p.t)

def Piece.want (a : Bytes → Bytes) (p : Piece) : List Inl := .elem p.k (p.att.map a) p.sub :: txt p.t

def Piece.Good (P : Bytes → Prop) (p : Piece) : Prop := Plains p.sub ∧ c!"{" ∉ p.t ∧ ∀ c, p.att = some c → Content c ∧ P c

/-- Text and line breaks, with no element behind the last line break. -/
def Ends (l : List Inl) : Prop := ∃ m t, l = m ++ t ∧ Plains l ∧ (∀ x ∈ t, ∃ s, x = .text s) ∧ (m = [] ∨ ∃ n, m = n ++ [.brk])

/-- A paragraph whose first node is not a text that begins with white space. -/
def Starts : List Inl → Prop
  | .text (c :: _) :: _ => isSpace c = false
  | _ => True

mutual
/-- All paragraphs are like this. -/
def Calm : Blk → Prop
  | .para _ l => Starts l
  | .box _ _ l => Calms l
  | _ => True
def Calms : List Blk → Prop
  | [] => True
  | b :: l => Calm b ∧ Calms l
end

mutual
/-- There is no `{` in the texts of a block. -/
def Free : Blk → Prop
  | .para _ l | .heading _ l => Plains l
  | .box _ _ l => Frees l
  | _ => True
def Frees : List Blk → Prop
  | [] => True
  | b :: l => Free b ∧ Frees l
end

end Verif.IalTree.Spec
