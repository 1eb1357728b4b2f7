/- What `apex_parse`, `apex_render_html` and `apex_node_free` should do, without the program. -/
import Verif.Model.Simple

namespace Verif.Simple.Spec

/-! ### Documents -/

/-- A block of a document. -/
inductive Block
  | heading (level : Nat) (text : Bytes)
  | para (text : Bytes)
  | code (info body : Bytes)

/-- What is written, with a blank line behind it. -/
def Block.write : Block → Bytes
  | .heading n t => List.replicate n c!"#" ++ b!" " ++ t ++ b!"\n\n"
  | .para t => t ++ b!"\n\n"
  | .code i b => b!"```" ++ i ++ b!"\n" ++ b ++ b!"```\n\n"

/-- The node that is meant. -/
def Block.node : Block → Node
  | .heading n t => .heading n (some t)
  | .para t => .para (some t)
  | .code i b => .code (if i = [] then none else some i) (some b)

/-- No zero and no line end. -/
def Line (s : Bytes) : Prop := ∀ c ∈ s, c ≠ 0 ∧ c ≠ c!"\n"

/-- Headings have one to six signs; a paragraph has no blank lines and does not begin like another block; a code block ends with a line end and has no fence inside. -/
def Block.Ok : Block → Prop
  | .heading n t => 1 ≤ n ∧ n ≤ 6 ∧ Line t
  | .para t => (∃ c s, t = c :: s ∧ c ≠ c!"\n" ∧ c ≠ c!"\r" ∧ c ≠ c!"#" ∧ c ≠ c!"`") ∧ (∀ c ∈ t, c ≠ 0) ∧ ¬ b!"\n\n" <:+: t ∧ t.getLast? ≠ some c!"\n"
  | .code i b => Line i ∧ (∀ c ∈ b, c ≠ 0) ∧ ¬ b!"```" <:+: b ∧ (b = [] ∨ b.getLast? = some c!"\n")

/-! ### Pages -/

/-- A name of an element or attribute. -/
def Name (w : Bytes) : Prop := w ≠ [] ∧ ∀ c ∈ w, isAlnum c = true

/-- Attributes, each with a blank in front of it and a value without brackets and quotes. -/
inductive Attrs : Bytes → Prop
  | nil : Attrs []
  | cons {n v r : Bytes} : Name n → (∀ c ∈ v, c ≠ c!"<" ∧ c ≠ c!">" ∧ c ≠ c!"\"") → Attrs r → Attrs (b!" " ++ n ++ b!"=\"" ++ v ++ b!"\"" ++ r)

/-- `Shows h w`: `h` is well-formed HTML, in which each element is closed, and what one reads in it, without white space, is `w`. -/
inductive Shows : Bytes → Bytes → Prop
  | nil : Shows [] []
  | space {c : Byte} {s w : Bytes} : isSpace c = true → Shows s w → Shows (c :: s) w
  | char {c : Byte} {s w : Bytes} : isSpace c = false → c ≠ c!"<" → c ≠ c!">" → c ≠ c!"&" → c ≠ c!"\"" → Shows s w → Shows (c :: s) (c :: w)
  | lt {s w : Bytes} : Shows s w → Shows (b!"&lt;" ++ s) (c!"<" :: w)
  | gt {s w : Bytes} : Shows s w → Shows (b!"&gt;" ++ s) (c!">" :: w)
  | amp {s w : Bytes} : Shows s w → Shows (b!"&amp;" ++ s) (c!"&" :: w)
  | quot {s w : Bytes} : Shows s w → Shows (b!"&quot;" ++ s) (c!"\"" :: w)
  | elem {n a t v s w : Bytes} : Name n → Attrs a → Shows t v → Shows s w → Shows (b!"<" ++ n ++ a ++ b!">" ++ t ++ b!"</" ++ n ++ b!">" ++ s) (v ++ w)
  | void {n a s w : Bytes} : Name n → Attrs a → Shows s w → Shows (b!"<" ++ n ++ a ++ b!" />" ++ s) w

/-- Without white space. -/
def squeeze (s : Bytes) : Bytes := s.filter fun c => !isSpace c

mutual

/-- The text of a tree, without white space. -/
def words : Node → Bytes
  | .doc ks => wordsAll ks
  | .heading _ lit => squeeze (lit.getD [])
  | .para lit => squeeze (lit.getD [])
  | .code _ lit => squeeze (lit.getD [])
  | .hr => []
  | .quote ks => wordsAll ks
  | .list ks => wordsAll ks
  | .item ks => wordsAll ks
  | .text lit => squeeze (lit.getD [])
  | .emph ks => wordsAll ks
  | .strong ks => wordsAll ks
  | .span lit => squeeze (lit.getD [])
  | .link _ _ ks => wordsAll ks
  | .image _ _ _ => []
  | .br => []
  | .soft => []
  | .other ks => wordsAll ks

/-- The text of trees. -/
def wordsAll : List Node → Bytes
  | [] => []
  | k :: ks => words k ++ wordsAll ks

end

mutual

/-- Only the usual nodes, and headings of the levels one to six. -/
def Known : Node → Prop
  | .doc ks => KnownAll ks
  | .heading n _ => 1 ≤ n ∧ n ≤ 6
  | .quote ks => KnownAll ks
  | .list ks => KnownAll ks
  | .item ks => KnownAll ks
  | .emph ks => KnownAll ks
  | .strong ks => KnownAll ks
  | .link _ _ ks => KnownAll ks
  | .other _ => False
  | _ => True

/-- All of them. -/
def KnownAll : List Node → Prop
  | [] => True
  | k :: ks => Known k ∧ KnownAll ks

end

/-! ### Nodes in memory -/

/-- The node `p` has exactly the children `l`, in this order, and all links between them are right. -/
def Kids (h : Heap) (p : Nat) (l : List Nat) : Prop :=
  (∃ y, h p = some y ∧ y.first = l.head? ∧ y.last = l.getLast?) ∧
    ∀ a c b, l = a ++ c :: b → ∃ x, h c = some x ∧ x.parent = some p ∧ x.prev = a.getLast? ∧ x.next = b.head?

/-- A tree of addresses. -/
inductive Tree
  | node (a : Nat) (kids : List Tree)

/-- The address of its root. -/
def Tree.root : Tree → Nat
  | .node a _ => a

mutual

/-- All addresses. -/
def ids : Tree → List Nat
  | .node a ks => a :: idsAll ks

/-- All addresses of the trees. -/
def idsAll : List Tree → List Nat
  | [] => []
  | k :: ks => ids k ++ idsAll ks

end

mutual

/-- The tree is in memory, its root followed by `nx`. -/
def Stored (h : Heap) : Tree → Option Nat → Prop
  | .node a ks, nx => (∃ x, h a = some x ∧ x.next = nx ∧ x.first = ks.head?.map Tree.root) ∧ StoredAll h ks

/-- The trees are in memory, each followed by the next one. -/
def StoredAll (h : Heap) : List Tree → Prop
  | [] => True
  | k :: ks => Stored h k (ks.head?.map Tree.root) ∧ StoredAll h ks

end

end Verif.Simple.Spec
