import Verif.Model.Images

namespace Verif.Images.Spec

/-- The address of a link, as it is written: bytes that are not allowed in addresses are encoded. -/
def addr (urls : Bool) (u : Bytes) : Bytes := if urls then u.flatMap Escape.ialUrlByte else u

/-- The address of an image: with a protocol it is not changed. -/
def imgAddr (urls : Bool) (u : Bytes) : Bytes := addr (urls && !hasProtocol u) u

/-- What is behind the address of an image: attributes or a title, with one blank in front. -/
inductive Tl
  | no
  | attrs (w : Bytes)
  | title (t : Bytes)

/-- An image: `![alt](url tail)`, with an attribute list `{list}`. -/
structure Pic where
  alt : Bytes
  url : Bytes
  tail : Tl
  list : Option Bytes

inductive Piece
  | text (t : Bytes)
  | link (label url : Bytes) (title : Option Bytes)
  | image (p : Pic)

def Tl.write : Tl → Bytes
  | .no => []
  | .attrs w => c!" " :: w
  | .title t => c!" " :: t

/-- A title with one blank in front. -/
def titled : Option Bytes → Bytes
  | none => []
  | some t => c!" " :: t

/-- An attribute list. -/
def braced : Option Bytes → Bytes
  | none => []
  | some c => b!"{" ++ c ++ b!"}"

/-- What is left of attributes or a title. -/
def Tl.left : Tl → Bytes
  | .no => []
  | .attrs _ => b!" "
  | .title t => c!" " :: t

/-- The attributes behind an address. -/
def Tl.text : Tl → Option Bytes
  | .attrs w => some w
  | _ => none

def Piece.write : Piece → Bytes
  | .text t => t
  | .link l u t => b!"[" ++ l ++ b!"](" ++ u ++ titled t ++ b!")"
  | .image p => b!"![" ++ p.alt ++ b!"](" ++ p.url ++ p.tail.write ++ b!")" ++ braced p.list

/-- The text that is left: of attributes only the blank in front of them. -/
def Piece.want (urls : Bool) : Piece → Bytes
  | .text t => t
  | .link l u t => b!"[" ++ l ++ b!"](" ++ addr urls u ++ titled t ++ b!")"
  | .image p => b!"![" ++ p.alt ++ b!"](" ++ imgAddr urls p.url ++ p.tail.left ++ b!")"

/-- The attributes of an image: those in the parentheses and those of its list; `f` and `g` give the attributes for texts. -/
def Pic.attrs (f g : Bytes → Ial.Attrs) (p : Pic) : Option Ial.Attrs :=
  match p.tail, p.list with
  | .attrs w, some c => some (Ial.merge (f w) (g c))
  | .attrs w, none => some (f w)
  | _, some c => some (g c)
  | _, none => none

/-- Without `)` and line break. -/
def Inside (s : Bytes) : Prop := c!")" ∉ s ∧ c!"\n" ∉ s

/-- An address without white space. -/
def Address (u : Bytes) : Prop := u ≠ [] ∧ Inside u ∧ c!" " ∉ u ∧ c!"\t" ∉ u

/-- A title in quotes, with nothing behind it. -/
def Quoted (t : Bytes) : Prop := ∃ q x, (q = c!"\"" ∨ q = c!"'") ∧ q ∉ x ∧ t = q :: x ++ [q]

def Tl.Good (f : Bytes → Ial.Attrs) (E : Env) : Tl → Prop
  | .no => True
  | .attrs w => Inside w ∧ (∃ c s, w = c :: s ∧ c ∉ b!" \t(\"'") ∧ E.image w = .val (f w)
  | .title t => Inside t ∧ Quoted t

/-- The text between the braces of an attribute list. -/
def Content (c : Bytes) : Prop := c!"}" ∉ c ∧ ∃ d s, c = d :: s ∧ (d ∈ b!"#." ∨ alpha d = true)

def Pic.Good (f g : Bytes → Ial.Attrs) (E : Env) (p : Pic) : Prop :=
  c!"]" ∉ p.alt ∧ Address p.url ∧ ¬ b!".*" <:+ p.url ∧ p.tail.Good f E ∧
    ∀ c, p.list = some c → Content c ∧ E.ial c = .val (g c) ∧ (g c).attrs ≠ []

def Piece.Good (f g : Bytes → Ial.Attrs) (E : Env) : Piece → Prop
  | .text t => c!"[" ∉ t ∧ c!"{" ∉ t ∧ t.getLast? ≠ some c!"!"
  | .link l u t => c!"]" ∉ l ∧ ¬ b!"![" <+: l ∧ Address u ∧ ∀ x, t = some x → Inside x ∧ ∃ c s, x = c :: s ∧ c ∈ b!"\"'("
  | .image p => p.Good f g E

/-- The images of a document, in their order. -/
def pics (l : List Piece) : List Pic := l.filterMap fun | .image p => some p | _ => none

/-- The entries for the images from number `n` on. -/
def entries (f g : Bytes → Ial.Attrs) (urls : Bool) : Nat → List Pic → List Entry
  | _, [] => []
  | n, p :: l =>
    (if (p.attrs f g).isSome ∨ Media.isVideo p.url then [⟨imgAddr urls p.url, (p.attrs f g).getD Ial.empty, some n, none⟩] else []) ++
      entries f g urls (n + 1) l

/-- A text with references `![alt][name]` to images; each comes with the entry for its name. -/
inductive Part
  | text (t : Bytes)
  | ref (alt name : Bytes) (e : Entry)

def Part.write : Part → Bytes
  | .text t => t
  | .ref alt name _ => b!"![" ++ alt ++ b!"][" ++ name ++ b!"]"

/-- The inline image for a reference: its alt text, and address and attributes of the definition. -/
def Part.want : Part → Bytes
  | .text t => t
  | .ref alt _ e => b!"![" ++ alt ++ b!"](" ++ e.url ++ (if inlineFormat e.attrs = [] then [] else c!" " :: inlineFormat e.attrs) ++ b!")"

/-- Texts have no `!`; `e` is the first definition for the name. -/
def Part.Good (es : List Entry) : Part → Prop
  | .text t => c!"!" ∉ t
  | .ref alt name e => c!"]" ∉ alt ∧ c!"]" ∉ name ∧ name.head? ≠ some c!"[" ∧ es.find? (fun e => e.ref = some (trim name)) = some e

def Part.isRef : Part → Bool
  | .text _ => false
  | .ref _ _ _ => true

end Verif.Images.Spec
