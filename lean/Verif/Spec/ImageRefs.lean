import Verif.Spec.Images

/-! Documents with references to images, and the definitions for them. -/

namespace Verif.ImageRefs.Spec

open Images (Env Entry trim)
open Images.Spec (imgAddr Inside Address)

/-- A part of a document: text, a reference `![alt][name]`, or a line `[name]: url attrs` with a definition. -/
inductive Item
  | text (t : Bytes)
  | ref (alt name : Bytes)
  | defn (name url attrs : Bytes)

def Item.write : Item → Bytes
  | .text t => t
  | .ref alt name => b!"![" ++ alt ++ b!"][" ++ name ++ b!"]"
  | .defn name url w => b!"[" ++ name ++ b!"]: " ++ url ++ b!" " ++ w ++ b!"\n"

/-- The address and the attributes of the definition for a name; white space around names makes no difference. -/
def look (l : List Item) (name : Bytes) : Option (Bytes × Bytes) :=
  (l.filterMap fun
    | .defn n u w => if trim n = trim name then some (u, w) else none
    | _ => none).head?

/-- The document behind the pass: references are inline images, and definitions are taken out. -/
def Item.want (urls : Bool) (l : List Item) : Item → Bytes
  | .text t => t
  | .ref alt name =>
    match look l name with
    | some (u, _) => b!"![" ++ alt ++ b!"](" ++ imgAddr urls u ++ b!")"
    | none => []
  | .defn _ _ _ => []

/-- An attribute as it is written; values with white space, `;` or quotes are in quotes. -/
def pair (kv : Bytes × Bytes) : Bytes :=
  kv.1 ++ b!"=" ++ if c!" " ∈ kv.2 ∨ c!";" ∈ kv.2 ∨ c!"\"" ∈ kv.2 then b!"\"" ++ kv.2 ++ b!"\"" else kv.2

/-- Attributes as they are written, with blanks between them. -/
def pairs : List (Bytes × Bytes) → Bytes
  | [] => []
  | [kv] => pair kv
  | kv :: l => pair kv ++ b!" " ++ pairs l

/-- The document with the attributes written with the images; `f` gives the attributes for texts. -/
def Item.long (f : Bytes → Ial.Attrs) (urls : Bool) (l : List Item) : Item → Bytes
  | .text t => t
  | .ref alt name =>
    match look l name with
    | some (u, w) => b!"![" ++ alt ++ b!"](" ++ imgAddr urls u ++ b!" " ++ pairs (f w).attrs ++ b!")"
    | none => []
  | .defn _ _ _ => []

/-- The document without its definitions. -/
def Item.rest : Item → Bytes
  | .defn _ _ _ => []
  | x => x.write

/-- The images of a document: their addresses and attributes. -/
def images (f : Bytes → Ial.Attrs) (l : List Item) : List (Bytes × Ial.Attrs) :=
  l.filterMap fun
    | .ref _ name => (look l name).map fun x => (x.1, f x.2)
    | _ => none

/-- Letters, digits and `_`. -/
def word (c : Byte) : Prop := c ∈ b!"abcdefghijklmnopqrstuvwxyzABCDEFGHIJKLMNOPQRSTUVWXYZ0123456789_"

/-- The names of attributes that make a definition one of an image. -/
def imageKeys : List Bytes := [b!"width", b!"height", b!"style", b!"class", b!"id", b!"rel", b!"data-srcset-2x", b!"data-srcset-3x"]

/-- Attributes that can be written: not too long, without `)` and line breaks, and read as the same attributes again. -/
def Written (E : Env) (a : Ial.Attrs) : Prop :=
  (∃ kv ∈ a.attrs, kv.1 ∈ imageKeys) ∧ (∀ kv ∈ a.attrs, kv.1 ≠ [] ∧ ∀ c ∈ kv.1, c ∉ b!"= \t)") ∧
    (pairs a.attrs).length ≤ 1000 ∧ Inside (pairs a.attrs) ∧ E.image (pairs a.attrs) = .val a

def Item.Good (f : Bytes → Ial.Attrs) (E : Env) (l : List Item) : Item → Prop
  | .text t => c!"[" ∉ t ∧ c!"!" ∉ t ∧ t.head? ≠ some c!"(" ∧ t.head? ≠ some c!":"
  | .ref alt name => c!"]" ∉ alt ∧ c!"[" ∉ alt ∧ c!"]" ∉ name ∧ c!"[" ∉ name ∧ (look l name).isSome
  | .defn name url w => c!"]" ∉ name ∧ (trim name).head? ≠ some c!"^" ∧ Address url ∧ c!"\r" ∉ url ∧ c!"\r" ∉ w ∧ c!"\n" ∉ w ∧
      (∃ k v, w = k ++ c!"=" :: v ∧ k ≠ [] ∧ ∀ c ∈ k, word c) ∧ E.image w = .val (f w) ∧ Written E (f w)

/-- Definitions for one name are the same. -/
def Agree (l : List Item) : Prop := ∀ n u w n' u' w', .defn n u w ∈ l → .defn n' u' w' ∈ l → trim n = trim n' → u = u' ∧ w = w'

def letters : Bytes := b!"abcdefghijklmnopqrstuvwxyzABCDEFGHIJKLMNOPQRSTUVWXYZ"

/-- An address with a protocol: a letter, letters, digits, `+`, `-` and `.`, and `://`. -/
def Protocol (u : Bytes) : Prop := ∃ c s r, c ∈ letters ∧ (∀ x ∈ s, x ∈ letters ++ b!"0123456789+-.") ∧ u = c :: (s ++ b!"://" ++ r)

end Verif.ImageRefs.Spec
