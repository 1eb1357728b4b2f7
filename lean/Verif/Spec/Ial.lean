/-
What attribute lists mean.
-/
import Verif.Model.Ial
import Verif.Spec.Text
import Verif.Spec.Transforms

namespace Verif.Ial.Spec
open Transforms.Spec

/-- White space. -/
def Gap (s : Bytes) : Prop := ∀ c ∈ s, White c

/-- How a value is quoted. -/
inductive Quote where
  | double | single | curled | none
deriving DecidableEq, Repr

/-- One entry of an attribute list. -/
inductive Item where
  | id (x : Bytes)
  | cls (x : Bytes)
  | attr (k v : Bytes) (q : Quote)
  | word (w : Bytes)
deriving DecidableEq, Repr

/-- The words with a meaning of their own, and the attribute each stands for. -/
def words : List (Bytes × Bytes) :=
  [(b!"@2x", b!"data-srcset-2x"), (b!"@3x", b!"data-srcset-3x"), (b!"webp", b!"data-srcset-webp"),
   (b!"avif", b!"data-srcset-avif"), (b!"webm", b!"data-video-webm"), (b!"ogg", b!"data-video-ogg"),
   (b!"mp4", b!"data-video-mp4"), (b!"mov", b!"data-video-mov"), (b!"m4v", b!"data-video-m4v"),
   (b!"auto", b!"data-apex-auto")]

/-- A value as it is written. -/
def Quote.wrap : Quote → Bytes → Bytes
  | .double, v => b!"\"" ++ v ++ b!"\""
  | .single, v => b!"'" ++ v ++ b!"'"
  | .curled, v => b!"“" ++ v ++ b!"”"
  | .none, v => v

/-- An entry as it is written. -/
def Item.text : Item → Bytes
  | .id x => b!"#" ++ x
  | .cls x => b!"." ++ x
  | .attr k v q => k ++ b!"=" ++ q.wrap v
  | .word w => w

/-- Nothing of `bad` occurs. -/
def Free (bad x : Bytes) : Prop := ∀ c ∈ x, c ∉ bad

/-- White space and NUL. -/
def blanks : Bytes := [0, 9, 10, 11, 12, 13, 32]

/-- The value can be written with these quotes. -/
def Quote.Ok : Quote → Bytes → Prop
  | .double, v => Free b!"\"\\" v ∧ 0 ∉ v
  | .single, v => Free b!"'\\" v ∧ 0 ∉ v
  | .curled, v => ¬ b!"“" <:+: v ∧ ¬ b!"”" <:+: v ∧ 0 ∉ v
  | .none, v => Free (blanks ++ b!"}") v ∧ (∀ c ∈ v.head?, c ≠ c!"\"" ∧ c ≠ c!"'" ∧ c ≠ 0xE2)

/-- The entry can be written as text. -/
def Item.Ok : Item → Prop
  | .id x => x ≠ [] ∧ Free (blanks ++ b!".}") x
  | .cls x => x ≠ [] ∧ Free (blanks ++ b!".#}") x
  | .attr k v q => k ≠ [] ∧ Free (blanks ++ b!"=}") k ∧ (∀ c ∈ k.head?, c ≠ c!"#" ∧ c ≠ c!".") ∧ q.Ok v
  | .word w => ∃ m, (w, m) ∈ words

/-- What may stand between two entries: white space, which may be left out where the entries cannot run together;
after a word it must begin with a blank or tab. -/
def Apart : Item → Bytes → Item → Prop
  | .id _, sep, .cls _ => Gap sep
  | .cls _, sep, .cls _ => Gap sep
  | .cls _, sep, .id _ => Gap sep
  | .attr _ _ .double, sep, _ => Gap sep
  | .attr _ _ .single, sep, _ => Gap sep
  | .attr _ _ .curled, sep, _ => Gap sep
  | .word _, sep, _ => Gap sep ∧ ∃ c ∈ sep.head?, c = c!" " ∨ c = c!"\t"
  | _, sep, _ => Gap sep ∧ sep ≠ []

/-- `text` is the list of these entries; white space may come first and last (after a word the latter, too,
begins with a blank or tab). -/
inductive Written : Bytes → List Item → Prop where
  | nil {sep} : Gap sep → Written sep []
  | one {i sep fin} : Gap sep → i.Ok → Gap fin →
      ((∃ w, i = .word w) → ∀ c ∈ fin.head?, c = c!" " ∨ c = c!"\t") → Written (sep ++ i.text ++ fin) [i]
  | cons {i j js sep sep' rest} : Gap sep → i.Ok → Apart i sep' j → Written (j.text ++ rest) (j :: js) →
      Written (sep ++ i.text ++ (sep' ++ (j.text ++ rest))) (i :: j :: js)

/-- The id: the last one given. -/
def lastId (items : List Item) : Option Bytes :=
  (items.filterMap fun | .id x => some x | _ => none).getLast?

/-- The classes, in order. -/
def classesOf (items : List Item) : List Bytes :=
  items.filterMap fun | .cls x => some x | _ => none

/-- The other attributes, in order. -/
def attrsOf (items : List Item) : List (Bytes × Bytes) :=
  items.filterMap fun
    | .attr k v _ => some (k, v)
    | .word w => (words.lookup w).map fun m => (m, b!"1")
    | _ => none

/-- A word that is no entry: it has no `=`, is not in the table of words and begins neither `#` nor `.`. -/
def Stray (w : Bytes) : Prop :=
  w ≠ [] ∧ Free (blanks ++ b!"=}") w ∧ (∀ c ∈ w.head?, c ≠ c!"#" ∧ c ≠ c!".") ∧ ∀ m, (w, m) ∉ words

/-- A line defining `name`: `{:name: content}`, perhaps indented, anything behind the brace. -/
def Defines (line name content : Bytes) : Prop :=
  ∃ ws rest, line = ws ++ b!"{:" ++ name ++ b!":" ++ content ++ b!"}" ++ rest ∧ Gap ws ∧ name ≠ [] ∧
    Free b!":}" name ∧ Free b!"}" content

/-- The value an HTML reader takes for a key: the first. -/
def valueOf (l : List (Bytes × Bytes)) (k : Bytes) : Option Bytes := (l.find? fun kv => kv.1 = k).map (·.2)

/-- The last value given for a key. -/
def lastValueOf (l : List (Bytes × Bytes)) (k : Bytes) : Option Bytes := valueOf l.reverse k

/-- What a list of entries means. -/
def meaning (items : List Item) : Attrs :=
  { id := lastId items, classes := classesOf items, attrs := attrsOf items }

/-- The lines are sorted into those kept and the definitions. -/
inductive Sorted : List Bytes → List Bytes → List (Bytes × Attrs) → Prop where
  | nil : Sorted [] [] []
  | keep {l ls kept defs} : (∀ n c, ¬ Defines l n c) → Sorted ls kept defs → Sorted (l :: ls) (l :: kept) defs
  | take {l ls kept defs name content items} : Defines l name content → Written content items →
      Sorted ls kept defs → Sorted (l :: ls) kept ((name, meaning items) :: defs)

/-! ### Output -/

/-- `key="value"`. -/
def written (k v : Bytes) : Bytes := k ++ b!"=\"" ++ v ++ b!"\""

/-- Several texts with `sep` between them. -/
def between (sep : Bytes) : List Bytes → Bytes
  | [] => []
  | [x] => x
  | x :: y :: r => x ++ sep ++ between sep (y :: r)

/-- A length in pixels: digits, perhaps followed by `px`. -/
def Pixels (v n : Bytes) : Prop := (v = n ∨ v = n ++ b!"px") ∧ ∀ c ∈ n, isDigit c = true

/-- Width and height: those in pixels become attributes, the others style declarations. -/
inductive Sizes : List (Bytes × Bytes) → List Bytes → List Bytes → Prop where
  | nil : Sizes [] [] []
  | other {k v l p d} : k ≠ b!"width" → k ≠ b!"height" → Sizes l p d → Sizes ((k, v) :: l) p d
  | number {k v l p d n} : k = b!"width" ∨ k = b!"height" → Pixels v n → n.length < 64 → Sizes l p d →
      Sizes ((k, v) :: l) (written k n :: p) d
  | css {k v l p d} : k = b!"width" ∨ k = b!"height" → (∀ n, ¬ Pixels v n) → Sizes l p d →
      Sizes ((k, v) :: l) p ((k ++ b!": " ++ v) :: d)

/-- Attributes that have their own place (width, height, style) or only steer other passes. -/
def special : List Bytes :=
  [b!"width", b!"height", b!"style"] ++ words.map (·.2)

/-- The id as it should be written. -/
def idPiece (a : Attrs) : List Bytes := match a.id with | some i => [written b!"id" i] | none => []

/-- The classes as they should be written. -/
def classPiece (a : Attrs) : List Bytes :=
  if a.classes = [] then [] else [written b!"class" (between b!" " a.classes)]

/-- The style given, if it is not empty. -/
def styleGiven (a : Attrs) : List Bytes :=
  match valueOf a.attrs b!"style" with | some s => if s = [] then [] else [s] | none => []

/-- The style: first the one given, then the declarations. -/
def stylePiece (decls : List Bytes) : List Bytes :=
  if decls = [] then [] else [written b!"style" (between b!"; " decls)]

/-- The attributes without a place of their own. -/
def otherPieces (l : List (Bytes × Bytes)) : List Bytes :=
  (l.filter fun kv => kv.1 ∉ special).map fun kv => written kv.1 kv.2

/-- The attributes as they should be written, with the given sizes and declarations. -/
def pieces (a : Attrs) (sized decls : List Bytes) : List Bytes :=
  idPiece a ++ classPiece a ++ sized ++ stylePiece (styleGiven a ++ decls) ++ otherPieces a.attrs

end Verif.Ial.Spec
