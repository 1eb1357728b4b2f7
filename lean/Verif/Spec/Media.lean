/-
Addresses and attributes of images: independently of the model.
-/
import Verif.Spec.Ial

namespace Verif.Media.Spec
open Ial.Spec (Gap Free blanks words)

/-- Where the path of an address begins: at the first `/` behind `://`; without `://`, at the first `/`; without such a `/`, at the beginning. -/
inductive Start : Bytes → Bytes → Bytes → Prop
  | host {s h r} : ¬ b!"://" <:+: s ++ b!":/" → c!"/" ∉ h → Start (s ++ b!"://" ++ h ++ b!"/" ++ r) (s ++ b!"://" ++ h) (b!"/" ++ r)
  | bare {s h} : ¬ b!"://" <:+: s ++ b!":/" → c!"/" ∉ h → Start (s ++ b!"://" ++ h) [] (s ++ b!"://" ++ h)
  | dir {h r} : c!"/" ∉ h → ¬ b!"://" <:+: h ++ b!"/" ++ r → Start (h ++ b!"/" ++ r) h (b!"/" ++ r)
  | name {h} : c!"/" ∉ h → Start h [] h

/-- A query or a section, or nothing. -/
def Query (t : Bytes) : Prop := t = [] ∨ t.head? = some c!"?" ∨ t.head? = some c!"#"

/-- No query or section begins in the text. -/
def InPath (s : Bytes) : Prop := c!"?" ∉ s ∧ c!"#" ∉ s

/-- An address is `front.ext` and a query or section; the dot is the last one of the path. -/
def Dot (url front ext tail : Bytes) : Prop :=
  ∃ pre rest x, Start url pre rest ∧ rest = x ++ b!"." ++ ext ++ tail ∧ InPath x ∧ InPath ext ∧ c!"." ∉ ext ∧ Query tail ∧ front = pre ++ x

/-- The extensions of videos. -/
def videos : List Bytes := [b!"mp4", b!"mov", b!"webm", b!"ogg", b!"ogv", b!"m4v"]

/-- An address of a video: its path, up to a query or section, ends in a dot and one of the extensions. -/
def Video (url : Bytes) : Prop := ∃ a e t, url = a ++ b!"." ++ e ++ t ∧ a ≠ [] ∧ InPath a ∧ InPath e ∧ Query t ∧ e.map toLower ∈ videos

/-- An attribute of an image. -/
inductive Item where
  | attr (k v : Bytes) (q : Ial.Spec.Quote)
  | word (w : Bytes)
  | title (v : Bytes) (q : Ial.Spec.Quote)
deriving DecidableEq, Repr

/-- An attribute as it is written. -/
def Item.text : Item → Bytes
  | .attr k v q => k ++ b!"=" ++ q.wrap v
  | .word w => w
  | .title v q => q.wrap v

/-- The value can be written with these quotes. -/
def Ok : Ial.Spec.Quote → Bytes → Prop
  | .double, v => Free b!"\"\\" v ∧ 0 ∉ v
  | .single, v => Free b!"'\\" v ∧ 0 ∉ v
  | .curled, _ => False
  | .none, v => Free blanks v ∧ (∀ c ∈ v.head?, c ≠ c!"\"" ∧ c ≠ c!"'")

/-- The attribute can be written as text. -/
def Item.Ok : Item → Prop
  | .attr k v q => k ≠ [] ∧ Free (blanks ++ b!"=") k ∧ (∀ c ∈ k.head?, c ≠ c!"\"" ∧ c ≠ c!"'") ∧ Spec.Ok q v
  | .word w => ∃ m, (w, m) ∈ words
  | .title v q => q ≠ .none ∧ Spec.Ok q v

/-- Attributes with white space between them and around them. -/
inductive Written : Bytes → List Item → Prop
  | nil {sep} : Gap sep → Written sep []
  | one {sep i} : Gap sep → i.Ok → Written (sep ++ i.text) [i]
  | cons {sep i c rest is} : Gap sep → i.Ok → Gap [c] → Written rest is → Written (sep ++ i.text ++ c :: rest) (i :: is)

/-- The attribute each stands for. -/
def Item.pair : Item → List (Bytes × Bytes)
  | .attr k v _ => [(k, v)]
  | .word w => match words.lookup w with | some m => [(m, b!"1")] | none => []
  | .title v _ => [(b!"title", v)]


/-- A word without a meaning, at the end. -/
def Stray (w : Bytes) : Prop := w ≠ [] ∧ Free (blanks ++ b!"=") w ∧ (∀ c ∈ w.head?, c ≠ c!"\"" ∧ c ≠ c!"'") ∧ ∀ m, (w, m) ∉ words

/-! ### What is written -/

/-- There is an attribute of that name. -/
def Marked (a : Ial.Attrs) (k : Bytes) : Prop := k ∈ a.attrs.map (·.1)
instance (a : Ial.Attrs) (k : Bytes) : Decidable (Marked a k) := by unfold Marked; infer_instance

/-- The formats a video can be offered in besides its own. -/
def formats : List Bytes := [b!"webm", b!"ogg", b!"mp4", b!"mov", b!"m4v"]

/-- The list of pictures of another format: `front.new tail 1x, front@2x.new tail 2x, front@3x.new tail 3x`. -/
def pictures (front new tail : Bytes) (two three : Bool) : Bytes :=
  front ++ b!"." ++ new ++ tail ++ b!" 1x" ++ (if two then b!", " ++ (front ++ b!"@2x" ++ b!"." ++ new ++ tail) ++ b!" 2x" else []) ++
    (if three then b!", " ++ (front ++ b!"@3x" ++ b!"." ++ new ++ tail) ++ b!" 3x" else [])

/-- Blanks and tabs. -/
def Pad (s : Bytes) : Prop := ∀ c ∈ s, c = c!" " ∨ c = c!"\t"

end Verif.Media.Spec
