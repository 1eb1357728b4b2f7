/-
What the id of a heading should be, in terms of the characters of the heading.
-/
import Verif.Model.EmojiData
import Verif.Spec.Slug
import Verif.Spec.Utf8
import Verif.Spec.Transforms

namespace Verif.HeaderIds.Spec

open Utf8.Spec (encode Scalar)
open Slug (Piece)
open Transforms.Spec (White)

/-- `x` is the name of the emoji `u`: the longest of its names, the first of these if there are several. -/
def NameOf (tab : List Emoji.Entry) (u x : Bytes) : Prop :=
  ∃ pre e post, tab = pre ++ e :: post ∧ e.unicode = some u ∧ e.name = x ∧
    (∀ e' ∈ pre, e'.unicode = some u → e'.name.length < x.length) ∧
    (∀ e' ∈ post, e'.unicode = some u → e'.name.length ≤ x.length)

/-- The letter that replaces a Latin letter with a diacritic. -/
def latin (n : Nat) : Option Byte :=
  if 0xC0 ≤ n ∧ n ≤ 0xC5 then some c!"a"
  else if n = 0xC7 ∨ n = 0xE7 then some c!"c"
  else if 0xC8 ≤ n ∧ n ≤ 0xCB then some c!"e"
  else if 0xCC ≤ n ∧ n ≤ 0xCF then some c!"i"
  else if n = 0xD1 ∨ n = 0xF1 then some c!"n"
  else if 0xD2 ≤ n ∧ n ≤ 0xD8 then some c!"o"
  else if 0xD9 ≤ n ∧ n ≤ 0xDC then some c!"u"
  else if n = 0xDD ∨ n = 0xFD then some c!"y"
  else if n = 0xDF then some c!"s"
  else none

/-- En dash, em dash, and the single curly quotes. -/
def dash (n : Nat) : Bool := n == 0x2013 || n == 0x2014
def quote (n : Nat) : Bool := n == 0x2018 || n == 0x2019

/-- What becomes of a character in GFM format: letters and digits in lower case, blanks and hyphens separate
words, an emoji becomes its name, some Latin letters lose their diacritic, everything else goes. -/
def gfmPiece (name : Bytes → Option Bytes) (n : Nat) : Piece :=
  if n < 128 then
    if isAlnum (.ofNat n) then .keep [toLower (.ofNat n)]
    else if n = 32 ∨ n = 45 then .brk
    else .gone
  else if dash n || quote n then .gone
  else match name (encode n) with
    | some x => .keep x
    | none => match latin n with
      | some l => .keep [l]
      | none => .gone

/-- What becomes of a character in MMD format: letters and digits in lower case, hyphens and everything that is
not ASCII as it is, except curly quotes. -/
def mmdChar (n : Nat) : Bytes :=
  if n < 128 then
    if isAlnum (.ofNat n) then [toLower (.ofNat n)] else if n = 45 then [45] else []
  else if quote n then [] else encode n

/-- The text without its first blank, if only characters that are not ASCII stand in front of it. -/
def dropBlank : List Nat → List Nat
  | [] => []
  | n :: ns => if n ≥ 128 then n :: dropBlank ns else if n = 32 then ns else n :: ns

theorem dropBlank_length (ns : List Nat) : (dropBlank ns).length ≤ ns.length := by
  induction ns with
  | nil => simp [dropBlank]
  | cons n ns ih => rw [dropBlank]; split <;> (try split) <;> simp <;> omega

/-- Kramdown format: letters and digits in lower case, hyphens and blanks become hyphens, other ASCII
characters become a hyphen that takes the blank behind it with it, or go when only white space follows;
characters that are not ASCII go. -/
def kramdown : List Nat → Bytes
  | [] => []
  | n :: ns =>
    if n ≥ 128 then kramdown ns
    else if isAlnum (.ofNat n) then toLower (.ofNat n) :: kramdown ns
    else if n = 45 ∨ n = 32 then 45 :: kramdown ns
    else if ∀ m ∈ ns, m = 32 ∨ m = 9 ∨ m = 10 ∨ m = 13 then kramdown ns
    else 45 :: kramdown (dropBlank ns)
  termination_by ns => ns.length
  decreasing_by
    all_goals simp only [List.length_cons]
    all_goals first | omega | (have := dropBlank_length ns; omega)

/-- An id, or `header` when nothing is left. -/
def orHeader (s : Bytes) : Bytes := if s = [] then b!"header" else s

/-- The bytes of an id. -/
def IdByte (c : Byte) : Prop := isLower c = true ∨ isDigit c = true ∨ c = c!"-" ∨ c = c!"_"

/-- The heading `text` ends in a marker with this id: the text in front (without white space at its end)
is `head`. -/
inductive Marked : Bytes → Bytes → Bytes → Prop
  | mmd {pre ws id after} : id ≠ [] → id.head? ≠ some c!"%" → c!"]" ∉ id → c!"[" ∉ id ++ after →
      (∀ c ∈ ws ++ after, White c) → (∀ c, pre.getLast? = some c → ¬ White c) →
      Marked (pre ++ ws ++ c!"[" :: id ++ c!"]" :: after) pre id
  | kramdown {pre ws id after} : id ≠ [] → c!"}" ∉ id → c!"{" ∉ id ++ after →
      (∀ c ∈ ws ++ after, White c) → (∀ c, pre.getLast? = some c → ¬ White c) →
      Marked (pre ++ ws ++ c!"{" :: c!"#" :: id ++ c!"}" :: after) pre id

end Verif.HeaderIds.Spec
