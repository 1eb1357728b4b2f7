/- Lists with letters, and pages with the marks of such lists. -/
import Verif.Model.AlphaLists
import Verif.Spec.Text

namespace Verif.AlphaLists.Spec

open Text.Spec (joined)

/-! ### Texts -/

/-- The letter of item `i`, counted from `a`; `a` follows `z`. -/
def letter (upper : Bool) (i : Nat) : Byte := UInt8.ofNat ((if upper then 65 else 97) + i % 26)

/-- Nothing but spaces and tabs. -/
def Blank (s : Bytes) : Prop := ∀ c ∈ s, c = 32 ∨ c = 9

/-- Nothing, or something with a space or tab in front. -/
def Tail (s : Bytes) : Prop := ∀ c, s.head? = some c → c = 32 ∨ c = 9

/-- An item: the blanks in front of its letter, the rest of its line, and the blank line behind it, if there is one. -/
structure Entry where
  indent : Bytes
  rest : Bytes
  gap : Option Bytes

/-- The parts are what they are called. -/
def Entry.Ok (e : Entry) : Prop := Blank e.indent ∧ Tail e.rest ∧ 10 ∉ e.rest ∧ ∀ g, e.gap = some g → Blank g

/-- A line that is not an item, or a list: its case, its first letter and its items. -/
inductive Group
  | line (s : Bytes)
  | list (upper : Bool) (first : Nat) (entries : List Entry)

/-- The lines of the items of a list. -/
def listLines (upper : Bool) : Nat → List Entry → List Bytes
  | _, [] => []
  | k, e :: es => (e.indent ++ letter upper k :: c!"." :: e.rest) :: (e.gap.toList ++ listLines upper (k + 1) es)

/-- The lines of a text. -/
def lines : List Group → List Bytes
  | [] => []
  | .line s :: gs => s :: lines gs
  | .list upper first es :: gs => listLines upper first es ++ lines gs

/-- A line that is an item. -/
def IsItem (s : Bytes) : Prop := ∃ a upper k r, Blank a ∧ Tail r ∧ s = a ++ letter upper k :: c!"." :: r

/-- There is a blank line behind the last item. -/
def endsGap (es : List Entry) : Bool := ((es.getLast?).bind Entry.gap).isSome

/-- What may follow a list: not its next item, and, directly behind the last item, no blank line. -/
def Follows (upper : Bool) (next : Nat) (gap : Bool) : List Group → Prop
  | [] => True
  | .line s :: _ => gap = true ∨ ¬ Blank s
  | .list upper' first _ :: _ => upper' ≠ upper ∨ first % 26 ≠ next % 26

/-- Lists are as long as they can be, and the lines between them are no items. -/
def Ok : List Group → Prop
  | [] => True
  | .line s :: gs => 10 ∉ s ∧ ¬ IsItem s ∧ Ok gs
  | .list upper first es :: gs =>
    es ≠ [] ∧ (∀ e ∈ es, e.Ok) ∧ Follows upper (first + es.length) (endsGap es) gs ∧ Ok gs

/-- The number in front of a line. -/
def leading (s : Bytes) : Nat := ((s.dropWhile blank).takeWhile isDigit).foldl (fun n c => n * 10 + (c.toNat - 48)) 0

/-- A line with a number directly behind a list has one that fits into an `int`. -/
def Small : List Group → Prop
  | [] => True
  | .list _ _ _ :: .line s :: gs => leading s < 2 ^ 31 ∧ Small (.line s :: gs)
  | _ :: gs => Small gs

/-- A line that is the first item of a numbered list. -/
def one (s : Bytes) : Bool :=
  match (s.dropWhile blank).dropWhile (· == c!"0") with
  | c :: d :: r => c == c!"1" && d == c!"." && (match r with | [] => true | x :: _ => x == 32 || x == 9)
  | _ => false

/-- The numbered items of a list. -/
def numbered : Nat → List Entry → List Bytes
  | _, [] => []
  | k, e :: es => (e.indent ++ Man.decimal k ++ b!". " ++ e.rest) :: (e.gap.toList ++ numbered (k + 1) es)

/-- With the mark of the list in front of them. -/
def marked (upper : Bool) (es : List Entry) : List Bytes :=
  match numbered 1 es with
  | [] => []
  | l :: ls => ((if upper then b!"[apex-alpha-list:upper]\n\n" else b!"[apex-alpha-list:lower]\n\n") ++ l) :: ls

/-- The lines of the new text; `gap` behind a list with a blank line behind its last item. -/
def outLines (gap : Bool) : List Group → List Bytes
  | [] => []
  | .line s :: gs => ((if gap && one s then b!"\n\n \n\n" else []) ++ s) :: outLines false gs
  | .list upper _ es :: gs => marked upper es ++ outLines (endsGap es) gs

/-! ### Pages -/

/-- A mark: `text` is in front of it, `close` is the byte that should be `>`, `space` is behind it.  Behind a mark is either
the tag of a list, with `attrs`, or some other byte. -/
inductive Item
  | list (text : Bytes) (upper : Bool) (close : Byte) (space attrs : Bytes)
  | lone (text : Bytes) (upper : Bool) (close : Byte) (space : Bytes) (c : Byte)

/-- The item as bytes. -/
def Item.html : Item → Bytes
  | .list text upper close space attrs => text ++ found upper ++ close :: space ++ b!"<ol" ++ attrs ++ b!">"
  | .lone text upper close space c => text ++ found upper ++ close :: space ++ [c]

/-- The mark is dropped and the list has a style. -/
def Item.out : Item → Bytes
  | .list text upper _ space attrs => text ++ space ++ b!"<ol" ++ attrs ++ style upper
  | .lone text _ _ space c => text ++ space ++ [c]

/-- No mark. -/
def NoMark (s : Bytes) : Prop := ∀ upper, ¬ found upper <:+: s

/-- White space only. -/
def White (s : Bytes) : Prop := ∀ c ∈ s, c = 32 ∨ c = 9 ∨ c = 10 ∨ c = 13

/-- What a tag can have between `<ol` and `>` when it has no style. -/
def Attrs (attrs : Bytes) : Prop :=
  c!">" ∉ attrs ∧ (∀ c, attrs.head? = some c → c = 32 ∨ c = 9 ∨ c = 10) ∧ ¬ b!"style=" <:+: b!"<ol" ++ attrs

/-- Items and what is behind them. -/
def pageHtml (items : List Item) (rest : Bytes) : Bytes := items.flatMap Item.html ++ rest

/-- The same, with styles. -/
def pageOut (items : List Item) (rest : Bytes) : Bytes := items.flatMap Item.out ++ rest

/-- The parts are what they are called; `rest` is behind the items. -/
def ItemsOk (rest : Bytes) : List Item → Prop
  | [] => True
  | .list text _ _ space attrs :: is => NoMark text ∧ White space ∧ Attrs attrs ∧ ItemsOk rest is
  | .lone text _ _ space c :: is =>
    NoMark text ∧ White space ∧ ¬ White [c] ∧
      (¬ ∃ attrs r, Attrs attrs ∧ c :: pageHtml is rest = b!"<ol" ++ attrs ++ b!">" ++ r) ∧ ItemsOk rest is

/-- The number of lists with a mark, and of marks without a list. -/
def listCount (is : List Item) : Nat := (is.filter fun i => match i with | .list .. => true | .lone .. => false).length
/-- See `listCount`. -/
def loneCount (is : List Item) : Nat := (is.filter fun i => match i with | .list .. => false | .lone .. => true).length

/-- The page ends within or directly behind a mark. -/
def Broken (rest : Bytes) : Prop :=
  ∃ text upper tail, NoMark text ∧ rest = text ++ found upper ++ tail ∧ (tail = [] ∨ ∃ close space, tail = close :: space ∧ White space)

end Verif.AlphaLists.Spec
