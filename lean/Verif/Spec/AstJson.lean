/- What is left of a document after it was written as JSON and read again. -/
import Verif.Model.AstJson

namespace Verif.AstJson

mutual
/-- The block is, or has inside it, a code block whose language is not `inc`. -/
def hasCode : Blk → Bool
  | .code info _ => info ≠ b!"inc"
  | .bullet items => hasCodeItems items
  | .ordered _ items => hasCodeItems items
  | .quote k => hasCodes k
  | _ => false
def hasCodes : List Blk → Bool
  | [] => false
  | b :: r => hasCode b || hasCodes r
def hasCodeItems : List (List Blk) → Bool
  | [] => false
  | i :: r => hasCodes i || hasCodeItems r
end

mutual
/-- The block is, or has inside it, a numbered list. -/
def hasOrdered : Blk → Bool
  | .ordered _ _ => true
  | .bullet items => hasOrderedItems items
  | .quote k => hasOrdereds k
  | _ => false
def hasOrdereds : List Blk → Bool
  | [] => false
  | b :: r => hasOrdered b || hasOrdereds r
def hasOrderedItems : List (List Blk) → Bool
  | [] => false
  | i :: r => hasOrdereds i || hasOrderedItems r
end

/-- Control characters other than tab and line ends turn into question marks. -/
def noControl (s : Bytes) : Bytes := s.map fun c => if c < 0x20 ∧ c ≠ 10 ∧ c ≠ 13 ∧ c ≠ 9 then c!"?" else c

mutual
/-- What is left of an inline: nothing of links and images, of emphasis the first inline in it that is left. -/
def keptInl : Inl → Option Inl
  | .text s => some (.text (noControl s))
  | .soft => some .soft
  | .line => some .line
  | .code s => some (.code (noControl s))
  | .emph k => some (.emph (keptFirst k).toList)
  | .strong k => some (.strong (keptFirst k).toList)
  | .link _ _ _ => none
  | .image _ _ _ => none
  | .html s => some (.html (noControl s))
  | .other s _ => some (.text (noControl s))
def keptFirst : List Inl → Option Inl
  | [] => none
  | i :: r => (keptInl i).or (keptFirst r)
end

/-- What is left of a block; `none` when it cannot be read. -/
def keptBlk : Blk → Option Blk
  | .para k => some (.para (keptFirst k).toList)
  | .heading l k => some (.heading (if 1 ≤ l ∧ l ≤ 6 then l else 1) (keptFirst k).toList)
  | .rule => some .rule
  | .html s => some (.html (noControl s))
  | .code info s => some (.code (noControl info) (noControl (chop s)))
  | .bullet items => match items with
    | [[]] => some (.bullet [])
    | _ => none
  | .ordered _ _ => none
  | .quote k => match k with
    | [] => some (.quote [])
    | _ => none
  | .other s => some (.para [.text (noControl s)])

/-- What is left of a document: everything from the first block with a code block on is lost; a block that cannot be read is lost when
it is the last and spoils the whole document (`none`) when it is not. -/
def kept : List Blk → Option (List Blk)
  | [] => some []
  | b :: r =>
    if hasCode b then some []
    else match keptBlk b with
      | some c => (kept r).map (c :: ·)
      | none => if r = [] then some [] else none

/-! ### Documents that survive -/

/-- No control character but tab and line ends. -/
def Printable (s : Bytes) : Prop := ∀ c ∈ s, 0x20 ≤ c ∨ c = 9 ∨ c = 10 ∨ c = 13

/-- Inlines that stay as they are: no links, no images, and at most one inline inside emphasis. -/
inductive InlStays : Inl → Prop
  | text {s} : Printable s → InlStays (.text s)
  | soft : InlStays .soft
  | line : InlStays .line
  | code {s} : Printable s → InlStays (.code s)
  | html {s} : Printable s → InlStays (.html s)
  | emphEmpty : InlStays (.emph [])
  | emph {i} : InlStays i → InlStays (.emph [i])
  | strongEmpty : InlStays (.strong [])
  | strong {i} : InlStays i → InlStays (.strong [i])

/-- Blocks that stay as they are: no lists, no quotations with something in them, and at most one inline in a paragraph or heading. -/
inductive BlkStays : Blk → Prop
  | paraEmpty : BlkStays (.para [])
  | para {i} : InlStays i → BlkStays (.para [i])
  | headingEmpty {l} : 1 ≤ l → l ≤ 6 → BlkStays (.heading l [])
  | heading {l i} : 1 ≤ l → l ≤ 6 → InlStays i → BlkStays (.heading l [i])
  | rule : BlkStays .rule
  | html {s} : Printable s → BlkStays (.html s)
  | inc {s} : Printable s → s.getLast? ≠ some c!"\n" → BlkStays (.code b!"inc" s)
  | quoteEmpty : BlkStays (.quote [])

end Verif.AstJson
