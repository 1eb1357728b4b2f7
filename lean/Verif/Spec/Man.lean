/- What roff sees in a man page, and what a document tree should produce. -/
import Verif.Model.Man

namespace Verif.Man.Spec

/-- Lines of a text, without their newlines. -/
def lines : Bytes → List Bytes
  | [] => [[]]
  | c :: t =>
    if c = 10 then [] :: lines t
    else match lines t with
      | [] => [[c]]
      | l :: ls => (c :: l) :: ls

/-- A line is a request when it begins with a control character: period or apostrophe. -/
def isRequest : Bytes → Bool
  | c :: _ => c == c!"." || c == c!"'"
  | [] => false

/-- The names of the requests of a text (`.SH`, `.PP`, ...), in order. -/
def requests (out : Bytes) : List Bytes :=
  ((lines out).filter isRequest).map fun l => l.takeWhile (· != 32)

/-- A request line begins at offset `i`. -/
def RequestAt (out : Bytes) (i : Nat) : Prop :=
  (i = 0 ∨ out[i - 1]? = some 10) ∧ (out[i]? = some c!"." ∨ out[i]? = some c!"'")

mutual
/-- Requests an inline node stands for: only hard line breaks have one. -/
def inlineReqs : Node → List Bytes
  | .mk k kids =>
    match k with
    | .lineBreak => [b!".br"]
    | .text _ | .code _ | .softBreak | .htmlInline => []
    | _ => inlinesReqs kids
def inlinesReqs : List Node → List Bytes
  | [] => []
  | n :: ns => inlineReqs n ++ inlinesReqs ns
end

mutual
/-- Requests a block node stands for. -/
def blockReqs (parent : Option Kind) (first : Bool) : Node → List Bytes
  | .mk k kids =>
    match k with
    | .heading level => (if level = 1 then b!".SH" else b!".SS") :: inlinesReqs kids
    | .paragraph =>
      (match parent with
        | some (.item _) => []
        | some .defTerm => []
        | some .defData => if first then [] else [b!".PP"]
        | _ => [b!".PP"]) ++ inlinesReqs kids
    | .item _ => b!".IP" :: blocksReqs k true kids
    | .codeBlock _ =>
      match parent with
      | some (.item _) => []
      | _ => [b!".PP", b!".nf", b!".fi"]
    | .blockQuote => b!".RS" :: (blocksReqs k true kids ++ [b!".RE"])
    | .thematicBreak => [b!".PP"]
    | .htmlBlock _ => []
    | .defTerm => b!".TP" :: blocksReqs k true kids
    | _ => blocksReqs k true kids
def blocksReqs (parent : Kind) (first : Bool) : List Node → List Bytes
  | [] => []
  | n :: ns => blockReqs (some parent) first n ++ blocksReqs parent false ns
end

/-- HTML that starts with a `<dl` tag, after blanks. -/
def startsDl (lit : Bytes) : Bool :=
  (lit.dropWhile fun c => c == 32 || c == 10 || c == 9).take 3 == b!"<dl"

mutual
/-- No HTML block of the tree is a definition list. -/
def noDl : Node → Bool
  | .mk k kids =>
    match k with
    | .htmlBlock lit => !startsDl lit && noDls kids
    | _ => noDls kids
def noDls : List Node → Bool
  | [] => true
  | n :: ns => noDl n && noDls ns
end

/-- The text roff prints for escaped text: `\e` is a backslash, `\-` a hyphen, `\&` nothing, `\[em]` an
em dash. -/
def printed : Bytes → Bytes
  | 92 :: 101 :: t => 92 :: printed t
  | 92 :: 45 :: t => 45 :: printed t
  | 92 :: 38 :: t => printed t
  | 92 :: 91 :: 101 :: 109 :: 93 :: t => 0xE2 :: 0x80 :: 0x94 :: printed t
  | c :: t => c :: printed t
  | [] => []

/-- En dashes written as two hyphens. -/
def enDash : Bytes → Bytes
  | 0xE2 :: 0x80 :: 0x93 :: t => 45 :: 45 :: enDash t
  | c :: t => c :: enDash t
  | [] => []

/-- Fragments of definition lists made of complete tags, the five entities and plain text. -/
inductive WellFormed : Bytes → Prop
  | nil : WellFormed []
  | plain (c : Byte) (t : Bytes) : c ≠ c!"<" → c ≠ c!"&" → WellFormed t → WellFormed (c :: t)
  | tag (w t : Bytes) : c!">" ∉ w → WellFormed t → WellFormed (c!"<" :: w ++ c!">" :: t)
  | entity (e t : Bytes) : e ∈ [b!"&lt;", b!"&gt;", b!"&amp;", b!"&quot;", b!"&#39;"] →
      WellFormed t → WellFormed (e ++ t)

/-- A quoted roff argument after its opening quote: its text (`""` stands for a quote) and what follows
the closing quote. -/
def quoted : Bytes → Bytes × Bytes
  | [] => ([], [])
  | 34 :: 34 :: t => let (a, r) := quoted t; (34 :: a, r)
  | 34 :: t => ([], t)
  | c :: t => let (a, r) := quoted t; (c :: a, r)

/-- The first `n` arguments of a roff request line. -/
def args : Nat → Bytes → List Bytes
  | 0, _ => []
  | n + 1, s =>
    match s.dropWhile (· == 32) with
    | [] => []
    | 34 :: t => (quoted t).1 :: args n (quoted t).2
    | t => t.takeWhile (· != 32) :: args n (t.dropWhile (· != 32))

end Verif.Man.Spec
