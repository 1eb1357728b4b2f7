/-
Wrapping for a terminal: independently of the model.
-/
import Verif.Basic

namespace Verif.Wrap.Spec

/-- What a terminal gets: a byte it shows, a newline, a carriage return, a sequence. -/
inductive Tok where
  | char (c : Byte)
  | newline
  | ret
  | seq (s : Bytes)

/-- The bytes. -/
def Tok.bytes : Tok → Bytes
  | .char c => [c]
  | .newline => b!"\n"
  | .ret => b!"\r"
  | .seq s => s

/-- The text of tokens. -/
def flat (ts : List Tok) : Bytes := ts.flatMap Tok.bytes

/-- A text as tokens: a sequence is from `ESC [` to the next letter, or to the end. -/
inductive Tokens : Bytes → List Tok → Prop
  | nil : Tokens [] []
  | newline {s ts} : Tokens s ts → Tokens (b!"\n" ++ s) (.newline :: ts)
  | ret {s ts} : Tokens s ts → Tokens (b!"\r" ++ s) (.ret :: ts)
  | seq {x l s ts} : (∀ c ∈ x, isAlpha c = false) → isAlpha l = true → Tokens s ts → Tokens (27 :: c!"[" :: (x ++ [l]) ++ s) (.seq (27 :: c!"[" :: (x ++ [l])) :: ts)
  | open {x} : (∀ c ∈ x, isAlpha c = false) → Tokens (27 :: c!"[" :: x) [.seq (27 :: c!"[" :: x)]
  | char {c s ts} : c ≠ c!"\n" → c ≠ c!"\r" → ¬ (c = 27 ∧ s.head? = some c!"[") → Tokens s ts → Tokens (c :: s) (.char c :: ts)

/-- Tokens with newlines added. -/
inductive Added : List Tok → List Tok → Prop
  | nil : Added [] []
  | keep {t ts us} : Added ts us → Added (t :: ts) (t :: us)
  | add {ts us} : Added ts us → Added ts (.newline :: us)

/-- The number of bytes shown. -/
def shown : List Tok → Nat
  | [] => 0
  | .char _ :: ts => shown ts + 1
  | _ :: ts => shown ts

/-- No line is wider: whatever is between newlines. -/
def Narrow (w : Nat) (ts : List Tok) : Prop := ∀ a b c, ts = a ++ b ++ c → .newline ∉ b → shown b ≤ w

/-- Newlines are added where they are needed: right before a byte that would be shown behind the last column; `col` bytes are shown on the line so far. -/
inductive Fill (w : Nat) : Nat → List Tok → List Tok → Prop
  | nil {col} : Fill w col [] []
  | newline {col ts us} : Fill w 0 ts us → Fill w col (.newline :: ts) (.newline :: us)
  | ret {col ts us} : Fill w col ts us → Fill w col (.ret :: ts) (.ret :: us)
  | seq {col s ts us} : Fill w col ts us → Fill w col (.seq s :: ts) (.seq s :: us)
  | char {col c ts us} : col < w → Fill w (col + 1) ts us → Fill w col (.char c :: ts) (.char c :: us)
  | wrap {col c ts us} : w ≤ col → Fill w 1 ts us → Fill w col (.char c :: ts) (.newline :: .char c :: us)

end Verif.Wrap.Spec
