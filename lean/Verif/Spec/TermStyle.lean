/- What a terminal shows, and what the words of a style say.  Independent of the model. -/
import Verif.Basic

namespace Verif.TermStyle.Spec

/-- How text is shown.  Colours are those of the palette of 256: 0 - 7 the eight of old, 8 - 15 the same bright, 16 - 231 the cube, 232 - 255 greys. -/
structure Style where
  bold : Bool := false
  dim : Bool := false
  italic : Bool := false
  under : Bool := false
  reverse : Bool := false
  fg : Option Nat := none
  bg : Option Nat := none
  deriving DecidableEq

/-- The command "select graphic rendition" of ECMA-48 with its numbers; others are ignored. -/
def sgr : List Nat → Style → Style
  | 38 :: 5 :: n :: r, s => sgr r { s with fg := some n }
  | 48 :: 5 :: n :: r, s => sgr r { s with bg := some n }
  | 0 :: r, _ => sgr r {}
  | 1 :: r, s => sgr r { s with bold := true }
  | 2 :: r, s => sgr r { s with dim := true }
  | 3 :: r, s => sgr r { s with italic := true }
  | 4 :: r, s => sgr r { s with under := true }
  | 7 :: r, s => sgr r { s with reverse := true }
  | n :: r, s =>
    if 30 ≤ n ∧ n < 38 then sgr r { s with fg := some (n - 30) }
    else if 40 ≤ n ∧ n < 48 then sgr r { s with bg := some (n - 40) }
    else if 90 ≤ n ∧ n < 98 then sgr r { s with fg := some (n - 82) }
    else if 100 ≤ n ∧ n < 108 then sgr r { s with bg := some (n - 92) }
    else sgr r s
  | [], s => s

/-- Where a terminal is in what it reads: text, behind an escape, or in the numbers of a command. -/
inductive Mode
  | text | esc | nums (done : List Nat) (cur : Nat)
  deriving DecidableEq

/-- What happens on a terminal: a byte is shown in a style, or it is given a command that is no style: to move, to clear, to send, to rename its window. -/
inductive Event
  | shown (c : Byte) (s : Style) | command
  deriving DecidableEq

/-- A terminal: its style and where it is. -/
abbrev Term := Style × Mode

/-- A terminal reads a byte. -/
def step : Term → Byte → Term × List Event
  | (s, .text), c => if c = 27 then ((s, .esc), []) else ((s, .text), [.shown c s])
  | (s, .esc), c => if c = c!"[" then ((s, .nums [] 0), []) else ((s, .text), [.command])
  | (s, .nums d n), c =>
    if isDigit c then ((s, .nums d (n * 10 + (c.toNat - 48))), [])
    else if c = c!";" then ((s, .nums (d ++ [n]) 0), [])
    else if c = c!"m" then ((sgr (d ++ [n]) s, .text), [])
    else ((s, .text), [.command])

/-- A terminal reads bytes. -/
def exec (t : Term) : Bytes → Term × List Event
  | [] => (t, [])
  | c :: r =>
    let (t, e) := step t c
    let (t, f) := exec t r
    (t, e ++ f)

/-- A terminal ready for text. -/
def ready (s : Style) : Term := (s, .text)

/-- What a terminal shows of bytes, when it begins plain. -/
def screen (s : Bytes) : List Event := (exec (ready {}) s).2

/-- The text among events. -/
def text : List Event → Bytes
  | [] => []
  | .shown c _ :: r => c :: text r
  | .command :: r => text r

/-- Bytes that show nothing and change the style so. -/
def Effect (out : Bytes) (f : Style → Style) : Prop := ∀ s, exec (ready s) out = (ready (f s), [])

/-! ### What the words say -/

/-- The eight names. -/
def colours : List (Bytes × Nat) :=
  [(b!"black", 0), (b!"red", 1), (b!"green", 2), (b!"yellow", 3), (b!"blue", 4), (b!"magenta", 5), (b!"cyan", 6), (b!"white", 7)]

/-- What the flags of a style say. -/
inductive Flag : Bytes → (Style → Style) → Prop
  | bold {w} : w ∈ [b!"b", b!"bold"] → Flag w fun s => { s with bold := true }
  | dim {w} : w ∈ [b!"d", b!"dark"] → Flag w fun s => { s with dim := true }
  | italic {w} : w ∈ [b!"i", b!"italic"] → Flag w fun s => { s with italic := true }
  | under {w} : w ∈ [b!"u", b!"underline", b!"underscore"] → Flag w fun s => { s with under := true }
  | reverse {w} : w ∈ [b!"r", b!"reverse", b!"negative"] → Flag w fun s => { s with reverse := true }

/-- What the names of colours say: bright ones with `intense_` or `bright_`, the background with `on_`. -/
inductive Named : Bytes → (Style → Style) → Prop
  | fg {w n} : (w, n) ∈ colours → Named w fun s => { s with fg := some n }
  | bright {p w n} : p ∈ [b!"intense_", b!"bright_"] → (w, n) ∈ colours → Named (p ++ w) fun s => { s with fg := some (8 + n) }
  | bg {w n} : (w, n) ∈ colours → Named (b!"on_" ++ w) fun s => { s with bg := some n }
  | bgBright {p w n} : p ∈ [b!"intense_", b!"bright_"] → (w, n) ∈ colours → Named (b!"on_" ++ p ++ w) fun s => { s with bg := some (8 + n) }

/-- The value of a digit in hexadecimal. -/
def digits : List (Byte × Nat) :=
  (List.range 10).map (fun n => (UInt8.ofNat (48 + n), n)) ++ (List.range 6).map (fun n => (UInt8.ofNat (97 + n), 10 + n)) ++ (List.range 6).map (fun n => (UInt8.ofNat (65 + n), 10 + n))

/-- The three channels that hexadecimal digits say, three or six. -/
inductive Hex : Bytes → Nat → Nat → Nat → Prop
  | three {r g b x y z} : (r, x) ∈ digits → (g, y) ∈ digits → (b, z) ∈ digits → Hex [r, g, b] (17 * x) (17 * y) (17 * z)
  | six {r r' g g' b b' x x' y y' z z'} : (r, x) ∈ digits → (r', x') ∈ digits → (g, y) ∈ digits → (g', y') ∈ digits → (b, z) ∈ digits → (b', z') ∈ digits →
    Hex [r, r', g, g', b, b'] (16 * x + x') (16 * y + y') (16 * z + z')

/-- A level of the cube. -/
def level (k : Nat) : Nat := if k = 0 then 0 else 55 + 40 * k

/-- The channels of a colour of the palette from 16 on, as terminals have them. -/
def palette (n : Nat) : Nat × Nat × Nat :=
  if n < 232 then (level ((n - 16) / 36), level ((n - 16) / 6 % 6), level ((n - 16) % 6)) else (8 + 10 * (n - 232), 8 + 10 * (n - 232), 8 + 10 * (n - 232))

/-- Two levels are at most so far apart. -/
def Near (d a b : Nat) : Prop := a ≤ b + d ∧ b ≤ a + d

instance (d a b : Nat) : Decidable (Near d a b) := inferInstanceAs (Decidable (_ ∧ _))

/-- A word that gives a colour of the palette by its number. -/
inductive Raw : Bytes → (Style → Style) → Prop
  | fg {d : Bytes} {n : Nat} : (∀ c ∈ d, isDigit c = true) → n = d.foldl (fun a c => a * 10 + (c.toNat - 48)) 0 → Raw (b!"38;5;" ++ d) fun s => { s with fg := some n }
  | bg {d : Bytes} {n : Nat} : (∀ c ∈ d, isDigit c = true) → n = d.foldl (fun a c => a * 10 + (c.toNat - 48)) 0 → Raw (b!"48;5;" ++ d) fun s => { s with bg := some n }

/-- What a word says. -/
inductive Means : Bytes → (Style → Style) → Prop
  | flag {w f} : Flag w f → Means w f
  | named {w f} : Named w f → Means w f
  | raw {w f} : w.length < 64 → Raw w f → Means w f

/-- Words with white space around and between them. -/
inductive Spaced : List Bytes → Bytes → Prop
  | nil {g : Bytes} : (∀ c ∈ g, isSpace c = true) → Spaced [] g
  | cons {g w r : Bytes} {ws : List Bytes} : (∀ c ∈ g, isSpace c = true) → w ≠ [] → (∀ c ∈ w, isSpace c = false) → Spaced ws r → (r = [] ∨ ∃ c t, r = c :: t ∧ isSpace c = true) →
    Spaced (w :: ws) (g ++ w ++ r)

end Verif.TermStyle.Spec
