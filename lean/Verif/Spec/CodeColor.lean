/-
Code blocks given to a tool: independently of the model.
-/
import Verif.Model.CodeColor

namespace Verif.CodeColor.Spec

/-! ### Pages -/

/-- Text as it is written in a page. -/
def escape (code : Bytes) : Bytes :=
  code.flatMap fun c => if c = c!"<" then b!"&lt;" else if c = c!">" then b!"&gt;" else if c = c!"&" then b!"&amp;" else if c = c!"\"" then b!"&quot;" else [c]

/-- How the language of a block is given. -/
inductive Style
  | none
  | pre (lang : Bytes)
  | class (lang : Bytes)

/-- The language of a block. -/
def Style.lang : Style → Bytes
  | .none => []
  | .pre l => l
  | .class l => l

/-- The tags in front of the code. -/
def Style.tags : Style → Bytes
  | .none => b!"<pre><code>"
  | .pre l => b!"<pre lang=\"" ++ l ++ b!"\"><code>"
  | .class l => b!"<pre><code class=\"language-" ++ l ++ b!"\">"

/-- A language of one word of less than 64 bytes that needs no escapes. -/
def Style.Ok (s : Style) : Prop := s.lang.length < 64 ∧ ∀ c ∈ s.lang, c ∉ b!"<>&\" "

/-- A part of a page, up to the next `<`: a block with its code, or another tag. -/
inductive Piece
  | other (x : Bytes)
  | block (style : Style) (code text : Bytes)

/-- As it is written. -/
def Piece.bare : Piece → Bytes
  | .other x => b!"<" ++ x
  | .block s code text => s.tags ++ escape code ++ b!"</code></pre>" ++ text

/-- It is written as said. -/
def Piece.Ok : Piece → Prop
  | .other x => c!"<" ∉ x ∧ ¬ b!"pre>" <+: x ∧ ¬ b!"pre " <+: x
  | .block s _ text => s.Ok ∧ c!"<" ∉ text

/-- The page. -/
def plain (ps : List Piece) : Bytes := ps.flatMap Piece.bare

/-! ### The tool -/

/-- The words of the command. -/
inductive Words (numbers ansi : Bool) : Bytes → Bytes → List Bytes → Prop
  | pygments {lang} : Words numbers ansi b!"pygments" lang
      ([b!"pygmentize"] ++ (if lang = [] then [b!"-g"] else [b!"-l", lang]) ++ [b!"-f", b!"html"] ++ (if numbers then [b!"-O", b!"linenos=1"] else []))
  | skylighting {lang} : Words numbers ansi b!"skylighting" lang
      ([b!"skylighting"] ++ (if lang = [] then [] else [b!"--syntax", lang]) ++ [b!"-f", b!"html", b!"-r"] ++ (if numbers then [b!"-n"] else []))
  | shiki {lang} : Words numbers ansi b!"shiki" lang
      ([b!"shiki"] ++ (if lang = [] then [] else [b!"--lang", lang]) ++ [b!"--format", if ansi then b!"ansi" else b!"html"])

/-- Words with a blank between them. -/
def join : List Bytes → Bytes
  | [] => []
  | [w] => w
  | w :: ws => w ++ b!" " ++ join ws

/-- A byte with no meaning for the shell. -/
def safe (c : Byte) : Bool := isAlnum c || c ∈ b!"_-+./=:@%,"

/-- A word the shell passes on as it is. -/
def Plain (w : Bytes) : Prop := w ≠ [] ∧ ∀ c ∈ w, safe c = true

/-- A line that is one command with these words. -/
def Simple (line : Bytes) (ws : List Bytes) : Prop := line = join ws ∧ ∀ w ∈ ws, Plain w

/-- Whether a block is given to the tool. -/
def asked (only : Bool) (s : Style) : Bool := !only || s.lang != []

/-- What is shown for a piece, when the tool answers `answer lang code`. -/
def Piece.shown (answer : Bytes → Bytes → Bytes) (only : Bool) : Piece → Bytes
  | .block s code text => (if asked only s ∧ answer s.lang code ≠ [] then answer s.lang code else s.tags ++ escape code ++ b!"</code></pre>") ++ text
  | p => p.bare

/-- The page behind the tool. -/
def page (answer : Bytes → Bytes → Bytes) (only : Bool) (ps : List Piece) : Bytes := ps.flatMap (Piece.shown answer only)

/-- The languages and codes given to the tool, in order. -/
def given (only : Bool) : List Piece → List (Bytes × Bytes)
  | [] => []
  | .other _ :: ps => given only ps
  | .block s code _ :: ps => (if asked only s then [(s.lang, code)] else []) ++ given only ps

/-! ### Programs -/

/-- A program that reads all of its input before it writes what `f` says and ends. -/
def whole (f : Bytes → Bytes × Bool) : Bytes ⊕ (Bytes × Bool) → Act (Bytes ⊕ (Bytes × Bool))
  | .inl acc => .read fun
    | some b => .inl (acc ++ [b])
    | none => .inr (f acc)
  | .inr (b :: t, ok) => .write b (.inr (t, ok))
  | .inr ([], ok) => .exit ok

/-- A program that writes every byte as soon as it is read. -/
def echo : Option (Option Byte) → Act (Option (Option Byte))
  | none => .read fun
    | some b => some (some b)
    | none => some none
  | some (some b) => .write b none
  | some none => .exit true

/-- A program that ends without reading. -/
def quit : Unit → Act Unit := fun _ => .exit false

/-- There are no infinite executions. -/
def Ends {σ : Type} (act : σ → Act σ) (room : Nat) (a : Sys σ) : Prop := ¬ ∃ e : Nat → Sys σ, e 0 = a ∧ ∀ i, Step act room (e i) (e (i + 1))

end Verif.CodeColor.Spec
