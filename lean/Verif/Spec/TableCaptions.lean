/- Captions of tables. -/
import Verif.Basic

namespace Verif.TableCaptions.Spec

/-- White space in a line. -/
def Blank (s : Bytes) : Prop := ∀ c ∈ s, c = c!" " ∨ c = c!"\t"

/-- A text without the end of a line. -/
def Line (s : Bytes) : Prop := c!"\n" ∉ s ∧ c!"\r" ∉ s

/-- The end of a line in front of `t`; a last line may have none. -/
def Eol (l e t : Bytes) : Prop := e = b!"\n" ∨ e = b!"\r\n" ∨ (e = b!"\r" ∧ t.head? ≠ some c!"\n") ∨ (e = [] ∧ t = [] ∧ l ≠ [])

/-- A fence, with any indentation. -/
def Fence (l : Bytes) : Prop := ∃ ws t, Blank ws ∧ (l = ws ++ b!"```" ++ t ∨ l = ws ++ b!"~~~" ++ t)

/-- `s` starts with attributes: `{`, one of `:#.`, no brace opened up to a `}`. -/
def Attr (s : Bytes) : Prop := ∃ k x b, s = c!"{" :: k :: x ++ c!"}" :: b ∧ (k = c!":" ∨ k = c!"#" ∨ k = c!".") ∧ c!"{" ∉ x

/-- `s` is a text and its attributes: the last ones in it, and what is behind them; without attributes all is text. -/
def Split (s front attr : Bytes) : Prop :=
  s = front ++ attr ∧ ((attr = [] ∧ ∀ a b, s = a ++ b → ¬ Attr b) ∨ (Attr attr ∧ ∀ a b, attr = a ++ b → a ≠ [] → ¬ Attr b))

/-- The line of a caption. -/
def bracketed (cap attr : Bytes) : Bytes := b!"[" ++ cap ++ b!"]" ++ (if attr = [] then [] else b!" " ++ attr)

/-- A text without spaces at its ends. -/
def Trimmed (p : Byte → Bool) (s : Bytes) : Prop := (∀ c, s.head? = some c → p c = false) ∧ (∀ c, s.getLast? = some c → p c = false)

/-- A line `Table: caption {attributes}`, possibly with a text before it; what it becomes. -/
def Pandoc (l out : Bytes) : Prop :=
  ∃ before m ws cap ws' attr, l = before ++ m ++ ws ++ cap ++ ws' ++ attr ∧ (m = b!"Table:" ∨ m = b!"table:") ∧ Blank ws ∧ Blank ws' ∧ cap ≠ [] ∧
    Trimmed (fun c => c == c!" " || c == c!"\t") cap ∧ Split (cap ++ ws' ++ attr) (cap ++ ws') attr ∧
    out = (if before = [] then [] else before ++ b!"\n") ++ b!"\n" ++ bracketed cap attr

/-- A line `: caption {attributes}`; what it becomes. -/
def Colon (l out : Bytes) : Prop :=
  ∃ ws d ws1 cap ws2 attr, l = ws ++ c!":" :: d :: ws1 ++ cap ++ ws2 ++ attr ∧ Blank ws ∧ (d = c!" " ∨ d = c!"\t") ∧
    (∀ c ∈ ws1, isSpace c = true) ∧ (∀ c ∈ ws2, isSpace c = true) ∧ Trimmed isSpace cap ∧
    Split (ws1 ++ cap ++ ws2 ++ attr) (ws1 ++ cap ++ ws2) attr ∧ out = b!"\n" ++ bracketed cap attr

/-- A line and what it becomes; `code` says whether it is in code, and whether the next one is.  In code every line is kept as it
is.  Elsewhere it is kept, with at most one blank line before it, or it is a caption, or it is a blank line and dropped. -/
inductive One : Bool → Bytes → Bytes → Bool → Prop
  | code {l} : ¬ Fence l → One true l (l ++ b!"\n") true
  | fence {code l k} : Fence l → k = [] ∨ (k = b!"\n" ∧ code = false) → One code l (k ++ l ++ b!"\n") (!code)
  | text {l k} : ¬ Fence l → k = [] ∨ k = b!"\n" → One false l (k ++ l ++ b!"\n") false
  | blank {l} : Blank l → One false l [] false
  | caption {code l c} : (Fence l ↔ code = true) → Pandoc l c ∨ Colon l c → One code l (c ++ b!"\n") false

/-- A text, line by line.  All lines end in a line feed. -/
inductive Lines : Bool → Bytes → Bytes → Prop
  | nil {code} : Lines code [] []
  | cons {code code' l e t p o} : Line l → Eol l e t → One code l p code' → Lines code' t o → Lines code (l ++ e ++ t) (p ++ o)

/-- A line without its indentation starts with `w`. -/
def Starts (w l : Bytes) : Prop := ∃ ws t, Blank ws ∧ l = ws ++ w ++ t

/-- Neither marker is in the text. -/
def Unmarked (l : Bytes) : Prop := ¬ b!"Table:" <:+: l ∧ ¬ b!"table:" <:+: l

/-- A line that can start a block: not blank, no fence, not like a caption of any kind. -/
structure First (l : Bytes) : Prop where
  line : Line l
  visible : ¬ Blank l
  fence : ¬ Fence l
  bracket : ¬ Starts b!"[" l
  colon : ¬ Starts b!": " l ∧ ¬ Starts b!":\t" l
  marker : Unmarked l

/-- A further line of a paragraph. -/
structure More (l : Bytes) : Prop where
  line : Line l
  visible : ¬ Blank l
  fence : ¬ Fence l
  bar : c!"|" ∉ l
  marker : ¬ Starts b!"Table:" l ∧ ¬ Starts b!"table:" l

/-- The caption of a table. -/
inductive Caption where
  /-- A line in brackets. -/
  | bracket (l : Bytes)
  /-- `Table: caption {attributes}` -/
  | marker (m ws cap ws' attr : Bytes)
  /-- `: caption {attributes}` -/
  | colon (ws : Bytes) (d : Byte) (ws1 cap ws2 attr : Bytes)

/-- The line of the caption in the source. -/
def Caption.source : Caption → Bytes
  | .bracket l => l
  | .marker m ws cap ws' attr => m ++ ws ++ cap ++ ws' ++ attr
  | .colon ws d ws1 cap ws2 attr => ws ++ c!":" :: d :: ws1 ++ cap ++ ws2 ++ attr

/-- The line of the caption in the result. -/
def Caption.result : Caption → Bytes
  | .bracket l => l
  | .marker _ _ cap _ attr => bracketed cap attr
  | .colon _ _ _ cap _ attr => bracketed cap attr

def Caption.Ok (c : Caption) : Prop :=
  Line c.source ∧
  match c with
  | .bracket l => Starts b!"[" l
  | .marker m ws cap ws' attr => (m = b!"Table:" ∨ (m = b!"table:" ∧ ¬ b!"Table:" <:+: c.source)) ∧ Blank ws ∧ Blank ws' ∧ cap ≠ [] ∧
      Trimmed (fun c => c == c!" " || c == c!"\t") cap ∧ Split (cap ++ ws' ++ attr) (cap ++ ws') attr
  | .colon ws d ws1 cap ws2 attr => Blank ws ∧ (d = c!" " ∨ d = c!"\t") ∧ (∀ c ∈ ws1, isSpace c = true) ∧ (∀ c ∈ ws2, isSpace c = true) ∧
      Trimmed isSpace cap ∧ Split (ws1 ++ cap ++ ws2 ++ attr) (ws1 ++ cap ++ ws2) attr ∧ Unmarked c.source

/-- A block of a document. -/
inductive Block where
  | para (first : Bytes) (more : List Bytes)
  | code (open_ : Bytes) (lines : List Bytes) (close : Bytes)
  | table (row : Bytes) (rows : List Bytes) (caption : Option (Nat × Caption))

def Block.Ok : Block → Prop
  | .para first more => First first ∧ c!"|" ∉ first ∧ ∀ l ∈ more, More l
  | .code f ls f' => Line f ∧ Fence f ∧ (∀ l ∈ ls, Line l ∧ ¬ Fence l) ∧ Line f' ∧ Fence f' ∧ c!"|" ∉ f' ∧ Unmarked f'
  | .table row rows cap => (∀ l ∈ row :: rows, First l ∧ c!"|" ∈ l) ∧ ∀ g c, cap = some (g, c) → c.Ok

/-- Lines, each with its line feed. -/
def lines (ls : List Bytes) : Bytes := (ls.map (· ++ b!"\n")).flatten

/-- Blank lines. -/
def blanks (n : Nat) : Bytes := List.replicate n c!"\n"

/-- A block in the source: the caption may be some blank lines below the table. -/
def Block.source : Block → Bytes
  | .para first more => lines (first :: more)
  | .code f ls f' => lines (f :: ls ++ [f'])
  | .table row rows none => lines (row :: rows)
  | .table row rows (some (g, c)) => lines (row :: rows) ++ blanks g ++ c.source ++ b!"\n"

/-- A block in the result: the caption in brackets one blank line below the table. -/
def Block.result : Block → Bytes
  | .para first more => lines (first :: more)
  | .code f ls f' => lines (f :: ls ++ [f'])
  | .table row rows none => lines (row :: rows)
  | .table row rows (some (_, c)) => lines (row :: rows) ++ b!"\n" ++ c.result ++ b!"\n"

/-- How many blank lines of `n` are left behind a block. -/
def Block.left (b : Block) (n : Nat) (last : Bool) : Nat :=
  min n ((match b with | .table .. => 0 | _ => 1) + if last then 0 else 1)

/-- Blocks and the numbers of blank lines behind them. -/
def source (d : List (Block × Nat)) : Bytes := (d.map fun p => p.1.source ++ blanks p.2).flatten

def result : List (Block × Nat) → Bytes
  | [] => []
  | (b, n) :: rest => b.result ++ blanks (b.left n rest.isEmpty) ++ result rest

/-- Blocks are apart. -/
def Ok : List (Block × Nat) → Prop
  | [] => True
  | (b, n) :: rest => b.Ok ∧ (rest = [] ∨ 1 ≤ n) ∧ Ok rest

end Verif.TableCaptions.Spec
