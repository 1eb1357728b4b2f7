/- src/ast_terminal.c: the file of a theme for terminal output.

   There are two readers: one of lines, and one of the events of libyaml, if the program was built with it.  libyaml is not part of the checkout: its events are what the second reader is given.
   Allocations succeed, reading does not fail, and `ctype.h` is that of the C locale. -/
import Verif.Basic
import Verif.Model.Term

namespace Verif.ThemeFile
open Term (Theme)

/-- The styles of a theme (ast_terminal.c:395-424) that a file names by a section and a key. -/
inductive Field
  | head (level : Nat) | linkText | linkUrl | codeSpan | codeBlock | quoteMarker | quoteColour | border
deriving DecidableEq

/-- The style of a theme. -/
def get (t : Theme) : Field → Option Bytes
  | .head n => t.head n
  | .linkText => t.linkText
  | .linkUrl => t.linkUrl
  | .codeSpan => t.codeSpan
  | .codeBlock => t.codeBlock
  | .quoteMarker => t.quoteMarker
  | .quoteColour => t.quoteColour
  | .border => t.border

/-- The assignments, e.g. ast_terminal.c:638-639. -/
def set (t : Theme) (f : Field) (v : Option Bytes) : Theme :=
  match f with
  | .head n => { t with head := fun m => if m = n then v else t.head m }
  | .linkText => { t with linkText := v }
  | .linkUrl => { t with linkUrl := v }
  | .codeSpan => { t with codeSpan := v }
  | .codeBlock => { t with codeBlock := v }
  | .quoteMarker => { t with quoteMarker := v }
  | .quoteColour => { t with quoteColour := v }
  | .border => { t with border := v }

/-- The branches of ast_terminal.c:637-719 that set a style; no two of them have the same section and key, so their order does not matter. -/
def colours : List (Bytes × Bytes × Field) :=
  [(b!"h1", b!"color", .head 1), (b!"h2", b!"color", .head 2), (b!"h3", b!"color", .head 3), (b!"h4", b!"color", .head 4), (b!"h5", b!"color", .head 5), (b!"h6", b!"color", .head 6),
   (b!"link", b!"text", .linkText), (b!"link", b!"url", .linkUrl), (b!"code_span", b!"color", .codeSpan), (b!"code_block", b!"color", .codeBlock), (b!"blockquote", b!"color", .quoteColour),
   (b!"blockquote", b!"character", .quoteMarker), (b!"table", b!"border", .border)]

/-- The branches of ast_terminal.c:637-719 that make a style bold. -/
def bolds : List (Bytes × Bytes × Field) :=
  [(b!"h1", b!"bold", .head 1), (b!"h2", b!"bold", .head 2), (b!"h3", b!"bold", .head 3), (b!"h4", b!"bold", .head 4), (b!"h5", b!"bold", .head 5), (b!"h6", b!"bold", .head 6),
   (b!"link", b!"bold", .linkText), (b!"code_span", b!"bold", .codeSpan), (b!"code_block", b!"bold", .codeBlock), (b!"blockquote", b!"bold", .quoteColour), (b!"table", b!"bold", .border)]

/-- The tests of sections and keys, e.g. ast_terminal.c:637. -/
def branch (l : List (Bytes × Bytes × Field)) (l1 l2 : Bytes) : Option Field := (l.find? fun r => r.1 = l1 && r.2.1 = l2).map fun r => r.2.2

/-- ast_terminal.c:464-473 `parse_bool_value`. -/
def yes (v : Bytes) : Bool := v.map toLower = b!"true" || v.map toLower = b!"yes" || v.map toLower = b!"on" || v = b!"1"

/-- ast_terminal.c:479-494 `ensure_bold_prefix`. -/
def embolden (s : Option Bytes) : Bytes :=
  match s with
  | some (c :: r) => b!"b " ++ c :: r
  | _ => b!"b"

/-- ast_terminal.c:720-751: the style of a class is replaced or added. -/
def setClass : List (Bytes × Bytes) → Bytes → Bytes → List (Bytes × Bytes)
  | [], w, v => [(w, v)]
  | e :: l, w, v => if e.1 = w then (w, v) :: l else e :: setClass l w v

/-- ast_terminal.c:633-752 and the same in 852-972: a value other than nothing, of a key in a section. -/
def assign (t : Theme) (l1 l2 v : Bytes) : Theme :=
  match branch colours l1 l2 with
  | some f => set t f (some v)
  | none =>
    match branch bolds l1 l2 with
    | some f => if yes v then set t f (some (embolden (get t f))) else t
    | none => if l1 = b!"span_classes" ∧ l2 ≠ [] then { t with classes := setClass t.classes l2 v } else t

/-! ### The reader of lines -/

/-- `fgets` with room for 1024 bytes, ast_terminal.c:580, until the end of the file; `acc` is what was read of a line. -/
def fgets (acc : Bytes) : Bytes → List Bytes
  | [] => if acc = [] then [] else [acc]
  | c :: s => if c = c!"\n" ∨ acc.length = 1022 then (acc ++ [c]) :: fgets [] s else fgets (acc ++ [c]) s

/-- ast_terminal.c:553-562 `trim_whitespace`. -/
def trim (s : Bytes) : Bytes := ((s.dropWhile isSpace).reverse.dropWhile isSpace).reverse

/-- ast_terminal.c:621-628: a value without its quotes: up to the last quote of the same kind. -/
def unquote (v : Bytes) : Bytes :=
  match v with
  | q :: r => if q = c!"\"" ∨ q = c!"'" then trim (if q ∈ r then ((r.reverse.dropWhile (· ≠ q)).drop 1).reverse else r) else v
  | [] => []

/-- ast_terminal.c:580-752: a line, given what was read of the theme and the section so far.  The key of a line in a section is not used in later lines. -/
def line (st : Theme × Bytes) (s : Bytes) : Theme × Bytes :=
  let p := s.takeWhile fun c => c ≠ 0 && c ≠ c!"\r" && c ≠ c!"\n"
  let t := p.dropWhile isSpace
  if t = [] ∨ t.head? = some c!"#" then st
  else if c!":" ∉ t then st
  else
    let key := (trim (t.takeWhile (· ≠ c!":"))).take 63
    let val := trim ((t.dropWhile (· ≠ c!":")).drop 1)
    if t.length = p.length then (if key = b!"list_marker" then { st.1 with listMarker := some val } else st.1, key)
    else (if unquote val = [] then st.1 else assign st.1 st.2 key (unquote val), st.2)

/-- ast_terminal.c:564-755 `load_theme_from_simple_yaml`, for a file that can be opened. -/
def lines (file : Bytes) : Theme := ((fgets [] file).foldl line ({}, [])).1

/-! ### The reader of events -/

/-- The events of libyaml the reader distinguishes; a value is a C string. -/
inductive Event
  | open | close | scalar (value : Bytes) | other

/-- ast_terminal.c:784-790; a key that is not there is the same as an empty one but for `list_marker` and classes. -/
structure State where
  theme : Theme := {}
  key1 : Option Bytes := none
  key2 : Option Bytes := none
  value : Bool := false
  depth : Int := 0

/-- ast_terminal.c:802-983: an event. -/
def event (s : State) : Event → State
  | .open => { s with depth := s.depth + 1, value := false, key1 := if s.depth + 1 = 1 then none else s.key1, key2 := if s.depth + 1 = 2 then none else s.key2 }
  | .close => { s with depth := s.depth - 1, value := false, key1 := if s.depth = 1 then none else s.key1, key2 := if s.depth = 2 then none else s.key2 }
  | .scalar v =>
    if s.value = false then
      if s.depth = 1 then { s with key1 := some (v.take 63), key2 := none, value := true }
      else if s.depth = 2 then { s with key2 := some (v.take 63), value := true }
      else { s with value := true }
    else
      let t :=
        if v = [] then s.theme
        else if s.key1 = some b!"list_marker" ∧ s.key2 = none then { s.theme with listMarker := some v }
        else assign s.theme (s.key1.getD []) (s.key2.getD []) v
      { s with theme := t, value := false }
  | .other => s

/-- ast_terminal.c:757-1001 `load_theme_from_yaml` with libyaml, for a file that can be opened; no events stand for an error of libyaml. -/
def events (es : Option (List Event)) (file : Bytes) : Theme :=
  match es with
  | none => lines file
  | some es =>
    let t := (es.foldl event {}).theme
    if t.head 1 = none ∧ t.codeSpan = none ∧ t.classes = [] then lines file else t

/-! ### Which file -/

/-- ast_terminal.c:500-522 `build_theme_path`. -/
def path (home : Option Bytes) (name : Bytes) : Option Bytes :=
  match home with
  | none => none
  | some [] => none
  | some h => some (h ++ b!"/.config/apex/terminal/themes/" ++ name ++ b!".theme")

/-- ast_terminal.c:1004-1030 `load_theme`; `read` reads a file, if it can be opened. -/
def load (home : Option Bytes) (read : Bytes → Option Theme) (name : Option Bytes) : Option Theme :=
  let named :=
    match name with
    | none => none
    | some [] => none
    | some n => (path home n).bind read
  match named with
  | some t => some t
  | none => (path home b!"default").bind read

end Verif.ThemeFile
