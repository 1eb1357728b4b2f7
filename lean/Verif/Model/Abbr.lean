/-
Model of src/extensions/abbreviations.c.
-/
import Verif.Model.Ial
import Verif.Model.Transforms
import Verif.Model.Escape

namespace Verif.Abbr

/-- abbreviations.h (`abbr_item`): the abbreviation and its expansion. The linked list is a list. -/
abbrev Item := Bytes × Bytes

/-- abbreviations.c:29-34 (`trim`). -/
def trim (s : Bytes) : Bytes := Transforms.trimTok s

/-- abbreviations.c:53-67: behind `[>(`, the abbreviation, the expansion and the text behind `]`. -/
def inline (t : Bytes) : Option (Bytes × Bytes × Bytes) :=
  if c!")" ∈ t then
    let a := t.takeWhile (· ≠ c!")")
    let u := ((t.dropWhile (· ≠ c!")")).drop 1).dropWhile (· = c!" ")
    if c!"]" ∈ u then
      let e := u.takeWhile (· ≠ c!"]")
      if 0 < a.length ∧ a.length < 256 ∧ 0 < e.length ∧ e.length < 1024 then
        some (a, e, (u.dropWhile (· ≠ c!"]")).drop 1)
      else none
    else none
  else none

/-- abbreviations.c:29-34 once more, for its effect on the array: white space at the end is overwritten by NULs,
unless there is nothing else. The bytes of the array, up to `abbr_len`. -/
def trimInPlace (a : Bytes) : Bytes :=
  if a.dropWhile isSpace = [] then a
  else Ial.trimEnd a ++ List.replicate (a.length - (Ial.trimEnd a).length) 0

/-- abbreviations.c:50-93: what is written (bytes behind a NUL that `strcpy` leaves unwritten are given as NUL) and
the list, newest first. As many turns as there are bytes are enough. -/
def inlines : Nat → List Item → Bytes → Bytes × List Item
  | 0, l, _ => ([], l)
  | _, l, [] => ([], l)
  | n + 1, l, c :: t =>
    match if b!"[>(" <+: c :: t then inline (t.drop 2) else none with
    | some (a, e, r) =>
      let (o, l) := inlines n ((trim a, trim e) :: l) r
      (trimInPlace a ++ o, l)
    | none =>
      let (o, l) := inlines n l t
      (c :: o, l)

/-- abbreviations.c:40-98 (`process_inline_abbreviations`): the buffer has `2 * len` bytes; the result is used as a
C string (line 115). -/
def processInline (text : Bytes) : C (Bytes × List Item) := do
  let (o, l) := inlines text.length [] text
  let o ← finish (text.length * 2) o
  .val (Escape.cstr o, l)

/-- abbreviations.c:138-190: is the line a definition, and what does it define? -/
def defLine (line : Bytes) : Option (List Item) :=
  if b!"*[" <+: line ∨ b!"[>" <+: line then
    let u := line.drop 2
    match u.dropWhile (· ≠ c!"]") with
    | _ :: d :: e =>
      if d = c!":" then
        let a := trim (u.takeWhile (· ≠ c!"]"))
        if a ≠ [] ∧ trim e ≠ [] then some [(a, trim e)] else some []
      else none
    | _ => none
  else none

/-- abbreviations.c:104-210 (`apex_extract_abbreviations`): text and list. -/
def extract (text : Bytes) : C (Bytes × List Item) := do
  let (t, l) ← processInline text
  let (o, l') ← Ial.keepLines 1024 (fun _ line => .val (defLine line)) [] 0 t
  .val (o, l ++ l')

/-! ### Replacement -/

/-- `snprintf(abbr_tag, 2048, "<abbr title=\"%s\">%s</abbr>", …)` (e.g. abbreviations.c:334-336). -/
def tag (i : Item) : Bytes := (b!"<abbr title=\"" ++ i.2 ++ b!"\">" ++ i.1 ++ b!"</abbr>").take 2047

/-- abbreviations.c:236-317: `[&gt;(abbr) expansion]` and `[&gt;abbr]` at the beginning of `s`: the tag and the number
of bytes read. The arrays for the former have 256 and 1024 bytes and are not checked. -/
def marked (l : List Item) (s : Bytes) : C (Option (Bytes × Nat)) :=
  if b!"[&gt;" <+: s then
    let u := s.drop 5
    let body := u.takeWhile fun c => c ≠ c!"]" ∧ c ≠ c!"\n" ∧ c ≠ c!"<"
    if (u.drop body.length).head? = some c!"]" then
      let k := 5 + body.length + 1
      if body.head? = some c!"(" then
        let inner := body.drop 1
        if c!")" ∈ inner then
          let a := inner.takeWhile (· ≠ c!")")
          let e := (inner.dropWhile (· ≠ c!")")).drop 1
          if a ≠ [] ∧ e ≠ [] then
            if a.length < 256 ∧ e.length < 1024 then .val (some (tag (trim a, trim e), k)) else .ub
          else .val none
        else .val none
      else if 0 < body.length ∧ body.length < 256 then
        match l.find? fun i => i.1 = trim body with
        | some i => .val (some (tag i, k))
        | none => .val none
      else .val none
    else .val none
  else .val none

/-- A letter or digit, if there is a byte. -/
def wordByte : Option Byte → Bool
  | some c => isAlnum c
  | none => false

/-- abbreviations.c:320-350: the first abbreviation that begins here as a whole word. `prev` is the byte before. -/
def here (l : List Item) (prev : Option Byte) (s : Bytes) : Option Item :=
  l.find? fun i => i.1.isPrefixOf s && !wordByte prev && !wordByte (s.drop i.1.length).head?

/-- abbreviations.c:232-360: what is written, for a number of turns; `none` when they do not suffice. -/
def toks (l : List Item) : Nat → Option Byte → Bytes → Option (C (List DropBuf.Tok))
  | _, _, [] => some (.val [])
  | 0, _, _ => none
  | n + 1, prev, c :: t =>
    match marked l (c :: t) with
    | .ub => some .ub
    | .val m =>
      let (x, k) := match m with
        | some (x, k) => (DropBuf.Tok.chunk x, k)
        | none => match here l prev (c :: t) with
          | some i => (.chunk (tag i), i.1.length)
          | none => (.byte c, 1)
      match toks l n (((c :: t).take k).getLast?.or prev) ((c :: t).drop k) with
      | some (.val r) => some (.val (x :: r))
      | r => r

/-- abbreviations.c:215-364 (`apex_replace_abbreviations`), for a number of turns. -/
def replace (l : List Item) (n : Nat) (html : Bytes) : Option (C Bytes) :=
  if l = [] then some (.val html) else
  match toks l n none html with
  | some (.val ts) => some (DropBuf.run (html.length * 5) ts)
  | some .ub => some .ub
  | none => none

end Verif.Abbr
