/- src/html_renderer.c:2364-2716 `apex_apply_aria_labels`.  The allocations succeed, the captions are not so many that
their number overflows, and pointers before the page (`search - 200`) are only compared. -/
import Verif.Model.Embed
import Verif.Model.Man

namespace Verif.Aria
open Embed (find)

/-- `strstr`, and another `strstr` if there is nothing. -/
def either (a b s : Bytes) : Option (Bytes × Bytes) := (find a s).or (find b s)

/-- Something is found, before the given place. -/
def before (r : Option (Bytes × Bytes)) (n : Nat) : Bool := r.any fun x => x.1.length < n

/-- The place of the first `>`. -/
def tagEnd (s : Bytes) : Nat := (s.takeWhile (· != c!">")).length

/-- src/html_renderer.c:2397-2407, 2575-2584, 2594-2603: a `<figure` at `j` with the class before `i`. -/
def figureAt (page : Bytes) (i j : Nat) : Bool :=
  b!"<figure" <+: page.drop j && before (either b!"class=\"table-figure\"" b!"class='table-figure'" (page.drop j)) (i - j)

/-- src/html_renderer.c:2396-2410, 2574-2586, 2593-2605: backwards, for less than `n` bytes; the next place is `j - 1`. -/
def back (page : Bytes) (n i : Nat) : Nat → Option Nat
  | 0 => none
  | j + 1 => if j + n ≤ i then none else if figureAt page i j then some j else back page n i j

/-- A caption: its place, its ID and the place of its figure. -/
structure Caption where
  pos : Nat
  id : Bytes
  figure : Nat

/-- src/html_renderer.c:2422-2432: the value of an ID, up to the next `"`, or `'` if there is none. -/
def idValue (s : Bytes) : Option Bytes :=
  if c!"\"" ∈ s then if s.takeWhile (· != c!"\"") = [] then none else some (s.takeWhile (· != c!"\""))
  else if c!"'" ∈ s then if s.takeWhile (· != c!"'") = [] then none else some (s.takeWhile (· != c!"'"))
  else none

/-- src/html_renderer.c:2435-2439. -/
def generated (k : Nat) : Bytes := b!"table-caption-" ++ Man.decimal k

/-- src/html_renderer.c:2414-2440: the ID of a caption, and the number of IDs generated so far. -/
def captionId (k : Nat) (s : Bytes) : Option Bytes × Nat :=
  match either b!"id=\"" b!"id='" s with
  | some (x, y) => if x.length < tagEnd s then (idValue y, k) else (some (generated (k + 1)), k + 1)
  | none => (some (generated (k + 1)), k + 1)

/-- src/html_renderer.c:2387-2458: the first pass; the last caption comes first. -/
def captions (page : Bytes) : Nat → Bytes → Nat → List Caption → List Caption
  | _, [], _, acc => acc
  | i, c :: s, k, acc =>
    if b!"<figcaption" <+: c :: s ∧ c!">" ∈ c :: s then
      match back page 200 i i with
      | none => captions page (i + 1) s k acc
      | some f =>
        match captionId k (c :: s) with
        | (some id, k) => captions page (i + 1) s k ({ pos := i, id := id, figure := f } :: acc)
        | (none, k) => captions page (i + 1) s k acc
    else captions page (i + 1) s k acc

/-- src/html_renderer.c:2566-2617: the ID of the caption of the table at `i`. -/
def described (page : Bytes) (caps : List Caption) (i : Nat) : Option Bytes :=
  (back page 500 i i).bind fun f => (caps.find? fun c => c.figure == f).map Caption.id

/-- src/html_renderer.c:2497-2692: the attributes for the tag that begins at `i`, if it gets some. -/
def attrs (page : Bytes) (caps : List Caption) (i : Nat) (s : Bytes) : Option (List Bytes) :=
  let e := tagEnd s
  if c!">" ∉ s then none
  else if b!"<nav" <+: s then
    if before (either b!"class=\"toc\"" b!"class='toc'" s) e && !before (find b!"aria-label=" s) e then
      some [b!" aria-label=\"Table of contents\""]
    else none
  else if b!"<figure" <+: s then
    if before (find b!"role=" s) e then none else some [b!" role=\"figure\""]
  else if b!"<table" <+: s then
    let role := if before (find b!"role=" s) e then [] else [b!" role=\"table\""]
    let desc := if before (find b!"aria-describedby=" s) e then none else described page caps i
    match desc with
    | some id => some (role ++ [(b!" aria-describedby=\"" ++ id ++ b!"\"").take 255])
    | none => if role = [] then none else some role
  else if b!"<figcaption" <+: s then
    match caps.find? fun c => c.pos == i with
    | some c =>
      if before (either b!"id=\"" b!"id='" s) e then none else some [(b!" id=\"" ++ c.id ++ b!"\"").take 127]
    | none => none
  else none

/-- A write: a byte, or a text that is left out if there is no room for it. -/
inductive Tok
  | byte (c : Byte)
  | chunk (s : Bytes)

/-- src/html_renderer.c:2496-2696: the loop, as what it writes. -/
def toks (page : Bytes) (caps : List Caption) : Nat → Nat → Bytes → List Tok
  | 0, _, _ => []
  | _ + 1, _, [] => []
  | n + 1, i, c :: s =>
    match (if c = c!"<" then attrs page caps i (c :: s) else none) with
    | some as =>
      .chunk ((c :: s).takeWhile (· != c!">")) :: as.map .chunk ++
        .byte c!">" :: toks page caps n (i + tagEnd (c :: s) + 1) ((c :: s).drop (tagEnd (c :: s) + 1))
    | none => .byte c :: toks page caps n (i + 1) s

/-- src/html_renderer.c:2478-2494: `APPEND_SAFE` and `COPY_CHAR` for a block of `cap` bytes. -/
def write (cap : Nat) (out : Bytes) : Tok → Bytes
  | .byte c => if out.length < cap then out ++ [c] else out
  | .chunk s => if out.length + s.length ≤ cap then out ++ s else out

/-- src/html_renderer.c:2460-2461: the room for the page. -/
def capacity (page : Bytes) (caps : List Caption) : Nat :=
  page.length + 2048 + (match caps with | c :: _ => c.id.length * 10 | [] => 0)

/-- src/html_renderer.c:2364-2716. -/
def label (page : Bytes) : C Bytes :=
  let caps := captions page 0 page 0 []
  finish (capacity page caps + 1) ((toks page caps (page.length + 1) 0 page).foldl (write (capacity page caps)) [])

end Verif.Aria
