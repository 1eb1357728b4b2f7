/-
Tables of contents: src/extensions/toc.c.
-/
import Verif.Model.DropBuf
import Verif.Model.HeaderIds
import Verif.Model.Plugins

namespace Verif.Toc
open Transforms (strstr strstr_le)
open HeaderIds (Format generate splitFirst)
open Plugins (atoi)
open DropBuf (Tok)

/-! ### The headings -/

/-- A heading of the document: its level, the text made of it by `apex_extract_heading_text` and the attributes stored with
its node. -/
structure Heading where
  level : Nat
  text : Bytes
  attrs : Option Bytes

/-- toc.c:48-53: is a heading wanted in the table? -/
def wanted (h : Heading) : Bool :=
  match h.attrs with
  | some a => (strstr a b!"no_toc").isNone
  | none => true

/-- toc.c:37-76, `collect_headers`. The document is modelled by the list of its headings in the order of the recursion, the
linked list with a pointer to its tail by a list. -/
def collect (doc : List Heading) : List Heading := doc.filter wanted

/-- An entry of the table: level, id and text. -/
structure Entry where
  level : Nat
  id : Bytes
  text : Bytes
deriving DecidableEq, Repr

/-- toc.c:321-323: the ids. -/
def withIds (tab : List Emoji.Entry) (fmt : Format) : List Heading → C (List Entry)
  | [] => .val []
  | h :: hs => do
    let id ← generate tab fmt h.text
    let es ← withIds tab fmt hs
    .val (⟨h.level, id, h.text⟩ :: es)

/-! ### The table -/

/-- toc.c:109-112: lists are closed, from the level `current` up to `level`. -/
def goUp (level : Nat) : Nat → List Bytes × Nat
  | 0 => ([], 0)
  | current + 1 =>
    if current + 1 > level then
      let r := goUp level current
      (b!"</ul>\n</li>\n" :: r.1, r.2)
    else ([], current + 1)

/-- toc.c:117-130: a list is opened. Each branch of the loop ends it. -/
def goDown (current last level : Nat) : List Bytes × Nat :=
  if current < level then
    if current = 0 then ([b!"<ul>\n"], 1)
    else if last > 0 then ([b!"<ul>\n"], current + 1)
    else ([], current)
  else ([], current)

/-- toc.c:138-140: `snprintf` into `item[1024]`. -/
def item (e : Entry) : Bytes := (b!"<li><a href=\"#" ++ e.id ++ b!"\">" ++ e.text ++ b!"</a>").take 1023

/-- toc.c:132-135: the item before is closed. -/
def closeItem (last level : Nat) : List Bytes := if last > 0 ∧ level ≤ last then [b!"</li>\n"] else []

/-- toc.c:104-143: the loop, from `current_level` and `last_level`: what is appended, and the level at the end. -/
def entries (min max : Int) (current last : Nat) : List Entry → List Bytes × Nat
  | [] => ([], current)
  | e :: es =>
    if (e.level : Int) < min ∨ (e.level : Int) > max then entries min max current last es
    else
      let up := goUp e.level current
      let down := goDown up.2 last e.level
      let r := entries min max down.2 e.level es
      (up.1 ++ down.1 ++ closeItem last e.level ++ [item e] ++ r.1, r.2)

/-- toc.c:102-151: all that is appended. -/
def pieces (min max : Int) (es : List Entry) : List Bytes :=
  let r := entries min max 0 0 es
  [b!"<nav class=\"toc\">\n"] ++ r.1 ++ List.replicate r.2 b!"</li>\n</ul>\n" ++ [b!"</nav>\n"]

/-- toc.c:82-157, `generate_toc_html`: pieces that do not fit into 4096 bytes are left out. -/
def table (min max : Int) (es : List Entry) : C Bytes := DropBuf.run 4096 ((pieces min max es).map Tok.chunk)

/-! ### The marker -/

/-- toc.c:173-184: an opening tag at a `<`, whose text up to the end of the searched part is `t`; `name` in lower case. -/
def opens (name t : Bytes) : Bool :=
  (t.drop 1 |>.take name.length).map toLower == name &&
    (match t.drop (1 + name.length) with
     | c :: _ => c == c!">" || c == 32 || c == 9 || c == 10
     | [] => false)

/-- toc.c:196-213: a closing tag. -/
def closes (name t : Bytes) : Bool :=
  (t.drop 1).head? == some c!"/" && (t.drop 2 |>.take name.length).map toLower == name &&
    (t.drop (2 + name.length)).head? == some c!">"

/-- toc.c:172-217: the loop, from `in_code` and `in_pre`. -/
def scan (code pre : Nat) (t : Bytes) : Nat × Nat :=
  match t with
  | [] => (code, pre)
  | c :: r =>
    if c = c!"<" ∧ opens b!"code" (c :: r) then scan (code + 1) pre (r.drop 4)
    else if c = c!"<" ∧ opens b!"pre" (c :: r) then scan code (pre + 1) (r.drop 3)
    else if c = c!"<" ∧ closes b!"code" (c :: r) then scan (code - 1) pre (r.drop 6)
    else if c = c!"<" ∧ closes b!"pre" (c :: r) then scan code (pre - 1) (r.drop 5)
    else scan code pre r
  termination_by t.length
  decreasing_by all_goals simp; try omega

/-- toc.c:166-219, `is_inside_code_or_pre`: of the text in front of the position. -/
def inside (before : Bytes) : Bool := decide ((scan 0 0 before).1 > 0) || decide ((scan 0 0 before).2 > 0)

/-- toc.c:275-287: the next marker, and whether it is a comment. -/
def nextMarker (s : Bytes) : Option (Nat × Bool) :=
  match strstr s b!"<!--TOC", strstr s b!"{{TOC" with
  | none, none => none
  | some i, none => some (i, true)
  | none, some j => some (j, false)
  | some i, some j => if i < j then some (i, true) else some (j, decide (i = j))

theorem nextMarker_lt {s : Bytes} {i : Nat} {k : Bool} (h : nextMarker s = some (i, k)) : i < s.length := by
  unfold nextMarker at h
  have key : ∀ p : Bytes, 0 < p.length → ∀ i, strstr s p = some i → i < s.length := by
    intro p hp i hi
    have := strstr_le hi
    omega
  split at h
  · cases h
  · rename_i h1 _; cases h; exact key _ (by decide) _ h1
  · rename_i _ h1; cases h; exact key _ (by decide) _ h1
  · rename_i h1 h2
    split at h
    · cases h; exact key _ (by decide) _ h1
    · cases h; exact key _ (by decide) _ h2

/-- The text that ends a marker. -/
def closer (comment : Bool) : Bytes := if comment then b!"-->" else b!"}}"

/-- toc.c:294-301: how far to skip from a marker in code. -/
def skip (comment : Bool) (s : Bytes) : Nat :=
  match strstr s (closer comment) with
  | some e => e + (closer comment).length
  | none => 1

theorem skip_pos (comment : Bool) (s : Bytes) : 0 < skip comment s := by
  unfold skip
  split
  · cases comment <;> simp [closer]
  · exact Nat.one_pos

/-- toc.c:270-303, `find_toc_marker_not_in_code`, from the position `p`. -/
def find (html : Bytes) (p : Nat) : Option (Nat × Bool) :=
  match _h : nextMarker (html.drop p) with
  | none => none
  | some (i, k) =>
    if inside (html.take (p + i)) then find html (p + i + skip k (html.drop (p + i))) else some (p + i, k)
  termination_by html.length - p
  decreasing_by
    have h1 := nextMarker_lt _h
    have h2 := skip_pos k (html.drop (p + i))
    rw [List.length_drop] at h1
    omega

/-! ### The levels -/

/-- toc.c:231-239: the number behind a word. -/
def numberBehind (word s : Bytes) : Option Int :=
  match strstr s word with
  | none => none
  | some i =>
    match (s.drop (i + word.length)).dropWhile (fun c => !isDigit c) with
    | [] => none
    | c :: r => some (atoi (c :: r))

/-- toc.c:242-256: the levels behind a colon, if there are any. -/
def afterColon (min max : Int) (s : Bytes) : Int × Int :=
  match splitFirst c!":" s with
  | none => (min, max)
  | some (_, r) =>
    match r.dropWhile isSpace with
    | [] => (min, max)
    | c :: t =>
      if isDigit c then
        match splitFirst c!"-" (c :: t) with
        | some (_, d :: u) => if isDigit d then (atoi (c :: t), atoi (d :: u)) else (atoi (c :: t), max)
        | _ => (atoi (c :: t), max)
      else (min, max)

/-- toc.c:224-258, `parse_toc_marker`: the lowest and highest level, from the text that starts with the marker.  The text does
not end with the marker: it is the rest of the page. (`atoi` of numbers that do not fit an `int` is out of scope.) -/
def levels (s : Bytes) : Int × Int :=
  afterColon ((numberBehind b!"min" s).getD 1) ((numberBehind b!"max" s).getD 6) s

/-! ### The page -/

/-- toc.c:329-368: the marker is replaced. -/
def replace (html toc : Bytes) (i : Nat) (comment : Bool) : C Bytes :=
  match strstr (html.drop i) (closer comment) with
  | none => .val html
  | some e => do
    let cap := html.length + toc.length + 100
    let out ← puts cap [] (html.take i)
    let out ← puts cap out toc
    let out ← puts cap out (html.drop (i + e + (closer comment).length))
    finish cap out

/-- toc.c:308-368, `apex_process_toc`. -/
def process (tab : List Emoji.Entry) (fmt : Format) (doc : List Heading) (html : Bytes) : C Bytes :=
  match find html 0 with
  | none => .val html
  | some (i, comment) =>
    if collect doc = [] then .val html
    else do
      let es ← withIds tab fmt (collect doc)
      let l := levels (html.drop i)
      let toc ← table l.1 l.2 es
      replace html toc i comment

end Verif.Toc
