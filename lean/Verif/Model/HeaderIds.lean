/-
Heading ids: src/extensions/header_ids.c and the place where they are looked up (html_renderer.c).
-/
import Verif.Model.EmojiData
import Verif.Model.Transforms

namespace Verif.HeaderIds

open Emoji (Entry)

/-- src/extensions/header_ids.h:15-19, `apex_id_format_t`. -/
inductive Format
  | gfm
  | mmd
  | kramdown
  deriving DecidableEq, Repr

/-- emoji.c:197-220, the loop of `apex_find_emoji_name`; `best` is `best_match`. -/
def nameLoop (u : Bytes) (best : Option Bytes) : List Entry → Option Bytes
  | [] => best
  | e :: es =>
    if e.unicode = some u then
      match best with
      | none => nameLoop u (some e.name) es
      | some b => nameLoop u (if b.length < e.name.length then some e.name else some b) es
    else nameLoop u best es

/-- emoji.c:197-220, `apex_find_emoji_name` for the `utf8_len` bytes `u`. -/
def findName (tab : List Entry) (u : Bytes) : Option Bytes := nameLoop u none tab

/-- header_ids.c:132-135, 193-196, 215-218: the length announced by a lead byte, 0 for other bytes. -/
def utf8Len (c : Byte) : Nat :=
  if c &&& 0xE0 = 0xC0 then 2
  else if c &&& 0xF0 = 0xE0 then 3
  else if c &&& 0xF8 = 0xF0 then 4
  else 0

/-- The variables of `apex_generate_header_id` (header_ids.c:54-63): `capacity`, the bytes written, and the
flags `last_was_dash`, `first_char`, `last_was_punct_dash`. -/
structure St where
  cap : Nat
  out : Bytes
  last : Bool
  first : Bool
  punct : Bool
  deriving DecidableEq, Repr

/-- Write bytes one after the other and clear the flags named in the code. -/
def St.write (st : St) (w : Bytes) (last first punct : Bool) : C St :=
  puts st.cap st.out w >>= fun o => .val ⟨st.cap, o, last, first, punct⟩

/-- header_ids.c:111-148: a byte in MMD format.  The second component is what is added to `read`. -/
def mmdStep (st : St) (c : Byte) (t : Bytes) : C (St × Nat) :=
  if c = c!"-" then st.write [c!"-"] false false st.punct >>= fun s => .val (s, 0)
  else if isAlnum c then st.write [toLower c] false false st.punct >>= fun s => .val (s, 0)
  else if c < 0x80 then .val (st, 0)
  else if utf8Len c > 0 then
    st.write ((c :: t).take (utf8Len c)) false false st.punct >>= fun s => .val (s, utf8Len c - 1)
  else .val (st, 0)

/-- header_ids.c:153: the white space looked for by the Kramdown branch. -/
def isBlank (c : Byte) : Bool := c == 32 || c == 9 || c == 10 || c == 13

/-- header_ids.c:149-206: a byte in Kramdown format. -/
def kramStep (st : St) (c : Byte) (t : Bytes) : C (St × Nat) :=
  let trailing := t.dropWhile isBlank = []
  if c = c!"-" then st.write [c!"-"] false false false >>= fun s => .val (s, 0)
  else if isAlnum c then st.write [toLower c] false false false >>= fun s => .val (s, 0)
  else if c = 32 then
    if st.punct then .val ({ st with punct := false }, 0)
    else st.write [c!"-"] false false false >>= fun s => .val (s, 0)
  else if c < 0x80 then
    if trailing then .val ({ st with punct := false }, 0)
    else st.write [c!"-"] false false true >>= fun s => .val (s, 0)
  else if utf8Len c > 0 then .val (st, utf8Len c - 1)
  else .val (st, 0)

/-- header_ids.c:258-295: the letter written for a two-byte sequence with these bytes (`byte2 == 0xFF` cannot
happen after the test for a continuation byte). -/
def letter (c d : Byte) : Option Byte :=
  if c ≠ 0xC3 then none
  else if d = 0x89 then some c!"e"
  else if 0x80 ≤ d ∧ d ≤ 0x85 then some c!"a"
  else if d = 0x87 ∨ d = 0xA7 then some c!"c"
  else if 0x88 ≤ d ∧ d ≤ 0x8B then some c!"e"
  else if 0x8C ≤ d ∧ d ≤ 0x8F then some c!"i"
  else if d = 0x91 ∨ d = 0xB1 then some c!"n"
  else if 0x92 ≤ d ∧ d ≤ 0x98 then some c!"o"
  else if 0x99 ≤ d ∧ d ≤ 0x9C then some c!"u"
  else if d = 0x9D ∨ d = 0xBD ∨ d = 0xFF then some c!"y"
  else if d = 0x9F then some c!"s"
  else none

/-- header_ids.c:221-228: the bytes that follow the lead byte are continuation bytes. -/
def enough (n : Nat) (t : Bytes) : Bool := decide (n ≤ t.length) && (t.take n).all fun d => d &&& 0xC0 == 0x80

/-- header_ids.c:234-252: room is made for the name, then it is copied. -/
def writeName (st : St) (name : Bytes) : C St :=
  let needed := st.out.length + name.length + 1
  let cap := if needed > st.cap then needed * 2 else st.cap
  St.write { st with cap := cap } name false false st.punct

/-- header_ids.c:317-354: a byte that is not part of a complete sequence, in GFM format (`normalize_char`
of an ASCII character is its lower case when it is a letter or digit, 0 otherwise). -/
def gfmPlain (st : St) (c : Byte) : C St :=
  if isAlnum c then st.write [toLower c] false false st.punct
  else if c = 32 ∨ c = c!"-" then
    if st.last || st.first then .val st
    else st.write [c!"-"] true st.first st.punct
  else .val st

/-- header_ids.c:207-355: a byte in GFM format. -/
def gfmStep (tab : List Entry) (st : St) (c : Byte) (t : Bytes) : C (St × Nat) :=
  let n := utf8Len c
  if c ≥ 0x80 ∧ n > 0 ∧ enough (n - 1) t then
    match findName tab ((c :: t).take n) with
    | some name => writeName st name >>= fun s => .val (s, n - 1)
    | none =>
      match if n = 2 then letter c (t.headD 0) else none with
      | some l => st.write [l] false false st.punct >>= fun s => .val (s, n - 1)
      | none => .val (st, n - 1)
  else gfmPlain st c >>= fun s => .val (s, 0)

/-- header_ids.c:65-109, then the branch of the format: one round of the loop. -/
def step (tab : List Entry) (fmt : Format) (st : St) (c : Byte) (t : Bytes) : C (St × Nat) :=
  if c &&& 0xC0 = 0x80 then .val (st, 0)
  else if c = 0xE2 ∧ t.take 2 = [0x80, 0x94] then
    if fmt = .mmd then st.write [0xE2, 0x80, 0x94] false false st.punct >>= fun s => .val (s, 2)
    else .val (st, 2)
  else if c = 0xE2 ∧ t.take 2 = [0x80, 0x93] then
    if fmt = .mmd then st.write [0xE2, 0x80, 0x93] false false st.punct >>= fun s => .val (s, 2)
    else .val (st, 2)
  else if c = 0xE2 ∧ (t.take 2 = [0x80, 0x99] ∨ t.take 2 = [0x80, 0x98]) then .val (st, 2)
  else
    match fmt with
    | .mmd => mmdStep st c t
    | .kramdown => kramStep st c t
    | .gfm => gfmStep tab st c t

/-- header_ids.c:65-357: the loop, from the bytes still to be read.  When `read` is moved behind the
terminator the next test reads outside the text. -/
def loop (tab : List Entry) (fmt : Format) (st : St) : Bytes → C St
  | [] => .val st
  | c :: t =>
    match step tab fmt st c t with
    | .ub => .ub
    | .val (st', k) => if k ≤ t.length then loop tab fmt st' (t.drop k) else .ub
  termination_by s => s.length
  decreasing_by simp; omega

/-- header_ids.c:363-378: GFM, dashes at both ends go.  (For an empty id the code forms a pointer in front of
the buffer that it does not use; not modelled.) -/
def trimGfm (s : Bytes) : Bytes :=
  ((s.dropWhile (· == c!"-")).reverse.dropWhile (· == c!"-")).reverse

/-- header_ids.c:359-395: termination, trimming and the default. -/
def ending (fmt : Format) (st : St) : C Bytes :=
  finish st.cap st.out >>= fun s =>
    let s := match fmt with
      | .gfm => trimGfm s
      | .kramdown => s.dropWhile (· == c!"-")
      | .mmd => s
    .val (if s = [] then b!"header" else s)

/-- header_ids.c:50-395, `apex_generate_header_id`. -/
def generate (tab : List Entry) (fmt : Format) (text : Bytes) : C Bytes :=
  loop tab fmt ⟨text.length * 3 + 1, [], false, true, false⟩ text >>= ending fmt

/-! ### The text of a heading -/

/-- header_ids.c:396-455: the literals of the text and code children are collected; `cap` is the size of the
allocation, `out` the bytes written.  `capacity` is never updated, so every `realloc` asks for 512 bytes. -/
def textLoop (cap : Nat) (out : Bytes) : List Bytes → C Bytes
  | [] => finish cap out
  | l :: ls =>
    let cap := if l.length ≥ cap - out.length then 512 else cap
    puts cap out l >>= fun out => textLoop cap out ls

/-- header_ids.c:396-459, `apex_extract_heading_text`, from the literals of the children that are text or
code (other children are skipped). -/
def headingText (literals : List Bytes) : C Bytes := textLoop 256 [] literals

/-! ### Ids given in the heading -/

/-- `strrchr(s, c)`: what is in front of the last `c` and what is behind it. -/
def splitLast (c : Byte) : Bytes → Option (Bytes × Bytes)
  | [] => none
  | x :: s =>
    match splitLast c s with
    | some (a, b) => some (x :: a, b)
    | none => if x = c then some ([], s) else none

/-- `strchr(s, c)`: what is in front of the first `c` and what is behind it. -/
def splitFirst (c : Byte) : Bytes → Option (Bytes × Bytes)
  | [] => none
  | x :: s =>
    if x = c then some ([], s)
    else match splitFirst c s with
      | some (a, b) => some (x :: a, b)
      | none => none

/-- header_ids.c:520-522, 560-562: white space at the end goes. -/
def trimEnd (s : Bytes) : Bytes := (s.reverse.dropWhile isSpace).reverse

/-- header_ids.c:483-534: `Heading [id]`. -/
def mmdId (text : Bytes) : Option (Bytes × Bytes) :=
  match splitLast c!"[" text with
  | none => none
  | some (pre, s) =>
    match splitFirst c!"]" s with
    | none => none
    | some (id, after) =>
      if id ≠ [] ∧ id.head? ≠ some c!"%" ∧ after.dropWhile isSpace = [] then some (trimEnd pre, id) else none

/-- header_ids.c:536-575: `Heading {#id}`. -/
def kramId (text : Bytes) : Option (Bytes × Bytes) :=
  match splitLast c!"{" text with
  | none => none
  | some (pre, s) =>
    match s with
    | c :: s =>
      if c = c!"#" then
        match splitFirst c!"}" s with
        | none => none
        | some (id, after) =>
          if id ≠ [] ∧ after.dropWhile isSpace = [] then some (trimEnd pre, id) else none
      else none
    | [] => none

/-- header_ids.c:473-578, `apex_extract_manual_header_id`: the new text and the id.  (When nothing is left in
front of the marker the code forms a pointer in front of the buffer that it does not read; not modelled.) -/
def manualId (text : Bytes) : Option (Bytes × Bytes) :=
  if text = [] then none
  else match mmdId text with
    | some r => some r
    | none => kramId text

/-- header_ids.c:630-655: the attribute is stored behind the attributes the heading already has. -/
def storeId (existing : Option Bytes) (id : Bytes) : Bytes :=
  match existing with
  | some e => e ++ b!" id=\"" ++ id ++ b!"\""
  | none => b!"id=\"" ++ id ++ b!"\""

/-- html_renderer.c:1100-1117: the id found in the stored attributes. -/
def storedId (attrs : Bytes) : Option Bytes :=
  match Transforms.strstr attrs b!"id=\"" with
  | none => none
  | some i =>
    match splitFirst c!"\"" (attrs.drop (i + 4)) with
    | some (id, _) => if id ≠ [] then some id else none
    | none => none

/-- html_renderer.c:1096-1122: the id of a heading with this text and these stored attributes. -/
def headingId (tab : List Entry) (fmt : Format) (text : Bytes) (attrs : Option Bytes) : C Bytes :=
  match attrs.bind storedId with
  | some id => .val id
  | none => generate tab fmt text

end Verif.HeaderIds
