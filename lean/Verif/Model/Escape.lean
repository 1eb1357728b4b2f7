/-
Models of the byte-wise escaping functions of apex.
-/
import Verif.Model.Buffer

namespace Verif.Escape

/-- Loop shared by the escaping functions below: every input byte `c` is replaced by `esc c`, stored
at the write pointer of a buffer of `cap` bytes; `nul c` says that the store also writes a terminating
NUL (`strcpy`, `snprintf`). At the end `*out = '\0'`. -/
def emit (cap : Nat) (nul : Byte → Bool) (esc : Byte → Bytes) : Bytes → Bytes → C Bytes
  | [], out => finish cap out
  | c :: t, out =>
    if out.length + (esc c).length + (if nul c then 1 else 0) ≤ cap then
      emit cap nul esc t (out ++ esc c)
    else .ub

/-- Upper-case hexadecimal digit, as printed by `%X`. -/
def hexDigit (n : Nat) : Byte := if n < 10 then .ofNat (48 + n) else .ofNat (55 + n)

/-- `%02X` of a byte. -/
def hex2 (c : Byte) : Bytes := [hexDigit (c.toNat / 16), hexDigit (c.toNat % 16)]

/-- Decimal digits of a number below 1000, as printed by `%u`. -/
def dec3 (n : Nat) : Bytes :=
  if n < 10 then [.ofNat (48 + n)]
  else if n < 100 then [.ofNat (48 + n / 10), .ofNat (48 + n % 10)]
  else [.ofNat (48 + n / 100), .ofNat (48 + n / 10 % 10), .ofNat (48 + n % 10)]

/-! ### src/renderer.c -/

/-- src/renderer.c:11-31 `escape_html`, as the sequence of calls it makes on its `apex_buffer`. -/
def escapeHtmlOps : Bytes → List Buffer.Op
  | [] => []
  | c :: t =>
    (if c = c!"<" then Buffer.Op.appendStr b!"&lt;"
     else if c = c!">" then .appendStr b!"&gt;"
     else if c = c!"&" then .appendStr b!"&amp;"
     else if c = c!"\"" then .appendStr b!"&quot;"
     else .appendChar c) :: escapeHtmlOps t

/-! ### src/ast_man.c -/

/-- src/ast_man.c:596-601, what is appended for one byte. -/
def manHtmlByte (c : Byte) : Bytes :=
  if c = c!"&" then b!"&amp;"
  else if c = c!"<" then b!"&lt;"
  else if c = c!">" then b!"&gt;"
  else if c = c!"\"" then b!"&quot;"
  else if c = c!"'" then b!"&#39;"
  else [c]

/-- src/ast_man.c:592-603 `man_buf_append_html_escaped`: the bytes appended to the growing buffer (the
buffer itself is modelled in Model/GrowBuf.lean). -/
def manHtmlEscape : Bytes → Bytes
  | [] => []
  | c :: t => manHtmlByte c ++ manHtmlEscape t

/-! ### src/plugins_env.c and src/ast_json.c -/

/-- src/plugins_env.c:15-48 `apex_json_escape` and src/ast_json.c:54-90 `apex_json_escape_local`
(the same code), from the byte at the head of the list, with `out` already written to a buffer of
`cap` bytes. The inner `Option` is `none` when the function returns NULL (snprintf check). -/
def jsonLoop (cap : Nat) : Bytes → Bytes → C (Option Bytes)
  | [], out =>
    match finish cap out with
    | .val o => .val (some o)
    | .ub => .ub
  | c :: t, out =>
    if c = c!"\\" then
      match puts cap out b!"\\\\" with | .val o => jsonLoop cap t o | .ub => .ub
    else if c = c!"\"" then
      match puts cap out b!"\\\"" with | .val o => jsonLoop cap t o | .ub => .ub
    else if c = 10 then
      match puts cap out b!"\\n" with | .val o => jsonLoop cap t o | .ub => .ub
    else if c = 13 then
      match puts cap out b!"\\r" with | .val o => jsonLoop cap t o | .ub => .ub
    else if c = 9 then
      match puts cap out b!"\\t" with | .val o => jsonLoop cap t o | .ub => .ub
    else if c < 0x20 then
      -- snprintf(w, cap - used, "\\u%04X", c) prints 6 bytes and a NUL
      if 6 ≥ cap - out.length then .val none
      else jsonLoop cap t (out ++ (b!"\\u00" ++ hex2 c))
    else
      match put cap out c with | .val o => jsonLoop cap t o | .ub => .ub

/-- The whole function: `cap = len * 6 + 1`. -/
def jsonEscape (s : Bytes) : C (Option Bytes) := jsonLoop (s.length * 6 + 1) s []

/-- src/ast_json.c:470-480, append one byte to the result, growing it when `len + 1 >= cap`. -/
def jsonPut (cap : Nat) (out : Bytes) (c : Byte) : C (Nat × Bytes) :=
  if out.length + 1 ≥ cap then
    match put (cap * 2) out c with | .val o => .val (cap * 2, o) | .ub => .ub
  else
    match put cap out c with | .val o => .val (cap, o) | .ub => .ub

/-- src/ast_json.c:443-461, the value of a one-letter escape. -/
def jsonEsc (c : Byte) : Byte :=
  if c = c!"b" then 8 else if c = c!"f" then 12 else if c = c!"n" then 10 else if c = c!"r" then 13
  else if c = c!"t" then 9 else c

/-- src/ast_json.c:438-490, the loop of `json_parse_string` after the opening quote, on the rest of the
document. The inner `Option` is `none` when the function returns NULL. `\\u` skips up to four bytes and
gives '?'; after an unknown escape `\\?` the '?' is not skipped. -/
def jsonReadLoop : Bytes → Nat → Bytes → C (Option (Bytes × Bytes))
  | [], _, _ => .val none
  | [c], cap, out =>
    if c = c!"\"" then
      match finish cap out with | .val o => .val (some (o, [])) | .ub => .ub
    else .val none   -- a lone backslash, or the text ends before a closing quote
  | c :: d :: t, cap, out =>
    if c = c!"\"" then
      match finish cap out with | .val o => .val (some (o, d :: t)) | .ub => .ub
    else if c = c!"\\" then
      if d = c!"u" then
        match jsonPut cap out c!"?" with
        | .val (cap', o) => jsonReadLoop (t.drop 4) cap' o
        | .ub => .ub
      else if jsonEsc d = c!"?" then
        match jsonPut cap out c!"?" with
        | .val (cap', o) => jsonReadLoop (d :: t) cap' o
        | .ub => .ub
      else
        match jsonPut cap out (jsonEsc d) with
        | .val (cap', o) => jsonReadLoop t cap' o
        | .ub => .ub
    else
      match jsonPut cap out c with
      | .val (cap', o) => jsonReadLoop (d :: t) cap' o
      | .ub => .ub
termination_by s => s.length
decreasing_by all_goals simp; try omega

/-- src/ast_json.c:428-492 `json_parse_string` at a document position: the string read and the text
after it. -/
def jsonReadString (doc : Bytes) : C (Option (Bytes × Bytes)) :=
  match doc.dropWhile isSpace with
  | [] => .val none
  | c :: t => if c = c!"\"" then jsonReadLoop t 64 [] else .val none

/-- src/ast_json.c:87-97 `apex_json_buf_append_escaped_string`: what is appended to the document. -/
def jsonWriteString (s : Bytes) : C (Option Bytes) :=
  match jsonEscape s with
  | .val (some e) => .val (some (c!"\"" :: e ++ [c!"\""]))
  | .val none => .val none
  | .ub => .ub

/-! ### src/ast_markdown.c -/

/-- include/apex/ast_markdown.h:16-22. -/
inductive Dialect | unified | mmd | commonmark | kramdown | gfm
  deriving DecidableEq, Repr

/-- src/ast_markdown.c:61-91, the switch computing `should_escape`. -/
def mdShouldEscape (d : Dialect) (c : Byte) : Bool :=
  if c = c!"\\" ∨ c = c!"`" ∨ c = c!"*" ∨ c = c!"_" ∨ c = c!"[" ∨ c = c!"]" ∨ c = c!"(" ∨ c = c!")" ∨
     c = c!"#" ∨ c = c!"+" ∨ c = c!"." ∨ c = c!"!" then true
  else if c = c!"{" ∨ c = c!"}" then d != .mmd
  else if c = c!"-" then d != .mmd
  else false

/-- src/ast_markdown.c:54-98 `escape_markdown`: the bytes appended to the growing buffer. -/
def escapeMarkdown (d : Dialect) : Bytes → Bytes
  | [] => []
  | c :: t => (if mdShouldEscape d c then [c!"\\", c] else [c]) ++ escapeMarkdown d t

/-! ### src/apex.c -/

/-- src/apex.c:66-73, the loop of `apex_encode_hex_entities`; `none` is the NULL return. -/
def hexEntLoop (cap : Nat) : Bytes → Bytes → C (Option Bytes)
  | [], out =>
    match finish cap out with
    | .val o => .val (some o)
    | .ub => .ub
  | c :: t, out =>
    if 6 ≥ cap - out.length then .val none
    else hexEntLoop cap t (out ++ (b!"&#x" ++ hex2 c ++ b!";"))

/-- src/apex.c:58-76 `apex_encode_hex_entities` (`none` for empty input). -/
def hexEntities (s : Bytes) : C (Option Bytes) :=
  if s.length = 0 then .val none else hexEntLoop (s.length * 6 + 1) s []

/-! ### src/extensions/metadata.c transforms -/

/-- src/extensions/metadata.c:1735-1750, the replacement of one byte by the `escape` transform. -/
def metaHtmlByte (c : Byte) : Bytes :=
  if c = c!"&" then b!"&amp;"
  else if c = c!"<" then b!"&lt;"
  else if c = c!">" then b!"&gt;"
  else if c = c!"\"" then b!"&quot;"
  else if c = c!"'" then b!"&#39;"
  else if c ≥ 32 && c < 127 then [c]
  else b!"&#" ++ dec3 c.toNat ++ b!";"

/-- All branches but the plain copy use `strcpy` or `snprintf` and also write a NUL. -/
def metaHtmlNul (c : Byte) : Bool := metaHtmlByte c != [c]

/-- src/extensions/metadata.c:1726-1754, transforms `escape` / `html_escape`. -/
def metaHtmlEscape (v : Bytes) : C Bytes := emit (v.length * 6 + 1) metaHtmlNul metaHtmlByte v []

/-- src/extensions/metadata.c:1772 test of `urlencode`. -/
def isUnreserved (c : Byte) : Bool :=
  isAlnum c || c == c!"-" || c == c!"_" || c == c!"." || c == c!"~"

/-- src/extensions/metadata.c:1772-1777. -/
def urlEncByte (c : Byte) : Bytes := if isUnreserved c then [c] else c!"%" :: hex2 c

/-- src/extensions/metadata.c:1764-1781 `urlencode` (`snprintf` writes a NUL). -/
def urlencode (v : Bytes) : C Bytes :=
  emit (v.length * 3 + 1) (fun c => !isUnreserved c) urlEncByte v []

/-- `strtoul(hex, NULL, 16)` of one hexadecimal digit. -/
def hexVal (c : Byte) : Nat :=
  if isDigit c then c.toNat - 48
  else if 65 ≤ c && c ≤ 70 then c.toNat - 55
  else c.toNat - 87

/-- src/extensions/metadata.c:1789-1799, the loop of `urldecode`; `p[1]` and `p[2]` are read only when
the previous byte was not the NUL, so they are inside the string. -/
def urldecodeLoop (cap : Nat) : Bytes → Bytes → C Bytes
  | [], out => finish cap out
  | p :: p1 :: p2 :: t, out =>
    if p = c!"%" && isXDigit p1 && isXDigit p2 then
      match put cap out (.ofNat (hexVal p1 * 16 + hexVal p2)) with
      | .val o => urldecodeLoop cap t o
      | .ub => .ub
    else
      match put cap out (if p = c!"+" then 32 else p) with
      | .val o => urldecodeLoop cap (p1 :: p2 :: t) o
      | .ub => .ub
  | p :: t, out =>
    match put cap out (if p = c!"+" then 32 else p) with
    | .val o => urldecodeLoop cap t o
    | .ub => .ub

/-- The C string stored in a returned buffer: the bytes before the first NUL. -/
def cstr (b : Bytes) : Bytes := b.takeWhile (· != 0)

/-- src/extensions/metadata.c:1783-1802 `urldecode`; the result is used as a C string. -/
def urldecode (v : Bytes) : C Bytes :=
  match urldecodeLoop (v.length + 1) v [] with
  | .val o => .val (cstr o)
  | .ub => .ub

/-! ### src/extensions/ial.c -/

/-- src/extensions/ial.c:1729-1737, bytes copied unchanged. -/
def isUrlSafe (c : Byte) : Bool :=
  (c ≥ c!"A" && c ≤ c!"Z") || (c ≥ c!"a" && c ≤ c!"z") || (c ≥ c!"0" && c ≤ c!"9") ||
  b!"-_.~/:?#[]@!$&'()*+,;=%".contains c

/-- src/extensions/ial.c:1729-1743. -/
def ialUrlByte (c : Byte) : Bytes := if isUrlSafe c then [c] else c!"%" :: hex2 c

/-- src/extensions/ial.c:1714-1747 `url_encode`. -/
def ialUrlEncode (u : Bytes) : C Bytes :=
  emit (u.length * 3 + 1) (fun c => !isUrlSafe c) ialUrlByte u []

end Verif.Escape
