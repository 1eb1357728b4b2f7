/-
Model of `apex_adjust_quote_language` (src/html_renderer.c:2159-2356). A failing allocation is not modelled.
-/
import Verif.Basic

namespace Verif.QuoteLang

/-- html_renderer.c:2171-2181: at most 63 bytes of the name, lower case, without white space. -/
def normalized (lang : Bytes) : Bytes := ((lang.filter fun c => !isSpace c).map toLower).take 63

/-- What is written for the four quotation marks. -/
structure Marks where
  double_open : Bytes
  double_close : Bytes
  single_open : Bytes
  single_close : Bytes

/-- html_renderer.c:2183-2231; `none` where the page is returned as it is. -/
def marks (n : Bytes) : Option Marks :=
  if n = b!"english" ∨ n = b!"en" then none
  else if n = b!"french" ∨ n = b!"fr" then some ⟨b!"&laquo;&nbsp;", b!"&nbsp;&raquo;", b!"&rsquo;", b!"&rsquo;"⟩
  else if n = b!"german" ∨ n = b!"de" then some ⟨b!"&bdquo;", b!"&ldquo;", b!"&sbquo;", b!"&lsquo;"⟩
  else if n = b!"germanguillemets" then some ⟨b!"&raquo;", b!"&laquo;", b!"&rsaquo;", b!"&lsaquo;"⟩
  else if n = b!"spanish" ∨ n = b!"es" then some ⟨b!"&laquo;", b!"&raquo;", b!"&lsquo;", b!"&rsquo;"⟩
  else if n = b!"dutch" ∨ n = b!"nl" then some ⟨b!"&bdquo;", b!"&ldquo;", b!"&sbquo;", b!"&lsquo;"⟩
  else if n = b!"swedish" ∨ n = b!"sv" then some ⟨b!"&rdquo;", b!"&rdquo;", b!"&rsquo;", b!"&rsquo;"⟩
  else none

/-- html_renderer.c:2249-2322: the quotation mark at `p`: what is written for it and how many bytes it has. -/
def mark (m : Marks) (p : Bytes) : Option (Bytes × Nat) :=
  if b!"&ldquo;".isPrefixOf p then some (m.double_open, 7)
  else if b!"&rdquo;".isPrefixOf p then some (m.double_close, 7)
  else if b!"&lsquo;".isPrefixOf p then some (m.single_open, 7)
  else if b!"&rsquo;".isPrefixOf p then some (m.single_close, 7)
  else if [0xE2, 0x80, 0x9C].isPrefixOf p then some (m.double_open, 3)
  else if [0xE2, 0x80, 0x9D].isPrefixOf p then some (m.double_close, 3)
  else if [0xE2, 0x80, 0x98].isPrefixOf p then some (m.single_open, 3)
  else if [0xE2, 0x80, 0x99].isPrefixOf p then some (m.single_close, 3)
  else none

/-- html_renderer.c:2334-2351: the size of the block when a byte is copied. -/
def room (cap len : Nat) : Nat := if cap - len > 0 then cap else (len + 1) * 2

/-- html_renderer.c:2248-2354. Every turn reads a byte, so as many turns as bytes suffice. A mark that does not fit is
copied like other text (2252 and the like, then 2334). -/
def loop (m : Marks) : Nat → Nat → Bytes → Bytes → C Bytes
  | _, cap, out, [] => finish cap out
  | 0, _, _, _ => .ub
  | f + 1, cap, out, c :: t =>
    match mark m (c :: t) with
    | some (r, k) =>
      if r.length < cap - out.length then puts cap out r >>= fun out => loop m f cap out ((c :: t).drop k)
      else put (room cap out.length) out c >>= fun o => loop m f (room cap out.length) o t
    | none => put (room cap out.length) out c >>= fun o => loop m f (room cap out.length) o t

/-- html_renderer.c:2163-2356 (`apex_adjust_quote_language`). -/
def adjust (html : Bytes) (lang : Option Bytes) : C Bytes :=
  match lang with
  | none => .val html
  | some l =>
    if l = [] then .val html
    else match marks (normalized l) with
      | none => .val html
      | some m => loop m html.length (html.length * 2) [] html

end Verif.QuoteLang
