/- src/extensions/emoji.c:36-438, emoji in a page: `is_in_header`, `is_inside_html_attribute`, `apex_replace_emoji`.  The
   allocation succeeds.  Also `apex_find_emoji_name`, 197-220. -/
import Verif.Model.Emoji
import Verif.Model.Embed

namespace Verif.EmojiHtml

open Emoji (Entry find normalize alignment candidate blanks copyIf copyByte)

/-- src/extensions/emoji.c:36-66 `is_in_header`, for the text before a place, backwards.  `depth` is never but zero when it is
changed, and a change ends the search. -/
def inHeader : Bytes → Bool
  | [] => false
  | x :: t =>
    if x == c!">" && decide (t.length > 3) then
      if b!"/<".isPrefixOf t then
        if decide (t.length ≥ 5) && (t[2]! == c!"h" || t[2]! == c!"H") && decide (c!"1" ≤ t[3]! ∧ t[3]! ≤ c!"6") then false
        else inHeader t
      else if (t[0]! == c!"h" || t[0]! == c!"H") && decide (c!"1" ≤ t[1]! ∧ t[1]! ≤ c!"6") && t[2]! == c!"<" then true
      else inHeader t
    else inHeader t

/-- src/extensions/emoji.c:90, 94 and 292: `x` is the `t` of `&lt;` or `&gt;`.  `next` is the byte behind it, `t` the text before
it, backwards. -/
def entity (k next x : Byte) (t : Bytes) : Bool := x == c!"t" && next == c!";" && decide (t.length ≥ 3) && [k, c!"&"].isPrefixOf t

/-- src/extensions/emoji.c:77-110: the text of the tag that is open at a place, backwards. -/
def tagOpen (next : Byte) : Bytes → Option Bytes
  | [] => none
  | x :: t =>
    if x == c!">" then none
    else if x == c!"<" then some []
    else if entity c!"l" next x t then some [x, c!"l"]
    else if entity c!"g" next x t then none
    else (tagOpen x t).map (x :: ·)

/-- src/extensions/emoji.c:74-191 `is_inside_html_attribute`, for a colon behind `pre`.  The ends of tags looked for in 118-124
and 174-177 are not there, since the first loop would have stopped at them. -/
def inAttr (pre : Bytes) : Bool :=
  match tagOpen c!":" pre with
  | none => false
  | some tag =>
    if tag.contains c!"=" then
      match (tag.takeWhile (· != c!"=")).reverse.dropWhile isSpace with
      | [] => false
      | q :: v => if q == c!"\"" || q == c!"'" then !v.contains q else (q :: v).all fun c => !isSpace c
    else false

/-- src/extensions/emoji.c:277-281: the name of the tag. -/
def imgTag : Bytes → Bool
  | i :: m :: g :: s :: _ => (i == c!"i" || i == c!"I") && (m == c!"m" || m == c!"M") && (g == c!"g" || g == c!"G") && (isSpace s || s == c!">")
  | _ => false

/-- src/extensions/emoji.c:268-312: how many bytes before the colon an image starts.  `d` is the distance of the first byte of
the list, `seen` the text behind it.  The test for `&lt;img` in 295-299 never holds, since `tag_start[3]` is the `;`. -/
def inImg (d : Nat) (seen : Bytes) : Bytes → Option Nat
  | [] => none
  | x :: t =>
    if d ≥ 50 then none
    else if x == c!">" then none
    else if x == c!"<" then if decide (d > 4) && imgTag seen then some d else none
    else if entity c!"l" (seen.headD 0) x t then none
    else inImg (d + 1) (x :: seen) t

/-- src/extensions/emoji.c:385-391: an image. -/
def image (header : Bool) (url name : Bytes) : Bytes :=
  b!"<img class=\"emoji\" src=\"" ++ url ++ b!"\" alt=\":" ++ name ++
    if header then b!":\" style=\"height: 1em; width: auto; vertical-align: middle;\">" else b!":\" height=\"20\" width=\"20\" align=\"absmiddle\">"

/-- src/extensions/emoji.c:332-421: what is written for a name, `none` if nothing.  `source` is the text of the name with the
bytes around it.  When an image does not fit, `snprintf` leaves bytes in the block that are written over or not used. -/
def named (tab : List Entry) (cap : Nat) (out pre name source : Bytes) : Option (C Bytes) :=
  if alignment name then some (copyIf cap out source)
  else
    match find tab (normalize (name.take 63)) with
    | none => some (copyIf cap out source)
    | some e =>
      match e.unicode with
      | some u => some (if u.length < cap - out.length then puts cap out u else copyIf cap out source)
      | none =>
        match e.image with
        | some url =>
          let tag := image (inHeader (source.headD 0 :: pre)) url e.name
          some (if tag.length < cap - out.length then puts cap out tag else copyIf cap out source)
        | none => none

/-- src/extensions/emoji.c:315-433: from the search for the second colon on.  What is written, and how many bytes are used up.
The first byte of `cur` is taken for the first colon. -/
def piece (tab : List Entry) (cap : Nat) (out pre cur : Bytes) : C Bytes × Nat :=
  match candidate blanks (c!":" :: cur.tail) with
  | some (name, _) =>
    match named tab cap out pre name (cur.take (name.length + 2)) with
    | some o => (o, name.length + 2)
    | none => (copyByte cap out (cur.headD 0), 1)
  | none => (copyByte cap out (cur.headD 0), 1)

/-- src/extensions/emoji.c:282-289: bytes, as far as they fit. -/
def copyBytes (cap : Nat) (out : Bytes) : Bytes → C Bytes
  | [] => .val out
  | c :: t => copyByte cap out c >>= fun o => copyBytes cap o t

/-- src/extensions/emoji.c:239-250: the length of a placeholder. -/
def placeholder (cap : Nat) (out pre cur : Bytes) : Option Nat :=
  if b!"XDI--!<".isPrefixOf pre && cur.head? == some c!":" then
    match Embed.find b!"-->" cur with
    | some (a, _) => if a.length + 3 ≤ cap - out.length then some (a.length + 3) else none
    | none => none
  else none

/-- src/extensions/emoji.c:268-433, at a colon that is not in an attribute.  The `continue` in 289 belongs to the inner loop: bytes
are copied up to the one 50 places behind the `<` of the image, whether the page ends before it or not; then that byte
is taken for the colon. -/
def colon (tab : List Entry) (cap : Nat) (out pre cur : Bytes) : C (Bytes × Nat) :=
  match inImg 1 [c!":"] pre with
  | some d =>
    if cur.length ≤ 50 - d then .ub
    else
      copyBytes cap out (cur.take (50 - d)) >>= fun o =>
        let p := piece tab cap o ((cur.take (50 - d)).reverse ++ pre) (cur.drop (50 - d))
        p.1 >>= fun o => .val (o, 50 - d + p.2)
  | none =>
    let p := piece tab cap out pre cur
    p.1 >>= fun o => .val (o, p.2)

/-- src/extensions/emoji.c:238-433, one round: what is written so far, and how many bytes are used up. -/
def step (tab : List Entry) (cap : Nat) (out pre cur : Bytes) : C (Bytes × Nat) :=
  match placeholder cap out pre cur with
  | some k => puts cap out (cur.take k) >>= fun o => .val (o, k)
  | none =>
    if cur.head? = some c!":" then
      if inAttr pre then copyByte cap out c!":" >>= fun o => .val (o, 1)
      else colon tab cap out pre cur
    else copyByte cap out (cur.headD 0) >>= fun o => .val (o, 1)

/-- src/extensions/emoji.c:237-437, the loop.  `n` bounds the rounds. -/
def loop (tab : List Entry) (cap : Nat) : Nat → Bytes → Bytes → Bytes → C Bytes
  | 0, _, _, _ => .ub
  | n + 1, out, pre, cur =>
    if cur = [] then finish cap out
    else step tab cap out pre cur >>= fun r => loop tab cap n r.1 ((cur.take r.2).reverse ++ pre) (cur.drop r.2)

/-- src/extensions/emoji.c:226-438 `apex_replace_emoji`. -/
def replace (tab : List Entry) (html : Bytes) : C Bytes := loop tab (html.length * 3) (html.length + 1) [] [] html

/-- src/extensions/emoji.c:203-218: the loop over the table with `best_match`.  No entry contains a NUL, so that `strncmp` is
zero for equal bytes only. -/
def nameLoop (u : Bytes) : Option Bytes → List Entry → Option Bytes
  | best, [] => best
  | best, e :: es =>
    if e.unicode = some u then
      match best with
      | none => nameLoop u (some e.name) es
      | some m => if e.name.length > m.length then nameLoop u (some e.name) es else nameLoop u best es
    else nameLoop u best es

/-- src/extensions/emoji.c:197-220 `apex_find_emoji_name`. -/
def findName (tab : List Entry) (u : Bytes) : Option Bytes := if u = [] then none else nameLoop u none tab

end Verif.EmojiHtml
