/- src/apex.c:1012-1208 and 1634-1765: Liquid tags are replaced by placeholders in front of the conversion and put back
   into the page.  The allocations succeed. -/
import Verif.Model.FencedDivs
import Verif.Model.Man

namespace Verif.Liquid

open FencedDivs (Buf Buf.write Buf.store)

/-- src/apex.c:1043 and 1641. -/
def mark : Bytes := b!"APEX_LIQUID_TAG_"

/-- src/apex.c:1136-1138, the placeholder of a tag; 64 bytes are enough for it. -/
def placeholder (k : Nat) : Bytes := mark ++ Man.decimal k

/-- src/apex.c:1046-1191, the loop: the block and the tags, when `k` of them were found.  `n` bounds the rounds; each
takes a tag. -/
def protectLoop (n k : Nat) (b : Buf) (read : Bytes) : C (Buf × List Bytes) :=
  match n with
  | 0 => .val (b, [])
  | n + 1 =>
    if read = [] then .val (b, [])
    else
      match Embed.find b!"{%" read with
      | none =>
        match b.write read.length (b.out.length + read.length + 1) read with
        | .ub => .ub
        | .val b => .val (b, [])
      | some (pre, rest) =>
        match b.write pre.length (b.out.length + pre.length + 64) pre with
        | .ub => .ub
        | .val b =>
          match Embed.find b!"%}" rest with
          | none =>
            match b.write (rest.length + 2) (b.out.length + (rest.length + 2) + 1) (b!"{%" ++ rest) with
            | .ub => .ub
            | .val b => .val (b, [])
          | some (inner, rest) =>
            match b.write (placeholder k).length (b.out.length + (placeholder k).length + 64) (placeholder k) with
            | .ub => .ub
            | .val b =>
              match protectLoop n (k + 1) b rest with
              | .ub => .ub
              | .val (b, tags) => .val (b, (b!"{%" ++ inner ++ b!"%}") :: tags)

/-- src/apex.c:1021-1208 `apex_protect_liquid_tags`: the text to convert and the tags; `none` is NULL, for a text without
tags. -/
def protect (text : Bytes) : C (Option (Bytes × List Bytes)) :=
  match protectLoop (text.length + 1) 0 ⟨[], text.length + 64⟩ text with
  | .ub => .ub
  | .val (b, tags) =>
    match b.store [0] with
    | .ub => .ub
    | .val b => if tags = [] then .val none else .val (some (b.out.takeWhile (· != 0), tags))

/-- src/apex.c:1714-1717: the number, in `size_t`. -/
def index (ds : Bytes) : Nat := ds.foldl (fun i c => (i * 10 + (c.toNat - 48)) % 2 ^ 64) 0

/-- src/apex.c:1719-1757: what is written for a placeholder with the given digits. -/
def replacement (tags : List Bytes) (ds : Bytes) : Bytes :=
  match tags[index ds]? with
  | some tag => tag
  | none => mark ++ ds

/-- src/apex.c:1659-1760, the loop.  `n` bounds the rounds; each takes a byte. -/
def restoreLoop (tags : List Bytes) (n : Nat) (b : Buf) (read : Bytes) : C Buf :=
  match n with
  | 0 => .val b
  | n + 1 =>
    if read = [] then .val b
    else
      match Embed.find mark read with
      | none => b.write read.length (b.out.length + read.length + 1) read
      | some (pre, rest) =>
        match b.write pre.length (b.out.length + pre.length + 64) pre with
        | .ub => .ub
        | .val b =>
          let ds := rest.takeWhile isDigit
          if ds = [] then
            match (if b.cap - b.out.length > 0 then b.store (mark.take 1) else .val b) with
            | .ub => .ub
            | .val b => restoreLoop tags n b (mark.drop 1 ++ rest)
          else
            let new := replacement tags ds
            match b.write new.length (b.out.length + new.length + 64) new with
            | .ub => .ub
            | .val b => restoreLoop tags n b (rest.drop ds.length)

/-- src/apex.c:1634-1765 `apex_restore_liquid_tags`, for at least one tag. -/
def restore (html : Bytes) (tags : List Bytes) : C Bytes :=
  match restoreLoop tags (html.length + 1) ⟨[], max (html.length + tags.length * 64) (html.length + 1)⟩ html with
  | .ub => .ub
  | .val b =>
    match b.store [0] with
    | .ub => .ub
    | .val b => .val (b.out.takeWhile (· != 0))

end Verif.Liquid
