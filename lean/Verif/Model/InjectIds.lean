/-
Ids written into the headings of a page: src/html_renderer.c:1072-1404.
-/
import Verif.Model.HeaderIds

namespace Verif.InjectIds
open Transforms (strstr)
open HeaderIds (Format headingId splitFirst)

/-! ### The buffer -/

/-- html_renderer.c:1193-1196, 1204-1207 and the like: what does not fit into the remaining room is left out. Single bytes
(`if (remaining > 0)`) are chunks of one byte. -/
def write (cap : Nat) (out w : Bytes) : Bytes := if w.length ≤ cap - out.length then out ++ w else out

/-! ### The tags -/

/-- html_renderer.c:1180-1182: does a tag of a heading start here? -/
def isHead : Bytes → Bool
  | a :: b :: d :: c :: _ => a == c!"<" && b == c!"h" && decide (c!"1" ≤ d) && decide (d ≤ c!"6") && (c == c!">" || isSpace c)
  | _ => false

/-- html_renderer.c:1204-1207: where the attribute is, if it starts in front of the end of the tag, which is `n` bytes long
without its `>`. -/
def idAt (s : Bytes) (n : Nat) : Option Nat :=
  match strstr s b!"id=" with
  | some j => if j < n then some j else none
  | none => none

/-- html_renderer.c:1268-1279: what is behind the old value; `t` is the part of the tag behind `id=`. -/
def behindId (t : Bytes) : Bytes :=
  let v := (t.dropWhile fun c => c == 32 || c == c!"\"" || c == c!"'").dropWhile fun c =>
    !(c == 32 || c == c!"\"" || c == c!"'" || c == c!">")
  match v with
  | c :: r => if c = c!"\"" ∨ c = c!"'" then r else v
  | [] => []

/-- html_renderer.c:1282-1283, 1346-1347: `snprintf` into `id_attr_str[512]`. -/
def attr (id : Bytes) : Bytes := (b!"id=\"" ++ id ++ b!"\"").take 511

/-- html_renderer.c:1241-1244: `snprintf` into `anchor_tag[512]`. -/
def anchor (id : Bytes) : Bytes :=
  (b!"<a href=\"#" ++ id ++ b!"\" aria-hidden=\"true\" class=\"anchor\" id=\"" ++ id ++ b!"\"></a>").take 511

theorem splitFirst_len {c : Byte} {s a b : Bytes} (h : splitFirst c s = some (a, b)) : a.length + b.length + 1 = s.length := by
  induction s generalizing a b with
  | nil => simp [splitFirst] at h
  | cons x s ih =>
    unfold splitFirst at h
    split at h
    · simp at h; obtain ⟨rfl, rfl⟩ := h; simp
    · cases hs : splitFirst c s with
      | none => rw [hs] at h; simp at h
      | some p =>
        obtain ⟨a', b'⟩ := p
        rw [hs] at h
        simp at h
        obtain ⟨rfl, rfl⟩ := h
        have := ih hs
        simp
        omega

/-- html_renderer.c:1178-1376: the loop, from `read` and `current_header_idx`: all that is written. -/
def pieces (anchors : Bool) (ids : List Bytes) (i : Nat) (s : Bytes) : List Bytes :=
  match s with
  | [] => []
  | c :: r =>
    if isHead (c :: r) then
      match h : splitFirst c!">" (r.drop 2) with
      | none => [c] :: pieces anchors ids i r
      | some (attrs, after) =>
        let tag := c :: r.take 2 ++ attrs
        match ids[i]? with
        | some id =>
          if anchors then
            (tag ++ b!">") :: anchor id :: pieces anchors ids (i + 1) after
          else
            match idAt (c :: r) tag.length with
            | some j =>
              tag.take j :: attr id :: (behindId (tag.drop (j + 3))).map (fun b => [b]) ++ pieces anchors ids (i + 2) (c!">" :: after)
            | none => (c :: r.take 2) :: attrs :: b!" " :: attr id :: b!">" :: pieces anchors ids (i + 1) after
        | none =>
          (tag ++ b!">") :: pieces anchors ids (if (idAt (c :: r) tag.length).isSome then i else i + 1) after
    else [c] :: pieces anchors ids i r
  termination_by s.length
  decreasing_by
    all_goals simp
    all_goals
      have := splitFirst_len h
      rw [List.length_drop] at this
      omega

/-- html_renderer.c:1150-1404: the page, for the ids of the headings of the document in their order. The list that is built and
reversed (1083-1148) is modelled by a list, `realloc` for the terminator by its absence: the buffer has a byte more than
`capacity`. -/
def inject (anchors : Bool) (ids : List Bytes) (html : Bytes) : C Bytes :=
  if ids = [] then .val html
  else
    let cap := html.length + ids.length * 100
    finish (cap + 1) ((pieces anchors ids 0 html).foldl (write cap) [])

/-- html_renderer.c:1092-1125: the ids of the headings, each with its text and stored attributes. -/
def idsOf (tab : List Emoji.Entry) (fmt : Format) : List (Bytes × Option Bytes) → C (List Bytes)
  | [] => .val []
  | (text, attrs) :: hs => do
    let id ← headingId tab fmt text attrs
    let ids ← idsOf tab fmt hs
    .val (id :: ids)

end Verif.InjectIds
