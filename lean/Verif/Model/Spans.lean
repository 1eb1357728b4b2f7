/- src/extensions/ial.c:4075-4414: bracketed spans.  The allocations succeed, the text has no zero byte, and `ctype.h` is that of the C
locale.  `strcmp` of the result happens behind its terminator. -/
import Verif.Model.Ial

namespace Verif.Spans

/-- A blank or tab. -/
def blank (c : Byte) : Bool := c == c!" " || c == c!"\t"

/-- src/extensions/ial.c:4093-4102: the identifier of a line that is a definition of a reference. -/
def defined (line : Bytes) : Option Bytes :=
  match line.dropWhile blank with
  | c :: t =>
    if c = c!"[" then
      match t.dropWhile (· != c!"]") with
      | _ :: d :: _ => if d = c!":" ∧ t.takeWhile (· != c!"]") ≠ [] then some (t.takeWhile (· != c!"]")) else none
      | _ => none
    else none
  | [] => none

/-- src/extensions/ial.c:4104-4131: an identifier is added if it is new. -/
def add (l : List Bytes) : Option Bytes → List Bytes
  | some i => if i ∈ l then l else l ++ [i]
  | none => l

/-- src/extensions/ial.c:4080-4145 `extract_reference_link_ids`.  The counter is enough with more than the length of the text. -/
def ids : Nat → List Bytes → Bytes → List Bytes
  | 0, l, _ => l
  | _, l, [] => l
  | n + 1, l, c :: s =>
    ids n (add l (defined ((c :: s).takeWhile (· != c!"\n")))) (((c :: s).dropWhile (· != c!"\n")).drop 1)

/-- src/extensions/ial.c:4163-4191: the comparison behind the white space at the front. -/
def compare : Nat → Bytes → Bytes → Bool
  | n + 1, c :: p, d :: t =>
    if toLower c = toLower d then compare n p t
    else if isSpace c && isSpace d then compare n ((c :: p).dropWhile isSpace) ((d :: t).dropWhile isSpace)
    else false
  | _, p, t => p.all isSpace && t.all isSpace

/-- src/extensions/ial.c:4150-4193 `reference_id_matches`. -/
def same (i x : Bytes) : Bool := compare (i.length + 1) (i.dropWhile isSpace) (x.dropWhile isSpace)

/-- src/extensions/ial.c:4263-4279: the text up to the bracket that closes it, behind `d` other open brackets. -/
def close : Nat → Bytes → Option (Bytes × Bytes)
  | _, [] => none
  | d, c :: s =>
    if c = c!"[" then (close (d + 1) s).map fun p => (c :: p.1, p.2)
    else if c = c!"]" then
      match d with
      | 0 => some ([], s)
      | d + 1 => (close d s).map fun p => (c :: p.1, p.2)
    else (close d s).map fun p => (c :: p.1, p.2)

/-- src/extensions/ial.c:4258-4321, 4369-4377: a span, `s` is what is behind its `[`: its attributes, its text, and what is behind it.
`after` is what is in memory behind the copy of an attribute list. -/
def span (after : Bytes → Bytes) (refs : List Bytes) (s : Bytes) : C (Option (Bytes × Bytes × Bytes)) :=
  match close 0 s with
  | none => .val none
  | some (x, r) =>
    match r.dropWhile blank with
    | [] => .val none
    | c :: q =>
      if c = c!"{" ∧ c!"}" ∈ q ∧ refs.any (fun i => same i x) = false then
        (Ial.parse (q.takeWhile (· != c!"}")) (after q)).bind fun a =>
          (Ial.toHtml a).bind fun h => .val (some (h, x, (q.dropWhile (· != c!"}")).drop 1))
      else .val none

/-- The number of backticks of a block of code, 0 outside of one, and whether there is code in the line. -/
structure Code where
  block : Nat
  inline : Bool

/-- src/extensions/ial.c:4226-4255: a byte changes this. -/
def tick (s : Bytes) (k : Code) : Code :=
  if s.head? = some c!"`" then
    let n := (s.takeWhile (· == c!"`")).length
    if k.block = 0 && !k.inline then (if 3 ≤ n then ⟨n, k.inline⟩ else ⟨0, true⟩)
    else if k.block ≠ 0 then (if k.block ≤ n then ⟨0, k.inline⟩ else k)
    else ⟨k.block, false⟩
  else k

/-- The block that is written to. -/
structure Buf where
  cap : Nat
  out : Bytes

/-- src/extensions/ial.c:4380-4396: a byte is copied. -/
def copy (c : Byte) (b : Buf) : Buf :=
  if b.out.length < b.cap then { b with out := b.out ++ [c] } else ⟨(b.out.length + 1) * 2, b.out ++ [c]⟩

/-- Text that is written if there is room for it. -/
def fit (s : Bytes) (b : Buf) : Buf := if s.length < b.cap - b.out.length then { b with out := b.out ++ s } else b

/-- src/extensions/ial.c:4323-4366: a span is written. -/
def write (h x : Bytes) (b : Buf) : Buf :=
  let need := 20 + h.length + x.length + 10
  let b : Buf := if b.cap - b.out.length < need then ⟨(b.out.length + need + 1) * 2, b.out⟩ else b
  let b := fit x (fit (b!"<span markdown=\"span\"" ++ h ++ b!">") b)
  if 7 ≤ b.cap - b.out.length then { b with out := b.out ++ b!"</span>" } else b

/-- src/extensions/ial.c:4224-4397: the loop.  The counter is enough with more than the length of the text. -/
def loop (after : Bytes → Bytes) (refs : List Bytes) : Nat → Code → Bytes → Buf → C Buf
  | 0, _, _, b => .val b
  | _, _, [], b => .val b
  | n + 1, k, c :: t, b =>
    let k := tick (c :: t) k
    if k.block = 0 && !k.inline && c == c!"[" then
      match span after refs t with
      | .ub => .ub
      | .val (some (h, x, r)) => loop after refs n k r (write h x b)
      | .val none => loop after refs n k t (copy c b)
    else loop after refs n k t (copy c b)

/-- src/extensions/ial.c:4199-4414 `apex_preprocess_bracketed_spans`; `none` for a null pointer: nothing is changed.  The terminator is
written without a check. -/
def process (after : Bytes → Bytes) (text : Bytes) : C (Option Bytes) :=
  (loop after (ids (text.length + 1) [] text) (text.length + 1) ⟨0, false⟩ text ⟨text.length * 2, []⟩).bind fun b =>
    (finish b.cap b.out).bind fun o => .val (if o = text then none else some o)

end Verif.Spans
