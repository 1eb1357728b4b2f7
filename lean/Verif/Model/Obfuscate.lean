/-
Model of `apex_obfuscate_email_links` (src/apex.c:125-212).
-/
import Verif.Model.Escape

namespace Verif.Obfuscate

/-- apex.c:142. -/
def opening : Bytes := b!"href=\"mailto:"

/-- `strchr` and the loop of apex.c:179: what is before the first `d`, or everything. -/
def upTo (d : Byte) (s : Bytes) : Bytes := s.takeWhile (· ≠ d)

/-- apex.c:154-165, 184-195: room for `need` more bytes. `realloc` is assumed to succeed. -/
def grow (cap used need : Nat) : Nat := if used + need ≥ cap then (used + need + 1) * 2 else cap

/-- apex.c:202-207: a byte outside the cases above, and the end of a link. `p` is not empty. -/
def copyByte (cap : Nat) (mail : Bool) (out p : Bytes) : C (Bool × Bytes × Bytes) :=
  match p with
  -- the terminator is copied, and the next test reads behind it
  | [] => .ub
  | c :: t => put cap out c >>= fun o => .val (if mail && b!"</a".isPrefixOf p then false else mail, o, t)

/-- apex.c:142-173: an address, `p` begins with `href="mailto:`. `none`: no closing quote. -/
def address (cap : Nat) (out p : Bytes) : C (Option (Nat × Bytes × Bytes)) :=
  let q := p.drop 6
  if c!"\"" ∈ q then
    let addr := upTo c!"\"" q
    Escape.hexEntities addr >>= fun
    -- the address begins with `mailto:`, so this does not happen
    | none => .val none
    | some enc =>
      let cap := grow cap out.length (6 + enc.length + 1)
      puts cap out (b!"href=\"" ++ enc ++ b!"\"") >>= fun o => .val (some (cap, o, q.drop (addr.length + 1)))
  else .val none

/-- apex.c:176-200: the text behind a `>` of a link. -/
def linkText (cap : Nat) (out t : Bytes) : C (Nat × Bool × Bytes × Bytes) :=
  put cap out c!">" >>= fun o =>
  let text := upTo c!"<" t
  Escape.hexEntities text >>= fun
  | none => copyByte cap true o t >>= fun (m, o, r) => .val (cap, m, o, r)
  | some enc =>
    let cap := grow cap o.length enc.length
    puts cap o enc >>= fun o => .val (cap, true, o, t.drop text.length)

/-- apex.c:140-208, one turn of the loop: capacity, `in_mailto`, output, rest. -/
def step (cap : Nat) (mail : Bool) (out : Bytes) (c : Byte) (t : Bytes) : C (Nat × Bool × Bytes × Bytes) :=
  if !mail && opening.isPrefixOf (c :: t) then
    address cap out (c :: t) >>= fun
    | some (cap, o, r) => .val (cap, true, o, r)
    | none => put cap out c >>= fun o => .val (cap, mail, o, t)
  else if mail && c == c!">" then linkText cap out t
  else copyByte cap mail out (c :: t) >>= fun (m, o, r) => .val (cap, m, o, r)

/-- apex.c:140-211. Every turn reads something, so as many turns as bytes suffice. -/
def loop : Nat → Nat → Bool → Bytes → Bytes → C Bytes
  | _, cap, _, out, [] => finish cap out
  | 0, _, _, _, _ => .ub
  | n + 1, cap, mail, out, c :: t => step cap mail out c t >>= fun (cap, m, o, r) => loop n cap m o r

/-- apex.c:129-212 (`apex_obfuscate_email_links`). -/
def obfuscate (html : Bytes) : C Bytes := loop html.length (html.length * 6 + 1) false [] html

end Verif.Obfuscate
