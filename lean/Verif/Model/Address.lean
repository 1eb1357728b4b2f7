/-
Parts of included files: `parse_address_spec` and `extract_lines` of src/extensions/includes.c.
Simplified: `malloc` succeeds; line counts fit in `int` (files are at most 10 MB); `isspace` of a byte ≥ 128 is
false; POSIX regular expressions are given by an arbitrary compiler `regcomp`.
-/
import Verif.Model.Text
import Verif.Model.Markers

namespace Verif.Address

/-- `address_spec_t` (includes.c:115-123).  `endLine = none` is -1. -/
structure Spec where
  isLine : Bool
  isRegex : Bool
  startLine : Nat
  endLine : Option Nat
  regexStart : Option Bytes
  regexEnd : Option Bytes
  pre : Option Bytes
deriving DecidableEq, Repr

def skipSpace (s : Bytes) : Bytes := s.dropWhile isSpace

/-- `(int)strtol(pos, &endptr, 10)`: the number and what `endptr` points to; `none` when there are no digits.  The
`long` is limited to 64 bits, the conversion to `int` keeps the low 32 bits. -/
def strtol (s : Bytes) : Option (Int × Bytes) :=
  let s := skipSpace s
  let neg := s.head? == some c!"-"
  let s := if neg || s.head? == some c!"+" then s.drop 1 else s
  let ds := s.takeWhile isDigit
  if ds = [] then none
  else
    let v : Int := Markers.value ds
    let v := if neg then max (-v) (-2 ^ 63) else min v (2 ^ 63 - 1)
    some (Int.bmod v (2 ^ 32), s.dropWhile isDigit)

/-- The text up to the first `d` and what follows (`strchr`). -/
def upTo (d : Byte) (s : Bytes) : Option (Bytes × Bytes) :=
  if d ∈ s then some (s.takeWhile (· != d), (s.dropWhile (· != d)).drop 1) else none

/-- `prefix="…"` (includes.c:491-506, 592-605): outer `none` when the text does not start so. -/
def prefixParam (s : Bytes) : Option (Option Bytes) :=
  if b!"prefix=\"".isPrefixOf s then some ((upTo c!"\"" (s.drop 8)).map (·.1)) else none

/-- The end of `parse_address_spec` (includes.c:586-606): `;prefix="…"`. -/
def trailer (pos : Bytes) : Option Bytes :=
  match skipSpace pos with
  | c :: t => if c = c!";" then (prefixParam (skipSpace t)).getD none else none
  | [] => none

/-- `parse_address_spec` (includes.c:476-609). -/
def parse (address : Bytes) : Option Spec :=
  if address = [] then none
  else
    let pos := skipSpace address
    match prefixParam pos with
    | some p => some ⟨false, false, 0, some 0, none, none, p⟩
    | none =>
      if pos.head? = some c!"/" then
        match upTo c!"/" (pos.drop 1) with
        | none => none
        | some (re, pos) =>
          let pos := pos.dropWhile fun c => isSpace c || c == c!","
          match (if pos.head? = some c!"/" then upTo c!"/" (pos.drop 1) else none) with
          | some (re2, pos) => some ⟨false, true, 0, some 0, some re, some re2, trailer pos⟩
          | none => some ⟨false, true, 0, some 0, some re, none, trailer pos⟩
      else
        match strtol pos with
        | none => some ⟨false, false, 0, none, none, none, trailer pos⟩
        | some (n, rest) =>
          if n < 1 then some ⟨false, false, 0, none, none, none, trailer pos⟩
          else
            let pos := skipSpace rest
            if pos.head? = some c!"," then
              let pos := skipSpace (pos.drop 1)
              if pos = [] ∨ pos.head? = some c!";" then
                some ⟨true, false, n.toNat, none, none, none, trailer pos⟩
              else match strtol pos with
                | none => some ⟨true, false, n.toNat, none, none, none, trailer pos⟩
                | some (m, pos) => some ⟨true, false, n.toNat, if m < n then none else some m.toNat, none, none, trailer pos⟩
            else some ⟨true, false, n.toNat, some n.toNat, none, none, trailer pos⟩

/-- `total_lines` (includes.c:657-663). -/
def totalLines (content : Bytes) : Nat := 1 + content.count c!"\n"

/-- The loop that writes the lines from `start` up to, and without, `stop` (includes.c:747-783, 802-836); `num` is the
number of the next line. -/
def emit (cap start stop : Nat) (pre : Option Bytes) : Nat → Bytes → List Bytes → C Bytes
  | _, out, [] => finish cap out
  | num, out, l :: ls =>
    if start ≤ num ∧ num < stop ∧ l.length + 100 < cap - out.length then
      (match pre with
        | some p => if p.length + l.length + 10 < cap - out.length then puts cap out p else .val out
        | none => .val out) >>= fun out =>
      puts cap out l >>= fun out =>
      put cap out c!"\n" >>= fun out =>
      emit cap start stop pre (num + 1) out ls
    else emit cap start stop pre (num + 1) out ls

/-- The search for the two patterns (includes.c:695-736): the number of the first line that matches the first, and of
the first line from there on that matches the second. -/
def search (rs re : Option (Bytes → Bool)) : Nat → Option Nat → List Bytes → Option Nat × Option Nat
  | _, found, [] => (found, none)
  | num, found, l :: ls =>
    let found := match rs, found with
      | some m, none => if m l then some num else none
      | _, _ => found
    match re with
    | some m => if (found.isSome || rs.isNone) && m l then (found, some num) else search rs re (num + 1) found ls
    | none => search rs re (num + 1) found ls

/-- The copy with a prefix on every line that is not empty (includes.c:624-652). -/
def prefixAll (pre : Bytes) (cap : Nat) : Bool → Bytes → Bytes → C Bytes
  | _, out, [] => finish cap out
  | start, out, c :: t =>
    (if start && c != c!"\n" then puts cap out pre else .val out) >>= fun out =>
    put cap out c >>= fun out =>
    prefixAll pre cap (if c = c!"\n" then true else if start && c != c!"\n" then false else start) out t

/-- The line before which to stop (includes.c:791-796). -/
def stopLine (endLine : Option Nat) (total : Nat) : Nat :=
  match endLine with
  | none => total
  | some e => min e total

/-- `extract_lines` (includes.c:617-838).  `none`: the calls nest deeper than `fuel`. -/
def extract (regcomp : Bytes → Option (Bytes → Bool)) : Nat → Bytes → Spec → Option (C Bytes)
  | 0, _, _ => none
  | fuel + 1, content, s =>
    if !s.isLine && !s.isRegex then
      match s.pre with
      | some p =>
        let lines := content.count c!"\n" + (if content ≠ [] ∧ content.getLast? ≠ some c!"\n" then 1 else 0)
        some (prefixAll p (content.length + lines * p.length + 1) true [] content)
      | none => some (.val content)
    else
      let total := totalLines content
      let ls := Text.splitLines content
      let cap := content.length + 1024
      if s.isRegex then
        let rs := s.regexStart.bind regcomp
        let re := s.regexEnd.bind regcomp
        if rs.isNone && re.isNone then
          if s.pre.isSome then extract regcomp fuel content s else some (.val content)
        else
          let r := search rs re 1 none ls
          if rs.isSome && r.1.isNone then some (.val [])
          else some (emit cap (r.1.getD 1) (r.2.getD total) s.pre 1 [] ls)
      else if s.startLine < 1 ∨ s.startLine > total then some (.val [])
      else
        let stop := stopLine s.endLine total
        if stop < s.startLine then some (.val [])
        else some (emit cap s.startLine stop s.pre 1 [] ls)

/-- What an include takes from a file (includes.c:1233-1240, 1265-1271 and 1379-1386, 1406-1412): everything when the
address cannot be read. -/
def select (regcomp : Bytes → Option (Bytes → Bool)) (fuel : Nat) (content address : Bytes) : Option (C Bytes) :=
  match parse address with
  | some s => extract regcomp fuel content s
  | none => some (.val content)

end Verif.Address
