/-
The metadata transforms `[%key:transform(options)]`: src/extensions/metadata.c, `apply_transform`
and its helper `split_string`.  Values are C strings (lists of bytes without the terminator).
Option parsing by `sscanf` is not modelled: the transforms take the parsed numbers as arguments.
-/
import Verif.Basic

namespace Verif.Transforms

/-- metadata.c:1405-1412 (`upper`): `toupper` in place on a `strdup` copy. -/
def upper (v : Bytes) : Bytes := v.map toUpper

/-- metadata.c:1414-1421 (`lower`). -/
def lower (v : Bytes) : Bytes := v.map toLower

/-- The backward loop `while (end > start && isspace(*end)) end--` of metadata.c:1428, with
`end = start + e`. -/
def backTo (s : Bytes) : Nat → Nat
  | 0 => 0
  | e + 1 => if isSpace (s.getD (e + 1) 0) then backTo s e else e + 1

/-- metadata.c:1423-1435 (`trim`): forward loop, backward loop, copy of `end - start + 1` bytes into
an allocation of one byte more. -/
def trim (v : Bytes) : Bytes :=
  let s := v.dropWhile isSpace
  if s = [] then [] else s.take (backTo s (s.length - 1) + 1)

/-- metadata.c:1441-1452: the loop of `title`; `prev` is `prev_space`. -/
def titleLoop : Bool → Bytes → Bytes
  | _, [] => []
  | prev, c :: cs =>
    if isSpace c then c :: titleLoop true cs
    else (if prev then toUpper c else toLower c) :: titleLoop false cs

/-- metadata.c:1437-1454 (`title`). -/
def title (v : Bytes) : Bytes := titleLoop true v

/-- metadata.c:1475-1482 (`capitalize`). -/
def capitalize : Bytes → Bytes
  | [] => []
  | c :: cs => toUpper c :: cs

/-- metadata.c:1875-1881: `result[i] = value[len - 1 - i]` for `i < len`; every read goes through
the bounds check of `rd`. -/
def reverseLoop (v : Bytes) (out : Bytes) : Nat → C Bytes
  | 0 => finish (v.length + 1) out
  | n + 1 => do
    let c ← rd v (v.length - 1 - out.length)
    let out ← put (v.length + 1) out c
    reverseLoop v out n

/-- metadata.c:1872-1882 (`reverse`). -/
def reverse (v : Bytes) : C Bytes := reverseLoop v [] v.length

/-- metadata.c:1490-1502: the loop of `slug`; `hyph` is `prev_was_hyphen`. -/
def slugLoop (cap : Nat) : Bytes → Bool → Bytes → C Bytes
  | out, _, [] => .val out
  | out, hyph, c :: cs =>
    if isAlnum c then do
      let out ← put cap out (toLower c)
      slugLoop cap out false cs
    else if isSpace c || c == c!"_" then
      if hyph then slugLoop cap out hyph cs
      else do
        let out ← put cap out c!"-"
        slugLoop cap out true cs
    else slugLoop cap out hyph cs

/-- metadata.c:1505-1507: `while (out > result && out[-1] == '-') out--`, on the reversed buffer. -/
def dropHyphens (out : Bytes) : Bytes := (out.reverse.dropWhile (· == c!"-")).reverse

/-- metadata.c:1484-1511 (`slug`, `slugify`). -/
def slug (v : Bytes) : C Bytes := do
  let cap := v.length * 2 + 1
  let out ← slugLoop cap [] false v
  finish cap (dropHyphens out)

/-- `strstr`: index of the first occurrence of `pat` in `s`. -/
def strstr (s pat : Bytes) : Option Nat :=
  if pat.isPrefixOf s then some 0
  else match s with
    | [] => none
    | _ :: t => (strstr t pat).map (· + 1)

/-- `strstr` stays inside the string. -/
theorem strstr_le {s pat : Bytes} {i : Nat} (h : strstr s pat = some i) :
    i + pat.length ≤ s.length := by
  induction s generalizing i with
  | nil =>
    unfold strstr at h
    split at h
    · rename_i hp
      have hl := (List.isPrefixOf_iff_prefix.1 hp).length_le
      have hi : 0 = i := by simpa using h
      omega
    · simp at h
  | cons c t ih =>
    unfold strstr at h
    split at h
    · rename_i hp
      have hl := (List.isPrefixOf_iff_prefix.1 hp).length_le
      have hi : 0 = i := by simpa using h
      omega
    · simp only [Option.map_eq_some_iff] at h
      obtain ⟨j, hj, rfl⟩ := h
      have := ih hj
      simp; omega

/-- metadata.c:1620-1625: the counting loop of the plain `replace`.  (`pat` is non-empty: an empty
OLD returned at 1536.) -/
def countOcc (pat : Bytes) (hp : pat ≠ []) (s : Bytes) : Nat :=
  match h : strstr s pat with
  | none => 0
  | some i => countOcc pat hp (s.drop (i + pat.length)) + 1
  termination_by s.length
  decreasing_by
    have := strstr_le h
    have := List.length_pos_iff.2 hp
    simp; omega

/-- metadata.c:1636-1650: the copying loop of the plain `replace` and the final `strcpy`. -/
def replLoop (cap : Nat) (pat new : Bytes) (hp : pat ≠ []) (out s : Bytes) : C Bytes :=
  match _h : strstr s pat with
  | none => do
    let out ← puts cap out s
    finish cap out
  | some i => do
    let out ← puts cap out (s.take i)
    let out ← puts cap out new
    replLoop cap pat new hp out (s.drop (i + pat.length))
  termination_by s.length
  decreasing_by
    have := strstr_le _h
    have := List.length_pos_iff.2 hp
    simp; omega

/-- metadata.c:1613-1656: the plain (non-regex) branch of `replace` for a non-empty OLD; the
allocation is `value_len + count * max(new_len - old_len, 0) + 1`. -/
def replacePlain (old new : Bytes) (hp : old ≠ []) (v : Bytes) : C Bytes :=
  let count := countOcc old hp v
  if count = 0 then .val v
  else
    let len := v.length + count * (if new.length > old.length then new.length - old.length else 0)
    replLoop (len + 1) old new hp [] v

/-- metadata.c:1513-1670 (`replace`): OLD,NEW are split at the first comma; no comma or an empty OLD
leaves the value unchanged; the prefix `regex:` selects the regex branch `rb` (pattern, NEW, value),
whose loops are modelled below.  (An OLD of exactly `regex:` keeps the prefix as the pattern.) -/
def replace (rb : Bytes → Bytes → Bytes → C Bytes) (options v : Bytes) : C Bytes :=
  let old := options.takeWhile (· != c!",")
  let rest := options.dropWhile (· != c!",")
  match rest with
  | [] => .val v
  | _ :: new =>
    if h : old = [] then .val v
    else if b!"regex:".isPrefixOf options then
      rb (if old.length > 6 then old.drop 6 else old) new v
    else replacePlain old new h v

/-- What `regexec(.., search_pos, 1, matches, 0)` reports for a fixed compiled pattern: nothing, or
the offsets `rm_so`, `rm_eo` of the leftmost match in the string at `search_pos`. -/
abbrev Matcher := Bytes → Option (Nat × Nat)

/-- The regex library reports offsets inside the string. -/
def Matcher.Valid (rx : Matcher) : Prop :=
  ∀ s a b, rx s = some (a, b) → a ≤ b ∧ b ≤ s.length

/-- State of the counting loop of metadata.c:1565-1569. -/
inductive CountSt
  | run (pos : Bytes) (count : Nat)
  | done (count : Nat)
  deriving DecidableEq

/-- One test-and-body of the loop at metadata.c:1565-1569. -/
def countStep (rx : Matcher) : CountSt → CountSt
  | .done n => .done n
  | .run pos n =>
    match rx pos with
    | none => .done n
    | some (_, e) => if pos.drop e = [] then .done (n + 1) else .run (pos.drop e) (n + 1)

/-- State of the copying loop of metadata.c:1581-1596 (no test for the end of the string). -/
inductive CopySt
  | run (pos : Bytes) (out : Bytes)
  | done (out : Bytes)
  | ub
  deriving DecidableEq

/-- One test-and-body of the loop at metadata.c:1581-1596, including the final `strcpy`. -/
def copyStep (rx : Matcher) (cap : Nat) (new : Bytes) : CopySt → CopySt
  | .done o => .done o
  | .ub => .ub
  | .run pos out =>
    match rx pos with
    | none =>
      match (do let o ← puts cap out pos; finish cap o) with
      | .val o => .done o
      | .ub => .ub
    | some (a, e) =>
      match (do let o ← puts cap out (pos.take a); puts cap o new) with
      | .val o => .run (pos.drop e) o
      | .ub => .ub

/-- metadata.c:1573: the allocation of the regex branch. -/
def regexCap (v new : Bytes) (count : Nat) : Nat := v.length + count * (new.length + 10)

/-! ### substring, truncate, pad, prefix, suffix, remove, repeat -/

/-- metadata.c:1676-1690 (`substring`) after `sscanf`; `a`, `b` are the two longs (`b = -1` when
only one was given).  `long` arithmetic is modelled with unbounded integers: the values compared
never leave `[-2^63, 2^63)` when `a`, `b` are longs and the value is shorter than `2^63`, because a
negative number is only added to the length. -/
def substring (a b : Int) (v : Bytes) : C Bytes :=
  let len : Int := v.length
  let a := if a < 0 then len + a else a
  let b := if b < 0 then len + b else b
  let a := if a < 0 then 0 else a
  let b := if b < 0 then len else b
  let a := if a > len then len else a
  let b := if b > len then len else b
  if a > b then .val []
  else
    -- memcpy(result, value + start, substr_len) into substr_len + 1 bytes
    let n := (b - a).toNat
    if 0 ≤ a ∧ a.toNat + n ≤ v.length then .val ((v.drop a.toNat).take n) else .ub

/-- Conversion of a `long` expression to `size_t`. -/
def toSize (x : Int) : Nat := (x % 2 ^ 64).toNat

/-- metadata.c:1700-1716 (`truncate`) after `sscanf`.  `malloc` fails for sizes above `lim`
(`lim < 2^63`: no object can be larger than `PTRDIFF_MAX`); failing returns NULL (`none`), which
makes `apply_transform_chain` return the untransformed value. -/
def truncate (lim : Nat) (max : Int) (suffix v : Bytes) : C (Option Bytes) :=
  if (v.length : Int) ≤ max then .val (some v)
  else
    let t := toSize (if max > suffix.length then max - suffix.length else max)
    let size := (t + suffix.length + 1) % 2 ^ 64
    if lim < size then .val none
    else if t ≤ v.length ∧ t + suffix.length + 1 ≤ size then .val (some (v.take t ++ suffix))
    else .ub

/-- metadata.c:1911-1923 (`pad`) after `sscanf`.  `width + 1` overflows `long` for `LONG_MAX`. -/
def pad (lim : Nat) (width : Int) (pc : Byte) (v : Bytes) : C (Option Bytes) :=
  if width ≤ (v.length : Int) then .val (some v)
  else if width + 1 ≥ 2 ^ 63 then .ub
  else
    let size := (width + 1).toNat
    if lim < size then .val none
    else
      let count := (width - v.length).toNat
      if count + v.length + 1 ≤ size then .val (some (List.replicate count pc ++ v)) else .ub

/-- metadata.c:1836-1845: the loop of `remove` (`pat` non-empty, checked at 1832): `strncmp` at every
position, skipping `remove_len` bytes on a match. -/
def removeLoop (cap : Nat) (pat : Bytes) (hp : pat ≠ []) (out s : Bytes) : C Bytes :=
  match s with
  | [] => finish cap out
  | c :: t =>
    if pat.isPrefixOf (c :: t) then removeLoop cap pat hp out ((c :: t).drop pat.length)
    else do
      let out ← put cap out c
      removeLoop cap pat hp out t
  termination_by s.length
  decreasing_by
    · have := List.length_pos_iff.2 hp
      simp; omega
    · simp

/-- metadata.c:1828-1848 (`remove`). -/
def remove (pat v : Bytes) : C Bytes :=
  if h : pat = [] then .val v else removeLoop (v.length + 1) pat h [] v

/-- metadata.c:1862-1865: the copy loop of `repeat`. -/
def repeatLoop (cap : Nat) (v : Bytes) (out : Bytes) : Nat → C Bytes
  | 0 => finish cap out
  | n + 1 => do
    let out ← puts cap out v
    repeatLoop cap v out n

/-- metadata.c:1853-1868 (`repeat`) after `sscanf`; `value_len * count + 1` is computed in
`size_t`. -/
def repeat' (lim : Nat) (count : Int) (v : Bytes) : C (Option Bytes) :=
  if count > 0 then
    if v = [] then .val (some [])
    else
      let size := (v.length * count.toNat + 1) % 2 ^ 64
      if lim < size then .val none
      else do
        let r ← repeatLoop size v [] count.toNat
        pure (some r)
  else .val (some v)

/-- metadata.c:1804-1814 (`prefix`). -/
def prefix' (opt v : Bytes) : C Bytes := do
  let cap := opt.length + v.length + 1
  let out ← puts cap [] opt
  let out ← puts cap out v
  finish cap out

/-- metadata.c:1816-1826 (`suffix`). -/
def suffix' (opt v : Bytes) : C Bytes := do
  let cap := v.length + opt.length + 1
  let out ← puts cap [] v
  let out ← puts cap out opt
  finish cap out

/-! ### split and join -/

/-- The backward loop of metadata.c:1115-1117, `while (end > start && isspace(end[-1])) end--`. -/
def rtrimLen (s : Bytes) : Nat → Nat
  | 0 => 0
  | e + 1 => if isSpace (s.getD e 0) then rtrimLen s e else e + 1

/-- metadata.c:1112-1117: trimming of one token. -/
def trimTok (t : Bytes) : Bytes :=
  let s := t.dropWhile isSpace
  s.take (rtrimLen s s.length)

/-- metadata.c:1119-1127: only non-empty trimmed tokens are added. -/
def addTok (toks : List Bytes) (raw : Bytes) : List Bytes :=
  if trimTok raw = [] then toks else toks ++ [trimTok raw]

/-- metadata.c:1093-1131: the text before a match, added when it is not empty. -/
def addBefore (toks : List Bytes) (pos : Bytes) (a : Nat) : List Bytes :=
  if a > 0 then addTok toks (pos.take a) else toks

/-- State of the loop of `split_string`. -/
inductive SplitSt
  | run (pos : Bytes) (toks : List Bytes)
  | done (pos : Bytes) (toks : List Bytes)
  deriving DecidableEq

/-- One test-and-body of the loop at metadata.c:1091-1134. -/
def splitStep (rx : Matcher) : SplitSt → SplitSt
  | .done p t => .done p t
  | .run pos toks =>
    match rx pos with
    | none => .done pos toks
    | some (a, e) =>
      if pos.drop e = [] then .done (pos.drop e) (addBefore toks pos a)
      else .run (pos.drop e) (addBefore toks pos a)

/-- metadata.c:1136-1182: the text after the last match and the fallback to the whole string. -/
def splitEnd (v pos : Bytes) (toks : List Bytes) : List Bytes :=
  let toks := if pos = [] then toks else addTok toks pos
  if toks = [] then [v] else toks

/-- `split_string` (metadata.c:1065-1184) for a pattern that compiles: `Splits rx v r` says that the
call returns the array `r`. -/
def Splits (rx : Matcher) (v : Bytes) (r : List Bytes) : Prop :=
  ∃ n p t, iter (splitStep rx) n (.run v []) = .done p t ∧ r = splitEnd v p t

/-- `split_string` never returns. -/
def SplitHangs (rx : Matcher) (v : Bytes) : Prop :=
  ∀ n, ∃ p t, iter (splitStep rx) n (.run v []) = .run p t

/-- The loop of `split_string` as a function; `none` when it does not terminate (that this is what
`none` means is proved in `Proof/Transforms.lean`). -/
def splitGo (rx : Matcher) (pos : Bytes) (toks : List Bytes) : Option (Bytes × List Bytes) :=
  match rx pos with
  | none => some (pos, toks)
  | some (a, e) =>
    if pos.drop e = [] then some (pos.drop e, addBefore toks pos a)
    else if e = 0 then none
    else splitGo rx (pos.drop e) (addBefore toks pos a)
  termination_by pos.length
  decreasing_by
    rename_i h h2
    have : 0 < pos.length := by
      cases pos with
      | nil => simp at h
      | cons _ _ => simp
    simp; omega

/-- `split_string` as a function. -/
def split (rx : Matcher) (v : Bytes) : Option (List Bytes) :=
  (splitGo rx v []).map fun r => splitEnd v r.1 r.2

/-- The compiled pattern `","` used by `join`, `first` and `last` (metadata.c:1213): the leftmost
comma. -/
def commaRx : Matcher := fun s => (s.findIdx? (· == c!",")).map fun i => (i, i + 1)

/-- metadata.c:1226-1232 (also 1385-1388 with `delim = ", "`): the allocation size of a join. -/
def joinLen (delim : Bytes) : List Bytes → Nat
  | [] => 0
  | [x] => x.length
  | x :: y :: rest => x.length + delim.length + joinLen delim (y :: rest)

/-- metadata.c:1234-1246 (also 1389-1399): items separated by the delimiter, copied into
`total_len + 1` bytes. -/
def joinLoop (cap : Nat) (delim : Bytes) (out : Bytes) : List Bytes → C Bytes
  | [] => finish cap out
  | [x] => do
    let out ← puts cap out x
    finish cap out
  | x :: y :: rest => do
    let out ← puts cap out x
    let out ← puts cap out delim
    joinLoop cap delim out (y :: rest)

/-- metadata.c:1222-1246: the three cases of `join`. -/
def join (delim : Bytes) (arr : List Bytes) : C Bytes :=
  match arr with
  | [] => .val []
  | [x] => .val x
  | arr => joinLoop (joinLen delim arr + 1) delim [] arr

/-- metadata.c:1319-1343: the selected items of `slice`; `start + len` is `long` arithmetic. -/
def sliceItems (start len : Int) (arr : List Bytes) : C (Option (List Bytes)) :=
  let start := if start < 0 then 0 else start
  if start ≥ arr.length then .val none
  else
    let len := if len < 0 then arr.length - start else len
    if start + len ≥ 2 ^ 63 then .ub
    else
      let len := if len > 0 ∧ start + len > arr.length then arr.length - start else len
      if start.toNat + len.toNat ≤ arr.length then
        .val (some ((arr.drop start.toNat).take len.toNat))
      else .ub

/-! ### Chains -/

/-- One transform of a chain.  `str f` stands for any of the string transforms (`f` is the code
after metadata.c:1404; `none` is the NULL result of a failed allocation). -/
inductive Transform
  | split (rx : Matcher)
  | join (delim : Bytes)
  | first
  | last
  | slice (start len : Int)
  | str (f : Bytes → C (Option Bytes))

/-- The variables `current_value`, `array` (NULL = `none`) and `is_array` of
`apply_transform_chain`. -/
structure ChainSt where
  value : Bytes
  array : Option (List Bytes)
  isArray : Bool

/-- Outcome of a transform: a new state, failure (NULL), undefined behaviour, or no return. -/
inductive Res (α : Type)
  | ok (a : α)
  | fail
  | ub
  | hang
  deriving DecidableEq

/-- metadata.c:1210-1218, 1253-1260, 1267-1274: take the array, splitting the value on commas when
there is none. -/
def needArray (s : ChainSt) : Option (List Bytes) :=
  match s.isArray, s.array with
  | true, some a => some a
  | _, _ => Transforms.split commaRx s.value

/-- metadata.c:1368-1403: the string a string transform works on, and the new `is_array`.  (When
`is_array` is set the array pointer is never NULL: every place that sets it stores an array.) -/
def strInput (s : ChainSt) : C (Bytes × Bool) :=
  match s.isArray, s.array with
  | true, some [] => .val ([], true)
  | true, some [x] => .val (x, true)
  | true, some arr => do
    let j ← joinLoop (joinLen b!", " arr + 1) b!", " [] arr
    pure (j, false)
  | true, none => .ub
  | false, _ => .val (s.value, false)

/-- metadata.c:1279-1312: `slice` on a string makes one item per byte. -/
def sliceArray (s : ChainSt) : List Bytes :=
  match s.isArray, s.array with
  | true, some a => a
  | _, _ => s.value.map fun c => [c]

/-- metadata.c:1192-1937, `apply_transform`, as a step of the loop of `apply_transform_chain`. -/
def applyTransform (t : Transform) (s : ChainSt) : Res ChainSt :=
  match t with
  | .split rx =>
    match Transforms.split rx s.value with
    | none => .hang
    | some arr => .ok ⟨arr.headD [], some arr, true⟩
  | .join d =>
    match needArray s with
    | none => .hang
    | some arr =>
      match Transforms.join d arr with
      | .ub => .ub
      | .val r => .ok ⟨r, some arr, decide (arr.length ≤ 1)⟩
  | .first =>
    match needArray s with
    | none => .hang
    | some arr => .ok ⟨arr.headD [], some arr, true⟩
  | .last =>
    match needArray s with
    | none => .hang
    | some arr => .ok ⟨arr.getLastD [], some arr, true⟩
  | .slice a l =>
    match sliceItems a l (sliceArray s) with
    | .ub => .ub
    | .val none => .ok ⟨[], some (sliceArray s), true⟩
    | .val (some items) => .ok ⟨items.flatten, some items, true⟩
  | .str f =>
    match strInput s with
    | .ub => .ub
    | .val (v, isArr) =>
      match f v with
      | .ub => .ub
      | .val none => .fail
      | .val (some r) => .ok ⟨r, s.array, isArr⟩

/-- metadata.c:1941-1970: the loop of `apply_transform_chain`. -/
def chainLoop : List Transform → ChainSt → Res ChainSt
  | [], s => .ok s
  | t :: ts, s =>
    match applyTransform t s with
    | .ok s' => chainLoop ts s'
    | .fail => .fail
    | .ub => .ub
    | .hang => .hang

/-- metadata.c:1941-1970: a failed transform makes the whole chain return the original value. -/
def applyChain (ts : List Transform) (v : Bytes) : Res Bytes :=
  match chainLoop ts ⟨v, none, false⟩ with
  | .ok s => .ok s.value
  | .fail => .ok v
  | .ub => .ub
  | .hang => .hang

end Verif.Transforms
