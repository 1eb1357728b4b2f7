/-
Metadata lists: lookup, merging and `[%key]` variables.  src/extensions/metadata.c.
A metadata list is modelled by the list of its (key, value) pairs in the order of the `next`
pointers; the NULL pointer is the empty list.
-/
import Verif.Model.Transforms

namespace Verif.Metadata

open Transforms (strstr strstr_le)

abbrev Item := Bytes × Bytes
abbrev Meta := List Item

/-- `strcasecmp(a, b) == 0` in the C locale. -/
def ciEq (a b : Bytes) : Bool := a.map toLower == b.map toLower

/-- metadata.c:757-772, `normalize_metadata_key`: white space dropped, `tolower`. -/
def normalizeKey (key : Bytes) : Bytes := (key.filter fun c => !isSpace c).map toLower

/-- metadata.c:790-803: first pass, `strcasecmp`. -/
def getCi : Meta → Bytes → Option Bytes
  | [], _ => none
  | (k, v) :: rest, key =>
    if k.length = 0 then getCi rest key
    else if ciEq k key then some v
    else getCi rest key

/-- metadata.c:806-824: second pass, `strcmp` of the normalized keys. -/
def getNorm : Meta → Bytes → Option Bytes
  | [], _ => none
  | (k, v) :: rest, nkey =>
    if k.length = 0 then getNorm rest nkey
    else if normalizeKey k == nkey then some v
    else getNorm rest nkey

/-- metadata.c:778-828, `apex_metadata_get` (allocation failures not modelled). -/
def get (md : Meta) (key : Bytes) : Option Bytes :=
  if md = [] then none
  else if key.length = 0 then none
  else
    match getCi md key with
    | some v => some v
    | none => getNorm md (normalizeKey key)

/-- metadata.c:83-103, `add_metadata_item`: prepends. -/
def addItem (md : Meta) (it : Item) : Meta := it :: md

/-- metadata.c:2376-2395: remove the first item with the same key. -/
def removeFirst (key : Bytes) : Meta → Meta
  | [] => []
  | (k, v) :: rest => if ciEq k key then rest else (k, v) :: removeFirst key rest

/-- metadata.c:2372-2400: one source list merged into the result. -/
def mergeList (acc : Meta) : Meta → Meta
  | [] => acc
  | it :: rest => mergeList (addItem (removeFirst it.1 acc) it) rest

/-- metadata.c:2368-2402: the loop over the variable arguments.  It ends at the first NULL, and an
empty metadata list is NULL. -/
def mergeArgs (acc : Meta) : List Meta → Meta
  | [] => acc
  | [] :: _ => acc
  | l :: rest => mergeArgs (mergeList acc l) rest

/-- metadata.c:2356-2364: the copy of the first list. -/
def copyList (acc : Meta) : Meta → Meta
  | [] => acc
  | it :: rest => copyList (addItem acc it) rest

/-- metadata.c:2352-2406, `apex_merge_metadata(first, rest..., NULL)`. -/
def merge (first : Meta) (rest : List Meta) : Meta := mergeArgs (copyList [] first) rest

/-- cli/main.c:3118-3127: the command line tool's merge of the three sources. -/
def cliMerge (file doc cmdline : Meta) : Meta :=
  if file ≠ [] ∨ doc ≠ [] ∨ cmdline ≠ [] then merge file [doc, cmdline] else []

/-! ### Variables -/

/-- metadata.c:1996-2009: from behind `[%`, find the `]` at depth 0 (`depth` starts at 1).  The
result is the distance to it; `none` when the text ends first.  (`bracket_depth` is an `int`; texts
of 2^31 brackets are out of scope.) -/
def closeAt : Bytes → Nat → Option Nat
  | [], _ => none
  | c :: cs, depth =>
    if c = c!"[" then (closeAt cs (depth + 1)).map (· + 1)
    else if c = c!"]" then
      if depth - 1 = 0 then some 0 else (closeAt cs (depth - 1)).map (· + 1)
    else (closeAt cs depth).map (· + 1)

/-- The result buffer: its capacity and the bytes written so far. -/
structure Buf where
  cap : Nat
  out : Bytes

/-- The block `if (result_len + n + 1 > result_capacity) { ... realloc ... } memcpy(...)` of
metadata.c:2018-2030 and its copies. -/
def append (b : Buf) (s : Bytes) : C Buf := do
  let cap := if b.out.length + s.length + 1 > b.cap then (b.out.length + s.length + 1) * 2 else b.cap
  let out ← puts cap b.out s
  pure ⟨cap, out⟩

/-- metadata.c:2129-2144: the remaining text and the terminator. -/
def appendRest (b : Buf) (s : Bytes) : C Bytes :=
  if s = [] then finish b.cap b.out
  else do
    let cap := if b.out.length + s.length + 1 > b.cap then b.out.length + s.length + 1 else b.cap
    let out ← puts cap b.out s
    finish cap out

/-- metadata.c:2016-2030: the text before the variable. -/
def appendBefore (b : Buf) (s : Bytes) : C Buf := if s.length > 0 then append b s else .val b

/-- metadata.c:2033-2122: the variable, given its pattern and its whole text `[%pattern]`. -/
def appendVar (value : Bytes → Option Bytes) (b : Buf) (pattern whole : Bytes) : C Buf :=
  if pattern.length ≥ 512 then append b whole
  else match value pattern with
    | some v => append b v
    | none => append b whole

/-- metadata.c:1992-2127: the loop over the text from `last_pos = p`; `value pattern` is the text a
pattern expands to, if any. -/
def varLoop (value : Bytes → Option Bytes) (b : Buf) (s : Bytes) : C Bytes :=
  match _h : strstr s b!"[%" with
  | none => appendRest b s
  | some i =>
    match closeAt (s.drop (i + 2)) 1 with
    | none => appendRest b s
    | some n => do
      let b ← appendBefore b (s.take i)
      let b ← appendVar value b ((s.drop (i + 2)).take n) ((s.drop i).take (n + 3))
      varLoop value b (s.drop (i + 2 + n + 1))
  termination_by s.length
  decreasing_by
    have h := strstr_le _h
    simp at h ⊢
    omega

/-- metadata.c:2054-2090: the value of a pattern.  `chain` stands for the parsing and application of
transforms to a pattern with a colon (any function). -/
def patternValue (transforms : Bool) (chain : Bytes → Option Bytes) (md : Meta) (pattern : Bytes) :
    Option Bytes :=
  if transforms && pattern.contains c!":" then chain pattern else get md pattern

/-- metadata.c:1976-2147, `apex_metadata_replace_variables`. -/
def replaceVariables (transforms : Bool) (chain : Bytes → Option Bytes) (md : Meta) (text : Bytes) :
    C Bytes :=
  if md = [] then .val text
  else varLoop (patternValue transforms chain md) ⟨text.length + 512, []⟩ text

end Verif.Metadata
