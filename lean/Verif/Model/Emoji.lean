/-
Emoji names: src/extensions/emoji.c.
-/
import Verif.Model.EmojiData
import Verif.Model.MetaParse

namespace Verif.Emoji

open MetaParse (idx)

/-- emoji.c:583-590: one cell. -/
def cell (deletion insertion substitution : Nat) : Nat :=
  if deletion < insertion then
    if deletion < substitution then deletion else substitution
  else
    if insertion < substitution then insertion else substitution

/-- emoji.c:582-591: one row, `left` is `curr_row[j]`, the first list is `prev_row` from `j` on. -/
def rowLoop (x : Byte) (left : Nat) : List Nat → Bytes → List Nat
  | p0 :: p1 :: ps, y :: ys =>
    let v := cell (p1 + 1) (left + 1) (p0 + if x = y then 0 else 1)
    v :: rowLoop x v (p1 :: ps) ys
  | _, _ => []

/-- emoji.c:580-597: the rows; `i` is the row number, `prev` the previous row. -/
def rows (s2 : Bytes) : Nat → List Nat → Bytes → List Nat
  | _, prev, [] => prev
  | i, prev, x :: xs => rows s2 (i + 1) ((i + 1) :: rowLoop x (i + 1) prev s2) xs

/-- emoji.c:561-603, `levenshtein_distance` (allocations succeed; `int` as natural number, the lengths
are below 64 and those of the table). -/
def levenshtein (s1 s2 : Bytes) : Nat :=
  if s1 = [] then s2.length
  else if s2 = [] then s1.length
  else ((rows s2 0 (List.range (s2.length + 1)) s1)[s2.length]?).getD 0

/-- emoji.c:541-556, `normalize_emoji_name`. -/
def normalize (name : Bytes) : Bytes :=
  (name.filter (· != c!":")).map fun c => if c = c!"-" then c!"_" else toLower c

/-- emoji.c:22-30, `find_emoji_entry`. -/
def find (tab : List Entry) (name : Bytes) : Option Entry := tab.find? (·.name == name)

/-- emoji.c:630-644: the loop over the table with `best_distance`, `best_length`, `best_match`. -/
def bestLoop (n : Bytes) (limit : Nat) : Nat → Nat → Option Bytes → List Entry → Option Bytes
  | _, _, bm, [] => bm
  | bd, bl, bm, e :: es =>
    let d := levenshtein n e.name
    if d ≤ limit then
      if d < bd ∨ d = bd ∧ e.name.length < bl then bestLoop n limit d e.name.length (some e.name) es
      else bestLoop n limit bd bl bm es
    else bestLoop n limit bd bl bm es

/-- emoji.c:609-647, `find_best_emoji_match`. -/
def best (tab : List Entry) (name : Bytes) (limit : Nat) : Option Bytes :=
  let n := normalize (name.take 63)
  match find tab n with
  | some e => some e.name
  | none => bestLoop n limit (limit + 1) (2 ^ 64 - 1) none tab

/-- emoji.c:654-668, `is_table_alignment_pattern`. -/
def alignment (name : Bytes) : Bool :=
  name.all fun c => c == c!"|" || c == c!"-" || c == c!":"

/-- emoji.c:686-703 and 467-490: at a colon, the name up to the next colon and the text behind it, when
the name is not empty, not too long and without white space (`spaces`). -/
def candidate (spaces : Bytes) (s : Bytes) : Option (Bytes × Bytes) :=
  match s with
  | [] => none
  | c :: t =>
    if c = c!":" then
      match idx c!":" t with
      | some i =>
        if i + 1 < 50 ∧ i > 0 ∧ ¬ (t.take i).any (fun c => spaces.contains c) then
          some (t.take i, t.drop (i + 1))
        else none
      | none => none
    else none

theorem candidate_eq {sp s name rest : Bytes} (h : candidate sp s = some (name, rest)) :
    s = c!":" :: (name ++ c!":" :: rest) ∧ name ≠ [] ∧ name.length < 49 ∧ c!":" ∉ name ∧
    ∀ c ∈ name, c ∉ sp := by
  unfold candidate at h
  split at h
  · simp at h
  · rename_i c t
    split at h
    · rename_i hc
      subst hc
      split at h
      · rename_i i hi
        split at h
        · rename_i hcond
          simp only [Option.some.injEq, Prod.mk.injEq] at h
          obtain ⟨rfl, rfl⟩ := h
          obtain ⟨hlt, h1, h2⟩ := List.findIdx?_eq_some_iff_getElem.1 hi
          have h3 : t[i] = c!":" := by simpa using h1
          refine ⟨?_, ?_, ?_, ?_, ?_⟩
          · rw [← h3, ← List.drop_eq_getElem_cons hlt, List.take_append_drop, h3]
          · intro he
            rcases List.take_eq_nil_iff.1 he with h | h
            · omega
            · rw [h] at hlt; simp at hlt
          · simp; omega
          · intro hm
            obtain ⟨j, hj, he⟩ := List.mem_iff_getElem.1 hm
            have hj' : j < i := by simp at hj; omega
            have := h2 j hj'
            rw [List.getElem_take] at he
            simp [he] at this
          · intro c hcm hsp
            apply hcond.2.2
            rw [List.any_eq_true]
            exact ⟨c, hcm, by simpa using hsp⟩
        · simp at h
      · simp at h
    · simp at h

/-- `:name:` -/
def pattern (name : Bytes) : Bytes := c!":" :: (name ++ [c!":"])

/-- emoji.c:709-714 and its copies: the pattern is copied when it is shorter than the space left. -/
def copyIf (cap : Nat) (out p : Bytes) : C Bytes :=
  if p.length < cap - out.length then puts cap out p else .val out

/-- emoji.c:734-752 and 758-778: `:name:` when it fits, otherwise the source as far as it fits. -/
def emitName (cap : Nat) (out name source : Bytes) : C Bytes :=
  if name.length + 2 ≤ cap - out.length then puts cap out (pattern name) else copyIf cap out source

/-- emoji.c:798-804: one byte. -/
def copyByte (cap : Nat) (out : Bytes) (c : Byte) : C Bytes :=
  if cap - out.length > 0 then put cap out c else .val out

/-- emoji.c:705-792: what is written for the pattern `:name:`. -/
def correctName (tab : List Entry) (cap : Nat) (out name : Bytes) : C Bytes :=
  if alignment name then copyIf cap out (pattern name)
  else
    match find tab (normalize name) with
    | some _ => emitName cap out (normalize name) (pattern name)
    | none =>
      match best tab name 4 with
      | some m => emitName cap out m (pattern name)
      | none => copyIf cap out (pattern name)

/-- The white space tested at emoji.c:699. -/
def blanks : Bytes := [32, 9, 10]

/-- emoji.c:685-807. -/
def correctLoop (tab : List Entry) (cap : Nat) (out s : Bytes) : C Bytes :=
  match s with
  | [] => finish cap out
  | c :: t =>
    match _h : candidate blanks (c :: t) with
    | some (name, rest) => correctName tab cap out name >>= fun o => correctLoop tab cap o rest
    | none => copyByte cap out c >>= fun o => correctLoop tab cap o t
  termination_by s.length
  decreasing_by
    · rw [(candidate_eq _h).1]; simp; omega
    · simp

/-- emoji.c:674-810, `apex_autocorrect_emoji_names`. -/
def autocorrect (tab : List Entry) (text : Bytes) : C Bytes :=
  correctLoop tab (text.length * 2) [] text

/-- The white space tested at emoji.c:477. -/
def blanks4 : Bytes := [32, 9, 10, 13]

/-- emoji.c:482-517: what the pattern becomes: `none` when it is left to the byte copy. -/
def textPiece (tab : List Entry) (cap : Nat) (out name : Bytes) : Option (C Bytes) :=
  if alignment name then
    some (if (pattern name).length ≤ cap - out.length then puts cap out (pattern name) else .val out)
  else
    match (find tab (normalize (name.take 63))).bind (·.unicode) with
    | some u => if u.length ≤ cap - out.length then some (puts cap out u) else none
    | none => none

/-- emoji.c:462-535; at the end the terminator, over the last byte when the buffer is full. -/
def textLoop (tab : List Entry) (cap : Nat) (out s : Bytes) : C Bytes :=
  match s with
  | [] => if cap - out.length > 0 then finish cap out else .val (out.take (cap - 1))
  | c :: t =>
    match _h : candidate blanks4 (c :: t) with
    | some (name, rest) =>
      match textPiece tab cap out name with
      | some o => o >>= fun o => textLoop tab cap o rest
      | none => copyByte cap out c >>= fun o => textLoop tab cap o t
    | none => copyByte cap out c >>= fun o => textLoop tab cap o t
  termination_by s.length
  decreasing_by
    · rw [(candidate_eq _h).1]; simp; omega
    · simp
    · simp

/-- emoji.c:448-538, `apex_replace_emoji_text`. -/
def replaceText (tab : List Entry) (text : Bytes) : C Bytes :=
  textLoop tab (text.length * 2 + 16) [] text

end Verif.Emoji
