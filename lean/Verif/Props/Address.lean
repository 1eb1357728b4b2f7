/-
C45: parts of included files by line numbers.  C78: by patterns.  C79: a prefix alone.

C45 as stated is false: an unfinished last line is never included, a single number selects nothing, and with a prefix
lines can be lost.  C78 is false for the same reasons, and when one line matches both patterns.
-/
import Verif.Proof.Address

namespace Verif.Address

open Spec

/-- C45, the part that holds: `[N,M]` gives lines `N` to `M - 1` of the lines that end in a newline, each with the
prefix, when the result is at most 924 bytes longer than the file. -/
theorem C45_range_partial (regcomp : Bytes → Option (Bytes → Bool)) (fuel : Nat) {content last a b : Bytes} {ls : List Bytes}
    {n m : Nat} {pre : Option Bytes} (h : File content ls last) (ha : Number a n) (hb : Number b m) (hn : 1 ≤ n) (hm : n ≤ m)
    (hp : ∀ p, pre = some p → c!"\"" ∉ p)
    (hfit : (marked (pre.getD []) (between n m ls)).length ≤ content.length + 924) :
    select regcomp (fuel + 1) content (a ++ b!"," ++ b ++ prefixText pre) = some (.val (marked (pre.getD []) (between n m ls))) := by
  unfold select
  rw [parse_range ha hb hn hp, if_neg (by omega)]
  exact extract_lines h hn hfit

/-- `[N,]` gives everything from line `N` on that ends in a newline. -/
theorem C45_open_partial (regcomp : Bytes → Option (Bytes → Bool)) (fuel : Nat) {content last a : Bytes} {ls : List Bytes}
    {n : Nat} {pre : Option Bytes} (h : File content ls last) (ha : Number a n) (hn : 1 ≤ n)
    (hp : ∀ p, pre = some p → c!"\"" ∉ p)
    (hfit : (marked (pre.getD []) (ls.drop (n - 1))).length ≤ content.length + 924) :
    select regcomp (fuel + 1) content (a ++ b!"," ++ prefixText pre) = some (.val (marked (pre.getD []) (ls.drop (n - 1)))) := by
  have e : between n (ls.length + 1) ls = ls.drop (n - 1) := by
    unfold between; rw [List.take_of_length_le (by omega)]
  unfold select
  rw [parse_open ha hn hp]
  have := extract_lines (regcomp := regcomp) (fuel := fuel) (e := none) (pre := pre) h hn (by simpa [e] using hfit)
  simp only [this]; simp [e]

/-- Without a prefix the space always suffices. -/
theorem C45_no_prefix (regcomp : Bytes → Option (Bytes → Bool)) (fuel : Nat) {content last a b : Bytes} {ls : List Bytes}
    {n m : Nat} (h : File content ls last) (ha : Number a n) (hb : Number b m) (hn : 1 ≤ n) (hm : n ≤ m) :
    select regcomp (fuel + 1) content (a ++ b!"," ++ b) = some (.val (Text.Spec.ended (between n m ls))) := by
  have hl := marked_nil_length h (m - 1) (n - 1)
  have := C45_range_partial regcomp fuel (pre := none) h ha hb hn hm (by simp) (by unfold between; simp; omega)
  simpa [prefixText, marked_nil] using this

/-- A single number selects nothing. -/
theorem C45_single (regcomp : Bytes → Option (Bytes → Bool)) (fuel : Nat) {content a : Bytes} {n : Nat} {pre : Option Bytes}
    (ha : Number a n) (hn : 1 ≤ n) (hp : ∀ p, pre = some p → c!"\"" ∉ p) :
    select regcomp (fuel + 1) content (a ++ prefixText pre) = some (.val []) := by
  obtain ⟨ls, last, h⟩ := file_exists content
  have e : between n n ls = [] := by unfold between; simp
  unfold select
  rw [parse_single ha hn hp]
  have := extract_lines (regcomp := regcomp) (fuel := fuel) (e := some n) (pre := pre) h hn (by simp [e, marked])
  simp only [this]; simp [e, marked]

/-- Whatever the address, no write leaves the buffer. -/
theorem C45_safe (regcomp : Bytes → Option (Bytes → Bool)) {fuel : Nat} {content address : Bytes} {r : C Bytes}
    (h : select regcomp fuel content address = some r) : ∃ out, r = .val out := by
  unfold select at h
  split at h
  · exact extract_safe h
  · exact ⟨_, (Option.some.inj h).symm⟩

/-- Every file has exactly one reading as lines and an unfinished line. -/
theorem C45_file (content : Bytes) : ∃ ls last, File content ls last := file_exists content

/-- The last line of a file without a final newline is lost. -/
theorem C45_lost_last :
    select (fun _ => none) 1 b!"one\ntwo\nthree" b!"2,9" = some (.val b!"two\n") := by decide +kernel

/-- The end before the start: everything from the start on. -/
theorem C45_backwards :
    select (fun _ => none) 1 b!"one\ntwo\nthree\n" b!"2,1" = some (.val b!"two\nthree\n") := by decide +kernel

/-- With a prefix of 500 bytes the third line is lost. -/
theorem C45_lost_line :
    select (fun _ => none) 1 b!"a\nb\nc\n" (b!"1,4;prefix=\"" ++ List.replicate 500 c!">" ++ b!"\"") =
      some (.val (List.replicate 500 c!">" ++ b!"a\n" ++ List.replicate 500 c!">" ++ b!"b\n")) := by decide +kernel

/-- C78, the part that holds: from the first line that matches the first pattern up to, without, the next that matches
the second. -/
theorem C78_between_partial {regcomp : Bytes → Option (Bytes → Bool)} (fuel : Nat) {content last a b x y : Bytes}
    {ls before mid after : List Bytes} {m1 m2 : Bytes → Bool} {pre : Option Bytes} (h : File content ls last)
    (hls : ls = before ++ (x :: mid) ++ y :: after) (hra : regcomp a = some m1) (hrb : regcomp b = some m2)
    (hbefore : ∀ l ∈ before, m1 l = false) (hx : m1 x = true) (hmid : ∀ l ∈ x :: mid, m2 l = false) (hy : m2 y = true)
    (ha : c!"/" ∉ a) (hb : c!"/" ∉ b) (hp : ∀ p, pre = some p → c!"\"" ∉ p)
    (hfit : (marked (pre.getD []) (x :: mid)).length ≤ content.length + 924) :
    select regcomp (fuel + 1) content (b!"/" ++ a ++ b!"/,/" ++ b ++ b!"/" ++ prefixText pre) =
      some (.val (marked (pre.getD []) (x :: mid))) := by
  unfold select
  rw [parse_regex ha hb hp]
  have hs : search (some m1) ((some b).bind regcomp) 1 none (Text.splitLines content) =
      (some (1 + before.length), some (1 + before.length + (x :: mid).length)) := by
    rw [file_lines h, hls, Option.bind_some, hrb, List.append_assoc, List.append_assoc, search_none rfl before _ _ hbefore,
      List.cons_append, search_hit hx, ← List.cons_append, search_found (x :: mid) _ _ hmid, List.cons_append]
    unfold search
    simp [hy]
  have e : between (1 + before.length) ((some (1 + before.length + (x :: mid).length)).getD (ls.length + 1)) ls = x :: mid := by
    simp only [Option.getD_some]
    unfold between
    have e1 : 1 + before.length + (x :: mid).length - 1 = (before ++ (x :: mid)).length := by simp; omega
    have e2 : 1 + before.length - 1 = before.length := by omega
    rw [hls, e1, e2, List.take_append_of_le_length (Nat.le_refl _), List.take_length, List.drop_left]
  have := extract_regex (regcomp := regcomp) (fuel := fuel) (i := some 0) (pre := pre) h hra hs
    (by intro m hm; cases hm; rw [hls]; simp; omega) (by rw [e]; exact hfit)
  simp only [this, e]

/-- No later line matches the second pattern: to the end. -/
theorem C78_open_partial {regcomp : Bytes → Option (Bytes → Bool)} (fuel : Nat) {content last a b x : Bytes}
    {ls before mid : List Bytes} {m1 m2 : Bytes → Bool} {pre : Option Bytes} (h : File content ls last)
    (hls : ls = before ++ x :: mid) (hra : regcomp a = some m1) (hrb : regcomp b = some m2)
    (hbefore : ∀ l ∈ before, m1 l = false) (hx : m1 x = true) (hmid : ∀ l ∈ x :: mid, m2 l = false)
    (ha : c!"/" ∉ a) (hb : c!"/" ∉ b) (hp : ∀ p, pre = some p → c!"\"" ∉ p)
    (hfit : (marked (pre.getD []) (x :: mid)).length ≤ content.length + 924) :
    select regcomp (fuel + 1) content (b!"/" ++ a ++ b!"/,/" ++ b ++ b!"/" ++ prefixText pre) =
      some (.val (marked (pre.getD []) (x :: mid))) := by
  unfold select
  rw [parse_regex ha hb hp]
  have hlen : ls.length + 1 = 1 + before.length + (x :: mid).length := by rw [hls]; simp; omega
  have hs : ∃ j, search (some m1) ((some b).bind regcomp) 1 none (Text.splitLines content) = (some (1 + before.length), j) ∧
      ∀ m, j = some m → m = ls.length + 1 := by
    rw [file_lines h, hls, Option.bind_some, hrb, List.append_assoc, search_none rfl before _ _ hbefore,
      List.cons_append, search_hit hx, ← List.cons_append, search_found (x :: mid) _ _ hmid, ← hlen, ← hls]
    split
    · exact ⟨none, rfl, by simp⟩
    · unfold search
      cases hl : m2 last
      · exact ⟨none, by simp [search, hl], by simp⟩
      · exact ⟨some (ls.length + 1), by simp [hl], by simp⟩
  obtain ⟨j, hs, hj⟩ := hs
  have hjd : j.getD (ls.length + 1) = ls.length + 1 := by
    cases j with
    | none => rfl
    | some m => simpa using hj m rfl
  have e : between (1 + before.length) (j.getD (ls.length + 1)) ls = x :: mid := by
    rw [hjd]
    unfold between
    have e2 : 1 + before.length - 1 = before.length := by omega
    rw [List.take_of_length_le (by omega), e2, hls, List.drop_left]
  have := extract_regex (regcomp := regcomp) (fuel := fuel) (i := some 0) (pre := pre) h hra hs
    (by intro m hm; rw [hj m hm]; exact Nat.le_refl _) (by rw [e]; exact hfit)
  simp only [this, e]

/-- The second pattern left out: to the end. -/
theorem C78_one_partial {regcomp : Bytes → Option (Bytes → Bool)} (fuel : Nat) {content last a x : Bytes}
    {ls before mid : List Bytes} {m1 : Bytes → Bool} {pre : Option Bytes} (h : File content ls last)
    (hls : ls = before ++ x :: mid) (hra : regcomp a = some m1)
    (hbefore : ∀ l ∈ before, m1 l = false) (hx : m1 x = true)
    (ha : c!"/" ∉ a) (hp : ∀ p, pre = some p → c!"\"" ∉ p)
    (hfit : (marked (pre.getD []) (x :: mid)).length ≤ content.length + 924) :
    select regcomp (fuel + 1) content (b!"/" ++ a ++ b!"/" ++ prefixText pre) =
      some (.val (marked (pre.getD []) (x :: mid))) := by
  unfold select
  rw [parse_regex_one ha hp]
  have hs : search (some m1) ((none : Option Bytes).bind regcomp) 1 none (Text.splitLines content) = (some (1 + before.length), none) := by
    rw [file_lines h, hls, Option.bind_none, List.append_assoc, search_none rfl before _ _ hbefore,
      List.cons_append, search_hit hx, search_end]
  have e : between (1 + before.length) ((none : Option Nat).getD (ls.length + 1)) ls = x :: mid := by
    unfold between
    have e2 : 1 + before.length - 1 = before.length := by omega
    rw [Option.getD_none, List.take_of_length_le (by omega), e2, hls, List.drop_left]
  have := extract_regex (regcomp := regcomp) (fuel := fuel) (i := some 0) (pre := pre) h hra hs (by simp) (by rw [e]; exact hfit)
  simp only [this, e]

/-- No line matches the first pattern: nothing. -/
theorem C78_absent {regcomp : Bytes → Option (Bytes → Bool)} (fuel : Nat) {content a b : Bytes}
    {m1 : Bytes → Bool} {pre : Option Bytes} (hra : regcomp a = some m1)
    (hno : ∀ l ∈ Text.splitLines content, m1 l = false) (ha : c!"/" ∉ a) (hb : c!"/" ∉ b) (hp : ∀ p, pre = some p → c!"\"" ∉ p) :
    select regcomp (fuel + 1) content (b!"/" ++ a ++ b!"/,/" ++ b ++ b!"/" ++ prefixText pre) = some (.val []) := by
  unfold select
  rw [parse_regex ha hb hp]
  have hs : search (some m1) ((some b).bind regcomp) 1 none (Text.splitLines content) = (none, none) := by
    have := search_none (re := (some b).bind regcomp) (rs := some m1) rfl (Text.splitLines content) [] 1 hno
    rw [List.append_nil] at this
    rw [this, search]
  simp only []
  rw [extract]
  simp only [Bool.not_false, Bool.not_true, Bool.and_false, Bool.false_eq_true, if_false, if_true, Option.bind_some, hra]
  rw [Option.bind_some] at hs
  simp [hs]

/-- One line matches both patterns: nothing, although the range should go on to the next match. -/
theorem C78_same {regcomp : Bytes → Option (Bytes → Bool)} (fuel : Nat) {content last a b x : Bytes}
    {ls before after : List Bytes} {m1 m2 : Bytes → Bool} {pre : Option Bytes} (h : File content ls last)
    (hls : ls = before ++ x :: after) (hra : regcomp a = some m1) (hrb : regcomp b = some m2)
    (hbefore : ∀ l ∈ before, m1 l = false) (hx : m1 x = true) (hx2 : m2 x = true)
    (ha : c!"/" ∉ a) (hb : c!"/" ∉ b) (hp : ∀ p, pre = some p → c!"\"" ∉ p) :
    select regcomp (fuel + 1) content (b!"/" ++ a ++ b!"/,/" ++ b ++ b!"/" ++ prefixText pre) = some (.val []) := by
  unfold select
  rw [parse_regex ha hb hp]
  have hs : search (some m1) ((some b).bind regcomp) 1 none (Text.splitLines content) =
      (some (1 + before.length), some (1 + before.length)) := by
    rw [file_lines h, hls, Option.bind_some, hrb, List.append_assoc, search_none rfl before _ _ hbefore, List.cons_append]
    unfold search
    simp [hx, hx2]
  have e : between (1 + before.length) ((some (1 + before.length)).getD (ls.length + 1)) ls = [] := by
    simp only [Option.getD_some]; unfold between; simp
  have := extract_regex (regcomp := regcomp) (fuel := fuel) (i := some 0) (pre := pre) h hra hs
    (by intro m hm; cases hm; rw [hls]; simp; omega) (by rw [e]; simp [marked])
  simp only [this, e]; rfl

/-- C79: an address that is only a prefix puts it on every line that is not empty and keeps everything else. -/
theorem C79_prefix (regcomp : Bytes → Option (Bytes → Bool)) (fuel : Nat) {content last p : Bytes} {ls : List Bytes}
    (h : File content ls last) (hp : c!"\"" ∉ p) :
    select regcomp (fuel + 1) content (b!"prefix=\"" ++ p ++ b!"\"") =
      some (.val (quoted p ls ++ if last = [] then [] else p ++ last)) := by
  have : parse (b!"prefix=\"" ++ p ++ b!"\"") = some ⟨false, false, 0, some 0, none, none, some p⟩ := by
    have e : skipSpace (b!"prefix=\"" ++ p ++ b!"\"") = b!"prefix=\"" ++ p ++ b!"\"" := by
      apply skipSpace_of
      intro c hc
      have : c = c!"p" := by simpa using hc.symm
      rw [this]; decide
    unfold parse
    rw [if_neg (by simp)]
    simp only [e]
    rw [prefixParam_eq hp []]
  unfold select
  rw [this]
  exact extract_prefix h

/-! Cases that meet the hypotheses. -/

example : File b!"one\ntwo\nthree" [b!"one", b!"two"] b!"three" := ⟨by decide, by decide, by decide⟩
example : Number b!"12" 12 := ⟨by decide, by decide, by decide, by decide⟩
example : select (fun _ => none) 1 b!"one\ntwo\nthree\n" b!"2,3;prefix=\"> \"" = some (.val b!"> two\n") := by decide +kernel
example : select (fun re => some fun l => re.isPrefixOf l) 1 b!"a\nB 1\nx\nE\nz\n" b!"/B/,/E/" = some (.val b!"B 1\nx\n") := by
  decide +kernel
example : select (fun _ => none) 1 b!"a\n\nb" b!"prefix=\"> \"" = some (.val b!"> a\n\n> b") := by decide +kernel

end Verif.Address
