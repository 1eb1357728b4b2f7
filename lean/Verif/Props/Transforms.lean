/-
C18-C22, C59-C61: the metadata transforms.
-/
import Verif.Proof.Transforms

namespace Verif.Transforms

open Spec

/-! ### C18: slug -/

/-- Every value has a slug, computed inside its allocation; it is a clean slug and its letters and
digits are those of the value, in lower case. -/
theorem C18_slug_partial (v : Bytes) : ∃ s, slug v = .val s ∧ Slug s ∧
    s.filter (· != 45) = (v.filter isAlnum).map toLower := by
  refine ⟨_, slug_eq v, ⟨?_, ?_, dropHyphens_last _⟩, ?_⟩
  · intro c hc
    exact slugPure_chars v false c ((dropHyphens_prefix _).subset hc)
  · intro h
    exact slugPure_noDouble v false (h.trans (dropHyphens_prefix _).isInfix)
  · rw [filter_dropHyphens, slugPure_filter]

/-- What is missing from C18: slugging a slug removes its hyphens, so slugging twice equals slugging
once exactly for slugs without a hyphen. -/
theorem C18_slug_twice (v s : Bytes) (h : slug v = .val s) :
    slug s = .val (s.filter (· != 45)) ∧ (slug s = .val s ↔ (45 : Byte) ∉ s) := by
  have hs : Slug s := by
    obtain ⟨s', h', hs, _⟩ := C18_slug_partial v
    rw [h] at h'
    cases h'; exact hs
  have e : slug s = .val (s.filter (· != 45)) := by
    rw [slug_eq, slugPure_slug s hs.chars, dropHyphens_of_none]
    intro c hc
    simpa using (List.mem_filter.1 hc).2
  refine ⟨e, ?_⟩
  rw [e]
  simp only [C.val.injEq]
  constructor
  · intro hf hm
    rw [← hf] at hm
    simp at hm
  · intro hm
    apply List.filter_eq_self.2
    intro c hc
    simp
    rintro rfl
    exact hm hc

/-- "slugging twice equals slugging once" is false. -/
theorem C18_not_idempotent :
    ¬ ∀ v s s', slug v = .val s → slug s = .val s' → s' = s := by
  intro h
  have := h b!"a b" b!"a-b" b!"ab" (by decide +kernel) (by decide +kernel)
  revert this; decide

example : slug b!" Hello, World_!  " = .val b!"-hello-world" := by decide +kernel

/-! ### C19: case, trim, reverse -/

theorem C19_lengths (v : Bytes) :
    (upper v).length = v.length ∧ (lower v).length = v.length ∧ (title v).length = v.length ∧
      (capitalize v).length = v.length := by
  have ht : ∀ b, (titleLoop b v).length = v.length := by
    induction v with
    | nil => simp [titleLoop]
    | cons c cs ih => intro b; unfold titleLoop; split <;> simp [ih]
  refine ⟨by simp [upper], by simp [lower], ht true, ?_⟩
  cases v <;> simp [capitalize]

theorem C19_upper_lower (v : Bytes) :
    upper (upper v) = upper v ∧ lower (lower v) = lower v ∧
      upper (lower v) = upper v ∧ lower (upper v) = lower v := by
  simp [upper, lower, Function.comp_def, upper_upper, lower_lower, upper_lower, lower_upper]

/-- upper, lower, title and capitalize only change the case of ASCII letters: folding the case of
the result and of the value gives the same string. -/
theorem C19_only_case (v : Bytes) :
    lower (upper v) = lower v ∧ lower (lower v) = lower v ∧ lower (title v) = lower v ∧
      lower (capitalize v) = lower v ∧ ∀ c ∈ upper v, isLower c = false := by
  have ht : ∀ b, (titleLoop b v).map toLower = v.map toLower := by
    induction v with
    | nil => simp [titleLoop]
    | cons c cs ih =>
      intro b
      unfold titleLoop
      split
      · simp [ih]
      · cases b <;> simp [ih, lower_lower, lower_upper]
  refine ⟨(C19_upper_lower v).2.2.2, (C19_upper_lower v).2.1, ht true, ?_, ?_⟩
  · cases v <;> simp [capitalize, lower, lower_upper]
  · have : ∀ c, isLower (toUpper c) = false := forall_byte (by decide +kernel)
    simp [upper, this]

/-- trim removes exactly the surrounding white space, and is idempotent. -/
theorem C19_trim (v : Bytes) :
    Trimmed v (trim v) ∧ (∀ t, Trimmed v t → t = trim v) ∧ trim (trim v) = trim v := by
  have h : Trimmed v (trim v) := by rw [trim_eq_trimTok]; exact trimTok_spec v
  refine ⟨h, fun t ht => trimmed_unique ht h, ?_⟩
  have h2 : Trimmed (trim v) (trim (trim v)) := by rw [trim_eq_trimTok (trim v)]; exact trimTok_spec _
  obtain ⟨a, b, _, _, _, hh, hl⟩ := h
  exact trimmed_unique h2 ⟨[], [], by simp, by simp, by simp, hh, hl⟩

/-- title and capitalize, byte by byte: `title` puts the first byte of every word (a byte behind white space
or at the start) in upper case and every other byte in lower case, `capitalize` puts the first byte of the
value in upper case and keeps the rest. -/
theorem C19_title (v : Bytes) (i : Nat) (c : Byte) (h : v[i]? = some c) :
    (i = 0 ∨ (∃ d, v[i - 1]? = some d ∧ White d) → (title v)[i]? = some (toUpper c)) ∧
    ((∃ d, 0 < i ∧ v[i - 1]? = some d ∧ ¬ White d) → (title v)[i]? = some (toLower c)) ∧
    (capitalize v)[i]? = some (if i = 0 then toUpper c else c) := by
  have sp : ∀ c : Byte, isSpace c = true → toUpper c = c ∧ toLower c = c := forall_byte (by decide +kernel)
  have hw : ∀ c : Byte, isSpace c = true ↔ White c := fun c => isSpace_iff c
  have ht : ∀ (v : Bytes) (b : Bool) (i : Nat) (c : Byte), v[i]? = some c →
      ((i = 0 ∧ b = true) ∨ (0 < i ∧ ∃ d, v[i - 1]? = some d ∧ White d) →
        (titleLoop b v)[i]? = some (toUpper c)) ∧
      ((i = 0 ∧ b = false) ∨ (∃ d, 0 < i ∧ v[i - 1]? = some d ∧ ¬ White d) →
        (titleLoop b v)[i]? = some (toLower c)) := by
    intro v
    induction v with
    | nil => intro b i c h; simp at h
    | cons x xs ih =>
      intro b i c h
      unfold titleLoop
      cases i with
      | zero =>
        simp at h; subst h
        by_cases hx : isSpace x = true
        · obtain ⟨h1, h2⟩ := sp x hx
          rw [if_pos hx]; simp [h1, h2]
        · rw [if_neg hx]; cases b <;> simp
      | succ j =>
        simp only [List.getElem?_cons_succ] at h
        by_cases hx : isSpace x = true
        · rw [if_pos hx, List.getElem?_cons_succ]
          obtain ⟨i1, i2⟩ := ih true j c h
          cases j with
          | zero =>
            refine ⟨fun _ => i1 (.inl ⟨rfl, rfl⟩), ?_⟩
            simp [(hw x).1 hx]
          | succ k => exact ⟨fun h' => i1 (by simpa using h'), fun h' => i2 (by simpa using h')⟩
        · rw [if_neg hx, List.getElem?_cons_succ]
          obtain ⟨i1, i2⟩ := ih false j c h
          cases j with
          | zero =>
            refine ⟨?_, fun _ => i2 (.inl ⟨rfl, rfl⟩)⟩
            have hn : ¬ White x := fun h' => hx ((hw x).2 h')
            simp [hn]
          | succ k => exact ⟨fun h' => i1 (by simpa using h'), fun h' => i2 (by simpa using h')⟩
  refine ⟨?_, ?_, ?_⟩
  · intro hs
    apply (ht v true i c h).1
    by_cases hi : i = 0
    · exact .inl ⟨hi, rfl⟩
    · rcases hs with hs | hs
      · exact absurd hs hi
      · exact .inr ⟨by omega, hs⟩
  · exact fun hs => (ht v true i c h).2 (.inr hs)
  · cases v with
    | nil => simp at h
    | cons x xs =>
      cases i with
      | zero => simp at h; subst h; simp [capitalize]
      | succ j => simpa [capitalize] using h

/-- reverse reads and writes inside its strings, gives the reversed bytes, and twice is the
identity. -/
theorem C19_reverse (v : Bytes) :
    reverse v = .val v.reverse ∧ (do let r ← reverse v; reverse r) = .val v := by
  have h : ∀ v, reverse v = .val v.reverse := fun v => reverseLoop_eq v v.length [] (by simp) (by simp)
  refine ⟨h v, ?_⟩
  rw [h]; simp [h]

example : trim b!"  a b \t" = b!"a b" := by decide +kernel
example : title b!"hELLO wORLD" = b!"Hello World" := by decide +kernel

/-! ### C20: replace -/

/-- `replace(OLD,NEW)` with a non-empty OLD (free of commas, since the options are cut at the first
one): every leftmost non-overlapping occurrence is replaced, inside the computed allocation. -/
theorem C20_replace (rb : Bytes → Bytes → Bytes → C Bytes) (old new v : Bytes) (ho : old ≠ [])
    (hc : c!"," ∉ old) (hx : ¬ b!"regex:" <+: old) :
    ∃ r, replace rb (old ++ c!"," :: new) v = .val r ∧ ReplaceAll old new v r ∧
      ∀ r', ReplaceAll old new v r' → r' = r := by
  refine ⟨replPure old new ho v, ?_, replPure_spec .., fun r' h => replaceAll_unique h (replPure_spec ..)⟩
  have h : ∀ x ∈ old, (x != c!",") = true := by
    intro x hx; simp; rintro rfl; exact hc hx
  have ht : (old ++ c!"," :: new).takeWhile (· != c!",") = old := by
    rw [List.takeWhile_append_of_pos h]; simp
  have hd : (old ++ c!"," :: new).dropWhile (· != c!",") = c!"," :: new := by
    rw [List.dropWhile_append_of_pos h]; simp
  have hp : b!"regex:".isPrefixOf (old ++ c!"," :: new) = false := by
    cases h' : b!"regex:".isPrefixOf (old ++ c!"," :: new) with
    | false => rfl
    | true =>
      exfalso
      have h1 := List.isPrefixOf_iff_prefix.1 h'
      rcases Nat.lt_or_ge old.length 6 with hl | hl
      · -- the comma would be one of the first six bytes
        have h2 : old ++ [c!","] <+: b!"regex:" :=
          List.prefix_of_prefix_length_le (l₃ := old ++ c!"," :: new)
            ⟨new, by simp⟩ h1 (by simp; omega)
        have : c!"," ∈ b!"regex:" := h2.subset (by simp)
        revert this; decide
      · exact hx (List.prefix_of_prefix_length_le h1 ⟨_, rfl⟩ (by simpa using hl))
  simp only [replace, ht, hd, dif_neg ho, hp]
  exact replacePlain_eq old new ho v

/-- Options without a comma, or with nothing before it, change nothing. -/
theorem C20_replace_noop (rb : Bytes → Bytes → Bytes → C Bytes) (options v : Bytes) (h : c!"," ∉ options ∨ options.head? = some c!",") :
    replace rb options v = .val v := by
  simp only [replace]
  rcases h with h | h
  · have : options.dropWhile (· != c!",") = [] := by
      cases hd : options.dropWhile (· != c!",") with
      | nil => rfl
      | cons x xs =>
        exfalso
        obtain ⟨_, he, _, hh⟩ := dropWhile_split (· != c!",") options
        have hx := hh x (by rw [hd]; rfl)
        simp at hx
        subst hx
        apply h
        rw [he, hd]; simp
    rw [this]
  · cases options with
    | nil => simp at h
    | cons x xs => simp at h; subst h; simp

example : replace (fun _ _ v => .val v) b!"aa,b" b!"aaaxaa" = .val b!"baxb" := by decide +kernel

/-! ### C21: truncate and pad -/

theorem toSize_of_nonneg {x : Int} (h : 0 ≤ x) (h2 : x < 2 ^ 64) : toSize x = x.toNat := by
  unfold toSize; rw [Int.emod_eq_of_lt h h2]

/-- For a limit that is not negative, truncate stays inside its strings and keeps a prefix of the
value; if the suffix is shorter than the limit the result has at most `max` bytes. -/
theorem C21_truncate_partial (lim : Nat) (max : Int) (suffix v : Bytes) (h0 : 0 ≤ max)
    (hv : v.length < 2 ^ 63) (hs : suffix.length < 64) :
    truncate lim max suffix v = .val none ∨
    (∃ r, truncate lim max suffix v = .val (some r) ∧
      ((v.length : Int) ≤ max → r = v) ∧
      (max < v.length → ∃ k : Nat, (k : Int) ≤ max ∧ r = v.take k ++ suffix ∧
        ((suffix.length : Int) < max → (r.length : Int) = max))) := by
  simp only [truncate]
  split
  · rename_i h
    exact .inr ⟨v, rfl, fun _ => rfl, fun h2 => by omega⟩
  · rename_i h
    have key : ∀ k : Nat, (k : Int) ≤ max → toSize (k : Int) = k := by
      intro k hk
      rw [toSize_of_nonneg (by omega) (by omega)]; simp
    by_cases hm : max > suffix.length
    · simp only [hm, if_true]
      obtain ⟨k, hk⟩ : ∃ k : Nat, max - suffix.length = k := ⟨(max - suffix.length).toNat, by omega⟩
      have hkm : (k : Int) ≤ max := by omega
      rw [hk, key k hkm, Nat.mod_eq_of_lt (by omega)]
      split
      · exact .inl rfl
      · rw [if_pos ⟨by omega, Nat.le_refl _⟩]
        refine .inr ⟨_, rfl, fun h2 => by omega, fun _ => ⟨k, hkm, rfl, fun _ => ?_⟩⟩
        simp; omega
    · simp only [hm, if_false]
      obtain ⟨k, hk⟩ : ∃ k : Nat, max = k := ⟨max.toNat, by omega⟩
      have hkm : (k : Int) ≤ max := by omega
      rw [hk, key k hkm, Nat.mod_eq_of_lt (by omega)]
      split
      · exact .inl rfl
      · rw [if_pos ⟨by omega, Nat.le_refl _⟩]
        refine .inr ⟨_, rfl, fun h2 => by omega, fun _ => ⟨k, by omega, rfl, fun h3 => ?_⟩⟩
        exfalso; omega

/-- What is missing from C21, 1: a suffix at least as long as the limit makes the result longer than
the limit, for every value longer than the limit. -/
theorem C21_truncate_too_long (lim : Nat) (max : Int) (suffix v : Bytes) (h0 : 0 ≤ max)
    (hv : v.length < 2 ^ 63) (hs : suffix.length < 64) (hn : suffix ≠ [])
    (hm : max ≤ suffix.length) (hl : max < v.length) (hlim : max + suffix.length + 1 ≤ lim) :
    ∃ r, truncate lim max suffix v = .val (some r) ∧ max < (r.length : Int) := by
  have hp := List.length_pos_iff.2 hn
  obtain ⟨k, rfl⟩ : ∃ k : Nat, max = k := ⟨max.toNat, by omega⟩
  refine ⟨v.take k ++ suffix, ?_, by simp; omega⟩
  simp only [truncate]
  have hif : (if (k : Int) > suffix.length then (k : Int) - suffix.length else k) = k :=
    if_neg (by omega)
  rw [if_neg (by omega), hif, toSize_of_nonneg (by omega) (by omega),
    Int.toNat_natCast, Nat.mod_eq_of_lt (by omega), if_neg (by omega),
    if_pos ⟨by omega, Nat.le_refl _⟩]

example : truncate 1000 2 b!"..." b!"abcdef" = .val (some b!"ab...") := by decide +kernel
example : truncate 1000 5 b!"..." b!"abcdef" = .val (some b!"ab...") := by decide +kernel

/-- What is missing from C21, 2: a negative limit no larger in magnitude than the suffix length plus
one makes truncate write far outside its allocation, for every value. -/
theorem C21_truncate_ub (lim : Nat) (max : Int) (suffix v : Bytes) (h0 : max < 0)
    (hm : -max ≤ suffix.length + 1) (hs : suffix.length < 64) (hv : v.length < 2 ^ 63)
    (hlim : 64 ≤ lim) : truncate lim max suffix v = .ub := by
  simp only [truncate]
  have hif : (if max > suffix.length then max - suffix.length else max) = max :=
    if_neg (by omega)
  rw [if_neg (by omega), hif]
  have ht : toSize max = (2 ^ 64 + max).toNat := by
    unfold toSize
    have : max % 2 ^ 64 = (2 ^ 64 + max) := by
      rw [← Int.add_emod_left, Int.emod_eq_of_lt (by omega) (by omega)]
    rw [this]
  rw [ht]
  rw [if_neg (by omega), if_neg (by omega)]

example : truncate 1000 (-1) b!"" b!"abc" = .ub := by decide +kernel

/-- pad gives the value with as many pad bytes in front as are missing, inside its allocation, for
every width below the largest `long`. -/
theorem C21_pad_partial (lim : Nat) (width : Int) (pc : Byte) (v : Bytes) (hw : width < 2 ^ 63 - 1) :
    pad lim width pc v = .val none ∨
    ∃ k, pad lim width pc v = .val (some (List.replicate k pc ++ v)) ∧
      ((k + v.length : Nat) : Int) = if width ≤ v.length then (v.length : Int) else width := by
  simp only [pad]
  split
  · exact .inr ⟨0, by simp, by simp⟩
  · rw [if_neg (by omega)]
    split
    · exact .inl rfl
    · rw [if_pos (by omega)]
      exact .inr ⟨_, rfl, by omega⟩

/-- What is missing from C21, 3: `pad(9223372036854775807)` overflows a signed integer. -/
theorem C21_pad_ub (lim : Nat) (pc : Byte) (v : Bytes) (hv : v.length < 2 ^ 63 - 1) :
    pad lim (2 ^ 63 - 1) pc v = .ub := by
  simp only [pad]
  rw [if_neg (by omega), if_pos (by omega)]

example : pad 1000 5 c!"0" b!"42" = .val (some b!"00042") := by decide +kernel

/-! ### C22: split -/

/-- Whenever split returns, its tokens are the non-empty trimmed pieces of the value between the
matches of the delimiter, in order; if there is none, the value itself. -/
theorem C22_split_partial (rx : Matcher) (hv : rx.Valid) (v : Bytes) (r : List Bytes)
    (h : Splits rx v r) :
    (∃ ps, Pieces rx v ps ∧
      r = if (ps.map trim).filter (· ≠ []) = [] then [v] else (ps.map trim).filter (· ≠ [])) ∧
    (r = [v] ∨ (InOrder r v ∧ ∀ t ∈ r, t ≠ [] ∧ ∃ p, Trimmed p t)) := by
  rw [splits_iff rx hv] at h
  simp only [split, Option.map_eq_some_iff] at h
  obtain ⟨q, hq, rfl⟩ := h
  obtain ⟨ps, hp, he⟩ := splitGo_pieces rx v [] hq
  have hm : ps.map trim = ps.map trimTok := by
    apply List.map_congr_left; intro a _; exact trim_eq_trimTok a
  simp only [splitEnd, he, List.nil_append]
  refine ⟨⟨ps, hp, by simp [tokens, hm]⟩, ?_⟩
  split
  · exact .inl rfl
  · refine .inr ⟨inOrder_pieces hv hp, ?_⟩
    intro t ht
    simp [tokens] at ht
    obtain ⟨⟨p, _, rfl⟩, h2⟩ := ht
    exact ⟨h2, p, trimTok_spec p⟩

/-- Split returns or runs for ever; it runs for ever exactly when, after some number of matches, the
pattern matches the empty string at the start of what is left of the value. -/
theorem C22_split_hangs_iff (rx : Matcher) (hv : rx.Valid) (v : Bytes) :
    (SplitHangs rx v ↔ ∃ t, Visits rx v t ∧ t ≠ [] ∧ rx t = some (0, 0)) ∧
    (SplitHangs rx v ∨ ∃ r, Splits rx v r) := by
  constructor
  · rw [hangs_iff rx hv]
    simp only [split, Option.map_eq_none_iff]
    exact splitGo_none_iff rx hv v []
  · cases h : split rx v with
    | none => exact .inl ((hangs_iff rx hv v).2 h)
    | some r => exact .inr ⟨r, (splits_iff rx hv v r).2 h⟩

/-- A delimiter pattern that never matches the empty string makes split return. -/
theorem C22_split_returns (rx : Matcher) (hv : rx.Valid) (hn : NoEmpty rx) (v : Bytes) :
    ∃ r, Splits rx v r := by
  rcases (C22_split_hangs_iff rx hv v).2 with h | h
  · obtain ⟨t, _, _, h0⟩ := (C22_split_hangs_iff rx hv v).1.1 h
    have := hn _ _ _ h0
    omega
  · exact h

/-- The regular expression `x*`. -/
def starRx : Matcher := fun s => some (0, (s.takeWhile (· == c!"x")).length)

theorem starRx_valid : starRx.Valid := by
  intro s a b h
  simp [starRx] at h
  obtain ⟨rfl, rfl⟩ := h
  exact ⟨Nat.zero_le _, (List.takeWhile_prefix _).length_le⟩

/-- "split finishes for every delimiter pattern" is false: `split(x*)` of "abc" runs for ever. -/
theorem C22_split_hangs : SplitHangs starRx b!"abc" := by
  rw [(C22_split_hangs_iff starRx starRx_valid _).1]
  exact ⟨_, .here, by decide, by decide⟩

theorem commaRx_valid : commaRx.Valid := by
  intro s a b h
  simp only [commaRx, Option.map_eq_some_iff] at h
  obtain ⟨i, hi, h2⟩ := h
  simp at h2
  obtain ⟨rfl, rfl⟩ := h2
  have := (List.findIdx?_eq_some_iff_findIdx_eq.1 hi).1
  omega

theorem commaRx_noEmpty : NoEmpty commaRx := by
  intro s a b h
  simp only [commaRx, Option.map_eq_some_iff] at h
  obtain ⟨i, hi, h2⟩ := h
  simp at h2
  omega

/-- join, first and last (which split on commas) always return. -/
theorem C22_comma_returns (v : Bytes) : ∃ r, Splits commaRx v r :=
  C22_split_returns commaRx commaRx_valid commaRx_noEmpty v

example : split commaRx b!" a ,, b,c " = some [b!"a", b!"b", b!"c"] := by decide +kernel

/-! ### C59: the remaining string transforms -/

/-- prefix and suffix concatenate, inside their allocations. -/
theorem C59_prefix_suffix (opt v : Bytes) :
    prefix' opt v = .val (opt ++ v) ∧ suffix' opt v = .val (v ++ opt) := by
  constructor
  · simp only [prefix']
    rw [puts_val (by simp; omega)]
    simp only [C.val_bind, List.nil_append]
    rw [puts_val (by omega)]
    simp only [C.val_bind]
    rw [finish_val (by simp)]
  · simp only [suffix']
    rw [puts_val (by simp; omega)]
    simp only [C.val_bind, List.nil_append]
    rw [puts_val (by omega)]
    simp only [C.val_bind]
    rw [finish_val (by simp)]

/-- remove deletes every leftmost non-overlapping occurrence, inside its allocation. -/
theorem C59_remove (pat v : Bytes) :
    (pat = [] → remove pat v = .val v) ∧
    (pat ≠ [] → ∃ r, remove pat v = .val r ∧ ReplaceAll pat [] v r ∧
      ∀ r', ReplaceAll pat [] v r' → r' = r) := by
  constructor
  · rintro rfl; simp [remove]
  · intro hp
    obtain ⟨r, hr, he⟩ := removeLoop_eq (v.length + 1) pat hp v.length v (Nat.le_refl _) []
      (by simp)
    refine ⟨r, ?_, hr, fun r' h => replaceAll_unique h hr⟩
    simp only [remove, dif_neg hp, he]; simp

/-- substring never leaves the value, and for positions that are not negative it is the bytes from
`a` up to but excluding `b`. -/
theorem C59_substring (a b : Int) (v : Bytes) :
    (∃ r, substring a b v = .val r ∧ r <:+: v) ∧
    (0 ≤ a → 0 ≤ b → substring a b v = .val ((v.take b.toNat).drop a.toNat)) := by
  constructor
  · obtain ⟨A, hA, hA0, hA1⟩ : ∃ A : Int, A = (let a := if a < 0 then v.length + a else a
        let a := if a < 0 then 0 else a
        if a > v.length then (v.length : Int) else a) ∧ 0 ≤ A ∧ A ≤ v.length := by
      refine ⟨_, rfl, ?_, ?_⟩ <;> simp only <;> repeat' split
      all_goals omega
    obtain ⟨B, hB, hB0, hB1⟩ : ∃ B : Int, B = (let b := if b < 0 then v.length + b else b
        let b := if b < 0 then (v.length : Int) else b
        if b > v.length then (v.length : Int) else b) ∧ 0 ≤ B ∧ B ≤ v.length := by
      refine ⟨_, rfl, ?_, ?_⟩ <;> simp only <;> repeat' split
      all_goals omega
    simp only [substring]
    simp only at hA hB
    rw [← hA, ← hB]
    split
    · exact ⟨[], rfl, List.nil_infix⟩
    · rw [if_pos ⟨hA0, by omega⟩]
      exact ⟨_, rfl, (List.take_prefix _ _).isInfix.trans (List.drop_suffix _ _).isInfix⟩
  · intro ha hb
    simp only [substring]
    have h1 : (if a < 0 then (v.length : Int) + a else a) = a := if_neg (by omega)
    have h2 : (if b < 0 then (v.length : Int) + b else b) = b := if_neg (by omega)
    have h3 : (if a < 0 then (0 : Int) else a) = a := if_neg (by omega)
    have h4 : (if b < 0 then (v.length : Int) else b) = b := if_neg (by omega)
    rw [h1, h2, h3, h4]
    have e : ∀ (A B : Nat), A ≤ B → (v.drop A).take (B - A) = (v.take B).drop A := by
      intro A B h
      rw [List.drop_take]
    have et : ∀ n : Nat, v.length ≤ n → v.take n = v := fun n h => List.take_of_length_le h
    by_cases c1 : a > v.length
    · rw [if_pos c1]
      have ed : (v.take b.toNat).drop a.toNat = [] := by
        apply List.drop_of_length_le
        simp; omega
      rw [ed]
      by_cases c2 : b > v.length
      · rw [if_pos c2, if_neg (by omega), if_pos (by omega)]
        simp
      · rw [if_neg c2]
        by_cases c3 : (v.length : Int) > b
        · rw [if_pos c3]
        · rw [if_neg c3, if_pos (by omega)]
          have : b - (v.length : Int) = 0 := by omega
          rw [this]; simp
    · rw [if_neg c1]
      by_cases c2 : b > v.length
      · rw [if_pos c2, if_neg (by omega), if_pos (by omega), et b.toNat (by omega)]
        congr 1
        apply List.take_of_length_le
        simp; omega
      · rw [if_neg c2]
        split
        · rw [List.drop_of_length_le (by simp; omega)]
        · rw [if_pos (by omega)]
          congr 1
          rw [← e _ _ (by omega)]
          congr 1
          omega

/-- repeat gives `count` copies of the value, inside its allocation, when the size fits `size_t`. -/
theorem C59_repeat_partial (lim : Nat) (count : Int) (v : Bytes)
    (hs : v.length * count.toNat + 1 < 2 ^ 64) :
    repeat' lim count v = .val none ∨
    repeat' lim count v =
      .val (some (if count > 0 then (List.replicate count.toNat v).flatten else v)) := by
  simp only [repeat']
  split
  · split
    · rename_i h; subst h
      right
      simp
    · rw [Nat.mod_eq_of_lt hs]
      split
      · exact .inl rfl
      · rw [repeatLoop_eq _ _ _ _ (by simp)]
        exact .inr (by simp)
  · exact .inr rfl

/-- What is missing from C59: a count whose size overflows `size_t` makes repeat write outside its
allocation. -/
theorem C59_repeat_ub (lim : Nat) (count : Int) (v : Bytes) (hc : count > 0) (hv : v ≠ [])
    (hs : 2 ^ 64 ≤ v.length * count.toNat)
    (hl : (v.length * count.toNat + 1) % 2 ^ 64 ≤ lim) : repeat' lim count v = .ub := by
  simp only [repeat']
  rw [if_pos hc, if_neg hv, if_neg (by omega), repeatLoop_overflow]
  · rfl
  · simp
    have := Nat.mod_lt (v.length * count.toNat + 1) (show 2 ^ 64 > 0 by decide)
    omega

example : (b!"abcd").length * (2 ^ 62 : Int).toNat = 2 ^ 64 ∧ (2 ^ 62 : Int) < 2 ^ 63 := by
  decide

/-- join puts the delimiter between the items, inside its allocation. -/
theorem C59_join (delim : Bytes) (arr : List Bytes) :
    join delim arr = .val (delim.intercalate arr) := join_eq delim arr

/-- slice selects a run of at most `len` items starting at `start`, reading only existing items,
unless `start + len` overflows. -/
theorem C59_slice_partial (start len : Int) (arr : List Bytes) (hs : start < 2 ^ 62)
    (hl : len < 2 ^ 62) (ha : arr.length < 2 ^ 62) :
    sliceItems start len arr =
      .val (if (arr.length : Int) ≤ start ∨ arr = [] then none
        else some ((arr.drop start.toNat).take
          (if len < 0 then arr.length else len.toNat))) := by
  simp only [sliceItems]
  obtain ⟨S, hS, hS0, hSt⟩ : ∃ S : Int, S = (if start < 0 then 0 else start) ∧ 0 ≤ S ∧
      S = start.toNat := by
    refine ⟨_, rfl, ?_, ?_⟩ <;> split <;> omega
  rw [← hS]
  by_cases h1 : S ≥ arr.length
  · rw [if_pos h1, if_pos]
    by_cases h : (arr.length : Int) ≤ start
    · exact .inl h
    · right
      have : start < 0 ∨ 0 ≤ start := by omega
      rcases this with h2 | h2
      · rw [if_pos h2] at hS
        have : arr.length = 0 := by omega
        exact List.length_eq_zero_iff.1 this
      · rw [if_neg (by omega)] at hS; omega
  · have hne : arr ≠ [] := by
      rintro rfl; simp at h1; omega
    have hno : ¬ ((arr.length : Int) ≤ start ∨ arr = []) := by
      rintro (h | h)
      · omega
      · exact hne h
    rw [if_neg h1, if_neg hno]
    obtain ⟨L, hL⟩ : ∃ L : Int, L = (if len < 0 then (arr.length : Int) - S else len) := ⟨_, rfl⟩
    rw [← hL]
    have hLb : L < 2 ^ 62 := by rw [hL]; split <;> omega
    have hL0 : 0 ≤ L := by rw [hL]; split <;> omega
    rw [if_neg (by omega)]
    have hSn : S.toNat = start.toNat := by omega
    rw [hSn]
    have hdl : (arr.drop start.toNat).length = arr.length - start.toNat := by simp
    by_cases h3 : L > 0 ∧ S + L > arr.length
    · rw [if_pos h3, if_pos (by omega)]
      congr 2
      rw [List.take_of_length_le (by omega)]
      symm
      apply List.take_of_length_le
      split <;> omega
    · rw [if_neg h3, if_pos (by omega)]
      congr 2
      by_cases h4 : len < 0
      · rw [if_pos h4]
        rw [if_pos h4] at hL
        rw [List.take_of_length_le (by omega), List.take_of_length_le (by omega)]
      · rw [if_neg h4]
        rw [if_neg h4] at hL
        rw [hL]

example : sliceItems 1 2 [b!"a", b!"b", b!"c", b!"d"] = .val (some [b!"b", b!"c"]) := by
  decide +kernel

/-! ### C60: regex replace -/

/-- For a pattern that never matches the empty string, the regex form of replace returns the value
with every match replaced, and its computed allocation is large enough: the counting loop ends with
some count, which is 0 exactly when nothing is replaced, and otherwise the copying loop ends with the
replaced text in `strlen(value) + count * (strlen(new) + 10)` bytes. -/
theorem C60_regex_replace_partial (rx : Matcher) (hv : rx.Valid) (hn : NoEmpty rx)
    (new v : Bytes) : ∃ r k n, RegexReplaced rx new v r ∧
      iter (countStep rx) n (.run v 0) = .done k ∧ (k = 0 → r = v) ∧
      (k ≠ 0 → ∃ m, iter (copyStep rx (regexCap v new k) new) m (.run v []) = .done r) := by
  obtain ⟨r, k, h1, h2, _, h3, h4⟩ := regex_run rx hv hn new v.length v (Nat.le_refl _)
  obtain ⟨n, hn'⟩ := h3 0
  refine ⟨r, k, n, h1, by simpa using hn', fun h => (h2 h).1, ?_⟩
  intro hk
  have := h4 (regexCap v new k) [] ?_
  · simpa using this
  · simp only [regexCap, List.length_nil, Nat.mul_add]
    omega

/-- What is missing from C60, 1: a pattern matching the empty string at the start of the value (here
`x*` on "abc") makes the transform run for ever. -/
theorem C60_regex_hangs (n : Nat) : ∃ c, iter (countStep starRx) n (.run b!"abc" 0) = .run b!"abc" c := by
  have h : ∀ n c, ∃ c', iter (countStep starRx) n (.run b!"abc" c) = .run b!"abc" c' := by
    intro n
    induction n with
    | zero => intro c; exact ⟨c, rfl⟩
    | succ n ih => intro c; exact ih (c + 1)
  exact h n 0

/-- The regular expression `$`. -/
def endRx : Matcher := fun s => some (s.length, s.length)

/-- What is missing from C60, 2: `replace(regex:$,!)` of "abc" counts one match, allocates 14 bytes
and then writes past their end. -/
theorem C60_regex_ub :
    endRx.Valid ∧ iter (countStep endRx) 1 (.run b!"abc" 0) = .done 1 ∧
      ∃ m, iter (copyStep endRx (regexCap b!"abc" b!"!" 1) b!"!") m (.run b!"abc" []) = .ub := by
  refine ⟨?_, by decide +kernel, 20, by decide +kernel⟩
  intro s a b h
  simp [endRx] at h
  omega

example : iter (countStep commaRx) 3 (.run b!"a,b,c" 0) = .done 2 ∧
    iter (copyStep commaRx (regexCap b!"a,b,c" b!";" 2) b!";") 3 (.run b!"a,b,c" []) =
      .done b!"a;b;c" := by decide +kernel

/-! ### C61: chains -/

/-- A transform that is a plain string function. -/
def strT (f : Bytes → Bytes) : Transform := .str fun v => .val (some (f v))

/-- String transforms are applied from left to right, each to the result of the one before. -/
theorem C61_chain_partial (fs : List (Bytes → Bytes)) (v : Bytes) :
    applyChain (fs.map strT) v = .ok (compose fs v) := by
  have h : ∀ fs : List (Bytes → Bytes), ∀ v, chainLoop (fs.map strT) ⟨v, none, false⟩ =
      .ok ⟨compose fs v, none, false⟩ := by
    intro fs
    induction fs with
    | nil => intro v; rfl
    | cons f fs ih =>
      intro v
      simp only [List.map_cons, chainLoop, applyTransform, strT, strInput, compose]
      exact ih (f v)
  simp only [applyChain, h]

/-- The same after `split` and `join`, when there are at least two items. -/
theorem C61_split_join_chain (rx : Matcher) (d : Bytes) (fs : List (Bytes → Bytes)) (v : Bytes)
    (arr : List Bytes) (h : split rx v = some arr) (h2 : 2 ≤ arr.length) :
    applyChain (.split rx :: .join d :: fs.map strT) v = .ok (compose fs (d.intercalate arr)) := by
  have hl : ∀ fs : List (Bytes → Bytes), ∀ v, chainLoop (fs.map strT) ⟨v, some arr, false⟩ =
      .ok ⟨compose fs v, some arr, false⟩ := by
    intro fs
    induction fs with
    | nil => intro v; rfl
    | cons f fs ih =>
      intro v
      simp only [List.map_cons, chainLoop, applyTransform, strT, strInput, compose]
      exact ih (f v)
  have hd : decide (arr.length ≤ 1) = false := by simp; omega
  simp only [applyChain, chainLoop, applyTransform, h, needArray, join_eq, hd, hl]

/-- A failing transform makes the chain return the original value. -/
theorem C61_failure (fs : List (Bytes → Bytes)) (rest : List Transform) (v : Bytes) :
    applyChain (fs.map strT ++ (Transform.str fun _ => .val none) :: rest) v = .ok v := by
  have h : ∀ fs : List (Bytes → Bytes), ∀ w, chainLoop
      (fs.map strT ++ (Transform.str fun _ => .val none) :: rest) ⟨w, none, false⟩ = .fail := by
    intro fs
    induction fs with
    | nil => intro v; rfl
    | cons f fs ih =>
      intro v
      simp only [List.map_cons, List.cons_append, chainLoop, applyTransform, strT, strInput]
      exact ih (f v)
  simp only [applyChain, h]

/-- What is missing from C61: after `first` (and `last`, `slice`, one-item `split`) the next string
transform works on the whole list again, so the chain is not a composition: `[%k:first:upper]` of
"a,b" is "A, B" although `first` gives "a"; and `[%k:split(,):upper:reverse]` of "ab" is "ba" although
`upper` gives "AB". -/
theorem C61_not_composition :
    applyChain [.first] b!"a,b" = .ok b!"a" ∧
    applyChain [.first, strT upper] b!"a,b" = .ok b!"A, B" ∧
    applyChain [.split commaRx, strT upper] b!"ab" = .ok b!"AB" ∧
    applyChain [.split commaRx, strT upper, strT List.reverse] b!"ab" = .ok b!"ba" := by
  refine ⟨?_, ?_, ?_, ?_⟩ <;> decide +kernel

/-- **C61**: `first` and `last` give the first and the last piece of the list a `split` has made, or, without
one, of the value split at its commas; later array transforms still see the whole list. -/
theorem C61_first_last (rx : Matcher) (v : Bytes) (a b : Bytes) (mid : List Bytes) :
    (split rx v = some (a :: mid ++ [b]) →
      applyChain [.split rx, .first] v = .ok a ∧ applyChain [.split rx, .last] v = .ok b ∧
      applyChain [.split rx, .first, .last] v = .ok b) ∧
    (split commaRx v = some (a :: mid ++ [b]) →
      applyChain [.first] v = .ok a ∧ applyChain [.last] v = .ok b) := by
  have hb : (a :: (mid ++ [b])).getLast? = some b := by
    rw [← List.cons_append, List.getLast?_concat]
  constructor
  · intro h
    refine ⟨?_, ?_, ?_⟩ <;> simp [applyChain, chainLoop, applyTransform, needArray, h, hb]
  · intro h
    refine ⟨?_, ?_⟩ <;> simp [applyChain, chainLoop, applyTransform, needArray, h, hb]

example : split commaRx b!"x, y,z" = some (b!"x" :: [b!"y"] ++ [b!"z"]) := by decide +kernel

end Verif.Transforms
