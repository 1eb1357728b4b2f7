/-
Lemmas about the model of the metadata transforms.
-/
import Verif.Spec.Transforms

namespace Verif.Transforms

open Spec

theorem isSpace_iff : ∀ c, isSpace c = true ↔ White c := by
  unfold White
  exact forall_byte (by decide +kernel)

theorem upper_upper : ∀ c, toUpper (toUpper c) = toUpper c := forall_byte (by decide +kernel)
theorem lower_lower : ∀ c, toLower (toLower c) = toLower c := forall_byte (by decide +kernel)
theorem upper_lower : ∀ c, toUpper (toLower c) = toUpper c := forall_byte (by decide +kernel)
theorem lower_upper : ∀ c, toLower (toUpper c) = toLower c := forall_byte (by decide +kernel)

/-! ### trim -/

theorem dropWhile_split (p : Byte → Bool) (v : Bytes) :
    ∃ a, v = a ++ v.dropWhile p ∧ (∀ c ∈ a, p c = true) ∧
      (∀ c, (v.dropWhile p).head? = some c → p c = false) := by
  refine ⟨v.takeWhile p, (List.takeWhile_append_dropWhile ..).symm, ?_, ?_⟩
  · intro c hc
    induction v with
    | nil => simp at hc
    | cons x xs ih =>
      rw [List.takeWhile_cons] at hc
      split at hc
      · rcases List.mem_cons.1 hc with rfl | h
        · assumption
        · exact ih h
      · simp at hc
  · intro c hc
    induction v with
    | nil => simp at hc
    | cons x xs ih =>
      rw [List.dropWhile_cons] at hc
      split at hc
      · exact ih hc
      · simp at hc; subst hc; simp_all

/-- The backward loop stops after the last byte that is not white space. -/
theorem rtrimLen_spec (s : Bytes) (n : Nat) (hn : n ≤ s.length) :
    rtrimLen s n ≤ n ∧ (∀ c ∈ (s.take n).drop (rtrimLen s n), isSpace c = true) ∧
      (∀ c, (s.take (rtrimLen s n)).getLast? = some c → isSpace c = false) := by
  induction n with
  | zero => simp [rtrimLen]
  | succ e ih =>
    have he : e < s.length := by omega
    obtain ⟨h1, h2, h3⟩ := ih (by omega)
    unfold rtrimLen
    by_cases hs : isSpace (s.getD e 0) = true
    · simp only [hs, if_true]
      refine ⟨by omega, ?_, h3⟩
      have : s.take (e + 1) = s.take e ++ [s.getD e 0] := by
        rw [List.take_add_one]
        simp [List.getD_eq_getElem?_getD, List.getElem?_eq_getElem he]
      rw [this, List.drop_append_of_le_length (by simp; omega)]
      intro c hc
      rcases List.mem_append.1 hc with h | h
      · exact h2 c h
      · simp at h; subst h; simpa using hs
    · simp only [hs]
      refine ⟨by simp, by simp, ?_⟩
      intro c hc
      have : s.take (e + 1) = s.take e ++ [s.getD e 0] := by
        rw [List.take_add_one]
        simp [List.getD_eq_getElem?_getD, List.getElem?_eq_getElem he]
      simp only [Bool.false_eq_true, if_false] at hc
      rw [this] at hc
      simp at hc
      subst hc
      simpa using hs

/-- `trim`'s backward loop (which keeps the first byte) is the same loop when the first byte is not
white space. -/
theorem backTo_eq (s : Bytes) (c : Byte) (hc : s.head? = some c) (h : isSpace c = false) (n : Nat)
    (hn : n < s.length) : backTo s n + 1 = rtrimLen s (n + 1) := by
  induction n with
  | zero =>
    cases s with
    | nil => simp at hc
    | cons x xs =>
      simp at hc; subst hc
      simp [backTo, rtrimLen, h]
  | succ e ih =>
    conv => rhs; unfold rtrimLen
    conv => lhs; unfold backTo
    split
    · exact ih (by omega)
    · rfl

theorem head_take {s : Bytes} {n : Nat} {c : Byte} (h : (s.take n).head? = some c) :
    s.head? = some c := by
  cases s with
  | nil => simp at h
  | cons x xs =>
    cases n with
    | zero => simp at h
    | succ n => simpa using h

theorem trimTok_spec (v : Bytes) : Trimmed v (trimTok v) := by
  obtain ⟨a, ha, hw, hh⟩ := dropWhile_split isSpace v
  obtain ⟨h1, h2, h3⟩ := rtrimLen_spec (v.dropWhile isSpace) _ (Nat.le_refl _)
  refine ⟨a, (v.dropWhile isSpace).drop (rtrimLen (v.dropWhile isSpace) (v.dropWhile isSpace).length),
    ?_, ?_, ?_, ?_, ?_⟩
  · simp only [trimTok]
    rw [List.append_assoc, List.take_append_drop]
    exact ha
  · intro c hc; exact (isSpace_iff c).1 (hw c hc)
  · intro c hc
    rw [List.take_length] at h2
    exact (isSpace_iff c).1 (h2 c hc)
  · intro c hc hwc
    have h0 := hh c (head_take hc)
    rw [(isSpace_iff c).2 hwc] at h0
    exact absurd h0 (by decide)
  · intro c hc hwc
    have h0 := h3 c hc
    rw [(isSpace_iff c).2 hwc] at h0
    exact absurd h0 (by decide)

theorem trim_eq_trimTok (v : Bytes) : trim v = trimTok v := by
  obtain ⟨a, ha, hw, hh⟩ := dropWhile_split isSpace v
  simp only [trim, trimTok]
  generalize v.dropWhile isSpace = s at *
  cases hs : s with
  | nil => simp
  | cons x xs =>
    have hx := hh x (by simp [hs])
    rw [if_neg (by simp)]
    rw [backTo_eq (x :: xs) x (by simp) hx _ (by simp)]
    simp

/-- All-white prefixes before a non-white byte are determined. -/
theorem lead_unique : ∀ {a a' s s' : Bytes}, a ++ s = a' ++ s' → (∀ c ∈ a, White c) →
    (∀ c ∈ a', White c) → (∀ c, s.head? = some c → ¬ White c) →
    (∀ c, s'.head? = some c → ¬ White c) → s ≠ [] → s' ≠ [] → a = a' ∧ s = s'
  | [], [], s, s', h, _, _, _, _, _, _ => ⟨rfl, by simpa using h⟩
  | [], x :: a', s, s', h, _, h2, h3, _, _, _ => by
    exfalso
    have : s = x :: (a' ++ s') := by simpa using h
    exact h3 x (by simp [this]) (h2 x (by simp))
  | x :: a, [], s, s', h, h1, _, _, h4, _, _ => by
    exfalso
    have : s' = x :: (a ++ s) := by simpa using h.symm
    exact h4 x (by simp [this]) (h1 x (by simp))
  | x :: a, y :: a', s, s', h, h1, h2, h3, h4, h5, h6 => by
    simp at h
    obtain ⟨rfl, h⟩ := h
    obtain ⟨rfl, rfl⟩ := lead_unique h (fun c hc => h1 c (by simp [hc]))
      (fun c hc => h2 c (by simp [hc])) h3 h4 h5 h6
    exact ⟨rfl, rfl⟩

/-- The trimmed string is determined by the string. -/
theorem trimmed_unique {v t t' : Bytes} (h : Trimmed v t) (h' : Trimmed v t') : t = t' := by
  obtain ⟨a, b, rfl, ha, hb, hh, hl⟩ := h
  obtain ⟨a', b', he, ha', hb', hh', hl'⟩ := h'
  by_cases ht : t = []
  · subst ht
    by_cases ht' : t' = []
    · exact ht'.symm
    · exfalso
      cases t' with
      | nil => exact ht' rfl
      | cons x xs =>
        have hx : x ∈ a ++ [] ++ b := by rw [he]; simp
        simp at hx
        rcases hx with h | h
        · exact hh' x (by simp) (ha x h)
        · exact hh' x (by simp) (hb x h)
  · by_cases ht' : t' = []
    · exfalso
      subst ht'
      cases t with
      | nil => exact ht rfl
      | cons x xs =>
        have hx : x ∈ a' ++ [] ++ b' := by rw [← he]; simp
        simp at hx
        rcases hx with h | h
        · exact hh x (by simp) (ha' x h)
        · exact hh x (by simp) (hb' x h)
    · have hd : ∀ {t b : Bytes}, t ≠ [] → (t ++ b).head? = t.head? := by
        intro t b h; cases t <;> simp_all
      have := lead_unique (a := a) (a' := a') (s := t ++ b) (s' := t' ++ b')
        (by simpa using he) ha ha' (by rw [hd ht]; exact hh) (by rw [hd ht']; exact hh')
        (by simp [ht]) (by simp [ht'])
      obtain ⟨_, h2⟩ := this
      have h2 : b.reverse ++ t.reverse = b'.reverse ++ t'.reverse := by
        rw [← List.reverse_append, ← List.reverse_append, h2]
      have := lead_unique h2 (by simpa using hb) (by simpa using hb')
        (by simpa using hl) (by simpa using hl') (by simp [ht]) (by simp [ht'])
      simpa using this.2

/-! ### reverse -/

theorem reverseLoop_eq (v : Bytes) (n : Nat) (out : Bytes) (h : out.length + n = v.length)
    (ho : out = v.reverse.take out.length) : reverseLoop v out n = .val v.reverse := by
  induction n generalizing out with
  | zero =>
    simp only [reverseLoop]
    rw [finish_val (by omega), ho, List.take_of_length_le (by simp; omega)]
  | succ n ih =>
    simp only [reverseLoop]
    have hlt : v.length - 1 - out.length < v.length := by omega
    simp only [rd, List.getElem?_eq_getElem hlt, C.val_bind]
    rw [put_val (by omega)]
    simp only [C.val_bind]
    apply ih
    · simp; omega
    · simp only [List.length_append, List.length_singleton]
      rw [List.take_add_one, ← ho]
      congr 1
      rw [List.getElem?_reverse (by omega), List.getElem?_eq_getElem hlt]
      rfl

/-! ### slug -/

/-- The bytes the loop of `slug` appends. -/
def slugPure : Bool → Bytes → Bytes
  | _, [] => []
  | hyph, c :: cs =>
    if isAlnum c then toLower c :: slugPure false cs
    else if isSpace c || c == c!"_" then
      if hyph then slugPure hyph cs else c!"-" :: slugPure true cs
    else slugPure hyph cs

theorem slugPure_length (v : Bytes) : ∀ h, (slugPure h v).length ≤ v.length := by
  induction v with
  | nil => simp [slugPure]
  | cons c cs ih =>
    intro h
    unfold slugPure
    have := ih false; have := ih true; have := ih h
    split
    · simp; omega
    · split
      · split <;> simp <;> omega
      · simp; omega

theorem slugLoop_eq (cap : Nat) (v : Bytes) : ∀ out h, out.length + v.length ≤ cap →
    slugLoop cap out h v = .val (out ++ slugPure h v) := by
  induction v with
  | nil => intro out h _; simp [slugLoop, slugPure]
  | cons c cs ih =>
    intro out h hc
    simp only [List.length_cons] at hc
    unfold slugLoop slugPure
    split
    · rw [put_val (by omega)]
      simp only [C.val_bind]
      rw [ih _ _ (by simp; omega)]; simp
    · split
      · split
        · rw [ih _ _ (by omega)]
        · rw [put_val (by omega)]
          simp only [C.val_bind]
          rw [ih _ _ (by simp; omega)]; simp
      · rw [ih _ _ (by omega)]

theorem dropHyphens_prefix (s : Bytes) : dropHyphens s <+: s := by
  have h := List.dropWhile_suffix (p := (· == c!"-")) (l := s.reverse)
  have := List.reverse_prefix.2 h
  simpa [dropHyphens] using this

theorem slug_eq (v : Bytes) : slug v = .val (dropHyphens (slugPure false v)) := by
  simp only [slug]
  rw [slugLoop_eq _ _ _ _ (by simp; omega)]
  simp only [C.val_bind, List.nil_append]
  have := (dropHyphens_prefix (slugPure false v)).length_le
  have := slugPure_length v false
  rw [finish_val (by omega)]

theorem alnum_lower : ∀ c, isAlnum c = true →
    (97 ≤ toLower c ∧ toLower c ≤ 122) ∨ (48 ≤ toLower c ∧ toLower c ≤ 57) ∨ toLower c = 45 :=
  forall_byte (by decide +kernel)

theorem alnum_lower_ne : ∀ c, isAlnum c = true → toLower c ≠ 45 := forall_byte (by decide +kernel)
theorem alnum_lower_alnum : ∀ c, isAlnum c = true → isAlnum (toLower c) = true :=
  forall_byte (by decide +kernel)

theorem slugPure_chars (v : Bytes) : ∀ h, ∀ c ∈ slugPure h v,
    (97 ≤ c ∧ c ≤ 122) ∨ (48 ≤ c ∧ c ≤ 57) ∨ c = 45 := by
  induction v with
  | nil => simp [slugPure]
  | cons x xs ih =>
    intro h c hc
    unfold slugPure at hc
    split at hc
    · rcases List.mem_cons.1 hc with rfl | hc
      · exact alnum_lower x (by assumption)
      · exact ih _ c hc
    · split at hc
      · split at hc
        · exact ih _ c hc
        · rcases List.mem_cons.1 hc with rfl | hc
          · simp
          · exact ih _ c hc
      · exact ih _ c hc

theorem slugPure_head (v : Bytes) : (slugPure true v).head? ≠ some 45 := by
  induction v with
  | nil => simp [slugPure]
  | cons c cs ih =>
    unfold slugPure
    split
    · simp; exact alnum_lower_ne c (by assumption)
    · split
      · simpa using ih
      · exact ih

theorem infix_cons {a : Bytes} {c : Byte} {s : Bytes} (h : a <:+: c :: s) : a <+: c :: s ∨ a <:+: s :=
  List.infix_cons_iff.1 h

theorem slugPure_noDouble (v : Bytes) : ∀ h, ¬ [45, 45] <:+: slugPure h v := by
  induction v with
  | nil => simp [slugPure]
  | cons c cs ih =>
    intro h
    unfold slugPure
    split
    · intro hi
      rcases infix_cons hi with h1 | h1
      · have := List.cons_prefix_cons.1 h1
        exact alnum_lower_ne c (by assumption) this.1.symm
      · exact ih _ h1
    · split
      · split
        · exact ih _
        · intro hi
          rcases infix_cons hi with h1 | h1
          · have := (List.cons_prefix_cons.1 h1).2
            have hh := slugPure_head cs
            cases hs : slugPure true cs with
            | nil => simp [hs] at this
            | cons y ys =>
              rw [hs] at this hh
              have := (List.cons_prefix_cons.1 this).1
              subst this
              simp at hh
          · exact ih _ h1
      · exact ih _

theorem dropHyphens_last (s : Bytes) : (dropHyphens s).getLast? ≠ some 45 := by
  obtain ⟨_, _, _, h⟩ := dropWhile_split (· == c!"-") s.reverse
  intro hc
  simp [dropHyphens] at hc
  have := h 45 hc
  simp at this

theorem filter_dropHyphens (s : Bytes) :
    (dropHyphens s).filter (· != 45) = s.filter (· != 45) := by
  have h : ∀ r : Bytes, (r.dropWhile (· == c!"-")).filter (· != 45) = r.filter (· != 45) := by
    intro r
    induction r with
    | nil => simp
    | cons x xs ih =>
      rw [List.dropWhile_cons]
      split
      · rename_i hx
        simp at hx; subst hx
        rw [ih]; simp
      · rfl
  simp only [dropHyphens]
  rw [List.filter_reverse, h, List.filter_reverse, List.reverse_reverse]

theorem slugPure_filter (v : Bytes) : ∀ h,
    (slugPure h v).filter (· != 45) = (v.filter isAlnum).map toLower := by
  induction v with
  | nil => simp [slugPure]
  | cons c cs ih =>
    intro h
    unfold slugPure
    split
    · rename_i hc
      simp [hc, alnum_lower_ne c hc, ih]
    · rename_i hc
      split
      · split
        · simp [hc, ih]
        · simp [hc, ih]
      · simp [hc, ih]

theorem slug_char_cases : ∀ c : Byte, (97 ≤ c ∧ c ≤ 122) ∨ (48 ≤ c ∧ c ≤ 57) ∨ c = 45 →
    c = 45 ∨ (isAlnum c = true ∧ toLower c = c ∧ c ≠ 45) :=
  forall_byte (by decide +kernel)

/-- On text that is already slug-like the loop drops the hyphens and nothing else. -/
theorem slugPure_slug (s : Bytes)
    (hs : ∀ c ∈ s, (97 ≤ c ∧ c ≤ 122) ∨ (48 ≤ c ∧ c ≤ 57) ∨ c = 45) : ∀ h,
    slugPure h s = s.filter (· != 45) := by
  induction s with
  | nil => simp [slugPure]
  | cons c cs ih =>
    intro h
    have ih := ih (fun x hx => hs x (by simp [hx]))
    rcases slug_char_cases c (hs c (by simp)) with rfl | ⟨h1, h2, h3⟩
    · have e1 : isAlnum 45 = false := by decide
      have e2 : isSpace 45 = false := by decide
      simp [slugPure, ih, e1, e2]
    · simp [slugPure, h1, h2, h3, ih]

theorem dropHyphens_of_none (s : Bytes) (h : ∀ c ∈ s, c ≠ 45) : dropHyphens s = s := by
  have : ∀ r : Bytes, (∀ c ∈ r, c ≠ 45) → r.dropWhile (· == c!"-") = r := by
    intro r hr
    cases r with
    | nil => rfl
    | cons x xs => rw [List.dropWhile_cons, if_neg (by simpa using hr x (by simp))]
  simp only [dropHyphens]
  rw [this _ (by simpa using h), List.reverse_reverse]

/-! ### strstr, replace, remove -/

theorem strstr_some {s pat : Bytes} {i : Nat} (h : strstr s pat = some i) :
    FirstOcc pat s (s.take i) (s.drop (i + pat.length)) := by
  induction s generalizing i with
  | nil =>
    unfold strstr at h
    split at h
    · rename_i hp
      have hp := List.isPrefixOf_iff_prefix.1 hp
      have : pat = [] := by simpa using hp
      subst this
      exact ⟨by simp, by simp⟩
    · simp at h
  | cons c t ih =>
    unfold strstr at h
    split at h
    · rename_i hp
      have hi : 0 = i := by simpa using h
      subst hi
      obtain ⟨r, hr⟩ := List.isPrefixOf_iff_prefix.1 hp
      refine ⟨?_, by simp⟩
      rw [← hr]; simp
    · rename_i hp
      simp only [Option.map_eq_some_iff] at h
      obtain ⟨j, hj, rfl⟩ := h
      obtain ⟨h1, h2⟩ := ih hj
      refine ⟨?_, ?_⟩
      · have e : j + 1 + pat.length = (j + pat.length) + 1 := by omega
        rw [e, List.take_succ_cons, List.drop_succ_cons, List.cons_append, List.cons_append,
          ← h1]
      · intro p r hpr
        cases p with
        | nil =>
          exfalso
          apply hp
          apply List.isPrefixOf_iff_prefix.2
          exact ⟨r, by simpa using hpr.symm⟩
        | cons x p =>
          simp at hpr
          have := h2 p r (by simp [hpr.2])
          simp at this ⊢
          omega

theorem strstr_none {s pat : Bytes} (h : strstr s pat = none) : ¬ pat <:+: s := by
  induction s with
  | nil =>
    unfold strstr at h
    split at h
    · simp at h
    · rename_i hp
      intro hi
      apply hp
      have : pat = [] := by simpa using hi
      subst this; rfl
  | cons c t ih =>
    unfold strstr at h
    split at h
    · simp at h
    · rename_i hp
      simp only [Option.map_eq_none_iff] at h
      intro hi
      rcases infix_cons hi with h1 | h1
      · exact hp (List.isPrefixOf_iff_prefix.2 h1)
      · exact ih h h1

theorem strstr_of_not_infix {s pat : Bytes} (h : ¬ pat <:+: s) : strstr s pat = none := by
  cases hs : strstr s pat with
  | none => rfl
  | some i =>
    exfalso
    have := (strstr_some hs).1
    exact h ⟨_, _, this.symm⟩

/-- The text the copying loop produces. -/
def replPure (pat new : Bytes) (hp : pat ≠ []) (s : Bytes) : Bytes :=
  match _h : strstr s pat with
  | none => s
  | some i => s.take i ++ new ++ replPure pat new hp (s.drop (i + pat.length))
  termination_by s.length
  decreasing_by
    have := strstr_le _h
    have := List.length_pos_iff.2 hp
    simp; omega

theorem replPure_spec (pat new : Bytes) (hp : pat ≠ []) (s : Bytes) :
    ReplaceAll pat new s (replPure pat new hp s) := by
  fun_induction replPure pat new hp s with
  | case1 s h => exact .none (strstr_none h)
  | case2 s i h ih => exact .some (strstr_some h) ih

theorem replPure_length (pat new : Bytes) (hp : pat ≠ []) (s : Bytes) :
    (replPure pat new hp s).length + countOcc pat hp s * pat.length =
      s.length + countOcc pat hp s * new.length := by
  fun_induction replPure pat new hp s with
  | case1 s h =>
    unfold countOcc
    split
    · simp
    · rename_i h2; rw [h] at h2; simp at h2
  | case2 s i h ih =>
    have hl := strstr_le h
    unfold countOcc
    split
    · rename_i h2; rw [h] at h2; simp at h2
    · rename_i j h2
      rw [h] at h2
      simp at h2
      subst h2
      simp only [List.length_append, List.length_take, List.length_drop] at ih ⊢
      simp only [Nat.add_mul, Nat.one_mul]
      omega

theorem replLoop_eq (cap : Nat) (pat new : Bytes) (hp : pat ≠ []) (s : Bytes) : ∀ out,
    out.length + (replPure pat new hp s).length < cap →
    replLoop cap pat new hp out s = .val (out ++ replPure pat new hp s) := by
  fun_induction replPure pat new hp s with
  | case1 s h =>
    intro out hc
    unfold replLoop
    split
    · rw [puts_val (by omega)]
      simp only [C.val_bind]
      rw [finish_val (by simp; omega)]
    · rename_i h2; rw [h] at h2; simp at h2
  | case2 s i h ih =>
    intro out hc
    simp only [List.length_append] at hc
    unfold replLoop
    split
    · rename_i h2; rw [h] at h2; simp at h2
    · rename_i j h2
      rw [h] at h2
      simp at h2
      subst h2
      rw [puts_val (by omega)]
      simp only [C.val_bind]
      rw [puts_val (by simp only [List.length_append]; omega)]
      simp only [C.val_bind]
      rw [ih _ (by simp only [List.length_append]; omega)]
      simp

theorem countOcc_zero {pat : Bytes} {hp : pat ≠ []} {s : Bytes} (h : countOcc pat hp s = 0) :
    strstr s pat = none := by
  unfold countOcc at h
  split at h
  · assumption
  · simp at h

theorem replacePlain_eq (old new : Bytes) (hp : old ≠ []) (v : Bytes) :
    replacePlain old new hp v = .val (replPure old new hp v) := by
  simp only [replacePlain]
  split
  · rename_i h
    unfold replPure
    split
    · rfl
    · rename_i h2; rw [countOcc_zero h] at h2; simp at h2
  · rename_i h
    have hl := replPure_length old new hp v
    rw [replLoop_eq]
    · simp
    · simp only [List.length_nil, Nat.zero_add]
      split
      · rename_i hn
        rw [Nat.mul_sub]
        have : countOcc old hp v * old.length ≤ countOcc old hp v * new.length :=
          Nat.mul_le_mul_left _ (by omega)
        omega
      · rename_i hn
        have : countOcc old hp v * new.length ≤ countOcc old hp v * old.length :=
          Nat.mul_le_mul_left _ (by omega)
        omega

/-- The replaced text is determined. -/
theorem firstOcc_unique {old v p r p' r' : Bytes} (h : FirstOcc old v p r)
    (h' : FirstOcc old v p' r') : p = p' ∧ r = r' := by
  have hl : p.length = p'.length := Nat.le_antisymm (h.2 _ _ h'.1) (h'.2 _ _ h.1)
  have he : p ++ (old ++ r) = p' ++ (old ++ r') := by
    have := h.1.symm.trans h'.1
    simpa using this
  obtain ⟨rfl, h2⟩ := List.append_inj he hl
  exact ⟨rfl, List.append_cancel_left h2⟩

theorem replaceAll_unique {old new v r r' : Bytes} (h : ReplaceAll old new v r)
    (h' : ReplaceAll old new v r') : r = r' := by
  induction h generalizing r' with
  | none hn =>
    cases h' with
    | none => rfl
    | some hf _ => exact absurd ⟨_, _, hf.1.symm⟩ hn
  | some hf _ ih =>
    cases h' with
    | none hn => exact absurd ⟨_, _, hf.1.symm⟩ hn
    | some hf' hr' =>
      obtain ⟨rfl, rfl⟩ := firstOcc_unique hf hf'
      rw [ih hr']

/-- Prepending a byte at which `old` does not start commutes with replacing. -/
theorem replaceAll_cons {old new : Bytes} {c : Byte} {t r : Bytes}
    (h : old.isPrefixOf (c :: t) = false) (hr : ReplaceAll old new t r) :
    ReplaceAll old new (c :: t) (c :: r) := by
  have hnp : ¬ old <+: c :: t := by
    intro hp
    rw [List.isPrefixOf_iff_prefix.2 hp] at h
    simp at h
  cases hr with
  | none hn =>
    apply ReplaceAll.none
    intro hi
    rcases infix_cons hi with h1 | h1
    · exact hnp h1
    · exact hn h1
  | @some _ pre rest r hf hr =>
    have : ReplaceAll old new (c :: t) ((c :: pre) ++ new ++ r) := by
      refine .some ⟨by simp [hf.1], ?_⟩ hr
      intro p q hpq
      cases p with
      | nil => exact absurd ⟨q, by simpa using hpq.symm⟩ hnp
      | cons x p =>
        simp at hpq
        have := hf.2 p q (by simp [hpq.2])
        simp; omega
    simpa using this

theorem removeLoop_eq (cap : Nat) (pat : Bytes) (hp : pat ≠ []) (n : Nat) : ∀ (s : Bytes),
    s.length ≤ n → ∀ out, out.length + s.length < cap →
    ∃ r, ReplaceAll pat [] s r ∧ removeLoop cap pat hp out s = .val (out ++ r) := by
  induction n with
  | zero =>
    intro s hs out hc
    have : s = [] := by simpa using hs
    subst this
    refine ⟨[], .none ?_, ?_⟩
    · intro hi; exact hp (by simpa using hi)
    · unfold removeLoop
      rw [finish_val (by simpa using hc)]; simp
  | succ n ih =>
    intro s hs out hc
    cases s with
    | nil => exact (ih [] (by simp) out hc)
    | cons c t =>
      simp only [List.length_cons] at hs hc
      unfold removeLoop
      split
      · rename_i hpre
        obtain ⟨q, hq⟩ := List.isPrefixOf_iff_prefix.1 hpre
        have hlen : 0 < pat.length := List.length_pos_iff.2 hp
        have hd : (c :: t).drop pat.length = q := by rw [← hq]; simp
        have hql : q.length + pat.length = t.length + 1 := by
          have := congrArg List.length hq
          simp at this; omega
        rw [hd]
        obtain ⟨r, hr, he⟩ := ih q (by omega) out (by omega)
        refine ⟨r, ?_, he⟩
        have : ReplaceAll pat [] (c :: t) ([] ++ [] ++ r) :=
          .some ⟨by simp [hq], by simp⟩ hr
        simpa using this
      · rename_i hpre
        rw [put_val (by omega)]
        simp only [C.val_bind]
        obtain ⟨r, hr, he⟩ := ih t (by omega) (out ++ [c]) (by simp; omega)
        refine ⟨c :: r, replaceAll_cons (by simpa only [Bool.not_eq_true] using hpre) hr, ?_⟩
        rw [he]; simp

theorem repeatLoop_eq (cap : Nat) (v : Bytes) (n : Nat) : ∀ out,
    out.length + v.length * n < cap →
    repeatLoop cap v out n = .val (out ++ (List.replicate n v).flatten) := by
  induction n with
  | zero =>
    intro out h
    simp only [repeatLoop]
    rw [finish_val (by simpa using h)]; simp
  | succ n ih =>
    intro out h
    rw [Nat.mul_add, Nat.mul_one] at h
    simp only [repeatLoop]
    rw [puts_val (by omega)]
    simp only [C.val_bind]
    rw [ih _ (by simp; omega)]
    simp [List.replicate_succ]

theorem repeatLoop_overflow (cap : Nat) (v : Bytes) (n : Nat) : ∀ out,
    cap ≤ out.length + v.length * n → repeatLoop cap v out n = .ub := by
  induction n with
  | zero =>
    intro out h
    simp only [repeatLoop, finish]
    rw [if_neg (by simp at h; omega)]
  | succ n ih =>
    intro out h
    rw [Nat.mul_add, Nat.mul_one] at h
    simp only [repeatLoop, puts]
    split
    · simp only [C.val_bind]
      apply ih
      simp; omega
    · rfl

/-! ### split -/

theorem iter_succ {α : Type} (f : α → α) (n : Nat) (a : α) : iter f (n + 1) a = f (iter f n a) := by
  induction n generalizing a with
  | zero => rfl
  | succ n ih =>
    show iter f (n + 1) (f a) = _
    rw [ih]; rfl

theorem iter_fix {α : Type} (f : α → α) (a : α) (h : f a = a) (n : Nat) : iter f n a = a := by
  induction n with
  | zero => rfl
  | succ n ih => show iter f n (f a) = a; rw [h, ih]

theorem splitGo_done (rx : Matcher) (pos : Bytes) (toks : List Bytes) {r : Bytes × List Bytes}
    (h : splitGo rx pos toks = some r) :
    ∃ n, iter (splitStep rx) n (.run pos toks) = .done r.1 r.2 := by
  fun_induction splitGo rx pos toks with
  | case1 pos toks hr =>
    simp at h; subst h
    refine ⟨1, ?_⟩
    simp [iter, splitStep, hr]
  | case2 pos toks a e hr hd =>
    simp at h; subst h
    refine ⟨1, ?_⟩
    simp only [iter, splitStep, hr, hd, if_true]
  | case3 => simp at h
  | case4 pos toks a e hr hd he ih =>
    obtain ⟨n, hn⟩ := ih h
    refine ⟨n + 1, ?_⟩
    show iter _ n (splitStep rx _) = _
    rw [← hn]
    simp only [splitStep, hr, hd, if_false]

theorem splitGo_hang (rx : Matcher) (hv : rx.Valid) (pos : Bytes) (toks : List Bytes)
    (h : splitGo rx pos toks = none) :
    ∀ n, ∃ p t, iter (splitStep rx) n (.run pos toks) = .run p t := by
  fun_induction splitGo rx pos toks with
  | case1 => simp at h
  | case2 => simp at h
  | case3 pos toks a hr hd =>
    intro n
    refine ⟨pos, toks, iter_fix _ _ ?_ n⟩
    have ha := (hv _ _ _ hr).1
    have : a = 0 := by omega
    subst this
    have hp : pos ≠ [] := by simpa using hd
    simp [splitStep, hr, hp, addBefore]
  | case4 pos toks a e hr hd he ih =>
    intro n
    cases n with
    | zero => exact ⟨pos, toks, rfl⟩
    | succ n =>
      obtain ⟨p, t, hn⟩ := ih h n
      refine ⟨p, t, ?_⟩
      show iter _ n (splitStep rx _) = _
      rw [← hn]
      simp only [splitStep, hr, hd, if_false]

theorem iter_done (rx : Matcher) (p : Bytes) (t : List Bytes) (n : Nat) :
    iter (splitStep rx) n (.done p t) = .done p t := iter_fix _ _ rfl n

theorem iter_add {α : Type} (f : α → α) (m n : Nat) (a : α) :
    iter f (m + n) a = iter f n (iter f m a) := by
  induction m generalizing a with
  | zero => simp [iter]
  | succ m ih =>
    rw [Nat.succ_add]
    exact ih (f a)

theorem splits_unique (rx : Matcher) (s : SplitSt) {n m : Nat} {p p' : Bytes} {t t' : List Bytes}
    (h : iter (splitStep rx) n s = .done p t) (h' : iter (splitStep rx) m s = .done p' t') :
    p = p' ∧ t = t' := by
  rcases Nat.le_total n m with hl | hl
  · obtain ⟨k, rfl⟩ := Nat.le.dest hl
    rw [iter_add, h, iter_done] at h'
    simpa using h'
  · obtain ⟨k, rfl⟩ := Nat.le.dest hl
    rw [iter_add, h', iter_done] at h
    simp at h
    exact ⟨h.1.symm, h.2.symm⟩

/-- Exactly the runs that `splitGo` evaluates to a result return. -/
theorem splits_iff (rx : Matcher) (hv : rx.Valid) (v : Bytes) (r : List Bytes) :
    Splits rx v r ↔ split rx v = some r := by
  constructor
  · rintro ⟨n, p, t, hn, rfl⟩
    cases hg : splitGo rx v [] with
    | none =>
      obtain ⟨p', t', h'⟩ := splitGo_hang rx hv v [] hg n
      rw [hn] at h'; simp at h'
    | some q =>
      obtain ⟨m, hm⟩ := splitGo_done rx v [] hg
      obtain ⟨h1, h2⟩ := splits_unique rx _ hn hm
      simp [split, hg, h1, h2]
  · intro h
    simp only [split, Option.map_eq_some_iff] at h
    obtain ⟨q, hq, rfl⟩ := h
    obtain ⟨m, hm⟩ := splitGo_done rx v [] hq
    exact ⟨m, _, _, hm, rfl⟩

theorem hangs_iff (rx : Matcher) (hv : rx.Valid) (v : Bytes) :
    SplitHangs rx v ↔ split rx v = none := by
  constructor
  · intro h
    cases hg : splitGo rx v [] with
    | none => simp [split, hg]
    | some q =>
      obtain ⟨m, hm⟩ := splitGo_done rx v [] hg
      obtain ⟨p, t, h'⟩ := h m
      rw [hm] at h'; simp at h'
  · intro h
    simp only [split, Option.map_eq_none_iff] at h
    exact splitGo_hang rx hv v [] h

/-- Non-empty trimmed tokens of a list of raw pieces. -/
def tokens (ps : List Bytes) : List Bytes := (ps.map trimTok).filter (· ≠ [])

theorem addTok_eq (toks : List Bytes) (raw : Bytes) : addTok toks raw = toks ++ tokens [raw] := by
  unfold addTok tokens
  by_cases h : trimTok raw = [] <;> simp [h]

theorem addTok_take (toks : List Bytes) (pos : Bytes) (a : Nat) :
    addBefore toks pos a = toks ++ tokens [pos.take a] := by
  unfold addBefore
  split
  · exact addTok_eq ..
  · have : a = 0 := by omega
    subst this
    simp [tokens, trimTok]

theorem tokens_cons (p : Bytes) (ps : List Bytes) : tokens (p :: ps) = tokens [p] ++ tokens ps := by
  simp only [tokens]
  rw [← List.filter_append]; rfl

theorem tokens_nil : tokens [([] : Bytes)] = [] := by decide

theorem splitGo_pieces (rx : Matcher) (pos : Bytes) (toks : List Bytes) {r : Bytes × List Bytes}
    (h : splitGo rx pos toks = some r) :
    ∃ ps, Pieces rx pos ps ∧
      (if r.1 = [] then r.2 else addTok r.2 r.1) = toks ++ tokens ps := by
  fun_induction splitGo rx pos toks with
  | case1 pos toks hr =>
    simp at h; subst h
    refine ⟨[pos], .last hr, ?_⟩
    simp only
    split
    · rename_i h; subst h; simp [tokens_nil]
    · exact addTok_eq ..
  | case2 pos toks a e hr hd =>
    rw [addTok_take] at h
    simp at h; subst h
    refine ⟨[pos.take a], .stop hr hd, ?_⟩
    simp only [hd, if_true]
  | case3 => simp at h
  | case4 pos toks a e hr hd he ih =>
    obtain ⟨ps, hp, hq⟩ := ih h
    refine ⟨pos.take a :: ps, .cut hr hd hp, ?_⟩
    rw [hq, addTok_take, tokens_cons (pos.take a) ps, List.append_assoc]

theorem inOrder_append {ts : List Bytes} {s : Bytes} (h : InOrder ts s) (p : Bytes) :
    InOrder ts (p ++ s) := by
  cases h with
  | nil => exact .nil
  | @cons t ts q s h =>
    have := InOrder.cons (t := t) (p := p ++ q) h
    simpa [List.append_assoc] using this

theorem inOrder_pieces {rx : Matcher} (hv : rx.Valid) {s : Bytes} {ps : List Bytes}
    (h : Pieces rx s ps) : InOrder (tokens ps) s := by
  have one : ∀ (p s : Bytes), InOrder (tokens [p]) (p ++ s) := by
    intro p s
    obtain ⟨a, b, he, _⟩ := trimTok_spec p
    by_cases ht : trimTok p = []
    · have : tokens [p] = [] := by simp [tokens, ht]
      rw [this]; exact .nil
    · have : tokens [p] = [trimTok p] := by simp [tokens, ht]
      rw [this]
      have h := InOrder.cons (t := trimTok p) (ts := []) (p := a) (s := b ++ s) .nil
      have e : p ++ s = a ++ trimTok p ++ (b ++ s) := by
        rw [← List.append_assoc, ← he]
      rw [e]; exact h
  induction h with
  | @last s hr => have := one s []; simpa using this
  | @stop s a e hr hd =>
    have := one (s.take a) (s.drop a)
    simpa using this
  | @cut s a e ps hr hd hp ih =>
    rw [tokens_cons]
    obtain ⟨h1, h2⟩ := hv _ _ _ hr
    have hs : s = s.take a ++ ((s.drop a).take (e - a) ++ s.drop e) := by
      have : s.drop e = (s.drop a).drop (e - a) := by
        rw [List.drop_drop]; congr 1; omega
      rw [this, List.take_append_drop, List.take_append_drop]
    have htail := inOrder_append ih ((s.drop a).take (e - a))
    generalize (s.drop a).take (e - a) ++ s.drop e = q at *
    generalize s.take a = p at *
    obtain ⟨x, y, he, _⟩ := trimTok_spec p
    by_cases ht : trimTok p = []
    · have : tokens [p] = [] := by simp [tokens, ht]
      rw [this, hs]; exact inOrder_append htail p
    · have : tokens [p] = [trimTok p] := by simp [tokens, ht]
      rw [this]
      have h := InOrder.cons (t := trimTok p) (p := x) (inOrder_append htail y)
      have e : s = x ++ trimTok p ++ (y ++ q) := by
        rw [hs]; conv => lhs; rw [he]
        simp
      rw [e]; exact h

/-- A suffix of the text at which the loop tests the pattern. -/
inductive Visits (rx : Matcher) : Bytes → Bytes → Prop
  | here {s} : Visits rx s s
  | next {s a e t} : rx s = some (a, e) → s.drop e ≠ [] → Visits rx (s.drop e) t → Visits rx s t

/-- The loop fails to terminate exactly when it meets an empty match at a non-empty suffix. -/
theorem splitGo_none_iff (rx : Matcher) (hv : rx.Valid) (pos : Bytes) (toks : List Bytes) :
    splitGo rx pos toks = none ↔ ∃ t, Visits rx pos t ∧ t ≠ [] ∧ rx t = some (0, 0) := by
  fun_induction splitGo rx pos toks with
  | case1 pos toks hr =>
    simp
    intro t hvis
    cases hvis with
    | here => simp [hr]
    | next h _ _ => rw [hr] at h; simp at h
  | case2 pos toks a e hr hd =>
    simp
    intro t hvis
    cases hvis with
    | here =>
      intro hne h0
      rw [hr] at h0
      simp at h0
      simp [h0.2] at hd
      exact hne hd
    | next h h2 _ => rw [hr] at h; simp at h; rw [← h.2] at h2; exact absurd hd h2
  | case3 pos toks a hr hd =>
    simp only [true_iff]
    refine ⟨pos, .here, by simpa using hd, ?_⟩
    have := (hv _ _ _ hr).1
    have h0 : a = 0 := by omega
    rw [hr, h0]
  | case4 pos toks a e hr hd he ih =>
    rw [ih]
    constructor
    · rintro ⟨t, h1, h2, h3⟩
      exact ⟨t, .next hr hd h1, h2, h3⟩
    · rintro ⟨t, h1, h2, h3⟩
      cases h1 with
      | here => rw [hr] at h3; simp at h3; omega
      | next h h4 h5 =>
        rw [hr] at h
        simp at h
        obtain ⟨rfl, rfl⟩ := h
        exact ⟨t, h5, h2, h3⟩

/-! ### regex replace -/

/-- The pattern never matches the empty string. -/
def NoEmpty (rx : Matcher) : Prop := ∀ s a e, rx s = some (a, e) → a < e

/-- For such a pattern both loops of the regex branch finish, count the same matches and stay in the
buffer. -/
theorem regex_run (rx : Matcher) (hv : rx.Valid) (hn : NoEmpty rx) (new : Bytes) (m : Nat) :
    ∀ s : Bytes, s.length ≤ m → ∃ r k, RegexReplaced rx new s r ∧
      (k = 0 → r = s ∧ rx s = none) ∧ r.length ≤ s.length + k * new.length ∧
      (∀ c, ∃ n, iter (countStep rx) n (.run s c) = .done (c + k)) ∧
      (∀ cap out, out.length + s.length + k * new.length < cap →
        ∃ n, iter (copyStep rx cap new) n (.run s out) = .done (out ++ r)) := by
  induction m with
  | zero =>
    intro s hs
    have hs : s = [] := by simpa using hs
    subst hs
    have hr : rx [] = none := by
      cases h : rx [] with
      | none => rfl
      | some p =>
        obtain ⟨a, e⟩ := p
        have h1 := hn _ _ _ h
        have h2 := (hv _ _ _ h).2
        simp at h2; omega
    refine ⟨[], 0, .none hr, by simp [hr], by simp, ?_, ?_⟩
    · intro c; exact ⟨1, by simp [iter, countStep, hr]⟩
    · intro cap out hc
      refine ⟨1, ?_⟩
      simp at hc
      simp [iter, copyStep, hr, puts_val (show out.length + ([] : Bytes).length ≤ cap by simp; omega),
        finish_val hc]
  | succ m ih =>
    intro s hs
    cases hr : rx s with
    | none =>
      refine ⟨s, 0, .none hr, by simp, by simp, ?_, ?_⟩
      · intro c; exact ⟨1, by simp [iter, countStep, hr]⟩
      · intro cap out hc
        refine ⟨1, ?_⟩
        simp only [Nat.zero_mul, Nat.add_zero] at hc
        have hf : finish cap (out ++ s) = .val (out ++ s) := finish_val (by simp; omega)
        simp [iter, copyStep, hr, puts_val (show out.length + s.length ≤ cap by omega), hf]
    | some p =>
      obtain ⟨a, e⟩ := p
      have h1 := hn _ _ _ hr
      have h2 := (hv _ _ _ hr).2
      obtain ⟨r, k, hrep, hk, hlen, hcount, hcopy⟩ := ih (s.drop e) (by simp; omega)
      refine ⟨s.take a ++ new ++ r, k + 1, .some hr hrep, by simp, ?_, ?_, ?_⟩
      · simp only [List.length_append, List.length_take, List.length_drop] at hlen ⊢
        rw [Nat.add_mul]
        omega
      · intro c
        by_cases hd : s.drop e = []
        · have hk0 : k = 0 := by
            obtain ⟨n, hn'⟩ := hcount 0
            have hr0 : rx [] = none := by
              cases h : rx [] with
              | none => rfl
              | some p =>
                obtain ⟨a, e⟩ := p
                have h1 := hn _ _ _ h
                have h2 := (hv _ _ _ h).2
                simp at h2; omega
            rw [hd] at hn'
            cases n with
            | zero => simp [iter] at hn'
            | succ n =>
              have : iter (countStep rx) n (.done 0) = .done 0 := iter_fix _ _ rfl n
              simp [iter, countStep, hr0, this] at hn'
              exact hn'.symm
          subst hk0
          exact ⟨1, by simp [iter, countStep, hr, hd]⟩
        · obtain ⟨n, hn'⟩ := hcount (c + 1)
          refine ⟨n + 1, ?_⟩
          show iter _ n (countStep rx _) = _
          have : countStep rx (.run s c) = .run (s.drop e) (c + 1) := by
            simp only [countStep, hr, hd, if_false]
          rw [this, hn']
          congr 1; omega
      · intro cap out hc
        rw [Nat.add_mul, Nat.one_mul] at hc
        obtain ⟨n, hn'⟩ := hcopy cap (out ++ s.take a ++ new)
          (by simp only [List.length_append, List.length_take, List.length_drop]; omega)
        refine ⟨n + 1, ?_⟩
        show iter _ n (copyStep rx cap new _) = _
        have : copyStep rx cap new (.run s out) = .run (s.drop e) (out ++ s.take a ++ new) := by
          simp only [copyStep, hr]
          rw [puts_val (by simp; omega)]
          simp only [C.val_bind]
          rw [puts_val (by simp; omega)]
        rw [this, hn']
        simp

/-! ### join, slice and chains -/

theorem joinLen_eq (delim : Bytes) (arr : List Bytes) :
    joinLen delim arr = (delim.intercalate arr).length := by
  fun_induction joinLen delim arr with
  | case1 => simp
  | case2 x => simp
  | case3 x y rest ih => simp [ih]; omega

theorem joinLoop_eq (cap : Nat) (delim : Bytes) (arr : List Bytes) : ∀ out,
    out.length + joinLen delim arr < cap →
    joinLoop cap delim out arr = .val (out ++ delim.intercalate arr) := by
  fun_induction joinLen delim arr with
  | case1 => intro out h; simp only [joinLoop]; rw [finish_val (by omega)]; simp
  | case2 x =>
    intro out h
    simp only [joinLoop]
    rw [puts_val (by omega)]
    simp only [C.val_bind]
    rw [finish_val (by simp; omega)]; simp
  | case3 x y rest ih =>
    intro out h
    simp only [joinLoop]
    rw [puts_val (by omega)]
    simp only [C.val_bind]
    rw [puts_val (by simp; omega)]
    simp only [C.val_bind]
    rw [ih _ (by simp; omega)]
    simp

theorem join_eq (delim : Bytes) (arr : List Bytes) : join delim arr = .val (delim.intercalate arr) := by
  unfold join
  split
  · simp
  · simp
  · rw [joinLoop_eq _ _ _ _ (by simp)]; simp

end Verif.Transforms
