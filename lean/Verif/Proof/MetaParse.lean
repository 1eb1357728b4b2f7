/-
Lemmas about metadata extraction.
-/
import Verif.Spec.MetaParse
import Verif.Proof.Metadata

namespace Verif.MetaParse

open Spec Transforms Transforms.Spec
open Metadata (Meta Item addItem)

theorem trim_spec (v : Bytes) : Trimmed v (trim v) := by rw [trim_eq_trimTok]; exact trimTok_spec v

theorem trim_of_trimmed {v t : Bytes} (h : Trimmed v t) : trim v = t := trimmed_unique (trim_spec v) h

/-- White space behind a string does not change its trimmed form. -/
theorem trimmed_append {x w t : Bytes} (hw : ∀ c ∈ w, White c) (h : Trimmed x t) :
    Trimmed (x ++ w) t := by
  obtain ⟨a, b, rfl, ha, hb, hh, hl⟩ := h
  refine ⟨a, b ++ w, by simp, ha, ?_, hh, hl⟩
  intro c hc
  rcases List.mem_append.1 hc with h | h
  · exact hb c h
  · exact hw c h

/-- The line is its cut form followed by white space. -/
theorem cutLine_split (l : Bytes) : ∃ w, l = cutLine l ++ w ∧ ∀ c ∈ w, White c := by
  refine ⟨(l.dropWhile isSpace).drop (rtrimLen (l.dropWhile isSpace) (l.dropWhile isSpace).length), ?_, ?_⟩
  · unfold cutLine
    rw [trim_eq_trimTok]
    simp only [trimTok]
    rw [List.append_assoc, List.take_append_drop, List.takeWhile_append_dropWhile]
  · intro c hc
    have h := (rtrimLen_spec (l.dropWhile isSpace) _ (Nat.le_refl _)).2.1
    rw [List.take_length] at h
    exact (isSpace_iff c).1 (h c hc)

theorem blank_iff (l : Bytes) : trim (lineBuf l) = [] ↔ Blank l := by
  constructor
  · intro h c hc
    obtain ⟨a, b, he, ha, hb, _, _⟩ := trim_spec (lineBuf l)
    rw [h, List.append_nil] at he
    unfold seen at hc
    unfold lineBuf at he
    rw [he] at hc
    rcases List.mem_append.1 hc with h | h
    · exact ha c h
    · exact hb c h
  · intro h
    exact trim_of_trimmed ⟨lineBuf l, [], by simp, h, by simp, by simp, by simp⟩

theorem findIdx_split {l : Bytes} {i : Nat} (h : l.findIdx? (· == c!":") = some i) :
    l = l.take i ++ c!":" :: l.drop (i + 1) ∧ c!":" ∉ l.take i ∧ i < l.length := by
  obtain ⟨hi, h1, h2⟩ := List.findIdx?_eq_some_iff_getElem.1 h
  refine ⟨?_, ?_, hi⟩
  · have h3 : l[i] = c!":" := by simpa using h1
    rw [← h3, ← List.drop_eq_getElem_cons hi, List.take_append_drop]
  · intro hm
    obtain ⟨j, hj, he⟩ := List.mem_iff_getElem.1 hm
    have hj' : j < i := by simp at hj; omega
    have := h2 j hj'
    rw [List.getElem_take] at he
    simp [he] at this

theorem classify_blank {l : Bytes} : classify l = .blank ↔ Blank l := by
  rw [← blank_iff]
  unfold classify
  constructor
  · intro h
    simp only at h
    split at h
    · assumption
    · exfalso
      repeat' split at h
      all_goals first | (simp at h; done) | skip
      rename_i i _
      unfold colonLine at h
      repeat' split at h
      all_goals simp at h
  · intro h
    simp [h]

theorem classify_skip {l : Bytes} (h : classify l = .skip) : Skipped l := by
  refine ⟨trim (lineBuf l), trim_spec _, ?_⟩
  have pre : ∀ p ∈ skipStarts, p.isPrefixOf (trim (lineBuf l)) = true →
      ∃ p ∈ skipStarts, p <+: trim (lineBuf l) :=
    fun p hp h => ⟨p, hp, List.isPrefixOf_iff_prefix.1 h⟩
  unfold classify at h
  simp only at h
  split at h
  · simp at h
  · split at h
    · rename_i h1
      rcases Bool.or_eq_true_iff.1 h1 with h1 | h1
      · exact pre _ (by simp [skipStarts]) h1
      · exact pre _ (by simp [skipStarts]) h1
    · split at h
      · rename_i h1; exact pre _ (by simp [skipStarts]) h1
      · split at h
        · rename_i h1; exact pre _ (by simp [skipStarts]) h1
        · split at h
          · rename_i h1; exact pre _ (by simp [skipStarts]) h1
          · split at h
            · rename_i h1; exact pre _ (by simp [skipStarts]) h1
            · split at h
              · simp at h
              · split at h
                · rename_i h1; exact pre _ (by simp [skipStarts]) h1
                · exfalso
                  repeat' split at h
                  all_goals first | (simp at h; done) | skip
                  rename_i i _
                  unfold colonLine at h
                  repeat' split at h
                  all_goals simp at h

theorem colonLine_item {l : Bytes} {i : Nat} {k v : Bytes} (h : colonLine l i = .item k v) :
    k = trim (l.take i) ∧ v = trim (l.drop (i + 1)) ∧ k ≠ [] ∧ v ≠ [] := by
  unfold colonLine at h
  repeat' split at h
  all_goals first | (simp at h; done) | skip
  rename_i hne
  simp at h
  obtain ⟨rfl, rfl⟩ := h
  exact ⟨rfl, rfl, hne.1, hne.2⟩

theorem classify_item {l k v : Bytes} (h : classify l = .item k v) : MetaLine l k v := by
  unfold classify at h
  simp only at h
  repeat' split at h
  all_goals first | (simp at h; done) | skip
  rename_i i hi
  obtain ⟨hs, hn, hlt⟩ := findIdx_split hi
  obtain ⟨rfl, rfl, hk, hv⟩ := colonLine_item h
  obtain ⟨w, hw, hww⟩ := cutLine_split (lineBuf l)
  refine ⟨(cutLine (lineBuf l)).take i, (cutLine (lineBuf l)).drop (i + 1) ++ w, ?_, hn, trim_spec _,
    trimmed_append hww (trim_spec _), hk, hv⟩
  show lineBuf l = _
  conv => lhs; rw [hw, hs]
  simp

theorem nextLine_append {l r : Bytes} (h : (10 : Byte) ∉ l) : nextLine (l ++ 10 :: r) = some (l, r) := by
  induction l with
  | nil => simp [nextLine]
  | cons c l ih =>
    simp only [List.mem_cons, not_or] at h
    have : c ≠ 10 := fun e => h.1 e.symm
    simp [nextLine, this, ih h.2]

theorem lines_append (a b : List Bytes) : lines (a ++ b) = lines a ++ lines b := by simp [lines]
theorem lines_cons (a : Bytes) (b : List Bytes) : lines (a :: b) = a ++ 10 :: lines b := by simp [lines]

theorem mmdLoop_found (n : Nat) : ∀ s : Bytes, s.length ≤ n → ∀ items,
    ∃ ms its e rest, mmdLoop true items s = (its.reverse ++ items, some rest) ∧
      s = lines ms ++ e ++ rest ∧ MetaLines ms its ∧ HeaderEnd e rest := by
  induction n with
  | zero =>
    intro s hs items
    have : s = [] := by simpa using hs
    subst this
    refine ⟨[], [], [], [], ?_, rfl, .nil, .line⟩
    unfold mmdLoop; simp [nextLine]
  | succ n ih =>
    intro s hs items
    unfold mmdLoop
    split
    · rename_i h
      exact ⟨[], [], s, [], by simp, by simp [lines], .nil, .document (nextLine_none h)⟩
    · rename_i line rest h
      obtain ⟨he, hl⟩ := nextLine_eq h
      have hr : rest.length ≤ n := by rw [he] at hs; simp at hs; omega
      cases hc : classify line with
      | blank =>
        refine ⟨[], [], line ++ [10], rest, by simp, by simp [lines, he], .nil, ?_⟩
        exact .blank (classify_blank.1 hc) hl
      | skip => exact ⟨[], [], [], s, by simp, by simp [lines], .nil, .line⟩
      | stop => exact ⟨[], [], [], s, by simp, by simp [lines], .nil, .line⟩
      | item k v =>
        obtain ⟨ms, its, e, rest', h1, h2, h3, h4⟩ := ih rest hr (addItem items (k, v))
        refine ⟨line :: ms, (k, v) :: its, e, rest', ?_, ?_, .cons (classify_item hc) hl h3, h4⟩
        · simp only [h1]
          simp [addItem]
        · rw [he, h2, lines_cons]; simp

theorem mmdLoop_notfound (n : Nat) : ∀ s : Bytes, s.length ≤ n →
    mmdLoop false [] s = ([], none) ∨
    ∃ pre ms its e rest, mmdLoop false [] s = (its.reverse, some rest) ∧ its ≠ [] ∧
      s = lines pre ++ lines ms ++ e ++ rest ∧
      (∀ l ∈ pre, (10 : Byte) ∉ l ∧ (Blank l ∨ Skipped l)) ∧ MetaLines ms its ∧ HeaderEnd e rest := by
  induction n with
  | zero =>
    intro s hs
    have : s = [] := by simpa using hs
    subst this
    left; unfold mmdLoop; simp [nextLine]
  | succ n ih =>
    intro s hs
    unfold mmdLoop
    split
    · left; simp
    · rename_i line rest h
      obtain ⟨he, hl⟩ := nextLine_eq h
      have hr : rest.length ≤ n := by rw [he] at hs; simp at hs; omega
      have skip : (Blank line ∨ Skipped line) → (mmdLoop false [] rest = ([], none) ∨
          ∃ pre ms its e rest', mmdLoop false [] rest = (its.reverse, some rest') ∧ its ≠ [] ∧
          s = lines pre ++ lines ms ++ e ++ rest' ∧
          (∀ l ∈ pre, (10 : Byte) ∉ l ∧ (Blank l ∨ Skipped l)) ∧ MetaLines ms its ∧
          HeaderEnd e rest') := by
        intro hk
        rcases ih rest hr with h1 | ⟨pre, ms, its, e, rest', h1, h2, h3, h4, h5, h6⟩
        · exact .inl h1
        · refine .inr ⟨line :: pre, ms, its, e, rest', h1, h2, ?_, ?_, h5, h6⟩
          · rw [he, h3, lines_cons]; simp
          · intro l hl'
            rcases List.mem_cons.1 hl' with rfl | hl'
            · exact ⟨hl, hk⟩
            · exact h4 l hl'
      cases hc : classify line with
      | blank => exact skip (.inl (classify_blank.1 hc))
      | skip => exact skip (.inr (classify_skip hc))
      | stop => left; simp
      | item k v =>
        obtain ⟨ms, its, e, rest', h1, h2, h3, h4⟩ :=
          mmdLoop_found rest.length rest (Nat.le_refl _) (addItem [] (k, v))
        refine .inr ⟨[], line :: ms, (k, v) :: its, e, rest', ?_, by simp, ?_, by simp,
          .cons (classify_item hc) hl h3, h4⟩
        · simp only [h1]; simp [addItem]
        · rw [he, h2, lines_cons]; simp [lines]

theorem pandocLoop_suffix (keys : List Bytes) : ∀ n items s, ∀ rest,
    (pandocLoop n items keys s).2 = some rest → rest <:+ s := by
  have base : ∀ (n : Nat) (s rest : Bytes), (if n > 0 then some s else none) = some rest → rest <:+ s := by
    intro n s rest h
    split at h
    · simp at h; subst h; exact List.suffix_refl _
    · simp at h
  induction keys with
  | nil => intro n items s rest h; exact base n s rest h
  | cons key keys ih =>
    intro n items s rest h
    unfold pandocLoop at h
    split at h
    · exact base n s rest h
    · rename_i line r hl
      have he := (nextLine_eq hl).1
      split at h
      · split at h
        · have := ih _ _ _ _ h
          rw [he]
          exact this.trans ⟨line ++ [10], by simp⟩
        · exact base n s rest h
      · exact base n s rest h

theorem yamlLoop_suffix (consumed : Option Bytes) (text : Bytes)
    (hc : ∀ r, consumed = some r → r <:+ text) (n : Nat) : ∀ s : Bytes, s.length ≤ n → s <:+ text →
    ∀ items rest, (yamlLoop consumed items s).2 = some rest → rest <:+ text := by
  induction n with
  | zero =>
    intro s hs _ items rest h
    have : s = [] := by simpa using hs
    subst this
    unfold yamlLoop at h
    simp [nextLine] at h
    exact hc rest h
  | succ n ih =>
    intro s hs hsuf items rest h
    unfold yamlLoop at h
    split at h
    · exact hc rest h
    · rename_i line r hl
      have he := (nextLine_eq hl).1
      have hr : r.length ≤ n := by rw [he] at hs; simp at hs; omega
      have hrs : r <:+ text := by
        refine List.IsSuffix.trans ?_ hsuf
        rw [he]; exact ⟨line ++ [10], by simp⟩
      simp only at h
      split at h
      · simp at h; subst h; exact hrs
      · split at h
        · exact ih r hr hrs _ _ h
        · exact ih r hr hrs _ _ h

theorem yamlBounds_suffix (text : Bytes) : (yamlBounds text).2 <:+ text := by
  have hs : ∀ start, (match nextLine (text.drop 3) with
      | some (_, r) => r
      | none => text.drop 3) = start → start <:+ text := by
    intro start h
    split at h
    · rename_i l r hl
      subst h
      have he := (nextLine_eq hl).1
      refine List.IsSuffix.trans ?_ (List.drop_suffix 3 text)
      rw [he]; exact ⟨l ++ [10], by simp⟩
    · subst h; exact List.drop_suffix 3 text
  simp only [yamlBounds]
  have := hs _ rfl
  split
  · exact (List.drop_suffix _ _).trans this
  · exact List.nil_suffix

theorem parseYaml_suffix (lib : Bytes → Option Meta) (text rest : Bytes)
    (h : (parseYaml lib text).2 = some rest) : rest <:+ text := by
  simp only [parseYaml] at h
  split at h
  · simp at h; subst h; exact yamlBounds_suffix text
  · have hc : ∀ r, (if lib (yamlBounds text).1 = none then none else some (yamlBounds text).2) = some r →
        r <:+ text := by
      intro r hr
      split at hr
      · simp at hr
      · simp at hr; subst hr; exact yamlBounds_suffix text
    split at h
    · exact hc rest h
    · rename_i l r hl
      have he := (nextLine_eq hl).1
      have : r <:+ text := by
        refine List.IsSuffix.trans ?_ (List.drop_suffix 3 text)
        rw [he]; exact ⟨l ++ [10], by simp⟩
      exact yamlLoop_suffix _ text hc r.length r (Nat.le_refl _) this [] rest h

theorem parseMmd_suffix (text rest : Bytes) (h : (parseMmd text).2 = some rest) : rest <:+ text := by
  unfold parseMmd at h
  rcases mmdLoop_notfound text.length text (Nat.le_refl _) with h1 | ⟨pre, ms, its, e, r, h1, _, h3, _⟩
  · rw [h1] at h; simp at h
  · rw [h1] at h
    simp at h; subst h
    exact ⟨_, h3.symm⟩

/-! ### Command-line metadata -/

theorem idx_append {c : Byte} {a b : Bytes} (h : c ∉ a) : idx c (a ++ c :: b) = some a.length := by
  unfold idx
  rw [List.findIdx?_append]
  have : a.findIdx? (· == c) = none := by
    rw [List.findIdx?_eq_none_iff]
    intro x hx
    simp; rintro rfl; exact h hx
  rw [this]; simp [List.findIdx?_cons]

theorem idx_none {c : Byte} {a : Bytes} (h : c ∉ a) : idx c a = none := by
  unfold idx
  rw [List.findIdx?_eq_none_iff]
  intro x hx
  simp; rintro rfl; exact h hx

theorem cutBuf_id {s : Bytes} (h : ∀ c, s.getLast? = some c → ¬ White c) : cutBuf s = s := by
  unfold cutBuf
  split
  · rfl
  · rename_i hne
    obtain ⟨w, h1, h2⟩ := cutLine_split s
    cases hw : w with
    | nil => rw [hw] at h1; simpa using h1.symm
    | cons x y =>
      exfalso
      have hwne : w ≠ [] := by simp [hw]
      have hl : s.getLast? = some (w.getLast hwne) := by
        rw [h1, List.getLast?_append, List.getLast?_eq_some_getLast hwne]; rfl
      exact h _ hl (h2 _ (List.getLast_mem hwne))

theorem isAlnum_not_space : ∀ c : Byte, isAlnum c = true ∨ c = c!"_" → isSpace c = false :=
  forall_byte (by decide +kernel)

theorem Spec.KeyOk.dropWhile {k : Bytes} (h : KeyOk k) (s : Bytes) :
    (k ++ s).dropWhile isSpace = k ++ s := by
  obtain ⟨c, r, rfl, hc⟩ := h.start
  simp [isAlnum_not_space c hc]

theorem takeWhile_no_comma {v : Bytes} (h : c!"," ∉ v) : v.takeWhile (· != c!",") = v := by
  induction v with
  | nil => rfl
  | cons a v ih =>
    simp only [List.mem_cons, not_or] at h
    have : (a != c!",") = true := by simpa using fun e => h.1 e.symm
    rw [List.takeWhile_cons, this, ih h.2]
    rfl

theorem dropWhile_white {w : Bytes} (hw : ∀ c ∈ w, White c) (s : Bytes) :
    (w ++ s).dropWhile isSpace = s.dropWhile isSpace := by
  induction w with
  | nil => rfl
  | cons a w ih =>
    have : isSpace a = true := (isSpace_iff a).2 (hw a (by simp))
    simp [this]
    exact ih fun c hc => hw c (by simp [hc])

/-- A written pair is read back. -/
theorem Spec.Written.parse {k v t : Bytes} (h : Written k v t) : parsePair t = some (k, v) := by
  cases h with
  | plain hk h1 h2 h3 =>
    unfold parsePair
    rw [idx_append hk.noEq]
    simp only [Option.map_some, List.take_left, Option.some.injEq, Prod.mk.injEq]
    refine ⟨cutBuf_id hk.last, ?_⟩
    have : (k ++ c!"=" :: v).drop (k.length + 1) = v := by
      rw [← List.drop_drop, List.drop_left]; rfl
    rw [this]
    cases v with
    | nil => rfl
    | cons q r =>
      have h4 := h2 q rfl
      have : isQuote q = false := by simp [isQuote, h4.1, h4.2]
      simp only [pairValue, this, takeWhile_no_comma h1]
      simpa using cutBuf_id h3
  | @quoted q hk hq hv =>
    unfold parsePair
    rw [idx_append hk.noEq]
    simp only [Option.map_some, List.take_left, Option.some.injEq, Prod.mk.injEq]
    refine ⟨cutBuf_id hk.last, ?_⟩
    have : (k ++ c!"=" :: q :: (v ++ [q])).drop (k.length + 1) = q :: (v ++ [q]) := by
      rw [← List.drop_drop, List.drop_left]; rfl
    rw [this]
    have : isQuote q = true := by rcases hq with rfl | rfl <;> decide
    simp only [pairValue, this, idx_append hv]
    simp

/-- Where the value of a written pair ends, when nothing or another pair follows. -/
theorem Spec.Written.bounds {k v t : Bytes} (h : Written k v t) (s : Bytes)
    (hs : s = [] ∨ ∃ w s', s = c!"," :: (w ++ s') ∧ (∀ c ∈ w, White c) ∧
      startsPair (s'.dropWhile isSpace) = true) :
    idx c!"=" (t ++ s) = some k.length ∧
    k.length + 1 + valueLen ((t ++ s).drop (k.length + 1)) = t.length ∧
    (t ++ s).dropWhile isSpace = t ++ s := by
  cases h with
  | plain hk h1 h2 h3 =>
    have hd : (k ++ c!"=" :: v ++ s).drop (k.length + 1) = v ++ s := by
      rw [List.append_assoc, ← List.drop_drop, List.drop_left]; rfl
    refine ⟨?_, ?_, ?_⟩
    · rw [List.append_assoc, List.cons_append, idx_append hk.noEq]
    · rw [hd]
      have hv : valueLen (v ++ s) = v.length := by
        rcases hs with rfl | ⟨w, s', rfl, hw, hst⟩
        · rw [List.append_nil]
          cases v with
          | nil => rfl
          | cons q r =>
            have h4 := h2 q rfl
            have : isQuote q = false := by simp [isQuote, h4.1, h4.2]
            simp only [valueLen, this, idx_none h1]
            simp
        · have hx : idx c!"," (v ++ c!"," :: (w ++ s')) = some v.length := idx_append h1
          have hdd : (v ++ c!"," :: (w ++ s')).drop (v.length + 1) = w ++ s' := by
            rw [← List.drop_drop, List.drop_left]; rfl
          unfold valueLen
          split
          · rename_i he; simp at he
          · rename_i q r he
            have : isQuote q = false := by
              cases v with
              | nil => simp at he; rw [← he.1]; decide
              | cons a b =>
                simp at he
                have h4 := h2 a rfl
                rw [← he.1]; simp [isQuote, h4.1, h4.2]
            rw [this, hx]
            simp only [hdd, dropWhile_white hw, hst]
            simp
      rw [hv]; simp; omega
    · rw [List.append_assoc]; exact hk.dropWhile _
  | @quoted q hk hq hv =>
    have hd : (k ++ c!"=" :: q :: (v ++ [q]) ++ s).drop (k.length + 1) = q :: (v ++ q :: s) := by
      rw [List.append_assoc, ← List.drop_drop, List.drop_left]; simp
    refine ⟨?_, ?_, ?_⟩
    · rw [List.append_assoc, List.cons_append, idx_append hk.noEq]
    · rw [hd]
      have : isQuote q = true := by rcases hq with rfl | rfl <;> decide
      simp only [valueLen, this, idx_append hv]
      simp; omega
    · rw [List.append_assoc]; exact hk.dropWhile _

theorem Spec.Written.key {k v t : Bytes} (h : Written k v t) : ∃ r, t = k ++ c!"=" :: r ∧ KeyOk k := by
  cases h with
  | plain hk _ _ _ => exact ⟨_, rfl, hk⟩
  | quoted hk _ _ => exact ⟨_, rfl, hk⟩

theorem startsPair_key {k : Bytes} (hk : KeyOk k) (r : Bytes) :
    startsPair ((k ++ c!"=" :: r).dropWhile isSpace) = true := by
  rw [hk.dropWhile]
  obtain ⟨c, k', he, hc⟩ := hk.start
  unfold startsPair
  have hne : k ++ c!"=" :: r = c :: (k' ++ c!"=" :: r) := by rw [he]; simp
  split
  · rename_i h; rw [hne] at h; simp at h
  · rename_i a b h
    rw [hne] at h
    simp at h
    have hcc : (isAlnum a || a == c!"_") = true := by
      rw [← h.1]; rcases hc with h | h <;> simp [h]
    rw [if_pos hcc, idx_append hk.noEq]
    cases hj : idx c!"," (k ++ c!"=" :: r) with
    | none => rfl
    | some j =>
      have hnc := hk.noComma
      obtain ⟨hlt, h1, h2⟩ := List.findIdx?_eq_some_iff_getElem.1 hj
      simp only [decide_eq_true_eq]
      refine Decidable.byContradiction fun hle => ?_
      rcases Nat.lt_or_ge j k.length with hj' | hj'
      · rw [List.getElem_append_left hj'] at h1
        simp at h1
        exact hnc (h1 ▸ List.getElem_mem hj')
      · have : j = k.length := by omega
        subst this
        rw [List.getElem_append_right (Nat.le_refl _)] at h1
        simp at h1

theorem Spec.WrittenList.starts {its s} (h : WrittenList its s) :
    startsPair (s.dropWhile isSpace) = true := by
  cases h with
  | one hw =>
    obtain ⟨r, rfl, hk⟩ := hw.key
    exact startsPair_key hk r
  | cons hw _ _ =>
    obtain ⟨r, rfl, hk⟩ := hw.key
    rw [List.append_assoc, List.cons_append]
    exact startsPair_key hk _

theorem cmdLoop_white {w : Bytes} (hw : ∀ c ∈ w, White c) (items : Meta) (s : Bytes) :
    cmdLoop items (w ++ s) = cmdLoop items s := by
  conv => lhs; unfold cmdLoop
  conv => rhs; unfold cmdLoop
  rw [dropWhile_white hw]

theorem cmdLoop_written {its : List Item} {s : Bytes} (h : WrittenList its s) :
    ∀ items, cmdLoop items s = its.reverse ++ items := by
  induction h with
  | @one k v t hw =>
    intro items
    obtain ⟨h1, h2, h3⟩ := hw.bounds [] (.inl rfl)
    rw [List.append_nil] at h1 h2 h3
    unfold cmdLoop
    simp only [h3, h1, h2, List.take_length, hw.parse]
    split
    · rename_i hd; rw [h3, h2, List.drop_length] at hd; simp at hd
    · simp [addItem]
  | @cons k v t w its s hw hww hl ih =>
    intro items
    obtain ⟨h1, h2, h3⟩ := hw.bounds (c!"," :: (w ++ s)) (.inr ⟨w, s, rfl, hww, hl.starts⟩)
    unfold cmdLoop
    simp only [h3, h1, h2, List.take_left, hw.parse]
    split
    · rename_i c rest hd
      rw [h3, h2, List.drop_left] at hd
      simp at hd
      obtain ⟨rfl, rfl⟩ := hd
      rw [if_pos rfl, cmdLoop_white hww, ih]
      simp [addItem]
    · rename_i hd
      rw [h3, h2, List.drop_left] at hd
      simp at hd

/-! ### Well-formed headers -/

theorem strstr_none_of {s p : Bytes} (h : ¬ p <:+: s) : strstr s p = none := strstr_of_not_infix h

theorem has_false {s p : Bytes} (h : ¬ p <:+: s) : has s p = false := by
  unfold has; rw [strstr_none_of h]; rfl

theorem has_false_of_mem {s p : Bytes} {c : Byte} (hp : c ∈ p) (h : c ∉ s) : has s p = false :=
  has_false fun hi => h (hi.subset hp)

theorem plainKey_char : ∀ c : Byte, isAlnum c = true ∨ c = 32 ∨ c = c!"-" →
    c ≠ c!":" ∧ c ≠ c!"[" ∧ c ≠ c!"{" ∧ c ≠ c!"<" ∧ c ≠ 10 := forall_byte (by decide +kernel)

theorem alpha_char : ∀ c : Byte, isAlpha c = true → isSpace c = false ∧ c ≠ c!"*" ∧ c ≠ c!"[" ∧
    c ≠ c!"<" ∧ c ≠ c!"{" ∧ c ≠ c!"#" ∧ c ≠ c!"-" ∧ c ≠ c!"+" ∧ isDigit c = false :=
  forall_byte (by decide +kernel)

theorem not_prefix {p s : Bytes} {a c : Byte} (h : a ≠ c) :
    List.isPrefixOf (a :: p) (c :: s) = false := by
  simp [List.isPrefixOf, h]

theorem no_url {k v : Bytes} (hk : c!":" ∉ k) (hv : ¬ b!"://" <:+: v) :
    ¬ b!"://" <:+: k ++ c!":" :: 32 :: v := by
  rintro ⟨p, s, h⟩
  rw [List.append_assoc, List.append_eq_append_iff] at h
  rcases h with ⟨x, h1, h2⟩ | ⟨y, h1, h2⟩
  · cases x with
    | nil => simp at h2
    | cons a x =>
      simp at h2
      apply hk
      rw [h1, ← h2.1]; simp
  · cases y with
    | nil => simp at h2
    | cons a y =>
      cases y with
      | nil => simp at h2
      | cons b y =>
        simp only [List.cons_append, List.cons.injEq] at h2
        apply hv
        exact ⟨y, s, by rw [h2.2.2]; simp⟩

theorem classify_plain {k v : Bytes} (hk : PlainKey k) (hv : PlainValue v)
    (hlen : k.length + 2 + v.length ≤ 1023) : classify (k ++ c!":" :: 32 :: v) = .item k v := by
  have hkc : c!":" ∉ k := fun h => (plainKey_char _ (hk.chars _ h)).1 rfl
  have hkb : c!"<" ∉ k := fun h => (plainKey_char _ (hk.chars _ h)).2.2.2.1 rfl
  have hb : c!"[" ∉ k ++ c!":" :: 32 :: v := by
    simp only [List.mem_append, List.mem_cons, not_or]
    exact ⟨fun h => (plainKey_char _ (hk.chars _ h)).2.1 rfl, by decide, by decide,
      fun h => (hv.chars _ h).2.1 rfl⟩
  have hbr : c!"{" ∉ k ++ c!":" :: 32 :: v := by
    simp only [List.mem_append, List.mem_cons, not_or]
    exact ⟨fun h => (plainKey_char _ (hk.chars _ h)).2.2.1 rfl, by decide, by decide,
      fun h => (hv.chars _ h).2.2 rfl⟩
  have hbuf : lineBuf (k ++ c!":" :: 32 :: v) = k ++ c!":" :: 32 :: v := by
    unfold lineBuf; rw [List.take_of_length_le]; simp; omega
  obtain ⟨c, r, hcr, hc⟩ := hk.start
  obtain ⟨hcs, c1, c2, c3, c4, c5, c6, c7, c8⟩ := alpha_char c hc
  have hl : k ++ c!":" :: 32 :: v = c :: (r ++ c!":" :: 32 :: v) := by rw [hcr]; rfl
  have hlast : ∀ x, (k ++ c!":" :: 32 :: v).getLast? = some x → ¬ White x := by
    intro x hx
    apply hv.last
    rw [← hx]
    have : k ++ c!":" :: 32 :: v = (k ++ [c!":", 32]) ++ v := by simp
    rw [this, List.getLast?_append, List.getLast?_eq_some_getLast hv.nonempty]; rfl
  have htrim : trim (k ++ c!":" :: 32 :: v) = k ++ c!":" :: 32 :: v := by
    refine trim_of_trimmed ⟨[], [], by simp, by simp, by simp, ?_, hlast⟩
    intro x hx
    rw [hl] at hx
    simp at hx
    subst hx
    intro hw
    rw [(isSpace_iff c).2 hw] at hcs
    simp at hcs
  have hcut : cutLine (k ++ c!":" :: 32 :: v) = k ++ c!":" :: 32 :: v := by
    unfold cutLine
    rw [htrim, hl]
    simp [hcs]
  have hi : (k ++ c!":" :: 32 :: v).findIdx? (· == c!":") = some k.length := idx_append hkc
  have hd : (k ++ c!":" :: 32 :: v).drop (k.length + 1) = 32 :: v := by
    rw [← List.drop_drop, List.drop_left]; rfl
  have hcol : colonLine (k ++ c!":" :: 32 :: v) k.length = .item k v := by
    have h1 : has (k ++ c!":" :: 32 :: v) b!"[!" = false := has_false_of_mem (c := c!"[") (by decide) hb
    have h2 : (k ++ c!":" :: 32 :: v).contains c!"[" = false := by simpa using hb
    have hu := no_url hkc hv.noUrl
    have h3 : has (k ++ c!":" :: 32 :: v) b!"://" = false := has_false hu
    have pre : ∀ p : Bytes, b!"://" <:+: p → p.isPrefixOf (k ++ c!":" :: 32 :: v) = false := by
      intro p hp
      cases hb' : p.isPrefixOf (k ++ c!":" :: 32 :: v) with
      | false => rfl
      | true => exact absurd (hp.trans (List.isPrefixOf_iff_prefix.1 hb').isInfix) hu
    have h4 := pre b!"http://" ⟨b!"http", [], rfl⟩
    have h5 := pre b!"https://" ⟨b!"https", [], rfl⟩
    have h6 : (decide (k.length ≥ 7) && b!"mailto:".isPrefixOf (k ++ c!":" :: 32 :: v)) = false := by
      cases hm : b!"mailto:".isPrefixOf (k ++ c!":" :: 32 :: v) with
      | false => simp
      | true =>
        rw [Bool.and_true, decide_eq_false_iff_not]
        intro h7
        obtain ⟨s, hs⟩ := List.isPrefixOf_iff_prefix.1 hm
        apply hkc
        have : k.take 7 = b!"mailto:" := by
          have := congrArg (List.take 7) hs
          rw [List.take_append_of_le_length (by decide), List.take_append_of_le_length h7] at this
          rw [← this]; rfl
        have hm' : c!":" ∈ k.take 7 := by rw [this]; decide
        exact List.take_subset _ _ hm'
    have h7 : (k.contains c!"<") = false := by simpa using hkb
    have hvt : trim (32 :: v) = v := by
      refine trim_of_trimmed ⟨[32], [], by simp, ?_, by simp, hv.head, hv.last⟩
      intro x hx; simp at hx; subst hx; exact (isSpace_iff 32).1 (by decide)
    have hkt : trim k = k := by
      refine trim_of_trimmed ⟨[], [], by simp, by simp, by simp, ?_, hk.last⟩
      intro x hx
      rw [hcr] at hx
      simp at hx
      subst hx
      intro hw
      rw [(isSpace_iff c).2 hw] at hcs
      simp at hcs
    have h8 : (decide (k.length ≥ 7) && (b!"http://".isPrefixOf (k ++ c!":" :: 32 :: v) ||
        (decide (k.length ≥ 8) && b!"https://".isPrefixOf (k ++ c!":" :: 32 :: v)) ||
        b!"mailto:".isPrefixOf (k ++ c!":" :: 32 :: v) || has (k ++ c!":" :: 32 :: v) b!"://")) = false := by
      rw [h4, h5, h3]
      simp only [Bool.and_false, Bool.or_false, Bool.false_or]
      exact h6
    unfold colonLine
    rw [h1, h2, h8, List.take_left, h7, hd]
    have hkne : k ≠ [] := by rw [hcr]; simp
    simp [hvt, hkt, hv.nonempty, hkne]
  unfold classify
  rw [hbuf]
  simp only [htrim, hcut, hi, hcol]
  have hx : has (k ++ c!":" :: 32 :: v) b!"{i:" = false := has_false_of_mem (c := c!"{") (by decide) hbr
  rw [hx]
  have hbul : bulleted (k ++ c!":" :: 32 :: v) = false := by
    rw [hl]; unfold bulleted
    split
    · rename_i he; simp only [List.cons.injEq] at he; rw [← he.1]; simp [c1, c6, c7]
    · rfl
  have hnum : numbered (k ++ c!":" :: 32 :: v) = false := by
    rw [hl]; simp [numbered, c8]
  rw [hbul, hnum, hl]
  simp [List.isPrefixOf, Ne.symm c1, Ne.symm c2, Ne.symm c3, Ne.symm c4, Ne.symm c5]

theorem mmdLoop_header {its : List Item} {h : Bytes} (hh : Header its h) :
    ∀ found items s, mmdLoop found items (h ++ s) =
      mmdLoop (found || !its.isEmpty) (its.reverse ++ items) s := by
  induction hh with
  | nil => intro found items s; simp
  | @cons k v its s' hk hv hlen _ ih =>
    intro found items s
    have hnl : (10 : Byte) ∉ k ++ c!":" :: 32 :: v := by
      simp only [List.mem_append, List.mem_cons, not_or]
      exact ⟨fun h => (plainKey_char _ (hk.chars _ h)).2.2.2.2 rfl, by decide, by decide,
        fun h => (hv.chars _ h).1 rfl⟩
    have hn : nextLine (k ++ c!":" :: 32 :: (v ++ 10 :: s') ++ s) =
        some (k ++ c!":" :: 32 :: v, s' ++ s) := by
      have : k ++ c!":" :: 32 :: (v ++ 10 :: s') ++ s = (k ++ c!":" :: 32 :: v) ++ 10 :: (s' ++ s) := by
        simp
      rw [this]
      exact nextLine_append hnl
    conv => lhs; unfold mmdLoop
    split
    · rename_i h'; rw [hn] at h'; simp at h'
    · rename_i line rest h'
      rw [hn] at h'
      simp at h'
      obtain ⟨rfl, rfl⟩ := h'
      rw [classify_plain hk hv hlen]
      simp only [ih]
      simp [addItem]

/-- Extraction from a document without a YAML or Pandoc block. -/
theorem extract_mmd {lib : Bytes → Option Meta} {c : Byte} {s : Bytes} (h1 : c ≠ c!"-") (h2 : c ≠ c!"%")
    {items : Meta} {rest : Bytes} (hne : items ≠ []) (hm : parseMmd (c :: s) = (items, some rest)) :
    extract lib (c :: s) = (items, rest) := by
  unfold extract
  rw [hm, not_prefix (Ne.symm h1), not_prefix (Ne.symm h2)]
  simp only [Bool.false_eq_true, if_false]
  cases items with
  | nil => exact absurd rfl hne
  | cons a b => simp

theorem yamlClose_iff (l : Bytes) :
    YamlClose l ↔ trim (lineBuf l) = b!"---" ∨ trim (lineBuf l) = b!"..." := by
  unfold YamlClose
  constructor
  · rintro (h | h)
    · exact .inl (trim_of_trimmed h)
    · exact .inr (trim_of_trimmed h)
  · rintro (h | h)
    · exact .inl (h ▸ trim_spec (lineBuf l))
    · exact .inr (h ▸ trim_spec (lineBuf l))

theorem yamlLoop_shape (n : Nat) : ∀ s : Bytes, s.length ≤ n → ∀ items,
    (yamlLoop none items s).2 = none ∨
    ∃ ls close its rest, yamlLoop none items s = (its, some rest) ∧
      s = lines (ls ++ [close]) ++ rest ∧ (∀ l ∈ ls, (10 : Byte) ∉ l ∧ ¬ YamlClose l) ∧
      (10 : Byte) ∉ close ∧ YamlClose close := by
  induction n with
  | zero =>
    intro s hs items
    have : s = [] := by simpa using hs
    subst this
    left; unfold yamlLoop; simp [nextLine]
  | succ n ih =>
    intro s hs items
    unfold yamlLoop
    split
    · left; rfl
    · rename_i line rest h
      obtain ⟨he, hl⟩ := nextLine_eq h
      have hr : rest.length ≤ n := by rw [he] at hs; simp at hs; omega
      simp only
      split
      · rename_i hc
        right
        refine ⟨[], line, items, rest, rfl, ?_, by simp, hl, (yamlClose_iff line).2 hc⟩
        rw [he]; simp [lines]
      · rename_i hc
        have step : ∀ items', (yamlLoop none items' rest).2 = none ∨
            ∃ ls close its rest', yamlLoop none items' rest = (its, some rest') ∧
              s = lines (ls ++ [close]) ++ rest' ∧ (∀ l ∈ ls, (10 : Byte) ∉ l ∧ ¬ YamlClose l) ∧
              (10 : Byte) ∉ close ∧ YamlClose close := by
          intro items'
          rcases ih rest hr items' with h1 | ⟨ls, close, its, rest', h1, h2, h3, h4, h5⟩
          · exact .inl h1
          · refine .inr ⟨line :: ls, close, its, rest', h1, ?_, ?_, h4, h5⟩
            · rw [he, h2, List.cons_append, lines_cons]; simp
            · intro l hl'
              rcases List.mem_cons.1 hl' with rfl | hl'
              · exact ⟨hl, fun hh => hc ((yamlClose_iff l).1 hh)⟩
              · exact h3 l hl'
        split
        · exact step _
        · exact step _

theorem unquote_plain {v : Bytes} (h : ∀ c, v.head? = some c → c ≠ c!"\"" ∧ c ≠ c!"'") :
    unquote v = v := by
  unfold unquote
  split
  · rename_i q r q' hl
    have := h q rfl
    rw [if_neg]
    rintro ⟨_, _, h' | h'⟩
    · exact this.1 h'
    · exact this.2 h'
  · rfl

theorem plain_line {k v : Bytes} (hk : PlainKey k) (hv : PlainValue v)
    (hlen : k.length + 2 + v.length ≤ 1023) :
    lineBuf (k ++ c!":" :: 32 :: v) = k ++ c!":" :: 32 :: v ∧
    trim (k ++ c!":" :: 32 :: v) = k ++ c!":" :: 32 :: v ∧
    cutLine (k ++ c!":" :: 32 :: v) = k ++ c!":" :: 32 :: v ∧
    trim k = k ∧ trim (32 :: v) = v ∧ c!":" ∉ k ∧
    (k ++ c!":" :: 32 :: v) ≠ b!"---" ∧ (k ++ c!":" :: 32 :: v) ≠ b!"..." := by
  obtain ⟨c, r, hcr, hc⟩ := hk.start
  obtain ⟨hcs, c1, c2, c3, c4, c5, c6, c7, c8⟩ := alpha_char c hc
  have hl : k ++ c!":" :: 32 :: v = c :: (r ++ c!":" :: 32 :: v) := by rw [hcr]; rfl
  have hcw : ¬ White c := by
    intro hw
    rw [(isSpace_iff c).2 hw] at hcs
    simp at hcs
  have hlast : ∀ x, (k ++ c!":" :: 32 :: v).getLast? = some x → ¬ White x := by
    intro x hx
    apply hv.last
    rw [← hx]
    have : k ++ c!":" :: 32 :: v = (k ++ [c!":", 32]) ++ v := by simp
    rw [this, List.getLast?_append, List.getLast?_eq_some_getLast hv.nonempty]; rfl
  have htrim : trim (k ++ c!":" :: 32 :: v) = k ++ c!":" :: 32 :: v := by
    refine trim_of_trimmed ⟨[], [], by simp, by simp, by simp, ?_, hlast⟩
    intro x hx
    rw [hl] at hx
    simp at hx
    subst hx
    exact hcw
  refine ⟨?_, htrim, ?_, ?_, ?_, ?_, ?_, ?_⟩
  · unfold lineBuf; rw [List.take_of_length_le]; simp; omega
  · unfold cutLine
    rw [htrim, hl]
    simp [hcs]
  · refine trim_of_trimmed ⟨[], [], by simp, by simp, by simp, ?_, hk.last⟩
    intro x hx
    rw [hcr] at hx
    simp at hx
    subst hx
    exact hcw
  · refine trim_of_trimmed ⟨[32], [], by simp, ?_, by simp, hv.head, hv.last⟩
    intro x hx; simp at hx; subst hx; exact (isSpace_iff 32).1 (by decide)
  · exact fun h => (plainKey_char _ (hk.chars _ h)).1 rfl
  · intro h
    have : c!":" ∈ b!"---" := by rw [← h]; simp
    revert this; decide
  · intro h
    have : c!":" ∈ b!"..." := by rw [← h]; simp
    revert this; decide

theorem yamlLoop_header {its : List Item} {h : Bytes} (hh : Header its h)
    (hq : ∀ it ∈ its, ∀ c, it.2.head? = some c → c ≠ c!"\"" ∧ c ≠ c!"'") :
    ∀ items s, yamlLoop none items (h ++ s) = yamlLoop none (its.reverse ++ items) s := by
  induction hh with
  | nil => intro items s; simp
  | @cons k v its s' hk hv hlen _ ih =>
    intro items s
    have hnl : (10 : Byte) ∉ k ++ c!":" :: 32 :: v := by
      simp only [List.mem_append, List.mem_cons, not_or]
      exact ⟨fun h => (plainKey_char _ (hk.chars _ h)).2.2.2.2 rfl, by decide, by decide,
        fun h => (hv.chars _ h).1 rfl⟩
    have hn : nextLine (k ++ c!":" :: 32 :: (v ++ 10 :: s') ++ s) =
        some (k ++ c!":" :: 32 :: v, s' ++ s) := by
      have : k ++ c!":" :: 32 :: (v ++ 10 :: s') ++ s = (k ++ c!":" :: 32 :: v) ++ 10 :: (s' ++ s) := by
        simp
      rw [this]
      exact nextLine_append hnl
    obtain ⟨p1, p2, p3, p4, p5, p6, p7, p8⟩ := plain_line hk hv hlen
    have hi : (k ++ c!":" :: 32 :: v).findIdx? (· == c!":") = some k.length := idx_append p6
    have hd : (k ++ c!":" :: 32 :: v).drop (k.length + 1) = 32 :: v := by
      rw [← List.drop_drop, List.drop_left]; rfl
    have hkne : k ≠ [] := by obtain ⟨c, r, hcr, _⟩ := hk.start; rw [hcr]; simp
    have hne : k ++ c!":" :: 32 :: v ≠ [] := by simp
    conv => lhs; unfold yamlLoop
    split
    · rename_i h'; rw [hn] at h'; simp at h'
    · rename_i line rest h'
      rw [hn] at h'
      simp only [Option.some.injEq, Prod.mk.injEq] at h'
      obtain ⟨rfl, rfl⟩ := h'
      simp only [p1, p2, p3]
      rw [if_neg (by rintro (h | h); exact p7 h; exact p8 h)]
      rw [if_neg hne, hi]
      simp only [List.take_left, hd, p4, p5]
      rw [if_pos hkne, unquote_plain (hq (k, v) (by simp)), ih fun it hit => hq it (by simp [hit])]
      simp [addItem]

theorem pandocLoop_line {v : Bytes} (h1 : v ≠ []) (h2 : Trimmed v v) (h3 : (10 : Byte) ∉ v) (h4 : v.length ≤ 1021)
    {n : Nat} {items : Meta} {key : Bytes} {keys : List Bytes} {r : Bytes} :
    pandocLoop n items (key :: keys) ((b!"% " ++ v) ++ 10 :: r) =
      pandocLoop (n + 1) (addItem items (key, v)) keys r := by
  have hl : (10 : Byte) ∉ b!"% " ++ v := by
    intro h
    rcases List.mem_append.1 h with h | h
    · exact absurd h (by decide)
    · exact h3 h
  have hb : lineBuf (b!"% " ++ v) = c!"%" :: 32 :: v := by
    unfold lineBuf; rw [List.take_of_length_le (by simp; omega)]; rfl
  obtain ⟨_, _, _, _, _, hh, hla⟩ := h2
  have ht : trim (c!"%" :: 32 :: v) = c!"%" :: 32 :: v := by
    apply trim_of_trimmed
    refine ⟨[], [], by simp, by simp, by simp, ?_, ?_⟩
    · intro c hc; simp at hc; subst hc; unfold Transforms.Spec.White; decide
    · intro c hc
      apply hla
      cases v with
      | nil => exact absurd rfl h1
      | cons x xs => simpa using hc
  have hv : trim (32 :: v) = v := by
    apply trim_of_trimmed
    refine ⟨[32], [], by simp, ?_, by simp, hh, hla⟩
    intro c hc; simp at hc; subst hc; exact .inl rfl
  conv => lhs; unfold pandocLoop
  rw [nextLine_append hl]
  simp only [hb, ht, hv]
  simp [h1]

theorem trim_front {x : Bytes} {c d : Byte} {s : Bytes} (hd : ¬ White d) (hc : ¬ White c) :
    ∃ s', trim (d :: x ++ c :: s) = d :: x ++ c :: s' := by
  obtain ⟨a, b, he, ha, hb, hh, hl⟩ := trim_spec (d :: x ++ c :: s)
  generalize trim (d :: x ++ c :: s) = t at *
  have ha0 : a = [] := by
    cases a with
    | nil => rfl
    | cons y ys =>
      simp at he
      have := ha y (by simp)
      rw [← he.1] at this
      exact absurd this hd
  subst ha0
  rw [List.nil_append] at he
  have hlen : (d :: x).length < t.length := by
    apply Decidable.byContradiction
    intro hn
    have hcm : c ∈ b := by
      have : b = (d :: x ++ c :: s).drop t.length := by rw [he, List.drop_left]
      rw [this, List.drop_append_of_le_length (by omega)]
      simp
    exact hc (hb c hcm)
  have : t = (d :: x ++ c :: s).take t.length := by rw [he, List.take_left]
  refine ⟨(s.take (t.length - (d :: x).length - 1)), ?_⟩
  have hn : t.length - (d :: x).length = (t.length - (d :: x).length - 1) + 1 := by omega
  conv => lhs; rw [this, List.take_append, List.take_of_length_le (Nat.le_of_lt hlen), hn, List.take_succ_cons]

theorem dropWhile_all {p : Byte → Bool} {a : Bytes} {c : Byte} {s : Bytes} (ha : ∀ x ∈ a, p x = true)
    (hc : p c = false) : (a ++ c :: s).dropWhile p = c :: s := by
  rw [List.dropWhile_append_of_pos ha]; simp [hc]

theorem classify_list {m item : Bytes} {c : Byte} (hc : ¬ White c) (hm : ListMarker m) (hml : m.length ≤ 1000) :
    classify (m ++ 32 :: c :: item) = .stop := by
  have hb : lineBuf (m ++ 32 :: c :: item) = m ++ 32 :: c :: item.take (1021 - m.length) := by
    unfold lineBuf
    rw [List.take_append, List.take_of_length_le (by omega)]
    have : 1023 - m.length = (1021 - m.length) + 1 + 1 := by omega
    rw [this, List.take_succ_cons, List.take_succ_cons]
  have nb : ∀ (d : Byte), isDigit d = true ∨ d ∈ b!"-+*" → ¬ White d ∧ d ≠ c!"[" ∧ d ≠ c!"<" ∧ d ≠ c!"{" ∧ d ≠ c!"#" := by
    intro d hd
    have : ∀ d : Byte, (isDigit d = true ∨ d ∈ b!"-+*") →
      isSpace d = false ∧ d ≠ c!"[" ∧ d ≠ c!"<" ∧ d ≠ c!"{" ∧ d ≠ c!"#" := forall_byte (by decide +kernel)
    obtain ⟨h1, h2⟩ := this d hd
    refine ⟨fun h => ?_, h2⟩
    rw [(Transforms.isSpace_iff d).2 h] at h1; exact absurd h1 (by decide)
  have key : ∃ d x s', trim (lineBuf (m ++ 32 :: c :: item)) = d :: x ++ c :: s' ∧ m ++ [32] = d :: x ∧
      (isDigit d = true ∨ d ∈ b!"-+*") := by
    rw [hb]
    cases hm with
    | @bullet d hd =>
      obtain ⟨s', h⟩ := trim_front (x := [32]) (s := item.take (1021 - [d].length)) (nb d (.inr hd)).1 hc
      exact ⟨d, [32], s', h, rfl, .inr hd⟩
    | @num ds e hne hds he =>
      cases ds with
      | nil => exact absurd rfl hne
      | cons d ds =>
        have hd := hds d (by simp)
        obtain ⟨s', h⟩ := trim_front (x := ds ++ [e, 32]) (s := item.take (1021 - (d :: ds ++ [e]).length))
          (nb d (.inl hd)).1 hc
        refine ⟨d, ds ++ [e, 32], s', ?_, by simp, .inl hd⟩
        rw [← h]; simp
  obtain ⟨d, x, s', ht, hmx, hd⟩ := key
  obtain ⟨_, n1, n2, n3, n4⟩ := nb d hd
  have hx : ∃ y ys, x = y :: ys ∧ y ≠ c!"[" := by
    cases hm with
    | @bullet e he =>
      simp at hmx
      exact ⟨32, [], hmx.2.symm, by decide⟩
    | @num ds e hne hds he =>
      cases ds with
      | nil => exact absurd rfl hne
      | cons z ds =>
        simp at hmx
        cases ds with
        | nil =>
          refine ⟨e, [32], by simpa using hmx.2.symm, ?_⟩
          rintro rfl; revert he; decide
        | cons w ws =>
          refine ⟨w, ws ++ [e, 32], by simpa using hmx.2.symm, ?_⟩
          rintro rfl
          exact absurd (hds c!"[" (by simp)) (by decide)
  obtain ⟨y, ys, rfl, hy⟩ := hx
  have hfin : bulleted (d :: y :: ys ++ c :: s') = true ∨ numbered (d :: y :: ys ++ c :: s') = true := by
    cases hm with
    | @bullet e he =>
      left
      simp at hmx
      obtain ⟨rfl, rfl, rfl⟩ := hmx
      simp only [bulleted, List.cons_append]
      simp only [List.mem_cons, List.not_mem_nil, or_false] at he
      rcases he with rfl | rfl | rfl <;> rfl
    | @num ds e hne hds he =>
      right
      have e1 : d :: y :: ys ++ c :: s' = ds ++ e :: 32 :: c :: s' := by rw [← hmx]; simp
      have hdd : isDigit d = true := by
        cases ds with
        | nil => exact absurd rfl hne
        | cons z ds => simp at hmx; rw [← hmx.1]; exact hds z (by simp)
      have hed : isDigit e = false := by
        simp only [List.mem_cons, List.not_mem_nil, or_false] at he
        rcases he with rfl | rfl <;> decide
      have e2 := dropWhile_all (s := 32 :: c :: s') hds hed
      rw [← e1] at e2
      simp only [List.cons_append] at e2 ⊢
      simp only [numbered, hdd, if_true, e2]
      simp only [List.mem_cons, List.not_mem_nil, or_false] at he
      rcases he with rfl | rfl <;> rfl
  unfold classify
  simp only [ht]
  have q1 : (b!"*[".isPrefixOf (d :: y :: ys ++ c :: s')) = false := by
    simp [List.isPrefixOf, Ne.symm hy]
  have q2 : (b!"[>".isPrefixOf (d :: y :: ys ++ c :: s')) = false := by simp [List.isPrefixOf, Ne.symm n1]
  have q3 : (b!"<!--".isPrefixOf (d :: y :: ys ++ c :: s')) = false := by simp [List.isPrefixOf, Ne.symm n2]
  have q4 : (b!"{::".isPrefixOf (d :: y :: ys ++ c :: s')) = false := by simp [List.isPrefixOf, Ne.symm n3]
  have q5 : (b!"#".isPrefixOf (d :: y :: ys ++ c :: s')) = false := by simp [List.isPrefixOf, Ne.symm n4]
  have q6 : (b!"{:".isPrefixOf (d :: y :: ys ++ c :: s')) = false := by simp [List.isPrefixOf, Ne.symm n3]
  have q7 : (b!"{{TOC".isPrefixOf (d :: y :: ys ++ c :: s')) = false := by simp [List.isPrefixOf, Ne.symm n3]
  rw [q1, q2, q3, q4, q5, q6, q7]
  rw [if_neg (by simp)]
  simp only [Bool.or_self, Bool.false_eq_true, if_false]
  split
  · rfl
  · rcases hfin with h | h
    · rw [if_pos h]
    · rw [if_pos h]; simp

theorem extract_list {lib : Bytes → Option Meta} {m item rest : Bytes} {c : Byte} (hc : ¬ White c)
    (hi : (10 : Byte) ∉ item) (hm : ListMarker m) (hml : m.length ≤ 1000) :
    extract lib (m ++ 32 :: c :: item ++ 10 :: rest) = ([], m ++ 32 :: c :: item ++ 10 :: rest) := by
  have hcl := classify_list (item := item) hc hm hml
  have hmn : (10 : Byte) ∉ m ++ 32 :: c :: item := by
    intro h
    rcases List.mem_append.1 h with h | h
    · cases hm with
      | bullet hb => simp at h; subst h; exact absurd hb (by decide)
      | num h1 h2 h3 =>
        rcases List.mem_append.1 h with h | h
        · exact absurd (h2 10 h) (by decide)
        · simp at h; subst h; exact absurd h3 (by decide)
    · simp at h
      rcases h with h | h
      · exact hc (h ▸ .inr (.inr (.inl rfl)))
      · exact hi h
  have hn := nextLine_append (r := rest) hmn
  have hp : parseMmd (m ++ 32 :: c :: item ++ 10 :: rest) = ([], none) := by
    unfold parseMmd mmdLoop
    split
    · rename_i h'; rw [hn] at h'; simp at h'
    · rename_i h'
      rw [hn] at h'; simp at h'
      obtain ⟨rfl, rfl⟩ := h'
      rw [hcl]; simp
  have h2 : b!"---".isPrefixOf (m ++ 32 :: c :: item ++ 10 :: rest) = false ∧
      b!"%".isPrefixOf (m ++ 32 :: c :: item ++ 10 :: rest) = false := by
    cases hm with
    | @bullet d hd =>
      constructor
      · simp [List.isPrefixOf]
      · have : d ≠ c!"%" := by rintro rfl; revert hd; decide
        simp [List.isPrefixOf, Ne.symm this]
    | @num ds e hne hds he =>
      cases ds with
      | nil => exact absurd rfl hne
      | cons z zs =>
        have hz := hds z (by simp)
        have z1 : z ≠ c!"%" := by rintro rfl; revert hz; decide
        have z2 : z ≠ c!"-" := by rintro rfl; revert hz; decide
        constructor
        · simp [List.isPrefixOf, Ne.symm z2]
        · simp [List.isPrefixOf, Ne.symm z1]
  unfold extract
  rw [hp, h2.1, h2.2]
  simp

end Verif.MetaParse
