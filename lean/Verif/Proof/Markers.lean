import Verif.Model.Markers
import Verif.Spec.Markers
import Verif.Proof.DropBuf

namespace Verif.Markers

open Spec DropBuf

theorem blank_iff (c : Byte) : blank c = true ↔ (c = c!" " ∨ c = c!"\t") := by simp [blank]

theorem dropWhile_all {p : Byte → Bool} : ∀ (a b : Bytes), (∀ c ∈ a, p c = true) →
    (a ++ b).dropWhile p = b.dropWhile p := by
  intro a b h
  induction a with
  | nil => rfl
  | cons c t ih =>
    rw [List.cons_append, List.dropWhile_cons, if_pos (h c (by simp)), ih fun d hd => h d (by simp [hd])]

theorem takeWhile_all {p : Byte → Bool} : ∀ (a b : Bytes), (∀ c ∈ a, p c = true) → (∀ c ∈ b.head?, p c = false) →
    (a ++ b).takeWhile p = a := by
  intro a b h hb
  induction a with
  | nil => cases b with
    | nil => rfl
    | cons c t => rw [List.nil_append, List.takeWhile_cons, if_neg (by simpa using hb c (by simp))]
  | cons c t ih =>
    rw [List.cons_append, List.takeWhile_cons, if_pos (h c (by simp)), ih fun d hd => h d (by simp [hd])]

theorem takeWhile_mem {p : Byte → Bool} (s : Bytes) : ∀ c ∈ s.takeWhile p, p c = true := by
  induction s with
  | nil => simp
  | cons c t ih =>
    rw [List.takeWhile_cons]
    split
    · intro d hd
      rcases List.mem_cons.1 hd with rfl | h
      · assumption
      · exact ih d h
    · simp

theorem lineStart_iff (rev : Bytes) : lineStart rev = true ↔ AtLineStart rev.reverse := by
  unfold lineStart AtLineStart
  cases rev with
  | nil => simp
  | cons c t =>
    simp only [beq_iff_eq]
    constructor
    · intro h
      right
      have hs : c :: t = (c :: t).takeWhile blank ++ (c :: t).dropWhile blank := List.takeWhile_append_dropWhile.symm
      cases hd : (c :: t).dropWhile blank with
      | nil => rw [hd] at h; simp at h
      | cons d u =>
        rw [hd] at h hs
        simp at h
        subst h
        refine ⟨u.reverse, ((c :: t).takeWhile blank).reverse, ?_, ?_⟩
        · conv => lhs; rw [hs]
          simp
        · intro d hd
          exact (blank_iff d).1 (takeWhile_mem _ d (List.mem_reverse.1 hd))
    · rintro (h | ⟨p, ws, h, hw⟩)
      · simp at h
      · have h2 : c :: t = ws.reverse ++ c!"\n" :: p.reverse := by
          have := congrArg List.reverse h
          simpa using this
        rw [h2, dropWhile_all _ _ (by intro d hd; exact (blank_iff d).2 (hw d (List.mem_reverse.1 hd)))]
        rw [List.dropWhile_cons, if_neg (by decide)]
        rfl

theorem lineEnd_some {ws u behind : Bytes} (hw : Blanks ws) (hu : u = [] ∨ ∃ v, u = c!"\n" :: v) :
    lineEnd (ws ++ u ++ 0 :: behind) = some (u ++ 0 :: behind) := by
  unfold lineEnd
  rw [List.append_assoc, dropWhile_all _ _ fun c hc => (blank_iff c).2 (hw c hc)]
  rcases hu with rfl | ⟨v, rfl⟩
  · rw [List.nil_append, List.dropWhile_cons, if_neg (by decide)]
    simp
  · rw [List.cons_append, List.dropWhile_cons, if_neg (by decide)]
    simp

theorem lineEnd_iff {s behind after : Bytes} (h0 : 0 ∉ s) (h : lineEnd (s ++ 0 :: behind) = some after) :
    ∃ ws u, s = ws ++ u ∧ Blanks ws ∧ (u = [] ∨ ∃ v, u = c!"\n" :: v) ∧ after = u ++ 0 :: behind := by
  have hs : s = s.takeWhile blank ++ s.dropWhile blank := List.takeWhile_append_dropWhile.symm
  have hw : Blanks (s.takeWhile blank) := fun c hc => (blank_iff c).1 (takeWhile_mem _ c hc)
  generalize s.takeWhile blank = ws at hs hw
  have hu : ∀ c ∈ (s.dropWhile blank).head?, blank c = false := by
    intro c hc
    have := List.head?_dropWhile_not blank s
    cases hh : (s.dropWhile blank).head? with
    | none => rw [hh] at hc; simp at hc
    | some d => rw [hh] at hc this; simp at hc; subst hc; simpa using this
  generalize s.dropWhile blank = u at hs hu
  subst hs
  refine ⟨ws, u, rfl, hw, ?_⟩
  unfold lineEnd at h
  rw [List.append_assoc, dropWhile_all _ _ fun c hc => (blank_iff c).2 (hw c hc)] at h
  cases u with
  | nil =>
    rw [List.nil_append, List.dropWhile_cons, if_neg (by decide)] at h
    simp at h
    exact ⟨.inl rfl, by rw [← h]; rfl⟩
  | cons c v =>
    rw [List.cons_append, List.dropWhile_cons, if_neg (by have := hu c (by simp); simp [this])] at h
    simp only at h
    split at h
    · rename_i hc
      rcases hc with rfl | rfl
      · simp at h; exact ⟨.inr ⟨v, rfl⟩, by rw [← h]; rfl⟩
      · simp at h0
    · simp at h

theorem prefix_nul {p s b : Bytes} (h0 : 0 ∉ p) (h : p <+: s ++ 0 :: b) : p <+: s := by
  refine List.prefix_of_prefix_length_le h (List.prefix_append _ _) ?_
  refine Decidable.byContradiction fun hl => h0 ?_
  obtain ⟨t, ht⟩ := h
  have : (p ++ t)[s.length]? = some 0 := by rw [ht]; simp
  rw [List.getElem?_append_left (by omega)] at this
  exact List.mem_of_getElem? this

theorem isPrefixOf_false {p s b : Bytes} (h0 : 0 ∉ p) (h : ¬ p <+: s) : p.isPrefixOf (s ++ 0 :: b) = false := by
  cases hp : p.isPrefixOf (s ++ 0 :: b) with
  | false => rfl
  | true => exact absurd (prefix_nul h0 (List.isPrefixOf_iff_prefix.1 hp)) h

/-- What is written for a segment. -/
def toks : Seg → List Tok
  | .plain c => [.byte c]
  | .block _ _ => [.chunk endOfBlock]
  | .break => grow Markers.pageBreak
  | .leanpub => grow Markers.pageBreak
  | .pause ds => [.chunk (Markers.pause (value ds))]

/-- The number of a pause can be represented. -/
def Small : Seg → Prop
  | .pause ds => value ds < 2 ^ 31
  | _ => True

theorem step_marker {before after behind : Bytes} {e : Seg} {n : Nat} (hm : Marks before e after)
    (h0 : 0 ∉ e.source ++ after) (hs : Small e) :
    tokens (n + 1) before.reverse (e.source ++ after ++ 0 :: behind) =
      (tokens n (before ++ e.source).reverse (after ++ 0 :: behind) >>= fun ts => .val (toks e ++ ts)) := by
  cases e with
  | plain c => exact hm.elim
  | block ws nl =>
    obtain ⟨h1, h2, h3⟩ := hm
    have e1 : (Seg.block ws nl).source ++ after ++ 0 :: behind =
        c!"^" :: (ws ++ ((if nl then b!"\n" else []) ++ after) ++ 0 :: behind) := by simp [Seg.source]
    have hle : lineEnd (ws ++ ((if nl then b!"\n" else []) ++ after) ++ 0 :: behind) =
        some ((if nl then b!"\n" else []) ++ after ++ 0 :: behind) := by
      refine lineEnd_some h2 ?_
      cases nl with
      | true => exact .inr ⟨after, rfl⟩
      | false => exact .inl (by simp [h3 rfl])
    rw [e1, tokens]
    simp only []
    rw [if_neg (by decide), if_pos ⟨trivial, (lineStart_iff _).2 (by simpa using h1)⟩, hle]
    simp only []
    have hrest : (if ((if nl then b!"\n" else []) ++ after ++ 0 :: behind).head? = some c!"\n"
        then ((if nl then b!"\n" else []) ++ after ++ 0 :: behind).drop 1
        else (if nl then b!"\n" else []) ++ after ++ 0 :: behind) = after ++ 0 :: behind := by
      cases nl with
      | true => simp
      | false => rw [h3 rfl]; simp
    rw [hrest]
    have hrev : (c!"^" :: (ws ++ ((if nl then b!"\n" else []) ++ after) ++ 0 :: behind)).take
        ((c!"^" :: (ws ++ ((if nl then b!"\n" else []) ++ after) ++ 0 :: behind)).length - (after ++ 0 :: behind).length) =
        (Seg.block ws nl).source := by
      rw [← e1, List.append_assoc, List.length_append, Nat.add_sub_cancel, List.take_left]
    rw [hrev]
    simp only [List.reverse_append, toks, List.singleton_append]
  | «break» =>
    have e1 : Seg.break.source ++ after ++ 0 :: behind = b!"<!--BREAK-->" ++ (after ++ 0 :: behind) := by simp [Seg.source]
    rw [e1, List.cons_append, tokens]
    simp only []
    rw [if_neg (by decide), if_neg (by simp)]
    simp only []
    rw [← List.cons_append, if_pos (by simp)]
    simp only [toks, Seg.source, List.reverse_append]
    rfl
  | leanpub =>
    have e1 : Seg.leanpub.source ++ after ++ 0 :: behind = b!"{::pagebreak /}" ++ (after ++ 0 :: behind) := by simp [Seg.source]
    rw [e1, List.cons_append, tokens]
    simp only []
    rw [if_neg (by decide), if_neg (by simp)]
    simp only []
    rw [← List.cons_append, if_neg (by simp), if_neg (by simp), if_pos (by simp)]
    simp only [toks, Seg.source, List.reverse_append]
    rfl
  | pause ds =>
    have e1 : (Seg.pause ds).source ++ after ++ 0 :: behind =
        b!"<!--PAUSE:" ++ (ds ++ (b!"-->" ++ (after ++ 0 :: behind))) := by simp [Seg.source]
    have hnum : (ds ++ (b!"-->" ++ (after ++ 0 :: behind))).takeWhile isDigit = ds :=
      takeWhile_all _ _ hm (by simp; decide)
    have hend : (ds ++ (b!"-->" ++ (after ++ 0 :: behind))).dropWhile isDigit = b!"-->" ++ (after ++ 0 :: behind) := by
      rw [dropWhile_all _ _ hm, List.cons_append, List.dropWhile_cons, if_neg (by decide)]
    have hd10 : (b!"<!--PAUSE:" ++ (ds ++ (b!"-->" ++ (after ++ 0 :: behind)))).drop 10 =
        ds ++ (b!"-->" ++ (after ++ 0 :: behind)) := rfl
    have htake : (b!"<!--PAUSE:" ++ (ds ++ (b!"-->" ++ (after ++ 0 :: behind)))).take (13 + ds.length) =
        (Seg.pause ds).source := by
      rw [← e1, List.append_assoc]
      exact List.take_left' (by simp [Seg.source]; omega)
    rw [e1, List.cons_append, tokens]
    simp only []
    rw [if_neg (by decide), if_neg (by simp)]
    simp only []
    rw [← List.cons_append, if_neg (by simp), if_pos (by simp), hd10, hnum, hend, if_pos (by simp), if_pos (show value ds < 2 ^ 31 from hs), htake]
    simp only [toks, List.reverse_append]
    rfl

theorem step_plain {before t behind : Bytes} {c : Byte} {n : Nat}
    (hm : ∀ e after, c :: t = e.source ++ after → ¬ Marks before e after) (h0 : 0 ∉ c :: t)
    (hi : c :: t ≠ b!"{index}") :
    tokens (n + 1) before.reverse (c :: t ++ 0 :: behind) =
      (tokens n (before ++ [c]).reverse (t ++ 0 :: behind) >>= fun ts => .val (.byte c :: ts)) := by
  rw [List.cons_append, tokens]
  simp only []
  rw [if_neg (by rintro rfl; simp at h0)]
  have hblock : (if c = c!"^" ∧ lineStart before.reverse = true then lineEnd (t ++ 0 :: behind) else none) = none := by
    split
    · rename_i h
      cases hl : lineEnd (t ++ 0 :: behind) with
      | none => rfl
      | some a =>
        exfalso
        obtain ⟨ws, u, rfl, hw, hu, _⟩ := lineEnd_iff (by simp at h0; simp [h0]) hl
        have hst : AtLineStart before := by simpa using (lineStart_iff _).1 h.2
        rcases hu with rfl | ⟨v, rfl⟩
        · exact hm (.block ws false) [] (by simp [Seg.source, h.1]) ⟨hst, hw, fun _ => rfl⟩
        · exact hm (.block ws true) v (by simp [Seg.source, h.1]) ⟨hst, hw, by simp⟩
    · rfl
  rw [hblock]
  simp only []
  rw [← List.cons_append]
  have hbrk : ¬ b!"<!--BREAK-->" <+: c :: t := fun ⟨a, h⟩ => hm .break a h.symm trivial
  have hlean : ¬ b!"{::pagebreak /}" <+: c :: t := fun ⟨a, h⟩ => hm .leanpub a h.symm trivial
  rw [isPrefixOf_false (by decide) hbrk, isPrefixOf_false (by decide) hlean]
  have hidx : (b!"{index}" ++ [0]).isPrefixOf (c :: t ++ 0 :: behind) = false := by
    cases hp : (b!"{index}" ++ [0]).isPrefixOf (c :: t ++ 0 :: behind) with
    | false => rfl
    | true =>
      exfalso
      have hp := List.isPrefixOf_iff_prefix.1 hp
      have h1 : b!"{index}" <+: c :: t := prefix_nul (by decide) ((List.prefix_append _ _).trans hp)
      obtain ⟨u, hu⟩ := h1
      cases u with
      | nil => exact hi (by rw [← hu]; rfl)
      | cons d u =>
        rw [← hu] at hp
        simp at hp
        rw [← hu] at h0
        simp at h0
        exact h0.1 hp
  rw [hidx]
  simp only [Bool.false_eq_true, if_false]
  have hret : (before ++ [c]).reverse = c :: before.reverse := by simp
  rw [hret]
  split
  · rename_i hp
    split
    · rename_i hq
      exfalso
      have hp := prefix_nul (by decide) (List.isPrefixOf_iff_prefix.1 hp)
      obtain ⟨u, hu⟩ := hp
      rw [← hu] at hq h0 hm
      have e1 : (b!"<!--PAUSE:" ++ u ++ 0 :: behind).drop 10 = u ++ 0 :: behind := by simp
      rw [e1] at hq
      have hsplit : u = u.takeWhile isDigit ++ u.dropWhile isDigit := List.takeWhile_append_dropWhile.symm
      have hd := takeWhile_mem (p := isDigit) u
      have hdw : (u ++ 0 :: behind).dropWhile isDigit = u.dropWhile isDigit ++ 0 :: behind := by
        conv => lhs; rw [hsplit, List.append_assoc]
        rw [dropWhile_all _ _ hd]
        cases hdu : u.dropWhile isDigit with
        | nil => rw [List.nil_append, List.dropWhile_cons, if_neg (by decide)]; 
        | cons x y =>
          have := List.head?_dropWhile_not isDigit u
          rw [hdu] at this
          rw [List.cons_append, List.dropWhile_cons, if_neg (by simpa using this)]
      rw [hdw] at hq
      obtain ⟨a, ha⟩ := prefix_nul (by decide) (List.isPrefixOf_iff_prefix.1 hq)
      refine hm (.pause (u.takeWhile isDigit)) a ?_ hd
      simp only [Seg.source, List.append_assoc]
      rw [ha, ← hsplit]
    · rfl
  · rfl

theorem tokens_spec {before s behind : Bytes} {d : List Seg} (h : Reads before s d) : ∀ n, s.length < n → 0 ∉ s →
    ¬ b!"{index}" <:+ s → (∀ e ∈ d, Small e) →
    tokens n before.reverse (s ++ 0 :: behind) = .val (d.flatMap toks) := by
  induction h with
  | nil =>
    intro n hn _ _ _
    cases n with
    | zero => simp at hn
    | succ n => simp [tokens]
  | @plain before c t d hm _ ih =>
    intro n hn h0 hi hs
    cases n with
    | zero => simp at hn
    | succ n =>
      rw [step_plain hm h0 (fun h => hi (by rw [h]; exact List.suffix_refl _))]
      rw [ih n (by simp at hn; omega) (by simp at h0; exact h0.2) (fun h => hi (h.trans (List.suffix_cons _ _)))
        (fun e he => hs e (by simp [he])), C.val_bind]
      rfl
  | @marker before e after d hm _ ih =>
    intro n hn h0 hi hs
    cases n with
    | zero => simp at hn
    | succ n =>
      have hpos : 0 < e.source.length := by cases e <;> simp [Seg.source]
      rw [step_marker hm h0 (hs e (by simp))]
      rw [ih n (by simp at hn; omega) (by simp at h0; exact h0.2) (fun h => hi (h.trans (List.suffix_append _ _)))
        (fun e he => hs e (by simp [he])), C.val_bind]
      rfl

theorem reads_source {before s : Bytes} {d : List Seg} (h : Reads before s d) : d.flatMap Seg.source = s := by
  induction h with
  | nil => rfl
  | plain _ _ ih => rw [List.flatMap_cons, ih]; rfl
  | marker _ _ ih => rw [List.flatMap_cons, ih]

theorem reads_exists : ∀ (n : Nat) (before s : Bytes), s.length ≤ n → ∃ d, Reads before s d := by
  intro n
  induction n with
  | zero =>
    intro before s h
    have : s = [] := by simpa using h
    subst this
    exact ⟨[], .nil⟩
  | succ n ih =>
    intro before s h
    cases s with
    | nil => exact ⟨[], .nil⟩
    | cons c t =>
      by_cases hm : ∃ e after, c :: t = e.source ++ after ∧ Marks before e after
      · obtain ⟨e, after, he, hm⟩ := hm
        have hpos : 0 < e.source.length := by cases e <;> simp [Seg.source]
        have hl := congrArg List.length he
        rw [List.length_append] at hl
        obtain ⟨d, hd⟩ := ih (before ++ e.source) after (by omega)
        exact ⟨e :: d, by rw [he]; exact .marker hm hd⟩
      · obtain ⟨d, hd⟩ := ih (before ++ [c]) t (by simp at h; omega)
        exact ⟨.plain c :: d, .plain (fun e after he h => hm ⟨e, after, he, h⟩) hd⟩

/-! ### Numbers -/

theorem value_concat (ds : Bytes) (c : Byte) : value (ds ++ [c]) = value ds * 10 + (c.toNat - 48) := by
  simp [value]

theorem digit_toNat {c : Byte} (h : isDigit c = true) : 48 ≤ c.toNat ∧ c.toNat ≤ 57 := by
  exact forall_byte (p := fun c => isDigit c = true → 48 ≤ c.toNat ∧ c.toNat ≤ 57) (by decide +kernel) c h

theorem digit_byte {c : Byte} (h : isDigit c = true) : UInt8.ofNat (48 + (c.toNat - 48)) = c := by
  exact forall_byte (p := fun c => isDigit c = true → UInt8.ofNat (48 + (c.toNat - 48)) = c) (by decide +kernel) c h

theorem decimal_eq (n : Nat) : Man.decimal n = if n < 10 then [.ofNat (48 + n)] else Man.decimal (n / 10) ++ [.ofNat (48 + n % 10)] := by
  rw [Man.decimal]

theorem plainNumber_concat {ds : Bytes} {c : Byte} : plainNumber (ds ++ [c]) =
    if ∀ d ∈ ds, d = c!"0" then [c] else plainNumber ds ++ [c] := by
  induction ds with
  | nil =>
    unfold plainNumber
    by_cases h : c = c!"0"
    · subst h; rfl
    · rw [if_pos (by simp), List.nil_append, List.dropWhile_cons, if_neg (by simpa using h)]
  | cons x xs ih =>
    by_cases h : x = c!"0"
    · have h1 : plainNumber (x :: xs ++ [c]) = plainNumber (xs ++ [c]) := by
        unfold plainNumber
        rw [List.cons_append, List.dropWhile_cons, if_pos (by simpa using h)]
      have h2 : plainNumber (x :: xs) = plainNumber xs := by
        unfold plainNumber
        rw [List.dropWhile_cons, if_pos (by simpa using h)]
      rw [h1, h2, ih]
      by_cases hx : ∀ d ∈ xs, d = c!"0"
      · rw [if_pos hx, if_pos]
        intro d hd
        rcases List.mem_cons.1 hd with rfl | hd
        · exact h
        · exact hx d hd
      · rw [if_neg hx, if_neg]
        exact fun hh => hx fun d hd => hh d (by simp [hd])
    · rw [if_neg fun hh => h (hh x (by simp))]
      unfold plainNumber
      rw [List.cons_append, List.dropWhile_cons, if_neg (by simpa using h), List.dropWhile_cons, if_neg (by simpa using h)]
      rfl

theorem decimal_value : ∀ (n : Nat) (ds : Bytes), ds.length = n → (∀ c ∈ ds, isDigit c = true) →
    Man.decimal (value ds) = plainNumber ds ∧ (value ds = 0 ↔ ∀ d ∈ ds, d = c!"0") := by
  intro n
  induction n with
  | zero =>
    intro ds h _
    have : ds = [] := by simpa using h
    subst this
    constructor
    · rw [decimal_eq]; rfl
    · simp [value]
  | succ n ih =>
    intro ds h hd
    obtain ⟨xs, c, rfl⟩ : ∃ xs c, ds = xs ++ [c] := by
      have hne : ds ≠ [] := by rintro rfl; simp at h
      exact ⟨ds.dropLast, ds.getLast hne, (List.dropLast_concat_getLast hne).symm⟩
    have hc := hd c (by simp)
    have ⟨hc1, hc2⟩ := digit_toNat hc
    obtain ⟨i1, i2⟩ := ih xs (by simpa using h) fun d hx => hd d (by simp [hx])
    rw [value_concat, plainNumber_concat]
    constructor
    · by_cases hz : ∀ d ∈ xs, d = c!"0"
      · rw [if_pos hz, i2.2 hz, decimal_eq, if_pos (by omega), Nat.zero_mul, Nat.zero_add, digit_byte hc]
      · have : value xs ≠ 0 := fun h => hz (i2.1 h)
        rw [if_neg hz, decimal_eq, if_neg (by omega)]
        rw [show (value xs * 10 + (c.toNat - 48)) / 10 = value xs by omega,
          show (value xs * 10 + (c.toNat - 48)) % 10 = c.toNat - 48 by omega, i1, digit_byte hc]
    · have hc0 : c.toNat - 48 = 0 ↔ c = c!"0" := by
        constructor
        · intro h
          have : c.toNat = 48 := by omega
          exact UInt8.toNat_inj.1 this
        · rintro rfl; rfl
      constructor
      · intro hv
        have h1 := i2.1 (by omega)
        intro d hx
        rcases List.mem_append.1 hx with hx | hx
        · exact h1 d hx
        · simp at hx; subst hx; exact hc0.1 (by omega)
      · intro hall
        have h1 := i2.2 fun d hx => hall d (by simp [hx])
        have h2 := hc0.2 (hall c (by simp))
        omega

theorem plainNumber_length (ds : Bytes) : (plainNumber ds).length ≤ ds.length + 1 := by
  unfold plainNumber
  split
  · simp
  · have := (List.dropWhile_suffix (l := ds) (· == c!"0")).length_le
    omega

theorem reads_digits {before s : Bytes} {d : List Seg} (h : Reads before s d) : ∀ e ∈ d, ∀ ds, e = .pause ds →
    ∀ c ∈ ds, isDigit c = true := by
  induction h with
  | nil => simp
  | plain _ _ ih =>
    intro e he ds h
    rcases List.mem_cons.1 he with rfl | he
    · simp at h
    · exact ih e he ds h
  | marker hm _ ih =>
    intro e he ds h
    rcases List.mem_cons.1 he with rfl | he
    · subst h; exact hm
    · exact ih e he ds h

theorem toks_out {e : Seg} (h : ∀ ds, e = .pause ds → ∀ c ∈ ds, isDigit c = true) :
    (toks e).flatMap Tok.out = e.html := by
  cases e with
  | plain c => rfl
  | block ws nl => rfl
  | «break» => rfl
  | leanpub => rfl
  | pause ds => simp [toks, Tok.out, Seg.html, Markers.pause, (decimal_value _ ds rfl (h ds rfl)).1]

theorem toks_flat : ∀ (d : List Seg), (∀ e ∈ d, ∀ ds, e = .pause ds → ∀ c ∈ ds, isDigit c = true) →
    (d.flatMap toks).flatMap Tok.out = d.flatMap Seg.html := by
  intro d h
  induction d with
  | nil => rfl
  | cons e d ih =>
    rw [List.flatMap_cons, List.flatMap_append, List.flatMap_cons, toks_out (h e (by simp)), ih fun e he => h e (by simp [he])]

theorem process_fits {text behind : Bytes} {d : List Seg} (hd : Reads [] text d) (h0 : 0 ∉ text)
    (hi : ¬ b!"{index}" <:+ text) (hs : ∀ e ∈ d, Small e) (hfit : (d.flatMap Seg.html).length < text.length * 4) :
    process behind text = .val (d.flatMap Seg.html) := by
  unfold process
  have := tokens_spec (behind := behind) hd (text.length + 1 + behind.length) (by omega) h0 hi hs
  rw [List.reverse_nil] at this
  rw [this, C.val_bind]
  have ho := toks_flat d (reads_digits hd)
  rw [run_room, ho]
  · intro t ht n m h
    subst h
    rw [List.mem_flatMap] at ht
    obtain ⟨e, _, ht⟩ := ht
    cases e <;> simp [toks, grow] at ht <;> omega
  · rw [ho]; exact hfit

theorem reads_small_html {before s : Bytes} {d : List Seg} (h : Reads before s d) (hne : s.getLast? ≠ some c!"^")
    (hb : ∀ e ∈ d, e ≠ .break ∧ e ≠ .leanpub) : (d.flatMap Seg.html).length + d.length ≤ s.length * 4 := by
  induction h with
  | nil => simp
  | @plain before c t d _ _ ih =>
    have hlast : t.getLast? ≠ some c!"^" := by
      intro h; apply hne; rw [List.getLast?_cons, h]; rfl
    have := ih hlast fun e he => hb e (by simp [he])
    rw [List.flatMap_cons, List.length_append, List.length_cons, List.length_cons]
    simp only [Seg.html, List.length_singleton]
    omega
  | @marker before e after d hm _ ih =>
    have hlast : after.getLast? ≠ some c!"^" := by
      intro h; apply hne; rw [List.getLast?_append, h]; rfl
    have hi := ih hlast fun e he => hb e (by simp [he])
    have hb' := hb e (by simp)
    have he : e.html.length + 1 ≤ e.source.length * 4 := by
      cases e with
      | plain c => exact hm.elim
      | «break» => exact absurd rfl hb'.1
      | leanpub => exact absurd rfl hb'.2
      | pause ds =>
        have := plainNumber_length ds
        simp [Seg.html, Seg.source]
        omega
      | block ws nl =>
        cases nl with
        | true => simp [Seg.html, Seg.source]; omega
        | false =>
          have ha := hm.2.2 rfl
          subst ha
          cases ws with
          | nil => simp [Seg.source] at hne
          | cons c ws => simp [Seg.html, Seg.source]; omega
    rw [List.flatMap_cons, List.length_append, List.length_cons, List.length_append]
    omega

end Verif.Markers
