import Verif.Spec.AlphaLists
import Verif.Proof.Liquid

namespace Verif.AlphaLists

open Spec
open Text.Spec (joined)
open FencedDivs (Buf Buf.store)

/-! ### Writes of the first function -/

theorem toInt_small (n : Nat) (h : n < 2 ^ 31) : toInt n = n := by unfold toInt; omega

theorem print_room (b : Buf) (s : Bytes) (h : b.out.length + s.length < b.cap) (hc : b.cap < 2 ^ 31) :
    print b s = ⟨b.out ++ s, b.cap⟩ := by
  unfold print
  rw [toInt_small _ (by omega), if_pos (by omega)]

theorem copy_room (b : Buf) (s : Bytes) (h : b.out.length + s.length ≤ b.cap) : copy b s = ⟨b.out ++ s, b.cap⟩ := by
  unfold copy
  rw [List.take_of_length_le (by omega)]

/-! ### Lines -/

theorem blank_iff (c : Byte) : blank c = true ↔ c = 32 ∨ c = 9 := by simp [blank]

theorem blank_all {s : Bytes} (h : Blank s) : ∀ c ∈ s, blank c = true := fun c hc => (blank_iff c).2 (h c hc)

theorem letter_class (up : Bool) (k : Nat) : isUpper (letter up k) = up ∧ (isLower (letter up k) || isUpper (letter up k)) = true ∧ blank (letter up k) = false := by
  have h : ∀ up : Bool, ∀ m < 26, isUpper (UInt8.ofNat ((if up then 65 else 97) + m)) = up ∧
      (isLower (UInt8.ofNat ((if up then 65 else 97) + m)) || isUpper (UInt8.ofNat ((if up then 65 else 97) + m))) = true ∧
      blank (UInt8.ofNat ((if up then 65 else 97) + m)) = false := by decide
  exact h up (k % 26) (Nat.mod_lt _ (by decide))

theorem letter_next (up : Bool) (k : Nat) :
    (if letter up k + 1 > (if up then c!"Z" else c!"z") then (if up then c!"A" else c!"a") else letter up k + 1) = letter up (k + 1) := by
  have h : ∀ up : Bool, ∀ m < 26, (if UInt8.ofNat ((if up then 65 else 97) + m) + 1 > (if up then c!"Z" else c!"z") then (if up then c!"A" else c!"a") else
      UInt8.ofNat ((if up then 65 else 97) + m) + 1) = UInt8.ofNat ((if up then 65 else 97) + (m + 1) % 26) := by decide
  have := h up (k % 26) (Nat.mod_lt _ (by decide))
  unfold letter
  rw [this, Nat.mod_add_mod]

theorem letter_inj {up up' : Bool} {k k' : Nat} (h : letter up k = letter up' k') : up = up' ∧ k % 26 = k' % 26 := by
  have g : ∀ up up' : Bool, ∀ m < 26, ∀ m' < 26, UInt8.ofNat ((if up then 65 else 97) + m) = UInt8.ofNat ((if up' then 65 else 97) + m') → up = up' ∧ m = m' := by decide +kernel
  exact g up up' (k % 26) (Nat.mod_lt _ (by decide)) (k' % 26) (Nat.mod_lt _ (by decide)) h

theorem exists_letter (c : Byte) (h : (isLower c || isUpper c) = true) : ∃ up k, c = letter up k := by
  have g : ∀ n < 256, (isLower (UInt8.ofNat n) || isUpper (UInt8.ofNat n)) = true →
      ∃ up, UInt8.ofNat n = letter up (n - if up then 65 else 97) := by decide +kernel
  obtain ⟨up, e⟩ := g c.toNat c.toNat_lt (by rwa [UInt8.ofNat_toNat])
  rw [UInt8.ofNat_toNat] at e
  exact ⟨up, _, e⟩

theorem tail_match {r : Bytes} : tail r = true ↔ Tail r := by
  cases r with
  | nil => exact ⟨fun _ c hc => by simp at hc, fun _ => rfl⟩
  | cons x r => exact ⟨fun h c hc => by simp at hc; subst hc; exact (blank_iff x).1 h, fun h => (blank_iff x).2 (h x rfl)⟩

theorem item_of (a : Bytes) (up : Bool) (k : Nat) (r : Bytes) (ha : Blank a) (hr : Tail r) :
    item (a ++ letter up k :: c!"." :: r) = some (a, letter up k, r) := by
  obtain ⟨h1, h2, h3⟩ := letter_class up k
  unfold item
  rw [List.dropWhile_append_of_pos (blank_all ha), List.dropWhile_cons_of_neg (by simp [h3])]
  simp only [h2, tail_match.2 hr, beq_self_eq_true, Bool.true_and, if_true]
  rw [List.takeWhile_append_of_pos (blank_all ha), List.takeWhile_cons_of_neg (by simp [h3])]
  simp

theorem item_some {s a : Bytes} {c : Byte} {r : Bytes} (h : item s = some (a, c, r)) :
    Blank a ∧ Tail r ∧ (isLower c || isUpper c) = true ∧ s = a ++ c :: c!"." :: r := by
  unfold item at h
  have hs := List.takeWhile_append_dropWhile (p := blank) (l := s)
  split at h
  · rename_i x d t hd
    split at h
    · rename_i hc
      simp only [Option.some.injEq, Prod.mk.injEq] at h
      obtain ⟨rfl, rfl, rfl⟩ := h
      simp only [Bool.and_eq_true, beq_iff_eq] at hc
      obtain ⟨⟨h1, h2⟩, h3⟩ := hc
      refine ⟨fun y hy => (blank_iff y).1 (List.all_eq_true.1 (List.all_takeWhile) y hy), tail_match.1 h3, h1, ?_⟩
      · conv => lhs; rw [← hs, hd, h2]
    · simp at h
  · simp at h

theorem item_none {s : Bytes} : item s = none ↔ ¬ IsItem s := by
  constructor
  · rintro h ⟨a, up, k, r, ha, hr, rfl⟩
    rw [item_of a up k r ha hr] at h
    simp at h
  · intro h
    cases hi : item s with
    | none => rfl
    | some x =>
      obtain ⟨a, c, r⟩ := x
      obtain ⟨h1, h2, h3, h4⟩ := item_some hi
      obtain ⟨up, k, rfl⟩ := exists_letter c h3
      exact absurd ⟨a, up, k, r, h1, h2, h4⟩ h

theorem blank_drop (s : Bytes) : s.dropWhile blank = [] ↔ Blank s := by
  constructor
  · intro h c hc
    have hs := List.takeWhile_append_dropWhile (p := blank) (l := s)
    rw [h, List.append_nil] at hs
    rw [← hs] at hc
    exact (blank_iff c).1 (List.all_eq_true.1 (List.all_takeWhile) c hc)
  · intro h
    have := List.dropWhile_append_of_pos (p := blank) (l₁ := s) (l₂ := []) (blank_all h)
    simpa using this

theorem blank_noItem {s : Bytes} (h : Blank s) : item s = none := by
  unfold item
  rw [(blank_drop s).2 h]

/-! ### Line by line -/

/-- The lines one after the other. -/
def preLines (st : St) (b : Buf) : List Bytes → C Buf
  | [] => .val b
  | l :: ls =>
    match preLine st b l (if ls = [] then [] else [10]) with
    | .ub => .ub
    | .val (st, b) => preLines st b ls

theorem preLine_empty (st : St) (b : Buf) : ∃ st', preLine st b [] [] = .val (st', b) := by
  have hc : copy b [] = b := by simp [copy]
  unfold preLine
  have hi : item [] = none := rfl
  simp only [hi, List.dropWhile_nil, List.append_nil, hc]
  split
  · exact ⟨_, rfl⟩
  · exact ⟨_, rfl⟩

theorem takeWhile_line (l r : Bytes) (h : 10 ∉ l) : (l ++ 10 :: r).takeWhile (· != 10) = l ∧ (l ++ 10 :: r).dropWhile (· != 10) = 10 :: r := by
  have hp : ∀ c ∈ l, (c != 10) = true := by
    intro c hc
    simp
    intro e
    exact h (e ▸ hc)
  rw [List.takeWhile_append_of_pos hp, List.dropWhile_append_of_pos hp]
  simp

theorem preLoop_lines (ls : List Bytes) (h : ∀ l ∈ ls, 10 ∉ l) (n : Nat) (hn : (joined 10 ls).length < n) (st : St) (b : Buf) :
    preLoop n st b (joined 10 ls) = preLines st b ls := by
  induction ls generalizing n st b with
  | nil =>
    obtain ⟨n, rfl⟩ : ∃ m, n = m + 1 := ⟨n - 1, by omega⟩
    simp [joined, preLines, preLoop]
  | cons l ls ih =>
    obtain ⟨n, rfl⟩ : ∃ m, n = m + 1 := ⟨n - 1, by omega⟩
    cases ls with
    | nil =>
      simp only [joined, preLines]
      rw [preLoop]
      by_cases hl : l = []
      · rw [if_pos hl, hl]
        obtain ⟨st', e⟩ := preLine_empty st b
        rw [if_pos trivial, e]
      · rw [if_neg hl, if_pos trivial]
        have hp : ∀ c ∈ l, (c != 10) = true := by
          intro c hc
          simp
          intro e
          exact h l (by simp) (e ▸ hc)
        have e1 : l.takeWhile (· != 10) = l := by
          have := List.takeWhile_append_of_pos (p := (· != 10)) (l₁ := l) (l₂ := []) hp
          simpa using this
        have e2 : l.dropWhile (· != 10) = [] := by
          have := List.dropWhile_append_of_pos (p := (· != 10)) (l₁ := l) (l₂ := []) hp
          simpa using this
        simp only [e1, e2]
        cases preLine st b l [] with
        | ub => rfl
        | val x => rfl
    | cons m ls =>
      simp only [joined] at hn ⊢
      obtain ⟨e1, e2⟩ := takeWhile_line l (joined 10 (m :: ls)) (h l (by simp))
      rw [preLoop, if_neg (by simp), preLines]
      simp only [e1, e2, if_neg (List.cons_ne_nil m ls)]
      cases preLine st b l [10] with
      | ub => rfl
      | val x =>
        simp only
        exact ih (fun x hx => h x (by simp [hx])) n (by simp at hn; omega) _ _

/-- From the state, the lines give the new lines. -/
def Gives (st : St) (ls out : List Bytes) : Prop :=
  (ls = [] ↔ out = []) ∧ ∀ b : Buf, b.out.length + (joined 10 out).length < b.cap → b.cap < 2 ^ 31 →
    preLines st b ls = .val ⟨b.out ++ joined 10 out, b.cap⟩

/-- From the state, the line gives a new line and another state. -/
def Line (st : St) (l o : Bytes) (st' : St) : Prop :=
  ∀ (b : Buf) (nl : Bytes), b.out.length + o.length + nl.length < b.cap → b.cap < 2 ^ 31 →
    preLine st b l nl = .val (st', ⟨b.out ++ o ++ nl, b.cap⟩)

theorem Gives.nil (st : St) : Gives st [] [] := ⟨Iff.rfl, fun b _ _ => by simp [preLines, joined]⟩

theorem Line.gives {st st' : St} {l o : Bytes} {ls out : List Bytes} (h : Line st l o st') (g : Gives st' ls out) :
    Gives st (l :: ls) (o :: out) := by
  refine ⟨by simp, fun b hb hc => ?_⟩
  rw [preLines]
  cases ls with
  | nil =>
    have := g.1.1 rfl
    subst this
    simp only [joined] at hb ⊢
    rw [if_pos trivial, h b [] (by simpa using hb) hc]
    simp [preLines]
  | cons m ls =>
    have ho : out ≠ [] := fun e => absurd (g.1.2 e) (by simp)
    obtain ⟨p, out, rfl⟩ := List.exists_cons_of_ne_nil ho
    simp only [joined, List.length_append, List.length_cons] at hb ⊢
    rw [if_neg (by simp), h b [10] (by simp only [List.length_cons, List.length_nil]; omega) hc]
    simp only
    rw [g.2 ⟨b.out ++ o ++ [10], b.cap⟩ (by simp only [List.length_append, List.length_cons, List.length_nil]; omega) hc]
    simp

/-! ### Lists -/

/-- In a list that goes on with letter `k` and number `j`. -/
def At (st : St) (up : Bool) (k j : Nat) : Prop :=
  st.on = true ∧ st.isUpper = up ∧ st.number = j ∧ (if up then st.upper else st.lower) = letter up k

theorem line_next {st : St} {up : Bool} {k j : Nat} (h : At st up k j) (e : Entry) (he : e.Ok) :
    ∃ st', Line st (e.indent ++ letter up k :: c!"." :: e.rest) (e.indent ++ Man.decimal j ++ b!". " ++ e.rest) st' ∧
      At st' up (k + 1) (j + 1) ∧ st'.blanks = 0 := by
  obtain ⟨h1, h2, h3, h4⟩ := h
  obtain ⟨e1, e2, e3, e4⟩ := he
  obtain ⟨l1, l2, l3⟩ := letter_class up k
  have hn := letter_next up k
  refine ⟨⟨true, if up then st.lower else letter up (k + 1), if up then letter up (k + 1) else st.upper, up, j + 1, 0⟩,
    fun b nl hb hc => ?_, ⟨rfl, rfl, rfl, by cases up <;> rfl⟩, rfl⟩
  unfold preLine
  rw [item_of _ _ _ _ e1 e2]
  simp only [List.length_append, List.length_cons, List.length_nil] at hb
  simp only [h1, h2, l1, beq_self_eq_true, Bool.true_and, h3]
  have hcont : (if up then letter up k == st.upper else letter up k == st.lower) = true := by
    cases up <;> simp_all
  rw [if_pos hcont]
  simp only [h1, h2, h3]
  rw [print_room _ _ (by simp only [List.length_append, List.length_cons, List.length_nil]; omega) hc,
    copy_room _ _ (by simp only [List.length_append, List.length_cons, List.length_nil]; omega)]
  cases up <;> simp_all

theorem line_first (st : St) (up : Bool) (k : Nat) (hst : ¬ (st.on = true ∧ st.isUpper = up ∧ (if up then st.upper else st.lower) = letter up k))
    (e : Entry) (he : e.Ok) :
    ∃ st', Line st (e.indent ++ letter up k :: c!"." :: e.rest) (mark up ++ (e.indent ++ Man.decimal 1 ++ b!". " ++ e.rest)) st' ∧
      At st' up (k + 1) 2 ∧ st'.blanks = 0 := by
  obtain ⟨e1, e2, e3, e4⟩ := he
  obtain ⟨l1, l2, l3⟩ := letter_class up k
  have hn := letter_next up k
  refine ⟨⟨true, if up then st.lower else letter up (k + 1), if up then letter up (k + 1) else st.upper, up, 2, 0⟩,
    fun b nl hb hc => ?_, ⟨rfl, rfl, rfl, by cases up <;> rfl⟩, rfl⟩
  unfold preLine
  rw [item_of _ _ _ _ e1 e2]
  simp only [List.length_append, List.length_cons, List.length_nil] at hb
  have hcont : (st.on && up == st.isUpper && if up then letter up k == st.upper else letter up k == st.lower) = false := by
    rw [Bool.eq_false_iff]
    intro hh
    apply hst
    cases up <;> simp_all
  simp only [l1, hcont, Bool.false_eq_true, if_false]
  rw [print_room b (mark up) (by omega) hc]
  rw [print_room ⟨b.out ++ mark up, b.cap⟩ _ (by simp only [List.length_append, List.length_cons, List.length_nil]; omega) hc,
    copy_room _ _ (by simp only [List.length_append, List.length_cons, List.length_nil]; omega)]
  cases up <;> simp_all

theorem line_gap {st : St} {up : Bool} {k j : Nat} (h : At st up k j) (hb : st.blanks = 0) (g : Bytes) (hg : Blank g) :
    ∃ st', Line st g g st' ∧ At st' up k j ∧ st'.blanks = 1 := by
  obtain ⟨h1, h2, h3, h4⟩ := h
  refine ⟨⟨st.on, st.lower, st.upper, st.isUpper, st.number, 1⟩, fun b nl hb' hc => ?_, ⟨h1, h2, h3, h4⟩, rfl⟩
  unfold preLine
  rw [blank_noItem hg]
  simp only
  rw [(blank_drop g).2 hg, if_pos h1, copy_room _ _ (by rw [List.length_append]; omega)]
  simp [hb]

theorem entries_gives (up : Bool) (es : List Entry) (hes : ∀ e ∈ es, e.Ok) (k j : Nat) (st : St) (hst : At st up k j)
    (pre : Bool) (hp : st.blanks = if pre then 1 else 0) (ls out : List Bytes)
    (hlast : ∀ st', At st' up (k + es.length) (j + es.length) → st'.blanks = (if (if es = [] then pre else endsGap es) then 1 else 0) → Gives st' ls out) :
    Gives st (listLines up k es ++ ls) (numbered j es ++ out) := by
  induction es generalizing k j st pre with
  | nil =>
    simp only [listLines, numbered, List.nil_append]
    exact hlast st (by simpa using hst) (by simpa using hp)
  | cons e es ih =>
    obtain ⟨st1, s1, s2, s3⟩ := line_next hst e (hes e (by simp))
    simp only [listLines, numbered, List.cons_append, List.append_assoc]
    have key : ∀ st2, At st2 up (k + 1) (j + 1) → st2.blanks = (if e.gap.isSome then 1 else 0) →
        Gives st2 (listLines up (k + 1) es ++ ls) (numbered (j + 1) es ++ out) := by
      intro st2 a1 a2
      refine ih (fun x hx => hes x (by simp [hx])) (k + 1) (j + 1) st2 a1 e.gap.isSome a2 ?_
      intro st' b1 b2
      apply hlast st'
      · simpa [Nat.add_assoc, Nat.add_comm 1] using b1
      · rw [b2, if_neg (List.cons_ne_nil e es)]
        congr 1
        cases es with
        | nil => simp [endsGap]
        | cons f es => simp [endsGap]
    have s1' : Line st (e.indent ++ letter up k :: c!"." :: e.rest) (e.indent ++ (Man.decimal j ++ (b!". " ++ e.rest))) st1 := by
      simpa using s1
    refine s1'.gives ?_
    cases hg : e.gap with
    | none =>
      simp only [Option.toList_none, List.nil_append]
      exact key st1 s2 (by rw [hg]; simpa using s3)
    | some g =>
      simp only [Option.toList_some, List.cons_append, List.nil_append]
      obtain ⟨st2, g1, g2, g3⟩ := line_gap s2 s3 g ((hes e (by simp)).2.2.2 g hg)
      exact g1.gives (key st2 g2 (by rw [hg]; simpa using g3))

theorem mark_eq (up : Bool) : (if up then b!"[apex-alpha-list:upper]\n\n" else b!"[apex-alpha-list:lower]\n\n") = mark up := by
  cases up <;> rfl

theorem list_gives (up : Bool) (first : Nat) (es : List Entry) (hne : es ≠ []) (hes : ∀ e ∈ es, e.Ok) (st : St)
    (hst : ¬ (st.on = true ∧ st.isUpper = up ∧ (if up then st.upper else st.lower) = letter up first)) (ls out : List Bytes)
    (hlast : ∀ st', At st' up (first + es.length) (es.length + 1) → st'.blanks = (if endsGap es then 1 else 0) → Gives st' ls out) :
    Gives st (listLines up first es ++ ls) (marked up es ++ out) := by
  cases es with
  | nil => exact absurd rfl hne
  | cons e es =>
    obtain ⟨st1, s1, s2, s3⟩ := line_first st up first hst e (hes e (by simp))
    have key : ∀ st2, At st2 up (first + 1) 2 → st2.blanks = (if e.gap.isSome then 1 else 0) →
        Gives st2 (listLines up (first + 1) es ++ ls) (numbered 2 es ++ out) := by
      intro st2 a1 a2
      refine entries_gives up es (fun x hx => hes x (by simp [hx])) (first + 1) 2 st2 a1 e.gap.isSome a2 ls out ?_
      intro st' b1 b2
      apply hlast st'
      · rw [List.length_cons, show first + (es.length + 1) = first + 1 + es.length by omega,
          show es.length + 1 + 1 = 2 + es.length by omega]
        exact b1
      · rw [b2]
        congr 1
        cases es with
        | nil => simp [endsGap]
        | cons f es => simp [endsGap]
    simp only [listLines, numbered, marked, List.cons_append, List.append_assoc, mark_eq]
    have s1' : Line st (e.indent ++ letter up first :: c!"." :: e.rest) (mark up ++ (e.indent ++ (Man.decimal 1 ++ (b!". " ++ e.rest)))) st1 := by
      simpa using s1
    refine s1'.gives ?_
    cases hg : e.gap with
    | none =>
      simp only [Option.toList_none, List.nil_append]
      exact key st1 s2 (by rw [hg]; simpa using s3)
    | some g =>
      simp only [Option.toList_some, List.cons_append, List.nil_append]
      obtain ⟨st2, g1, g2, g3⟩ := line_gap s2 s3 g ((hes e (by simp)).2.2.2 g hg)
      exact g1.gives (key st2 g2 (by rw [hg]; simpa using g3))

/-! ### Other lines -/

theorem line_off {st : St} (h : st.on = false) (s : Bytes) (hs : ¬ IsItem s) : Line st s s st := by
  intro b nl hb hc
  unfold preLine
  rw [item_none.2 hs]
  simp only [h]
  rw [if_neg (by decide), copy_room _ _ (by rw [List.length_append]; omega)]
  simp

theorem number_eq (ds : Bytes) (n : Nat) (h : ds.foldl (fun n c => n * 10 + (c.toNat - 48)) n < 2 ^ 31) :
    number n ds = .val (ds.foldl (fun n c => n * 10 + (c.toNat - 48)) n) := by
  induction ds generalizing n with
  | nil => rfl
  | cons c ds ih =>
    have hmono : ∀ (ds : Bytes) (m : Nat), m ≤ ds.foldl (fun n c => n * 10 + (c.toNat - 48)) m := by
      intro ds
      induction ds with
      | nil => intro m; exact Nat.le_refl m
      | cons d ds ih => intro m; exact Nat.le_trans (show m ≤ m * 10 + (d.toNat - 48) by omega) (ih _)
    rw [List.foldl_cons] at h ⊢
    rw [number, if_pos (Nat.lt_of_le_of_lt (hmono ds _) h), ih _ h]

theorem foldl_one (ds : Bytes) (h : ∀ c ∈ ds, isDigit c = true) (n : Nat) (hn : 1 ≤ n) :
    ds.foldl (fun n c => n * 10 + (c.toNat - 48)) n = 1 ↔ ds = [] ∧ n = 1 := by
  induction ds generalizing n with
  | nil => simp
  | cons d ds ih =>
    rw [List.foldl_cons, ih (fun c hc => h c (by simp [hc])) _ (by omega)]
    simp
    omega

/-- The number of the line is one, and a full stop is behind it. -/
theorem one_iff (s : Bytes) :
    (decide (leading s = 1) && endsNumber ((s.dropWhile blank).dropWhile isDigit)) = one s := by
  unfold leading one
  generalize s.dropWhile blank = p
  induction p with
  | nil => rfl
  | cons c p ih =>
    by_cases hz : c = c!"0"
    · subst hz
      rw [List.dropWhile_cons_of_pos (by decide), List.dropWhile_cons_of_pos (by decide), List.takeWhile_cons_of_pos (by decide), List.foldl_cons]
      exact ih
    · rw [List.dropWhile_cons_of_neg (p := (· == c!"0")) (by simpa using hz)]
      by_cases hd : isDigit c = true
      · rw [List.dropWhile_cons_of_pos hd, List.takeWhile_cons_of_pos hd, List.foldl_cons]
        have hdig : ∀ n < 256, isDigit (UInt8.ofNat n) = true → UInt8.ofNat n ≠ c!"0" → 1 ≤ (UInt8.ofNat n).toNat - 48 ∧ ((UInt8.ofNat n).toNat - 48 = 1 ↔ UInt8.ofNat n = c!"1") := by
          decide +kernel
        have hc := hdig c.toNat c.toNat_lt (by rwa [UInt8.ofNat_toNat]) (by rwa [UInt8.ofNat_toNat])
        rw [UInt8.ofNat_toNat] at hc
        have hall : ∀ x ∈ p.takeWhile isDigit, isDigit x = true := fun x hx => List.all_eq_true.1 (List.all_takeWhile) x hx
        have h1 := foldl_one (p.takeWhile isDigit) hall (0 * 10 + (c.toNat - 48)) (by omega)
        cases p with
        | nil => simp [endsNumber]
        | cons d p =>
          by_cases hd2 : isDigit d = true
          · have : ¬ (List.foldl (fun n c => n * 10 + (c.toNat - 48)) (0 * 10 + (c.toNat - 48)) ((d :: p).takeWhile isDigit) = 1) := by
              rw [h1]
              rintro ⟨h2, -⟩
              rw [List.takeWhile_cons_of_pos hd2] at h2
              simp at h2
            rw [decide_eq_false this, Bool.false_and]
            symm
            have hdot : (d == c!".") = false := by
              rw [beq_eq_false_iff_ne]
              rintro rfl
              exact absurd hd2 (by decide)
            simp [hdot]
          · rw [List.takeWhile_cons_of_neg hd2] at h1 ⊢
            rw [List.dropWhile_cons_of_neg hd2]
            simp only [List.foldl_nil, endsNumber]
            have e : decide (0 * 10 + (c.toNat - 48) = 1) = (c == c!"1") := by
              rw [Bool.eq_iff_iff, decide_eq_true_iff, beq_iff_eq, ← hc.2]
              simp
            clear ih h1 hall
            rw [Bool.and_assoc, ← e]
            cases p with
            | nil => congr
            | cons x p => simp only [tail, blank]; congr
      · rw [List.takeWhile_cons_of_neg hd]
        have h1 : (c == c!"1") = false := by
          rw [beq_eq_false_iff_ne]
          rintro rfl
          exact hd (by decide)
        cases p with
        | nil => simp
        | cons d p => simp [h1]

theorem line_end {st : St} {up : Bool} {k j : Nat} (h : At st up k j) (gap : Bool) (hg : st.blanks = if gap then 1 else 0)
    (s : Bytes) (hs : ¬ IsItem s) (hf : gap = true ∨ ¬ Blank s) (hsm : leading s < 2 ^ 31) :
    ∃ st', Line st s ((if gap && one s then b!"\n\n \n\n" else []) ++ s) st' ∧ st'.on = false := by
  obtain ⟨h1, h2, h3, h4⟩ := h
  by_cases hb : Blank s
  · have hgap : gap = true := by simpa [hb] using hf
    subst hgap
    have ho : one s = false := by unfold one; rw [(blank_drop s).2 hb]; rfl
    refine ⟨⟨false, st.lower, st.upper, st.isUpper, st.number, 2⟩, fun b nl hb' hc => ?_, rfl⟩
    rw [ho] at hb' ⊢
    simp only [Bool.and_false, Bool.false_eq_true, if_false, List.nil_append] at hb' ⊢
    unfold preLine
    rw [item_none.2 hs]
    simp only
    rw [(blank_drop s).2 hb, if_pos h1, copy_room _ _ (by rw [List.length_append]; omega)]
    simp [hg]
  · cases hp : s.dropWhile blank with
    | nil => exact absurd ((blank_drop s).1 hp) hb
    | cons c t =>
      refine ⟨⟨false, st.lower, st.upper, st.isUpper, st.number, 0⟩, fun b nl hb' hc => ?_, rfl⟩
      unfold preLine
      rw [item_none.2 hs]
      simp only
      rw [if_pos h1, hp]
      simp only
      by_cases hd : isDigit c = true
      · rw [if_pos hd]
        have hn := number_eq ((c :: t).takeWhile isDigit) 0 (by rw [← hp]; exact hsm)
        rw [hn]
        simp only
        have ho := one_iff s
        unfold leading at ho
        rw [hp] at ho
        have hgp : decide (st.blanks > 0) = gap := by rw [hg]; cases gap <;> rfl
        rw [hgp, ho, Bool.and_comm]
        by_cases hx : (gap && one s) = true
        · rw [if_pos hx] at hb' ⊢
          rw [if_pos hx]
          simp only [List.length_append, List.length_cons, List.length_nil] at hb'
          rw [print_room _ _ (by simp only [List.length_cons, List.length_nil]; omega) hc,
            copy_room _ _ (by simp only [List.length_append, List.length_cons, List.length_nil]; omega)]
          simp
        · rw [if_neg hx] at hb' ⊢
          rw [if_neg hx]
          simp only [List.nil_append] at hb' ⊢
          rw [copy_room _ _ (by rw [List.length_append]; omega)]
          simp
      · have ho : one s = false := by
          unfold one
          rw [hp]
          have hz : (c == c!"0") = false := by
            rw [beq_eq_false_iff_ne]
            rintro rfl
            exact hd (by decide)
          have h1 : (c == c!"1") = false := by
            rw [beq_eq_false_iff_ne]
            rintro rfl
            exact hd (by decide)
          rw [List.dropWhile_cons_of_neg (by simp [hz])]
          cases t with
          | nil => rfl
          | cons d t => simp [h1]
        rw [if_neg hd]
        rw [ho] at hb' ⊢
        simp only [Bool.and_false, Bool.false_eq_true, if_false, List.nil_append] at hb' ⊢
        rw [copy_room _ _ (by rw [List.length_append]; omega)]
        simp

/-! ### The text -/

/-- The state fits to the groups that follow. -/
def Ready (st : St) (gap : Bool) (gs : List Group) : Prop :=
  (st.on = false ∧ gap = false) ∨
    ∃ up k j, At st up k j ∧ st.blanks = (if gap then 1 else 0) ∧ Follows up k gap gs ∧
      ∀ s gs', gs = .line s :: gs' → leading s < 2 ^ 31

theorem Small_tail {g : Group} {gs : List Group} (h : Small (g :: gs)) : Small gs := by
  cases g with
  | line s => simpa [Small] using h
  | list up f es =>
    cases gs with
    | nil => trivial
    | cons g' gs =>
      cases g' with
      | line s => exact h.2
      | list _ _ _ => simpa [Small] using h

theorem groups_gives (gs : List Group) (h : Ok gs) (hs : Small gs) (st : St) (gap : Bool) (hr : Ready st gap gs) :
    Gives st (lines gs) (outLines gap gs) := by
  induction gs generalizing st gap with
  | nil => exact Gives.nil st
  | cons g gs ih =>
    cases g with
    | line s =>
      obtain ⟨h1, h2, h3⟩ := h
      simp only [lines, outLines]
      rcases hr with ⟨r1, r2⟩ | ⟨up, k, j, r1, r2, r3, r4⟩
      · subst r2
        simp only [Bool.false_and, Bool.false_eq_true, if_false, List.nil_append]
        exact (line_off r1 s h2).gives (ih h3 (Small_tail hs) st false (Or.inl ⟨r1, rfl⟩))
      · obtain ⟨st', l1, l2⟩ := line_end r1 gap r2 s h2 r3 (r4 s gs rfl)
        exact l1.gives (ih h3 (Small_tail hs) st' false (Or.inl ⟨l2, rfl⟩))
    | list up first es =>
      obtain ⟨h1, h2, h3, h4⟩ := h
      simp only [lines, outLines]
      refine list_gives up first es h1 h2 st ?_ _ _ ?_
      · rintro ⟨a1, a2, a3⟩
        rcases hr with ⟨r1, -⟩ | ⟨up', k, j, r1, r2, r3, r4⟩
        · rw [a1] at r1; exact absurd r1 (by decide)
        · obtain ⟨-, b2, -, b4⟩ := r1
          have hu : up' = up := by rw [← b2, a2]
          subst hu
          rw [a3] at b4
          rcases r3 with r3 | r3
          · exact r3 rfl
          · exact r3 (letter_inj b4).2
      · intro st' a1 a2
        refine ih h4 (Small_tail hs) st' _ (Or.inr ⟨up, _, _, a1, a2, h3, ?_⟩)
        intro s gs' e
        subst e
        exact hs.1

theorem listLines_clean (up : Bool) (es : List Entry) (hes : ∀ e ∈ es, e.Ok) (k : Nat) : ∀ l ∈ listLines up k es, 10 ∉ l := by
  induction es generalizing k with
  | nil => simp [listLines]
  | cons e es ih =>
    obtain ⟨e1, e2, e3, e4⟩ := hes e (by simp)
    have hb : ∀ {s : Bytes}, Blank s → 10 ∉ s := fun h hm => by have := h 10 hm; simp at this
    have hl : letter up k ≠ 10 := by
      intro e
      have := (letter_class up k).2.1
      rw [e] at this
      exact absurd this (by decide)
    intro l hm
    simp only [listLines, List.mem_cons, List.mem_append, Option.mem_toList] at hm
    rcases hm with rfl | hm | hm
    · simp only [List.mem_append, List.mem_cons, not_or]
      exact ⟨hb e1, hl.symm, by decide, e3⟩
    · exact hb (e4 l hm)
    · exact ih (fun x hx => hes x (by simp [hx])) (k + 1) l hm

theorem lines_clean (gs : List Group) (h : Ok gs) : ∀ l ∈ lines gs, 10 ∉ l := by
  induction gs with
  | nil => simp [lines]
  | cons g gs ih =>
    cases g with
    | line s =>
      intro l hl
      rcases List.mem_cons.1 hl with rfl | hl
      · exact h.1
      · exact ih h.2.2 l hl
    | list up f es =>
      intro l hl
      rcases List.mem_append.1 hl with hl | hl
      · exact listLines_clean up es h.2.1 f l hl
      · exact ih h.2.2.2 l hl

theorem pre_groups (gs : List Group) (h : Ok gs) (hs : Small gs) (h0 : 0 ∉ joined 10 (outLines false gs))
    (hl : (joined 10 (outLines false gs)).length < 3 * (joined 10 (lines gs)).length) (hi : 3 * (joined 10 (lines gs)).length < 2 ^ 31) :
    pre (joined 10 (lines gs)) = .val (joined 10 (outLines false gs)) := by
  have hg := groups_gives gs h hs ⟨false, c!"a", c!"A", false, 1, 0⟩ false (Or.inl ⟨rfl, rfl⟩)
  have := hg.2 ⟨[], (joined 10 (lines gs)).length * 3⟩ (by simp only [List.length_nil]; omega) (by simp only; omega)
  unfold pre
  rw [preLoop_lines _ (lines_clean gs h) _ (by omega), this]
  simp only [List.nil_append]
  rw [Buf.store, if_pos (by simp only [List.length_cons, List.length_nil]; omega)]
  simp only
  rw [List.takeWhile_append_of_pos (by intro c hm; simp; intro e; exact h0 (e ▸ hm))]
  simp

/-! ### Every text has groups -/

theorem add_line (l : Bytes) (h10 : 10 ∉ l) (gs : List Group) (h : Ok gs) : ∃ gs', Ok gs' ∧ lines gs' = l :: lines gs := by
  by_cases hi : IsItem l
  · obtain ⟨a, up, k, r, ha, hr, rfl⟩ := hi
    have hr10 : 10 ∉ r := fun hm => h10 (by simp [hm])
    -- with or without a blank line behind it
    have key : ∀ (g : Option Bytes) (gs : List Group), Ok gs → (∀ x, g = some x → Blank x) →
        (g = none → ∀ s gs', gs = .line s :: gs' → ¬ Blank s) →
        ∃ gs', Ok gs' ∧ lines gs' = (a ++ letter up k :: c!"." :: r) :: (g.toList ++ lines gs) := by
      intro g gs hgs hg hn
      by_cases hc : ∃ f es gs', gs = .list up f es :: gs' ∧ f % 26 = (k + 1) % 26
      · obtain ⟨f, es, gs', rfl, hf⟩ := hc
        obtain ⟨g1, g2, g3, g4⟩ := hgs
        have hll : ∀ (es : List Entry) (x y : Nat), x % 26 = y % 26 → listLines up x es = listLines up y es := by
          intro es
          induction es with
          | nil => intros; rfl
          | cons e es ih =>
            intro x y hxy
            simp only [listLines]
            rw [ih (x + 1) (y + 1) (by omega)]
            have : letter up x = letter up y := by unfold letter; rw [hxy]
            rw [this]
        refine ⟨.list up k (⟨a, r, g⟩ :: es) :: gs', ⟨by simp, ?_, ?_, g4⟩, ?_⟩
        · intro e he
          rcases List.mem_cons.1 he with rfl | he
          · exact ⟨ha, hr, hr10, hg⟩
          · exact g2 e he
        · have he : endsGap (⟨a, r, g⟩ :: es) = endsGap es := by
            obtain ⟨e, es, rfl⟩ := List.exists_cons_of_ne_nil g1
            simp [endsGap]
          rw [he]
          cases gs' with
          | nil => trivial
          | cons x gs' =>
            cases x with
            | line s => exact g3
            | list up' f' es' =>
              rcases g3 with g3 | g3
              · exact Or.inl g3
              · right
                simp only [List.length_cons]
                omega
        · simp only [lines, listLines, List.cons_append, List.append_assoc]
          rw [hll es (k + 1) f hf.symm]
      · refine ⟨.list up k [⟨a, r, g⟩] :: gs, ⟨by simp, ?_, ?_, hgs⟩, ?_⟩
        · intro e he
          rw [List.mem_singleton.1 he]
          exact ⟨ha, hr, hr10, hg⟩
        · cases gs with
          | nil => trivial
          | cons x gs' =>
            cases x with
            | line s =>
              cases g with
              | none => exact Or.inr (hn rfl s gs' rfl)
              | some g => exact Or.inl rfl
            | list up' f' es' =>
              by_cases hu : up' = up
              · subst hu
                right
                intro hf
                exact hc ⟨f', es', gs', rfl, hf⟩
              · exact Or.inl hu
        · simp [lines, listLines]
    cases gs with
    | nil => exact key none [] h (by simp) (by simp)
    | cons x gs =>
      cases x with
      | line s =>
        by_cases hb : Blank s
        · obtain ⟨gs', g1, g2⟩ := key (some s) gs h.2.2 (by intro x e; cases e; exact hb) (by simp)
          exact ⟨gs', g1, by rw [g2]; rfl⟩
        · exact key none _ h (by simp) (by intro _ s' gs' e; cases e; exact hb)
      | list up' f es => exact key none _ h (by simp) (by intro _ s' gs' e; cases e)
  · exact ⟨.line l :: gs, ⟨h10, hi, h⟩, rfl⟩

theorem exists_groups (ls : List Bytes) (h : ∀ l ∈ ls, 10 ∉ l) : ∃ gs, Ok gs ∧ lines gs = ls := by
  induction ls with
  | nil => exact ⟨[], trivial, rfl⟩
  | cons l ls ih =>
    obtain ⟨gs, g1, g2⟩ := ih fun x hx => h x (by simp [hx])
    obtain ⟨gs', g3, g4⟩ := add_line l (h l (by simp)) gs g1
    exact ⟨gs', g3, by rw [g4, g2]⟩

theorem exists_lines (text : Bytes) : ∃ ls, (∀ l ∈ ls, 10 ∉ l) ∧ ls ≠ [] ∧ text = joined 10 ls := by
  induction text with
  | nil => exact ⟨[[]], by simp, by simp, rfl⟩
  | cons c t ih =>
    obtain ⟨ls, h1, h2, h3⟩ := ih
    by_cases hc : c = 10
    · obtain ⟨l, ls, rfl⟩ := List.exists_cons_of_ne_nil h2
      exact ⟨[] :: l :: ls, by simpa using h1, by simp, by rw [h3, hc]; rfl⟩
    · obtain ⟨l, ls, rfl⟩ := List.exists_cons_of_ne_nil h2
      refine ⟨(c :: l) :: ls, ?_, by simp, ?_⟩
      · intro x hx
        rcases List.mem_cons.1 hx with rfl | hx
        · simp only [List.mem_cons, not_or]
          exact ⟨fun e => hc e.symm, h1 l (by simp)⟩
        · exact h1 x (by simp [hx])
      · rw [h3]
        cases ls <;> rfl

theorem exists_text (text : Bytes) : ∃ gs, Ok gs ∧ text = joined 10 (lines gs) := by
  obtain ⟨ls, h1, -, h3⟩ := exists_lines text
  obtain ⟨gs, g1, g2⟩ := exists_groups ls h1
  exact ⟨gs, g1, by rw [h3, g2]⟩

/-! ### Marks in the page -/

theorem found_len (u : Bool) : (found u).length = 29 := by cases u <;> rfl

theorem style_len (u : Bool) : (style u).length = 38 := by cases u <;> rfl

/-- The beginning of a mark is not in front of another. -/
theorem not_found {c : Byte} {b : Bytes} (h : NoMark (c :: b)) (u v : Bool) (r : Bytes) : ¬ found u <+: c :: b ++ found v ++ r := by
  intro hp
  rcases List.prefix_or_prefix_of_prefix (l₂ := c :: b) hp ⟨found v ++ r, by simp⟩ with h1 | h1
  · exact h u h1.isInfix
  · obtain ⟨x, hx⟩ := h1
    have hx1 : x <+: found v ++ r := by
      obtain ⟨y, hy⟩ := hp
      rw [← hx] at hy
      refine ⟨y, ?_⟩
      have : (c :: b) ++ (x ++ y) = (c :: b) ++ (found v ++ r) := by simpa using hy
      exact List.append_cancel_left this
    by_cases hz : x = []
    · subst hz
      rw [List.append_nil] at hx
      exact h u (by rw [hx]; exact List.infix_refl _)
    · have hl : (c :: b).length + x.length = 29 := by rw [← List.length_append, hx, found_len]
      have hxp := List.length_pos_iff.2 hz
      have hd : (found u).drop (c :: b).length = x := by rw [← hx, List.drop_left]
      have hb : ∀ k < 29, 0 < k → ∀ u v : Bool, ¬ (found u).drop k <+: found v := by decide +kernel
      refine hb (c :: b).length (by omega) (by simp) u v ?_
      rw [hd]
      rcases List.prefix_or_prefix_of_prefix hx1 (List.prefix_append (found v) r) with h2 | h2
      · exact h2
      · have := h2.length_le
        rw [found_len] at this
        simp only [List.length_cons] at hl
        omega

theorem NoMark_tail {c : Byte} {b : Bytes} (h : NoMark (c :: b)) : NoMark b := fun u hi => h u (hi.trans (List.suffix_cons c b).isInfix)

/-- The text in front of a mark is kept. -/
theorem post_text (text : Bytes) (h : NoMark text) (v : Bool) (r : Bytes) (n : Nat) (b : Buf) (seg : Bytes) :
    postLoop (text.length + n) b seg (text ++ found v ++ r) = postLoop n b (seg ++ text) (found v ++ r) := by
  induction text generalizing seg with
  | nil => simp
  | cons c t ih =>
    have e : (c :: t).length + n = (t.length + n) + 1 := by simp only [List.length_cons]; omega
    have n1 := not_found h false v r
    have n2 := not_found h true v r
    simp only [List.cons_append] at n1 n2 ⊢
    rw [e, postLoop.eq_def]
    simp only
    rw [if_neg n1, if_neg n2]
    simp only
    rw [ih (NoMark_tail h)]
    simp

theorem post_rest (text : Bytes) (h : NoMark text) (n : Nat) (b : Buf) (seg : Bytes) :
    postLoop (text.length + n + 1) b seg text = add b (seg ++ text).length (seg ++ text) := by
  induction text generalizing seg with
  | nil => rw [postLoop.eq_def]; simp
  | cons c t ih =>
    have e : (c :: t).length + n + 1 = (t.length + n + 1) + 1 := by simp only [List.length_cons]; omega
    rw [e, postLoop.eq_def]
    simp only
    rw [if_neg fun hp => h false hp.isInfix, if_neg fun hp => h true hp.isInfix]
    simp only
    rw [ih (NoMark_tail h)]
    simp

/-- A sufficient block: it has the first size or at least twice as much. -/
def Cap (K c : Nat) : Prop := c = K ∨ 2 * K ≤ c

theorem add_ok {K : Nat} (b : Buf) (h : b.out.length ≤ b.cap) (hK : Cap K b.cap) (needed : Nat) (s : Bytes) (hs : s.length ≤ needed) :
    ∃ c, add b needed s = .val ⟨b.out ++ s, c⟩ ∧ b.out.length + needed ≤ c ∧ Cap K c ∧ (b.out.length + needed ≤ b.cap → c = b.cap) := by
  unfold add
  by_cases hn : b.cap - b.out.length < needed
  · refine ⟨(b.out.length + needed + 1) * 2, ?_, by omega, Or.inr ?_, fun _ => by omega⟩
    · rw [if_pos hn, Buf.store, if_pos (by simp only; omega)]
    · rcases hK with hK | hK <;> omega
  · refine ⟨b.cap, ?_, by omega, hK, fun _ => rfl⟩
    rw [if_neg hn, Buf.store, if_pos (by omega)]

theorem white_iff (c : Byte) : white c = true ↔ c = 32 ∨ c = 9 ∨ c = 10 ∨ c = 13 := by simp [white, or_assoc]

theorem white_all {s : Bytes} (h : White s) : ∀ c ∈ s, white c = true := fun c hc => (white_iff c).2 (h c hc)

theorem list_of (attrs r : Bytes) (h : Attrs attrs) : list (b!"<ol" ++ attrs ++ b!">" ++ r) = some (b!"<ol" ++ attrs, r) := by
  obtain ⟨h1, h2, h3⟩ := h
  have hf : Embed.find [c!">"] (b!"<ol" ++ attrs ++ b!">" ++ r) = some (b!"<ol" ++ attrs, r) := by
    have := FencedDivs.find_byte (c := c!">") (a := b!"<ol" ++ attrs) (b := r) (by
      simp only [List.mem_append, not_or]; exact ⟨by decide, h1⟩)
    simpa using this
  have hs : Embed.find b!"style=" (b!"<ol" ++ attrs) = none := (Embed.find_none (by decide)).2 h3
  cases attrs with
  | nil =>
    simp only [List.append_nil, List.cons_append, List.nil_append] at hf hs ⊢
    unfold list
    simp only
    rw [if_pos (by decide), hf]
    simp only [hs]
    simp
  | cons d t =>
    have hd := h2 d rfl
    simp only [List.cons_append, List.nil_append] at hf hs ⊢
    unfold list
    simp only
    rw [if_pos (by rcases hd with rfl | rfl | rfl <;> decide), hf]
    simp only [hs]
    simp

theorem list_some {s tag r : Bytes} (h : list s = some (tag, r)) :
    ∃ attrs, Attrs attrs ∧ tag = b!"<ol" ++ attrs ∧ s = b!"<ol" ++ attrs ++ b!">" ++ r := by
  unfold list at h
  split at h
  · rename_i a b c d t
    split at h
    · rename_i hc
      simp only [Bool.and_eq_true, beq_iff_eq, Bool.or_eq_true] at hc
      obtain ⟨⟨⟨rfl, rfl⟩, rfl⟩, hd⟩ := hc
      split at h
      · rename_i tag' rest hf
        split at h
        · simp at h
        · rename_i hst
          simp only [Option.some.injEq, Prod.mk.injEq] at h
          obtain ⟨rfl, rfl⟩ := h
          have es := Embed.find_some hf
          have hni := Liquid.find_first hf (by decide)
          have hgt : c!">" ∉ tag' := by
            intro hm
            obtain ⟨u, v, rfl⟩ := List.append_of_mem hm
            exact hni ⟨u, v, by simp⟩
          have hns : ¬ b!"style=" <:+: tag' := by
            apply (Embed.find_none (by decide)).1
            cases hx : Embed.find b!"style=" tag' with
            | none => rfl
            | some y => rw [hx] at hst; simp at hst
          -- the tag has at least three bytes
          match tag', es, hgt, hns with
          | [], es, _, _ => simp at es
          | [x1], es, _, _ => simp at es
          | [x1, x2], es, _, _ => simp at es
          | x1 :: x2 :: x3 :: attrs, es, hgt, hns =>
            simp only [List.cons_append, List.cons.injEq] at es
            obtain ⟨rfl, rfl, rfl, es⟩ := es
            refine ⟨attrs, ⟨fun hm => hgt (by simp [hm]), ?_, hns⟩, rfl, ?_⟩
            · intro y hy
              cases attrs with
              | nil => simp at hy
              | cons z attrs =>
                simp at hy
                subst hy
                simp only [List.cons_append, List.cons.injEq] at es
                obtain ⟨rfl, -⟩ := es
                rcases hd with ((hd | hd) | hd) | hd
                · subst hd; exact absurd (by simp) hgt
                · exact Or.inl hd
                · exact Or.inr (Or.inl hd)
                · exact Or.inr (Or.inr hd)
            · rw [es]; simp
      · simp at h
    · simp at h
  · simp at h

theorem list_none {s : Bytes} : list s = none ↔ ¬ ∃ attrs r, Attrs attrs ∧ s = b!"<ol" ++ attrs ++ b!">" ++ r := by
  constructor
  · rintro h ⟨attrs, r, ha, rfl⟩
    rw [list_of attrs r ha] at h
    simp at h
  · intro h
    cases hl : list s with
    | none => rfl
    | some x =>
      obtain ⟨tag, r⟩ := x
      obtain ⟨attrs, h1, -, h3⟩ := list_some hl
      exact absurd ⟨attrs, r, h1, h3⟩ h

theorem found_select (u : Bool) (r : Bytes) :
    (if found false <+: found u ++ r then some false else if found true <+: found u ++ r then some true else none) = some u := by
  cases u with
  | false => rw [if_pos (List.prefix_append _ _)]
  | true =>
    rw [if_neg, if_pos (List.prefix_append _ _)]
    intro hp
    rcases List.prefix_or_prefix_of_prefix hp (List.prefix_append (found true) r) with h | h
    · exact absurd h (by decide)
    · exact absurd h (by decide)

theorem found_cons (u : Bool) : ∃ t, found u = c!"<" :: t := by cases u <;> exact ⟨_, rfl⟩

/-- A mark: what was kept is written, then the space behind it, and then it depends on what follows. -/
theorem post_mark {K : Nat} (n : Nat) (b : Buf) (h : b.out.length ≤ b.cap) (hK : Cap K b.cap) (seg : Bytes) (u : Bool) (close : Byte) (space rest : Bytes)
    (hs : White space) (hr : rest.head?.all (fun c => !white c) = true) :
    ∃ c, (b.out ++ seg ++ space).length ≤ c ∧ Cap K c ∧ ((b.out ++ seg ++ space).length ≤ b.cap → c = b.cap) ∧
    postLoop (n + 1) b seg (found u ++ close :: space ++ rest) =
      (match list rest with
        | some (tag, rest) =>
          match add ⟨b.out ++ seg ++ space, c⟩ (tag.length + 50) tag with
          | .ub => .ub
          | .val b =>
            match b.store (style u) with
            | .ub => .ub
            | .val b => postLoop n b [] rest
        | none =>
          match rest with
          | [] => .ub
          | c' :: t => postLoop n ⟨b.out ++ seg ++ space, c⟩ [c'] t) := by
  obtain ⟨c1, a1, a2, a3, a4⟩ := add_ok b h hK seg.length seg (Nat.le_refl _)
  obtain ⟨c2, b1, b2, b3, b4⟩ := add_ok (K := K) ⟨b.out ++ seg, c1⟩ (by simpa using a2) a3 space.length space (Nat.le_refl _)
  simp only [List.length_append] at b2 b4
  refine ⟨c2, by simp only [List.length_append]; omega, b3, ?_, ?_⟩
  · intro hle
    simp only [List.length_append] at hle
    have := a4 (by omega)
    rw [b4 (by omega), this]
  · obtain ⟨t, ht⟩ := found_cons u
    have hsel := found_select u (close :: space ++ rest)
    have hdrop : (found u ++ (close :: space ++ rest)).drop 29 = close :: space ++ rest := by
      rw [← found_len u, List.drop_left]
    have e1 : (space ++ rest).takeWhile white = space := by
      rw [List.takeWhile_append_of_pos (white_all hs)]
      cases rest with
      | nil => simp
      | cons x r =>
        simp at hr
        rw [List.takeWhile_cons_of_neg (by simp [hr])]
        simp
    have e2 : (space ++ rest).dropWhile white = rest := by
      rw [List.dropWhile_append_of_pos (white_all hs)]
      cases rest with
      | nil => simp
      | cons x r =>
        simp at hr
        rw [List.dropWhile_cons_of_neg (by simp [hr])]
    rw [List.append_assoc (found u)]
    rw [ht] at hsel hdrop ⊢
    simp only [List.cons_append] at hsel hdrop ⊢
    rw [postLoop.eq_def]
    simp only
    rw [hsel]
    simp only
    rw [a1]
    simp only
    rw [hdrop]
    simp only
    rw [e1, e2, b1]
    simp only
    cases list rest with
    | some x => rfl
    | none => cases rest <;> rfl

theorem ItemsOk_head {rest : Bytes} {c : Byte} (h : ¬ White [c]) : (c :: rest).head?.all (fun c => !white c) = true := by
  simp
  cases hw : white c with
  | false => rfl
  | true => exact absurd (fun x hx => by rw [List.mem_singleton.1 hx]; exact (white_iff c).1 hw) h

/-- The loop over a page; `K` is the first size of the block. -/
theorem post_items {K : Nat} (items : List Item) (rest : Bytes) (h : ItemsOk rest items) (n : Nat) (hn : (pageHtml items rest).length < n)
    (b : Buf) (hb : b.out.length ≤ b.cap) (hK : Cap K b.cap) (seg : Bytes) :
    ∃ (m : Nat) (c : Bytes × Nat) (seg' : Bytes), rest.length < m ∧ postLoop n b seg (pageHtml items rest) = postLoop m ⟨c.1, c.2⟩ seg' rest ∧
      c.1 ++ seg' = b.out ++ seg ++ items.flatMap Item.out ∧ c.1.length ≤ c.2 ∧ Cap K c.2 ∧
      ((b.out ++ seg ++ items.flatMap Item.out).length + 12 ≤ b.cap → c.2 = b.cap) := by
  induction items generalizing n b seg with
  | nil =>
    exact ⟨n, (b.out, b.cap), seg, by simpa [pageHtml] using hn, by simp [pageHtml], by simp, hb, hK, fun _ => rfl⟩
  | cons i items ih =>
    cases i with
    | list text u close space attrs =>
      obtain ⟨h1, h2, h3, h4⟩ := h
      have e : pageHtml (.list text u close space attrs :: items) rest =
          text ++ found u ++ (close :: space ++ (b!"<ol" ++ attrs ++ b!">" ++ pageHtml items rest)) := by
        simp [pageHtml, Item.html]
      have hn' : text.length + (29 + (1 + (space.length + (3 + (attrs.length + (1 + (pageHtml items rest).length)))))) < n := by
        rw [e] at hn
        simp only [List.length_append, List.length_cons, List.length_nil, found_len] at hn
        omega
      obtain ⟨m, rfl⟩ : ∃ m, n = text.length + (m + 1) := ⟨n - text.length - 1, by omega⟩
      rw [e, post_text text h1]
      obtain ⟨c1, q1, q2, q3, q4⟩ := post_mark (K := K) m b hb hK (seg ++ text) u close space (b!"<ol" ++ attrs ++ b!">" ++ pageHtml items rest) h2 (by simp; decide)
      rw [← List.append_assoc (found u), q4, list_of attrs _ h3]
      simp only
      obtain ⟨c2, p1, p2, p3, p4⟩ := add_ok (K := K) ⟨b.out ++ (seg ++ text) ++ space, c1⟩ q1 q2 ((b!"<ol" ++ attrs).length + 50) (b!"<ol" ++ attrs) (by omega)
      rw [p1]
      simp only
      rw [Buf.store, if_pos (by
        rw [style_len]; simp only [List.length_append] at p2 ⊢; omega)]
      simp only
      have hlen : (b.out ++ (seg ++ text) ++ space ++ (b!"<ol" ++ attrs) ++ style u).length ≤ c2 := by
        simp only [List.length_append, style_len] at p2 ⊢; omega
      obtain ⟨m', c', seg', r0, r1, r2, r3, r4, r5⟩ := ih h4 m (by omega) ⟨b.out ++ (seg ++ text) ++ space ++ (b!"<ol" ++ attrs) ++ style u, c2⟩ hlen p3 []
      refine ⟨m', c', seg', r0, r1, ?_, r3, r4, ?_⟩
      · rw [r2]; simp [Item.out]
      · intro hle
        simp only [List.flatMap_cons, Item.out, List.length_append, style_len, List.length_cons, List.length_nil] at hle q3 p4 r5 q1 p2
        have g1 := q3 (by omega)
        have g2 := p4 (by rw [g1]; omega)
        rw [r5 (by rw [g2, g1]; omega), g2, g1]
    | lone text u close space c =>
      obtain ⟨h1, h2, h3, h4, h5⟩ := h
      have e : pageHtml (.lone text u close space c :: items) rest =
          text ++ found u ++ (close :: space ++ (c :: pageHtml items rest)) := by
        simp [pageHtml, Item.html]
      have hn' : text.length + (29 + (1 + (space.length + (1 + (pageHtml items rest).length)))) < n := by
        rw [e] at hn
        simp only [List.length_append, List.length_cons, found_len] at hn
        omega
      obtain ⟨m, rfl⟩ : ∃ m, n = text.length + (m + 1) := ⟨n - text.length - 1, by omega⟩
      rw [e, post_text text h1]
      obtain ⟨c1, q1, q2, q3, q4⟩ := post_mark (K := K) m b hb hK (seg ++ text) u close space (c :: pageHtml items rest) h2 (ItemsOk_head h3)
      rw [← List.append_assoc (found u), q4, list_none.2 h4]
      simp only
      obtain ⟨m', c', seg', r0, r1, r2, r3, r4, r5⟩ := ih h5 m (by omega) ⟨b.out ++ (seg ++ text) ++ space, c1⟩ q1 q2 [c]
      refine ⟨m', c', seg', r0, r1, ?_, r3, r4, ?_⟩
      · rw [r2]; simp [Item.out]
      · intro hle
        simp only [List.flatMap_cons, Item.out, List.length_append, List.length_cons, List.length_nil] at hle q3 r5
        have g1 := q3 (by omega)
        rw [r5 (by rw [g1]; omega), g1]

/-! ### Sizes -/

theorem sizes (items : List Item) (rest : Bytes) :
    (pageOut items rest).length + 30 * loneCount items = (pageHtml items rest).length + 7 * listCount items ∧
      34 * listCount items ≤ (pageHtml items rest).length := by
  induction items with
  | nil => simp [pageOut, pageHtml, loneCount, listCount]
  | cons i items ih =>
    obtain ⟨i1, i2⟩ := ih
    cases i with
    | list text u close space attrs =>
      simp only [pageOut, pageHtml, loneCount, listCount, List.flatMap_cons, Item.out, Item.html, List.length_append, List.length_cons, List.length_nil,
        found_len, style_len, List.filter_cons] at i1 i2 ⊢
      simp only [if_true, Bool.false_eq_true, if_false, List.length_cons] at i1 i2 ⊢
      omega
    | lone text u close space c =>
      simp only [pageOut, pageHtml, loneCount, listCount, List.flatMap_cons, Item.out, Item.html, List.length_append, List.length_cons, List.length_nil,
        found_len, style_len, List.filter_cons] at i1 i2 ⊢
      simp only [if_true, Bool.false_eq_true, if_false, List.length_cons] at i1 i2 ⊢
      omega

theorem post_run (items : List Item) (rest : Bytes) (h : ItemsOk rest items) (hr : NoMark rest) :
    ∃ c, postLoop ((pageHtml items rest).length + 1) ⟨[], (pageHtml items rest).length + 1024⟩ [] (pageHtml items rest) =
        .val ⟨pageOut items rest, c⟩ ∧ (pageOut items rest).length ≤ c ∧ Cap ((pageHtml items rest).length + 1024) c ∧
      ((pageOut items rest).length ≤ (pageHtml items rest).length + 1024 → 12 ≤ rest.length → c = (pageHtml items rest).length + 1024) := by
  obtain ⟨m, ⟨o, c⟩, seg', r0, r1, r2, r3, r4, r5⟩ := post_items (K := (pageHtml items rest).length + 1024) items rest h
    ((pageHtml items rest).length + 1) (by omega) ⟨[], (pageHtml items rest).length + 1024⟩ (by simp) (Or.inl rfl) []
  simp only [List.nil_append] at r1 r2 r3 r4 r5
  obtain ⟨k, rfl⟩ : ∃ k, m = rest.length + k + 1 := ⟨m - rest.length - 1, by omega⟩
  obtain ⟨c', a1, a2, a3, a4⟩ := add_ok (K := (pageHtml items rest).length + 1024) ⟨o, c⟩ r3 r4 (seg' ++ rest).length (seg' ++ rest) (Nat.le_refl _)
  have hout : o ++ (seg' ++ rest) = pageOut items rest := by
    rw [← List.append_assoc, r2]
    rfl
  refine ⟨c', ?_, ?_, a3, ?_⟩
  · rw [r1, post_rest rest hr, a1, hout]
  · rw [← hout, List.length_append]
    exact a2
  · intro hle h12
    have e2 : (pageOut items rest).length = o.length + (seg' ++ rest).length := by rw [← hout, List.length_append]
    have e3 : (pageOut items rest).length = (items.flatMap Item.out).length + rest.length := by rw [pageOut, List.length_append]
    have g1 := r5 (by omega)
    rw [a4 (by simp only; omega), g1]

theorem post_page (items : List Item) (rest : Bytes) (h : ItemsOk rest items) (hr : NoMark rest) (h0 : 0 ∉ pageOut items rest)
    (hm : b!"[apex-alpha-list:" <:+: pageHtml items rest) (hc : 7 * listCount items ≠ 1024 + 30 * loneCount items) :
    post (pageHtml items rest) = .val (some (pageOut items rest)) := by
  obtain ⟨c, r1, r2, r3, -⟩ := post_run items rest h hr
  obtain ⟨s1, s2⟩ := sizes items rest
  unfold post
  rw [if_neg (by
    intro hn
    rw [Option.isNone_iff_eq_none] at hn
    exact (Embed.find_none (by decide)).1 hn hm), r1]
  simp only
  rw [Buf.store, if_pos (by
    simp only [List.length_cons, List.length_nil]
    rcases r3 with r3 | r3 <;> omega)]
  simp only
  rw [List.takeWhile_append_of_pos (by intro c hm; simp; intro e; exact h0 (e ▸ hm))]
  simp

theorem post_none (html : Bytes) (h : ¬ b!"[apex-alpha-list:" <:+: html) : post html = .val none := by
  unfold post
  rw [if_pos (by rw [(Embed.find_none (by decide)).2 h]; rfl)]

theorem post_full (items : List Item) (rest : Bytes) (h : ItemsOk rest items) (hr : NoMark rest)
    (hm : b!"[apex-alpha-list:" <:+: pageHtml items rest) (hc : 7 * listCount items = 1024 + 30 * loneCount items) (hl : 12 ≤ rest.length) :
    post (pageHtml items rest) = .ub := by
  obtain ⟨c, r1, r2, r3, r4⟩ := post_run items rest h hr
  obtain ⟨s1, s2⟩ := sizes items rest
  have := r4 (by omega) hl
  unfold post
  rw [if_neg (by
    intro hn
    rw [Option.isNone_iff_eq_none] at hn
    exact (Embed.find_none (by decide)).1 hn hm), r1]
  simp only
  rw [Buf.store, if_neg (by simp only [List.length_cons, List.length_nil]; omega)]

theorem bracket (u : Bool) : b!"[apex-alpha-list:" <:+: found u := ⟨b!"<p>", (if u then b!"upper" else b!"lower") ++ b!"]</p", by cases u <;> rfl⟩

theorem post_broken (items : List Item) (rest : Bytes) (h : ItemsOk rest items) (hr : Broken rest) :
    post (pageHtml items rest) = .ub := by
  obtain ⟨text, u, tail, h1, h2, h3⟩ := hr
  have hm : b!"[apex-alpha-list:" <:+: pageHtml items rest := by
    refine (bracket u).trans ?_
    exact ⟨items.flatMap Item.html ++ text, tail, by rw [h2]; simp [pageHtml]⟩
  have key : postLoop ((pageHtml items rest).length + 1) ⟨[], (pageHtml items rest).length + 1024⟩ [] (pageHtml items rest) = .ub := by
    obtain ⟨m, ⟨o, c⟩, seg', r0, r1, r2, r3, r4, r5⟩ := post_items (K := (pageHtml items rest).length + 1024) items rest h
      ((pageHtml items rest).length + 1) (by omega) ⟨[], (pageHtml items rest).length + 1024⟩ (by simp) (Or.inl rfl) []
    rw [r1, h2]
    simp only at r3 r4
    obtain ⟨k, rfl⟩ : ∃ k, m = text.length + (k + 1) := ⟨m - text.length - 1, by
      rw [h2] at r0
      simp only [List.length_append, found_len] at r0
      omega⟩
    rw [post_text text h1]
    rcases h3 with rfl | ⟨close, space, rfl, hw⟩
    · obtain ⟨t, ht⟩ := found_cons u
      have hsel := found_select u []
      have hdrop : (found u).drop 29 = [] := by rw [← found_len u, List.drop_length]
      obtain ⟨c1, a1, -⟩ := add_ok (K := (pageHtml items rest).length + 1024) ⟨o, c⟩ r3 r4 (seg' ++ text).length (seg' ++ text) (Nat.le_refl _)
      simp only [List.append_nil] at hsel ⊢
      rw [ht] at hsel hdrop ⊢
      rw [postLoop.eq_def]
      simp only
      rw [hsel]
      simp only
      rw [a1]
      simp only
      rw [hdrop]
    · obtain ⟨c1, -, -, -, q4⟩ := post_mark (K := (pageHtml items rest).length + 1024) k ⟨o, c⟩ r3 r4 (seg' ++ text) u close space [] hw rfl
      rw [List.append_nil] at q4
      rw [q4]
      rfl
  unfold post
  rw [if_neg (by
    intro hn
    rw [Option.isNone_iff_eq_none] at hn
    exact (Embed.find_none (by decide)).1 hn hm), key]

/-! ### Every page has items -/

/-- The first mark of a page. -/
theorem first_mark (s : Bytes) : NoMark s ∨ ∃ text u r, NoMark text ∧ s = text ++ found u ++ r := by
  induction s with
  | nil => exact Or.inl fun u hi => absurd (List.infix_nil.1 hi) (by cases u <;> decide)
  | cons c t ih =>
    by_cases hp : ∃ u, found u <+: c :: t
    · obtain ⟨u, r, hr⟩ := hp
      refine Or.inr ⟨[], u, r, fun u hi => absurd (List.infix_nil.1 hi) (by cases u <;> decide), ?_⟩
      rw [← hr]; simp
    · rcases ih with ih | ⟨text, u, r, h1, h2⟩
      · left
        rintro u ⟨x, y, hxy⟩
        cases x with
        | nil => exact hp ⟨u, y, by simpa using hxy⟩
        | cons d x =>
          simp only [List.cons_append, List.cons.injEq] at hxy
          exact ih u ⟨x, y, hxy.2⟩
      · right
        refine ⟨c :: text, u, r, ?_, by rw [h2]; simp⟩
        rintro v ⟨x, y, hxy⟩
        cases x with
        | nil =>
          refine hp ⟨v, y ++ found u ++ r, ?_⟩
          rw [h2]
          have : found v ++ y = c :: text := by simpa using hxy
          rw [show c :: (text ++ found u ++ r) = (c :: text) ++ (found u ++ r) by simp, ← this]
          simp
        | cons d x =>
          simp only [List.cons_append, List.cons.injEq] at hxy
          exact h1 v ⟨x, y, hxy.2⟩

theorem exists_page (html : Bytes) : ∃ items rest, ItemsOk rest items ∧ html = pageHtml items rest ∧ (NoMark rest ∨ Broken rest) := by
  suffices h : ∀ n (html : Bytes), html.length ≤ n → ∃ items rest, ItemsOk rest items ∧ html = pageHtml items rest ∧ (NoMark rest ∨ Broken rest) from
    h _ _ (Nat.le_refl _)
  intro n
  induction n with
  | zero =>
    intro html h
    have : html = [] := List.length_eq_zero_iff.1 (by omega)
    refine ⟨[], [], trivial, by rw [this]; rfl, Or.inl fun u hi => absurd (List.infix_nil.1 hi) (by cases u <;> decide)⟩
  | succ n ih =>
    intro html h
    rcases first_mark html with h1 | ⟨text, u, r, h1, h2⟩
    · exact ⟨[], html, trivial, rfl, Or.inl h1⟩
    · cases r with
      | nil => exact ⟨[], html, trivial, rfl, Or.inr ⟨text, u, [], h1, h2, Or.inl rfl⟩⟩
      | cons close r =>
        have hsp := List.takeWhile_append_dropWhile (p := white) (l := r)
        have hw : White (r.takeWhile white) := fun c hc => (white_iff c).1 (List.all_eq_true.1 List.all_takeWhile c hc)
        cases hd : r.dropWhile white with
        | nil =>
          rw [hd, List.append_nil] at hsp
          rw [hsp] at hw
          exact ⟨[], html, trivial, rfl, Or.inr ⟨text, u, close :: r, h1, h2, Or.inr ⟨close, r, rfl, hw⟩⟩⟩
        | cons c t =>
          rw [hd] at hsp
          have hcw : ¬ White [c] := by
            intro hcw
            have := FencedDivs.head_dropWhile (p := white) (s := r) (c := c) (by rw [hd]; rfl)
            have hcc := (white_iff c).2 (hcw c (by simp))
            rw [hcc] at this
            exact absurd this (by decide)
          generalize r.takeWhile white = sp at hsp hw
          subst hsp
          have hlen : html.length = text.length + 29 + (1 + (sp.length + (1 + t.length))) := by
            rw [h2]
            simp only [List.length_append, found_len, List.length_cons]
            omega
          by_cases hl : ∃ attrs r', Attrs attrs ∧ c :: t = b!"<ol" ++ attrs ++ b!">" ++ r'
          · obtain ⟨attrs, r', ha, he⟩ := hl
            have hlt : r'.length ≤ t.length := by
              have := congrArg List.length he
              simp only [List.length_append, List.length_cons, List.length_nil] at this
              omega
            obtain ⟨items, rest, g1, g2, g3⟩ := ih r' (by omega)
            refine ⟨.list text u close sp attrs :: items, rest, ⟨h1, hw, ha, g1⟩, ?_, g3⟩
            rw [h2, he, g2]
            simp [pageHtml, Item.html]
          · obtain ⟨items, rest, g1, g2, g3⟩ := ih t (by omega)
            refine ⟨.lone text u close sp c :: items, rest, ⟨h1, hw, hcw, ?_, g1⟩, ?_, g3⟩
            · rwa [← g2]
            · rw [h2, g2]
              simp [pageHtml, Item.html]

end Verif.AlphaLists
