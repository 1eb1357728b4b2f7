import Verif.Spec.Address
import Verif.Proof.Text
import Verif.Proof.Markers

namespace Verif.Address

open Spec Text.Spec Text

/-! ### Writing the lines -/

theorem emit_safe (cap start stop : Nat) (pre : Option Bytes) : ∀ (ls : List Bytes) (num : Nat) (out : Bytes), out.length < cap →
    ∃ r, emit cap start stop pre num out ls = .val r
  | [], num, out, h => ⟨out, by rw [emit, finish_val h]⟩
  | l :: ls, num, out, h => by
    unfold emit
    split
    · rename_i hc
      have key : ∀ out1 : Bytes, out1.length + l.length + 1 < cap → ∃ r,
          (puts cap out1 l >>= fun out => put cap out c!"\n" >>= fun out => emit cap start stop pre (num + 1) out ls) = .val r := by
        intro out1 h1
        rw [puts_val (by omega), C.val_bind, put_val (by simp; omega), C.val_bind]
        exact emit_safe cap start stop pre ls _ _ (by simp; omega)
      cases pre with
      | none => exact key out (by omega)
      | some p =>
        simp only []
        split
        · rw [puts_val (by omega), C.val_bind]; exact key _ (by simp; omega)
        · exact key out (by omega)
    · exact emit_safe cap start stop pre ls _ _ h

theorem marked_cons (p l : Bytes) (ls : List Bytes) : marked p (l :: ls) = p ++ l ++ [c!"\n"] ++ marked p ls := by
  simp [marked]

theorem emit_val (cap start stop : Nat) (pre : Option Bytes) : ∀ (ls : List Bytes) (num : Nat) (out : Bytes),
    out.length + (marked (pre.getD []) ((ls.take (stop - num)).drop (start - num))).length + 100 ≤ cap →
    emit cap start stop pre num out ls = .val (out ++ marked (pre.getD []) ((ls.take (stop - num)).drop (start - num)))
  | [], num, out, h => by
    rw [emit, finish_val (by simp [marked] at h; omega)]; simp [marked]
  | l :: ls, num, out, h => by
    unfold emit
    by_cases h1 : num < stop
    · have e1 : stop - num = (stop - (num + 1)) + 1 := by omega
      rw [e1, List.take_succ_cons] at h ⊢
      by_cases h2 : start ≤ num
      · have e2 : start - num = 0 := by omega
        have e3 : start - (num + 1) = 0 := by omega
        rw [e2, List.drop_zero, marked_cons] at h ⊢
        have ih := fun out1 hh => emit_val cap start stop pre ls (num + 1) out1 hh
        rw [e3, List.drop_zero] at ih
        simp only [List.length_append, List.length_cons, List.length_nil] at h
        rw [if_pos ⟨h2, h1, by omega⟩]
        have key : ∀ out1 : Bytes, out1 = out ++ pre.getD [] →
            (puts cap out1 l >>= fun out => put cap out c!"\n" >>= fun out => emit cap start stop pre (num + 1) out ls) =
            .val (out ++ (pre.getD [] ++ l ++ [c!"\n"] ++ marked (pre.getD []) (List.take (stop - (num + 1)) ls))) := by
          intro out1 ho
          subst ho
          rw [puts_val (by simp; omega), C.val_bind, put_val (by simp; omega), C.val_bind, ih _ (by simp; omega)]
          simp
        cases pre with
        | none => exact key out (by simp)
        | some p =>
          simp only [Option.getD_some] at h key ⊢
          rw [if_pos (by omega), puts_val (by omega), C.val_bind]
          exact key _ rfl
      · rw [if_neg (by omega)]
        have e2 : start - num = (start - (num + 1)) + 1 := by omega
        rw [e2, List.drop_succ_cons] at h ⊢
        exact emit_val cap start stop pre ls (num + 1) out h
    · rw [if_neg (by omega)]
      have e1 : stop - num = 0 := by omega
      have e2 : stop - (num + 1) = 0 := by omega
      have ih := emit_val cap start stop pre ls (num + 1) out
      rw [e1] at h ⊢
      rw [e2] at ih
      simpa using ih (by simpa using h)

/-! ### Lines of a file -/

theorem ended_count {ls : List Bytes} (h : ∀ l ∈ ls, c!"\n" ∉ l) : (ended ls).count c!"\n" = ls.length := by
  induction ls with
  | nil => rfl
  | cons l ls ih =>
    have e : ended (l :: ls) = l ++ ([c!"\n"] ++ ended ls) := by simp [ended]
    rw [e, List.count_append, List.count_append, ih fun m hm => h m (List.mem_cons_of_mem _ hm),
      List.count_eq_zero.2 (h l (by simp))]
    simp; omega

theorem file_total {content : Bytes} {ls : List Bytes} {last : Bytes} (h : File content ls last) :
    totalLines content = ls.length + 1 := by
  unfold totalLines
  rw [h.2.2, List.count_append, ended_count h.1, List.count_eq_zero.2 h.2.1]; omega

theorem file_lines {content : Bytes} {ls : List Bytes} {last : Bytes} (h : File content ls last) :
    splitLines content = ls ++ (if last = [] then [] else [last]) := by
  apply splitLines_unique
  obtain ⟨h1, h2, h3⟩ := h
  by_cases hl : last = []
  · rw [if_pos hl, List.append_nil]; exact ⟨h1, .inl (by rw [h3, hl]; simp)⟩
  · rw [if_neg hl]
    refine ⟨?_, .inr ⟨ls, last, rfl, hl, h3⟩⟩
    intro l hm
    rcases List.mem_append.1 hm with hm | hm
    · exact h1 l hm
    · rw [List.mem_singleton.1 hm]; exact h2

theorem file_exists (content : Bytes) : ∃ ls last, File content ls last := by
  obtain ⟨h1, h2⟩ := splitLines_spec content
  rcases h2 with h2 | ⟨front, last, h2, hl, h3⟩
  · exact ⟨_, [], h1, by simp, by simpa using h2⟩
  · rw [h2] at h1
    exact ⟨front, last, fun l hl => h1 l (by simp [hl]), h1 last (by simp), h3⟩

theorem marked_nil_length {content : Bytes} {ls : List Bytes} {last : Bytes} (h : File content ls last) (i j : Nat) :
    (marked [] ((ls.take i).drop j)).length ≤ content.length := by
  have h1 : ∀ ms : List Bytes, (marked [] ms).length = (ms.map fun l => l.length + 1).sum := by
    intro ms
    induction ms with
    | nil => rfl
    | cons m ms ih => rw [marked_cons]; simp [ih]; omega
  have h2 : content.length = (marked [] ls).length + last.length := by
    rw [h.2.2]; simp [ended, marked]
  rw [h2, h1, h1]
  have h3 : ∀ (ms : List Bytes) (i : Nat), ((ms.take i).map fun l => l.length + 1).sum ≤ (ms.map fun l => l.length + 1).sum := by
    intro ms i
    conv => rhs; rw [← List.take_append_drop i ms, List.map_append, List.sum_append]
    omega
  have h4 : ∀ (ms : List Bytes) (i : Nat), ((ms.drop i).map fun l => l.length + 1).sum ≤ (ms.map fun l => l.length + 1).sum := by
    intro ms i
    conv => rhs; rw [← List.take_append_drop i ms, List.map_append, List.sum_append]
    omega
  have := h4 (ls.take i) j
  have := h3 ls i
  omega

theorem marked_nil (ls : List Bytes) : marked [] ls = ended ls := by simp [marked, ended]

theorem between_eq {ls : List Bytes} {tail : List Bytes} {n m : Nat} (hm : m ≤ ls.length + 1) :
    ((ls ++ tail).take (m - 1)).drop (n - 1) = between n m ls := by
  unfold between
  rw [List.take_append_of_le_length (by omega)]

theorem between_min {ls : List Bytes} {n m : Nat} : between n (min m (ls.length + 1)) ls = between n m ls := by
  unfold between
  by_cases h : m ≤ ls.length + 1
  · rw [Nat.min_eq_left h]
  · rw [Nat.min_eq_right (by omega), List.take_of_length_le (by omega), List.take_of_length_le (by omega)]

/-- Number addresses: the lines `n` to `m - 1` (or to the end) that end in a newline. -/
theorem extract_lines {regcomp : Bytes → Option (Bytes → Bool)} {fuel : Nat} {content : Bytes} {ls : List Bytes} {last : Bytes}
    {n : Nat} {e : Option Nat} {pre : Option Bytes} (h : File content ls last) (hn : 1 ≤ n)
    (hfit : (marked (pre.getD []) (between n (e.getD (ls.length + 1)) ls)).length ≤ content.length + 924) :
    extract regcomp (fuel + 1) content ⟨true, false, n, e, none, none, pre⟩ =
      some (.val (marked (pre.getD []) (between n (e.getD (ls.length + 1)) ls))) := by
  rw [extract]
  simp only [Bool.not_true, Bool.false_and, Bool.false_eq_true, if_false]
  rw [file_total h]
  by_cases h1 : n > ls.length + 1
  · rw [if_pos (.inr h1)]
    have : between n (e.getD (ls.length + 1)) ls = [] := by
      unfold between
      rw [List.drop_eq_nil_iff, List.length_take]; omega
    rw [this]; rfl
  · rw [if_neg (by omega)]
    have hstop : stopLine e (ls.length + 1) = min (e.getD (ls.length + 1)) (ls.length + 1) := by
      cases e <;> simp [stopLine]
    rw [hstop]
    generalize e.getD (ls.length + 1) = m at *
    by_cases h2 : min m (ls.length + 1) < n
    · rw [if_pos h2]
      have : between n m ls = [] := by
        unfold between
        rw [List.drop_eq_nil_iff, List.length_take]; omega
      rw [this]; rfl
    · rw [if_neg h2, file_lines h, emit_val, between_eq (Nat.min_le_right _ _), between_min]
      · rfl
      · rw [between_eq (Nat.min_le_right _ _), between_min]; simp; omega

/-! ### Reading the address -/

theorem digit_space {c : Byte} (h : isDigit c = true) : isSpace c = false ∧ c ≠ c!"-" ∧ c ≠ c!"+" ∧ c ≠ c!"/" ∧ c ≠ c!"p" ∧ c ≠ c!";" ∧
    c ≠ c!"," :=
  forall_byte (p := fun c => isDigit c = true → isSpace c = false ∧ c ≠ c!"-" ∧ c ≠ c!"+" ∧ c ≠ c!"/" ∧ c ≠ c!"p" ∧ c ≠ c!";" ∧
    c ≠ c!",") (by decide +kernel) c h

theorem skipSpace_of {s : Bytes} (h : ∀ c, s.head? = some c → isSpace c = false) : skipSpace s = s := by
  cases s with
  | nil => rfl
  | cons c t => simp [skipSpace, h c rfl]

theorem number_head {ds : Bytes} {n : Nat} (h : Number ds n) : ∃ c t, ds = c :: t ∧ isDigit c = true := by
  cases ds with
  | nil => exact absurd rfl h.ne
  | cons c t => exact ⟨c, t, rfl, h.digits c (by simp)⟩

theorem takeWhile_digits {ds rest : Bytes} (h : ∀ c ∈ ds, isDigit c = true) (hr : ∀ c, rest.head? = some c → isDigit c = false) :
    (ds ++ rest).takeWhile isDigit = ds ∧ (ds ++ rest).dropWhile isDigit = rest := by
  induction ds with
  | nil =>
    cases rest with
    | nil => exact ⟨rfl, rfl⟩
    | cons c t => simp [hr c rfl]
  | cons c t ih =>
    obtain ⟨h1, h2⟩ := ih fun d hd => h d (List.mem_cons_of_mem _ hd)
    rw [List.cons_append, List.takeWhile_cons, List.dropWhile_cons, if_pos (h c (by simp)), if_pos (h c (by simp)), h1, h2]
    exact ⟨rfl, rfl⟩

theorem strtol_number {ds rest : Bytes} {n : Nat} (h : Number ds n) (hr : ∀ c, rest.head? = some c → isDigit c = false) :
    strtol (ds ++ rest) = some ((n : Int), rest) := by
  obtain ⟨c, t, rfl, hc⟩ := number_head h
  have hs := digit_space hc
  have hskip : skipSpace ((c :: t) ++ rest) = (c :: t) ++ rest := skipSpace_of (by intro d hd; cases hd; exact hs.1)
  obtain ⟨h1, h2⟩ := takeWhile_digits h.digits hr
  unfold strtol
  simp only [hskip]
  have e1 : (((c :: t) ++ rest).head? == some c!"-") = false := by simp [hs.2.1]
  have e2 : (((c :: t) ++ rest).head? == some c!"+") = false := by simp [hs.2.2.1]
  simp only [e1, e2, Bool.or_self, Bool.false_eq_true, if_false, h1, h2, h.value]
  rw [if_neg (by simp)]
  have hsm := h.small
  have e3 : min (n : Int) (2 ^ 63 - 1) = n := by omega
  rw [e3, Int.bmod_eq_of_le (by omega) (by omega)]

theorem upTo_eq {d : Byte} {x t : Bytes} (h : d ∉ x) : upTo d (x ++ d :: t) = some (x, t) := by
  unfold upTo
  rw [if_pos (by simp)]
  have h1 : (x ++ d :: t).takeWhile (· != d) = x := by
    rw [List.takeWhile_append_of_pos (by intro c hc; simp; rintro rfl; exact h hc)]; simp
  have h2 : (x ++ d :: t).dropWhile (· != d) = d :: t := by
    rw [List.dropWhile_append_of_pos (by intro c hc; simp; rintro rfl; exact h hc)]; simp
  rw [h1, h2]; rfl

theorem prefixParam_eq {p : Bytes} (h : c!"\"" ∉ p) (t : Bytes) : prefixParam (b!"prefix=\"" ++ p ++ c!"\"" :: t) = some (some p) := by
  unfold prefixParam
  rw [if_pos (by simp)]
  have : (b!"prefix=\"" ++ p ++ c!"\"" :: t).drop 8 = p ++ c!"\"" :: t := by simp
  rw [this, upTo_eq h]; rfl

theorem prefixParam_other {c : Byte} {t : Bytes} (h : c ≠ c!"p") : prefixParam (c :: t) = none := by
  unfold prefixParam
  rw [if_neg (by simp [Ne.symm h])]

theorem trailer_eq {pre : Option Bytes} (h : ∀ p, pre = some p → c!"\"" ∉ p) : trailer (prefixText pre) = pre := by
  cases pre with
  | none => rfl
  | some p =>
    have e : skipSpace (prefixText (some p)) = c!";" :: (b!"prefix=\"" ++ p ++ [c!"\""]) := by
      rw [skipSpace_of (by intro c hc; have : c = c!";" := by simpa [prefixText] using hc.symm
                           rw [this]; decide)]
      simp [prefixText]
    unfold trailer
    rw [e]
    simp only []
    rw [if_pos trivial]
    have e2 : skipSpace (b!"prefix=\"" ++ p ++ [c!"\""]) = b!"prefix=\"" ++ p ++ [c!"\""] := by
      apply skipSpace_of
      intro c hc
      have : c = c!"p" := by simpa using hc.symm
      rw [this]; decide
    rw [e2, prefixParam_eq (h p rfl) []]; rfl

theorem parse_number {a rest : Bytes} {n : Nat} (ha : Number a n) (hr : ∀ c, rest.head? = some c → isDigit c = false) (hn : 1 ≤ n) :
    parse (a ++ rest) = (
      let pos := skipSpace rest
      if pos.head? = some c!"," then
        let pos := skipSpace (pos.drop 1)
        if pos = [] ∨ pos.head? = some c!";" then
          some ⟨true, false, n, none, none, none, trailer pos⟩
        else match strtol pos with
          | none => some ⟨true, false, n, none, none, none, trailer pos⟩
          | some (m, pos) => some ⟨true, false, n, if m < n then none else some m.toNat, none, none, trailer pos⟩
      else some ⟨true, false, n, some n, none, none, trailer pos⟩) := by
  obtain ⟨c, t, rfl, hc⟩ := number_head ha
  have hs := digit_space hc
  have hskip : skipSpace ((c :: t) ++ rest) = (c :: t) ++ rest := skipSpace_of (by intro d hd; cases hd; exact hs.1)
  unfold parse
  rw [if_neg (by simp)]
  simp only [hskip]
  have e1 : prefixParam ((c :: t) ++ rest) = none := prefixParam_other hs.2.2.2.2.1
  rw [e1]
  simp only []
  rw [if_neg (by simp [hs.2.2.2.1]), strtol_number ha hr]
  simp only []
  rw [if_neg (by omega)]
  simp only [Int.toNat_natCast]
  rfl

theorem prefixText_head (pre : Option Bytes) : ∀ c, (prefixText pre).head? = some c → c = c!";" := by
  intro c hc
  cases pre with
  | none => simp [prefixText] at hc
  | some p => simpa [prefixText] using hc.symm

/-- `N,M` -/
theorem parse_range {a b : Bytes} {n m : Nat} {pre : Option Bytes} (ha : Number a n) (hb : Number b m) (hn : 1 ≤ n)
    (hp : ∀ p, pre = some p → c!"\"" ∉ p) :
    parse (a ++ b!"," ++ b ++ prefixText pre) =
      some ⟨true, false, n, if m < n then none else some m, none, none, pre⟩ := by
  have e : a ++ b!"," ++ b ++ prefixText pre = a ++ (c!"," :: (b ++ prefixText pre)) := by simp
  rw [e, parse_number ha (by intro c hc; cases hc; decide) hn]
  have e1 : skipSpace (c!"," :: (b ++ prefixText pre)) = c!"," :: (b ++ prefixText pre) :=
    skipSpace_of (by intro c hc; cases hc; decide)
  obtain ⟨c, t, rfl, hc⟩ := number_head hb
  have hs := digit_space hc
  have e2 : skipSpace ((c :: t) ++ prefixText pre) = (c :: t) ++ prefixText pre :=
    skipSpace_of (by intro d hd; cases hd; exact hs.1)
  simp only [e1, List.drop_one, List.tail_cons, e2]
  rw [if_pos (by simp), if_neg (by simp [hs.2.2.2.2.2.1]),
    strtol_number hb (by intro c hc; rw [prefixText_head pre c hc]; decide)]
  simp only []
  rw [trailer_eq hp]
  simp only [Int.toNat_natCast]
  congr 2
  by_cases h : m < n
  · rw [if_pos h, if_pos (by omega)]
  · rw [if_neg h, if_neg (by omega)]

/-- `N,` -/
theorem parse_open {a : Bytes} {n : Nat} {pre : Option Bytes} (ha : Number a n) (hn : 1 ≤ n)
    (hp : ∀ p, pre = some p → c!"\"" ∉ p) :
    parse (a ++ b!"," ++ prefixText pre) = some ⟨true, false, n, none, none, none, pre⟩ := by
  have e : a ++ b!"," ++ prefixText pre = a ++ (c!"," :: prefixText pre) := by simp
  rw [e, parse_number ha (by intro c hc; cases hc; decide) hn]
  have e1 : skipSpace (c!"," :: prefixText pre) = c!"," :: prefixText pre :=
    skipSpace_of (by intro c hc; cases hc; decide)
  have e2 : skipSpace (prefixText pre) = prefixText pre :=
    skipSpace_of (by intro c hc; rw [prefixText_head pre c hc]; decide)
  simp only [e1, List.drop_one, List.tail_cons, e2]
  rw [if_pos (by simp), if_pos, trailer_eq hp]
  cases pre with
  | none => left; rfl
  | some p => right; simp [prefixText]

/-- `N` -/
theorem parse_single {a : Bytes} {n : Nat} {pre : Option Bytes} (ha : Number a n) (hn : 1 ≤ n)
    (hp : ∀ p, pre = some p → c!"\"" ∉ p) :
    parse (a ++ prefixText pre) = some ⟨true, false, n, some n, none, none, pre⟩ := by
  have hh := prefixText_head pre
  rw [parse_number ha (by intro c hc; rw [hh c hc]; decide) hn]
  have e2 : skipSpace (prefixText pre) = prefixText pre :=
    skipSpace_of (by intro c hc; rw [hh c hc]; decide)
  simp only [e2]
  rw [if_neg (by intro h; have := hh _ h; exact absurd this (by decide)), trailer_eq hp]

/-! ### Patterns -/

theorem search_none {rs re : Option (Bytes → Bool)} {m : Bytes → Bool} (hrs : rs = some m) : ∀ (a ls : List Bytes) (num : Nat),
    (∀ l ∈ a, m l = false) → search rs re num none (a ++ ls) = search rs re (num + a.length) none ls := by
  subst hrs
  intro a
  induction a with
  | nil => intro ls num _; rfl
  | cons x a ih =>
    intro ls num h
    have e : num + (x :: a).length = num + 1 + a.length := by simp; omega
    rw [e, ← ih ls (num + 1) fun l hl => h l (List.mem_cons_of_mem _ hl), List.cons_append]
    conv => lhs; unfold search
    simp only [h x (by simp), Bool.false_eq_true, if_false]
    cases re <;> simp

theorem search_found {rs : Option (Bytes → Bool)} {m2 : Bytes → Bool} {i : Nat} : ∀ (mid ls : List Bytes) (num : Nat),
    (∀ l ∈ mid, m2 l = false) → search rs (some m2) num (some i) (mid ++ ls) = search rs (some m2) (num + mid.length) (some i) ls := by
  intro a
  induction a with
  | nil => intro ls num _; rfl
  | cons x a ih =>
    intro ls num h
    have e : num + (x :: a).length = num + 1 + a.length := by simp; omega
    rw [e, ← ih ls (num + 1) fun l hl => h l (List.mem_cons_of_mem _ hl), List.cons_append]
    conv => lhs; unfold search
    cases rs <;> simp [h x (by simp)]

theorem search_end {rs : Option (Bytes → Bool)} {i : Nat} : ∀ (ls : List Bytes) (num : Nat),
    search rs none num (some i) ls = (some i, none) := by
  intro a
  induction a with
  | nil => intro num; rfl
  | cons x a ih => intro num; unfold search; cases rs <;> simp [ih]

theorem search_hit {m1 : Bytes → Bool} {re : Option (Bytes → Bool)} {x : Bytes} {ls : List Bytes} {num : Nat} (h : m1 x = true) :
    search (some m1) re num none (x :: ls) = search (some m1) re num (some num) (x :: ls) := by
  conv => lhs; unfold search
  conv => rhs; unfold search
  simp [h]

/-! ### The prefix on every line -/

/-- What the copy with a prefix writes. -/
def prefixed (pre : Bytes) : Bool → Bytes → Bytes
  | _, [] => []
  | start, c :: t =>
    (if start && c != c!"\n" then pre else []) ++ c ::
      prefixed pre (if c = c!"\n" then true else if start && c != c!"\n" then false else start) t

theorem prefixAll_val (pre : Bytes) (cap : Nat) : ∀ (s : Bytes) (start : Bool) (out : Bytes),
    out.length + (prefixed pre start s).length < cap → prefixAll pre cap start out s = .val (out ++ prefixed pre start s)
  | [], start, out, h => by rw [prefixAll, finish_val (by simp [prefixed] at h; omega)]; simp [prefixed]
  | c :: t, start, out, h => by
    rw [prefixAll, prefixed]
    rw [prefixed] at h
    generalize (if c = c!"\n" then true else if start && c != c!"\n" then false else start) = st at h ⊢
    by_cases h1 : (start && c != c!"\n") = true
    · rw [if_pos h1] at h ⊢
      simp only [List.length_append, List.length_cons] at h
      rw [if_pos h1, puts_val (by omega), C.val_bind, put_val (by simp; omega), C.val_bind, prefixAll_val pre cap t _ _ (by simp; omega)]
      simp only [List.append_assoc, List.singleton_append]
    · rw [if_neg h1] at h ⊢
      simp only [List.nil_append, List.length_cons] at h
      rw [if_neg h1, C.val_bind, put_val (by omega), C.val_bind, prefixAll_val pre cap t _ _ (by simp; omega)]
      simp only [List.append_assoc, List.singleton_append, List.nil_append]

theorem prefixed_plain (pre : Bytes) : ∀ (l t : Bytes), c!"\n" ∉ l → prefixed pre false (l ++ t) = l ++ prefixed pre false t
  | [], t, _ => rfl
  | c :: l, t, h => by
    have hc : c ≠ c!"\n" := by rintro rfl; simp at h
    rw [List.cons_append, prefixed, if_neg (by simp), if_neg hc]
    simp only [Bool.false_and, Bool.false_eq_true, if_false, List.nil_append]
    rw [prefixed_plain pre l t (by intro hm; exact h (List.mem_cons_of_mem _ hm))]; rfl

theorem prefixed_line (pre l t : Bytes) (h : c!"\n" ∉ l) (hne : l ≠ []) : prefixed pre true (l ++ t) = pre ++ l ++ prefixed pre false t := by
  cases l with
  | nil => exact absurd rfl hne
  | cons c l =>
    have hc : c ≠ c!"\n" := by rintro rfl; simp at h
    rw [List.cons_append, prefixed, if_pos (by simp [hc]), if_neg hc, if_pos (by simp [hc]),
      prefixed_plain pre l t (by intro hm; exact h (List.mem_cons_of_mem _ hm))]
    simp

theorem prefixed_nl (pre t : Bytes) (b : Bool) : prefixed pre b (c!"\n" :: t) = c!"\n" :: prefixed pre true t := by
  rw [prefixed]; simp

theorem prefixed_ended (pre last : Bytes) (hl : c!"\n" ∉ last) : ∀ ls : List Bytes, (∀ l ∈ ls, c!"\n" ∉ l) →
    prefixed pre true (ended ls ++ last) = quoted pre ls ++ (if last = [] then [] else pre ++ last)
  | [], _ => by
    by_cases h : last = []
    · subst h; simp [ended, quoted, prefixed]
    · have := prefixed_line pre last [] hl h
      rw [List.append_nil] at this
      simp [ended, quoted, this, h, prefixed]
  | l :: ls, h => by
    have ih := prefixed_ended pre last hl ls fun m hm => h m (List.mem_cons_of_mem _ hm)
    have e : ended (l :: ls) ++ last = l ++ (c!"\n" :: (ended ls ++ last)) := by simp [ended]
    have e2 : quoted pre (l :: ls) = (if l = [] then [] else pre ++ l) ++ [c!"\n"] ++ quoted pre ls := by simp [quoted]
    rw [e, e2]
    by_cases h1 : l = []
    · subst h1; rw [List.nil_append, prefixed_nl, ih]; simp
    · rw [prefixed_line pre l _ (h l (by simp)) h1, prefixed_nl, ih]; simp [h1]

theorem quoted_length (pre : Bytes) (ls : List Bytes) : (quoted pre ls).length ≤ (ended ls).length + ls.length * pre.length := by
  induction ls with
  | nil => simp [quoted, ended]
  | cons l ls ih =>
    have e1 : quoted pre (l :: ls) = (if l = [] then [] else pre ++ l) ++ [c!"\n"] ++ quoted pre ls := by simp [quoted]
    have e2 : ended (l :: ls) = l ++ [c!"\n"] ++ ended ls := by simp [ended]
    rw [e1, e2]
    simp only [List.length_append, List.length_cons, List.length_nil, Nat.add_mul, Nat.one_mul]
    split
    · simp; omega
    · simp only [List.length_append]; omega

theorem ended_getLast {ls : List Bytes} (h : ls ≠ []) : (ended ls).getLast? = some c!"\n" := by
  obtain ⟨init, l, rfl⟩ : ∃ init l, ls = init ++ [l] := ⟨_, _, (List.dropLast_concat_getLast h).symm⟩
  have : ended (init ++ [l]) = (ended init ++ l) ++ [c!"\n"] := by simp [ended]
  rw [this, List.getLast?_concat]

/-- The prefix alone: every line that is not empty gets it. -/
theorem extract_prefix {regcomp : Bytes → Option (Bytes → Bool)} {fuel : Nat} {content : Bytes} {ls : List Bytes} {last : Bytes}
    {n : Nat} {e : Option Nat} {a b : Option Bytes} {p : Bytes} (h : File content ls last) :
    extract regcomp (fuel + 1) content ⟨false, false, n, e, a, b, some p⟩ =
      some (.val (quoted p ls ++ if last = [] then [] else p ++ last)) := by
  rw [extract]
  simp only [Bool.not_false, Bool.true_and, if_true]
  have hp : prefixed p true content = quoted p ls ++ (if last = [] then [] else p ++ last) := by
    rw [h.2.2]; exact prefixed_ended p last h.2.1 ls h.1
  rw [prefixAll_val, hp]
  · rfl
  · rw [hp]
    have hc : content.count c!"\n" = ls.length := by
      rw [h.2.2, List.count_append, ended_count h.1, List.count_eq_zero.2 h.2.1]; omega
    have hq := quoted_length p ls
    have hlen : content.length = (ended ls).length + last.length := by rw [h.2.2, List.length_append]
    rw [hc, List.length_append, List.length_nil]
    by_cases hl : last = []
    · subst hl
      simp only [if_true, List.length_nil] at hlen ⊢
      rw [Nat.add_mul]; omega
    · have h2 : content ≠ [] := by rw [h.2.2]; simp [hl]
      have h3 : content.getLast? ≠ some c!"\n" := by
        rw [h.2.2, List.getLast?_append]
        cases hg : last.getLast? with
        | none => exact absurd (List.getLast?_eq_none_iff.1 hg) hl
        | some c =>
          intro hh
          have hc : c = c!"\n" := by simpa using hh
          exact h.2.1 (hc ▸ List.mem_of_getLast? hg)
      rw [if_neg hl, if_pos ⟨h2, h3⟩, List.length_append, Nat.add_mul]; omega

theorem extract_safe {regcomp : Bytes → Option (Bytes → Bool)} {content : Bytes} {s : Spec} {r : C Bytes} : ∀ {fuel : Nat},
    extract regcomp fuel content s = some r → ∃ out, r = .val out := by
  intro fuel
  induction fuel with
  | zero => intro h; cases h
  | succ fuel ih =>
    intro h
    by_cases h0 : s.isLine = false ∧ s.isRegex = false
    · obtain ⟨a, b, n, e, rs, re, pre⟩ := s
      obtain ⟨h1, h2⟩ := h0
      subst h1; subst h2
      cases pre with
      | none => rw [extract] at h; simp at h; exact ⟨_, h.symm⟩
      | some p =>
        obtain ⟨ls, last, hf⟩ := file_exists content
        rw [extract_prefix hf] at h
        exact ⟨_, (Option.some.inj h).symm⟩
    · have he : ∀ a b out ls, out.length < content.length + 1024 →
          some (emit (content.length + 1024) a b s.pre 1 out ls) = some r → ∃ out, r = .val out := by
        intro a b out ls ho hh
        obtain ⟨r', hr⟩ := emit_safe (content.length + 1024) a b s.pre ls 1 out ho
        rw [hr] at hh
        exact ⟨r', (Option.some.inj hh).symm⟩
      have hv : ∀ v : Bytes, some (C.val v) = some r → ∃ out, r = .val out := fun v hh => ⟨v, (Option.some.inj hh).symm⟩
      rw [extract, if_neg (by cases h1 : s.isLine <;> cases h2 : s.isRegex <;> simp_all)] at h
      simp only [] at h
      split at h
      · split at h
        · split at h
          · exact ih h
          · exact hv _ h
        · split at h
          · exact hv _ h
          · exact he _ _ _ _ (by simp) h
      · split at h
        · exact hv _ h
        · split at h
          · exact hv _ h
          · exact he _ _ _ _ (by simp) h

theorem extract_regex {regcomp : Bytes → Option (Bytes → Bool)} {fuel : Nat} {content : Bytes} {ls : List Bytes} {last : Bytes}
    {a : Bytes} {b : Option Bytes} {m1 : Bytes → Bool} {pre : Option Bytes} {n : Nat} {i j : Option Nat}
    (h : File content ls last) (ha : regcomp a = some m1)
    (hs : search (some m1) (b.bind regcomp) 1 none (splitLines content) = (some n, j)) (hj : ∀ m, j = some m → m ≤ ls.length + 1)
    (hfit : (marked (pre.getD []) (between n (j.getD (ls.length + 1)) ls)).length ≤ content.length + 924) :
    extract regcomp (fuel + 1) content ⟨false, true, 0, i, some a, b, pre⟩ =
      some (.val (marked (pre.getD []) (between n (j.getD (ls.length + 1)) ls))) := by
  have hjm : j.getD (ls.length + 1) ≤ ls.length + 1 := by
    cases j with
    | none => simp
    | some m => simpa using hj m rfl
  rw [extract]
  simp only [Bool.not_false, Bool.not_true, Bool.and_false, Bool.false_eq_true, if_false, if_true, Option.bind_some, ha,
    Option.isNone_some, Bool.false_and, hs, Option.isSome_some, Option.getD_some]
  rw [file_total h, file_lines h, emit_val, between_eq hjm]
  · rfl
  · rw [between_eq hjm]; simp; omega

theorem parse_regex {a : Bytes} {b : Bytes} {pre : Option Bytes} (ha : c!"/" ∉ a) (hb : c!"/" ∉ b)
    (hp : ∀ p, pre = some p → c!"\"" ∉ p) :
    parse (b!"/" ++ a ++ b!"/,/" ++ b ++ b!"/" ++ prefixText pre) =
      some ⟨false, true, 0, some 0, some a, some b, pre⟩ := by
  have e : b!"/" ++ a ++ b!"/,/" ++ b ++ b!"/" ++ prefixText pre =
      c!"/" :: (a ++ c!"/" :: (c!"," :: c!"/" :: (b ++ c!"/" :: prefixText pre))) := by simp
  rw [e]
  have e1 : ∀ t, skipSpace (c!"/" :: t) = c!"/" :: t := by
    intro t; exact skipSpace_of (by intro c hc; cases hc; decide)
  have e2 : prefixParam (c!"/" :: (a ++ c!"/" :: (c!"," :: c!"/" :: (b ++ c!"/" :: prefixText pre)))) = none :=
    prefixParam_other (by decide)
  have e3 : (c!"," :: c!"/" :: (b ++ c!"/" :: prefixText pre)).dropWhile (fun c => isSpace c || c == c!",") =
      c!"/" :: (b ++ c!"/" :: prefixText pre) := by
    rw [List.dropWhile_cons, if_pos (by decide), List.dropWhile_cons, if_neg (by decide)]
  unfold parse
  rw [if_neg (by simp)]
  simp only [e1, e2]
  rw [if_pos (by simp), List.drop_one, List.tail_cons, upTo_eq ha]
  simp only [e3]
  rw [if_pos (by simp), List.drop_one, List.tail_cons, upTo_eq hb]
  simp only [trailer_eq hp]

/-- One pattern only. -/
theorem parse_regex_one {a : Bytes} {pre : Option Bytes} (ha : c!"/" ∉ a) (hp : ∀ p, pre = some p → c!"\"" ∉ p) :
    parse (b!"/" ++ a ++ b!"/" ++ prefixText pre) = some ⟨false, true, 0, some 0, some a, none, pre⟩ := by
  have e : b!"/" ++ a ++ b!"/" ++ prefixText pre = c!"/" :: (a ++ c!"/" :: prefixText pre) := by simp
  rw [e]
  have e1 : ∀ t, skipSpace (c!"/" :: t) = c!"/" :: t := by
    intro t; exact skipSpace_of (by intro c hc; cases hc; decide)
  have e2 : prefixParam (c!"/" :: (a ++ c!"/" :: prefixText pre)) = none := prefixParam_other (by decide)
  have e3 : (prefixText pre).dropWhile (fun c => isSpace c || c == c!",") = prefixText pre := by
    cases pre with
    | none => rfl
    | some p =>
      have : prefixText (some p) = c!";" :: (b!"prefix=\"" ++ p ++ [c!"\""]) := by simp [prefixText]
      rw [this, List.dropWhile_cons, if_neg (by decide)]
  unfold parse
  rw [if_neg (by simp)]
  simp only [e1, e2]
  rw [if_pos (by simp), List.drop_one, List.tail_cons, upTo_eq ha]
  simp only [e3]
  rw [if_neg (by intro hh; have := prefixText_head pre _ hh; exact absurd this (by decide))]
  simp only [trailer_eq hp]

end Verif.Address
