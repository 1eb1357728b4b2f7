/- Lemmas for dates. -/
import Verif.Spec.Dates
import Verif.Proof.Images

namespace Verif.Dates
open Spec

theorem digit_range {c : Byte} (h : isDigit c = true) : 48 ≤ c.toNat ∧ c.toNat ≤ 57 := by
  revert h
  exact forall_byte (p := fun c => isDigit c = true → 48 ≤ c.toNat ∧ c.toNat ≤ 57) (by decide +kernel) c

theorem digit_not_space {c : Byte} (h : isDigit c = true) : isSpace c = false ∧ c ≠ c!"-" ∧ c ≠ c!"+" := by
  revert h
  exact forall_byte (p := fun c => isDigit c = true → isSpace c = false ∧ c ≠ c!"-" ∧ c ≠ c!"+") (by decide +kernel) c

theorem span_digits {ds : Bytes} (h : ∀ c ∈ ds, isDigit c = true) {r : Bytes} (hr : ∀ c, r.head? = some c → isDigit c = false) :
    (ds ++ r).takeWhile isDigit = ds ∧ (ds ++ r).dropWhile isDigit = r := by
  cases r with
  | nil =>
    rw [List.append_nil]
    refine ⟨?_, ?_⟩
    · have := List.takeWhile_append_of_pos (p := isDigit) (l₁ := ds) (l₂ := []) h
      simpa using this
    · have := List.dropWhile_append_of_pos (p := isDigit) (l₁ := ds) (l₂ := []) h
      simpa using this
  | cons c r => exact Images.span_at h (by simpa using hr c rfl)

theorem num_at {ds r : Bytes} (h : Digits ds) (w : Bytes) (hw : ∀ c ∈ w, isSpace c = true) (hr : ∀ c, r.head? = some c → isDigit c = false) :
    num (w ++ ds ++ r) = .val (some ((value ds : Int), r)) := by
  obtain ⟨hne, hd, hv⟩ := h
  have hs : (w ++ ds ++ r).dropWhile isSpace = ds ++ r := by
    rw [List.append_assoc, List.dropWhile_append_of_pos hw]
    cases ds with
    | nil => exact absurd rfl hne
    | cons c ds => exact List.dropWhile_cons_of_neg (by simp [(digit_not_space (hd c (by simp))).1])
  have hh : ¬ ((ds ++ r).head? = some c!"-" ∨ (ds ++ r).head? = some c!"+") ∧ (ds ++ r).head? ≠ some c!"-" := by
    cases ds with
    | nil => exact absurd rfl hne
    | cons c ds =>
      have := digit_not_space (hd c (by simp))
      simp [this.2.1, this.2.2]
  have sp := span_digits hd hr
  unfold num
  simp only [hs, if_neg hh.1, if_neg hh.2, sp.1, sp.2, if_neg hne]
  rw [if_pos ⟨by omega, by omega⟩]

theorem fields_sep {ds r : Bytes} {c : Byte} (h : Digits ds) (w : Bytes) (hw : ∀ c ∈ w, isSpace c = true) (hc : c ≠ c!" ") (hd : isDigit c = false) {more : List Byte} {l : List Int}
    (hl : fields more r = .val l) : fields (c :: more) (w ++ ds ++ c :: r) = .val ((value ds : Int) :: l) := by
  unfold fields
  rw [num_at h w hw (by intro x hx; cases hx; exact hd)]
  simp only [C.val_bind, if_neg hc, List.head?_cons, if_true, List.drop_succ_cons, List.drop_zero, hl]

theorem fields_blank {ds r : Bytes} (h : Digits ds) (w : Bytes) (hw : ∀ c ∈ w, isSpace c = true) (hr : ∀ c, r.head? = some c → isDigit c = false) {more : List Byte} {l : List Int}
    (hl : fields more r = .val l) : fields (c!" " :: more) (w ++ ds ++ r) = .val ((value ds : Int) :: l) := by
  unfold fields
  rw [num_at h w hw hr]
  simp only [C.val_bind, if_true, hl]

theorem fields_last {ds r : Bytes} (h : Digits ds) (w : Bytes) (hw : ∀ c ∈ w, isSpace c = true) (hr : ∀ c, r.head? = some c → isDigit c = false) : fields [] (w ++ ds ++ r) = .val [(value ds : Int)] := by
  unfold fields
  rw [num_at h w hw hr]
  rfl

theorem two_value {a b : Byte} (ha : isDigit a = true) (hb : isDigit b = true) : value [a, b] = (a.toNat - 48) * 10 + (b.toNat - 48) ∧ value [a, b] < 100 := by
  have h1 := digit_range ha
  have h2 := digit_range hb
  have e : value [a, b] = (0 * 10 + (a.toNat - 48)) * 10 + (b.toNat - 48) := rfl
  omega

theorem two_digits {s : Bytes} (h : Two s) : Digits s := by
  obtain ⟨a, b, rfl, ha, hb⟩ := h
  refine ⟨by simp, ?_, Nat.lt_trans (two_value ha hb).2 (by decide)⟩
  intro c hc
  simp only [List.mem_cons, List.not_mem_nil, or_false] at hc
  rcases hc with rfl | rfl
  · exact ha
  · exact hb

/-- The date that was written is read. -/
theorem parse_at {t : Date} (h : t.Ok) (r : Bytes) (hr : ∀ c, r.head? = some c → isDigit c = false) : parse (t.write ++ r) =
    .val (some { year := value t.y - 1900, mon := value t.m - 1, mday := value t.d, hour := value t.hh, min := value t.mm, sec := value t.ss }) := by
  obtain ⟨hy, _, hm, hd, h1, h2, h3⟩ := h
  have h0 : ∀ c ∈ ([] : Bytes), isSpace c = true := by
    intro c hc
    cases hc
  have f3 := fields_last (two_digits h3) [] h0 hr
  have f2 := fields_sep (c := c!":") (two_digits h2) [] h0 (by decide) (by decide) f3
  have f1 := fields_sep (c := c!":") (two_digits h1) b!" " (by decide) (by decide) (by decide) f2
  have fd := fields_blank (two_digits hd) [] h0 (by intro c hc; cases hc; decide) f1
  have fm := fields_sep (c := c!"-") (two_digits hm) [] h0 (by decide) (by decide) fd
  have fy := fields_sep (c := c!"-") hy [] h0 (by decide) (by decide) fm
  have e : t.write ++ r = [] ++ t.y ++ c!"-" :: ([] ++ t.m ++ c!"-" :: ([] ++ t.d ++ (b!" " ++ t.hh ++ c!":" :: ([] ++ t.mm ++ c!":" :: ([] ++ t.ss ++ r))))) := by
    simp [Date.write]
  unfold parse
  rw [e, fy]
  simp only [C.val_bind]
  rw [if_neg (by omega)]
  rfl

/-- The day alone, with something behind it that is no number. -/
theorem parse_day {y m d r : Bytes} (hy : Digits y) (hm : Digits m) (hd : Digits d) (hr : ∀ c, r.head? = some c → isDigit c = false) (hn : num r = .val none) :
    parse (y ++ b!"-" ++ m ++ b!"-" ++ d ++ r) = .val (some { year := value y - 1900, mon := value m - 1, mday := value d }) := by
  have h0 : ∀ c ∈ ([] : Bytes), isSpace c = true := by
    intro c hc
    cases hc
  have fr : fields [c!":", c!":"] r = .val [] := by
    unfold fields
    rw [hn]
    rfl
  have fd := fields_blank hd [] h0 hr fr
  have fm := fields_sep (c := c!"-") hm [] h0 (by decide) (by decide) fd
  have fy := fields_sep (c := c!"-") hy [] h0 (by decide) (by decide) fm
  have e : y ++ b!"-" ++ m ++ b!"-" ++ d ++ r = [] ++ y ++ c!"-" :: ([] ++ m ++ c!"-" :: ([] ++ d ++ r)) := by simp
  unfold parse
  rw [e, fy]
  simp only [C.val_bind]
  rw [if_neg (by omega)]
  rfl

/-- What does not begin like a number is none. -/
theorem num_none {s : Bytes} (h : ∀ c, (s.dropWhile isSpace).head? = some c → isDigit c = false ∧ c ≠ c!"-" ∧ c ≠ c!"+") : num s = .val none := by
  unfold num
  generalize s.dropWhile isSpace = t at h
  have hs : ¬ (t.head? = some c!"-" ∨ t.head? = some c!"+") := by
    rintro (e | e)
    · exact (h _ e).2.1 rfl
    · exact (h _ e).2.2 rfl
  have ht : t.takeWhile isDigit = [] := by
    cases t with
    | nil => rfl
    | cons c t => exact List.takeWhile_cons_of_neg (by simp [(h c rfl).1])
  simp only [if_neg hs, ht, if_true]

/-! ### Showing -/

theorem byte_of_digit {c : Byte} (h : isDigit c = true) : UInt8.ofNat (48 + (c.toNat - 48)) = c := by
  have := digit_range h
  rw [Nat.add_sub_cancel' this.1]
  exact UInt8.ofNat_toNat

theorem value_append (s : Bytes) (c : Byte) : value (s ++ [c]) = value s * 10 + (c.toNat - 48) := by
  unfold value
  rw [List.foldl_append]
  rfl

theorem value_pos {c : Byte} {s : Bytes} (hc : isDigit c = true) (h : c ≠ c!"0") : 0 < value (c :: s) := by
  have hp : 0 < c.toNat - 48 := by
    revert hc h
    exact forall_byte (p := fun c => isDigit c = true → c ≠ c!"0" → 0 < c.toNat - 48) (by decide +kernel) c
  have : ∀ (s : Bytes) (n : Nat), 0 < n → 0 < s.foldl (fun n c => n * 10 + (c.toNat - 48)) n := by
    intro s
    induction s with
    | nil => exact fun _ h => h
    | cons d s ih => exact fun n hn => ih _ (Nat.lt_of_lt_of_le (Nat.mul_pos hn (by decide)) (Nat.le_add_right _ _))
  exact this s _ (Nat.lt_of_lt_of_le hp (Nat.le_add_left _ _))

theorem dec_value : ∀ (k : Nat) (s : Bytes), s.length = k → s ≠ [] → (∀ c ∈ s, isDigit c = true) → s.head? ≠ some c!"0" → dec (value s) = s
  | 0, s, hk, hne, _, _ => absurd (List.length_eq_zero_iff.mp hk) hne
  | k + 1, s, hk, hne, hd, hz => by
    rcases List.eq_nil_or_concat s with rfl | ⟨t, c, ht⟩
    · exact absurd rfl hne
    · rw [List.concat_eq_append] at ht
      subst ht
      have hc := hd c (by simp)
      have hr := digit_range hc
      rw [value_append]
      cases t with
      | nil =>
        have e : value [] * 10 + (c.toNat - 48) = c.toNat - 48 := by
          show 0 * 10 + _ = _
          omega
        rw [e]
        unfold dec
        rw [dif_pos (by omega), byte_of_digit hc]
        rfl
      | cons a t =>
        have hp : 0 < value (a :: t) := value_pos (hd a (by simp)) (by
          intro e
          exact hz (by rw [e]; rfl))
        have ih := dec_value k (a :: t) (by simpa using hk) (by simp) (fun x hx => hd x (List.mem_append_left _ hx)) (by simpa using hz)
        unfold dec
        rw [dif_neg (by omega)]
        have e1 : (value (a :: t) * 10 + (c.toNat - 48)) / 10 = value (a :: t) := by omega
        have e2 : (value (a :: t) * 10 + (c.toNat - 48)) % 10 = c.toNat - 48 := by omega
        rw [e1, e2, ih, byte_of_digit hc]

theorem decInt_value {s : Bytes} (h : Digits s) (hz : s.head? ≠ some c!"0") : decInt (value s : Int) = s := by
  unfold decInt
  rw [if_neg (by omega), Int.toNat_natCast]
  exact dec_value _ s rfl h.1 h.2.1 hz

theorem two_shown {s : Bytes} (h : Two s) : two (value s : Int) = s := by
  obtain ⟨a, b, rfl, ha, hb⟩ := h
  have hv := two_value ha hb
  have h1 := digit_range ha
  have h2 := digit_range hb
  unfold two
  by_cases ha0 : a = c!"0"
  · subst ha0
    have e : value [c!"0", b] = value [b] := rfl
    have e' : value [b] = b.toNat - 48 := by
      show 0 * 10 + _ = _
      omega
    rw [e, e', if_pos (by omega)]
    unfold decInt
    rw [if_neg (by omega), Int.toNat_natCast]
    unfold dec
    rw [dif_pos (by omega), byte_of_digit hb]
    rfl
  · have hp : 10 ≤ value [a, b] := by
      have hp : 0 < a.toNat - 48 := by
        revert ha ha0
        exact forall_byte (p := fun c => isDigit c = true → c ≠ c!"0" → 0 < c.toNat - 48) (by decide +kernel) a |> fun h _ _ => by
          exact h ‹_› ‹_›
      omega
    rw [if_neg (by omega)]
    exact decInt_value (two_digits ⟨a, b, rfl, ha, hb⟩) (by simpa using ha0)

theorem format_lit (lib : Byte → Tm → Bytes) (t : Tm) {c : Byte} (h : c ≠ c!"%") (s : Bytes) : format lib t (c :: s) = c :: format lib t s := by
  cases s with
  | nil => rfl
  | cons d s => exact if_neg h

theorem format_conv (lib : Byte → Tm → Bytes) (t : Tm) (d : Byte) (s : Bytes) : format lib t (c!"%" :: d :: s) = conv lib t d ++ format lib t s := if_pos rfl

theorem app_eq {a b c d : Bytes} (h1 : a = c) (h2 : b = d) : a ++ b = c ++ d := by rw [h1, h2]

/-- Each piece is shown as it was written. -/
theorem format_pieces (lib : Byte → Tm → Bytes) {t : Date} (h : t.Ok) {ps : List Piece} (hp : ∀ p ∈ ps, p.Ok) :
    format lib { year := value t.y - 1900, mon := value t.m - 1, mday := value t.d, hour := value t.hh, min := value t.mm, sec := value t.ss } (ps.flatMap Piece.write) = ps.flatMap (Piece.shown t) := by
  obtain ⟨hy, hz, hm, hd, h1, h2, h3⟩ := h
  have ey : (value t.y : Int) - 1900 + 1900 = value t.y := by omega
  have em : (value t.m : Int) - 1 + 1 = value t.m := by omega
  induction ps with
  | nil => rfl
  | cons p ps ih =>
    have ih := ih fun q hq => hp q (List.mem_cons_of_mem _ hq)
    rw [List.flatMap_cons, List.flatMap_cons]
    cases p with
    | lit c =>
      exact (format_lit lib _ (hp (.lit c) (by simp)) _).trans (congrArg (c :: ·) ih)
    | year =>
      refine (format_conv lib _ c!"Y" (ps.flatMap Piece.write)).trans (app_eq ?_ ih)
      show decInt ((value t.y : Int) - 1900 + 1900) = _
      rw [ey, decInt_value hy hz]
      rfl
    | month =>
      refine (format_conv lib _ c!"m" (ps.flatMap Piece.write)).trans (app_eq ?_ ih)
      show two ((value t.m : Int) - 1 + 1) = _
      rw [em, two_shown hm]
      rfl
    | day =>
      refine (format_conv lib _ c!"d" (ps.flatMap Piece.write)).trans (app_eq ?_ ih)
      exact two_shown hd
    | hour =>
      refine (format_conv lib _ c!"H" (ps.flatMap Piece.write)).trans (app_eq ?_ ih)
      exact two_shown h1
    | minute =>
      refine (format_conv lib _ c!"M" (ps.flatMap Piece.write)).trans (app_eq ?_ ih)
      exact two_shown h2
    | second =>
      refine (format_conv lib _ c!"S" (ps.flatMap Piece.write)).trans (app_eq ?_ ih)
      exact two_shown h3

/-- The day of the week is never set. -/
theorem parse_wday {s : Bytes} {t : Tm} (h : parse s = .val (some t)) : t.wday = 0 := by
  unfold parse at h
  cases hf : fields [c!"-", c!"-", c!" ", c!":", c!":"] s with
  | ub => rw [hf] at h; cases h
  | val l =>
    rw [hf, C.val_bind] at h
    split at h
    · split at h
      · cases h
      · cases h
        rfl
    · cases h

end Verif.Dates
