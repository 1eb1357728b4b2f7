import Verif.Spec.FencedDivs
import Verif.Proof.InlineNotes
import Verif.Proof.Embed

namespace Verif.FencedDivs

open Spec

/-! ### Fences -/

theorem dropWhile_head {p : Byte → Bool} {s : Bytes} (h : ∀ c, s.head? = some c → p c = false) : s.dropWhile p = s := by
  cases s with
  | nil => rfl
  | cons c t => rw [List.dropWhile_cons, if_neg]; simpa using h c rfl

theorem head_dropWhile {p : Byte → Bool} {s : Bytes} {c : Byte} (h : (s.dropWhile p).head? = some c) : p c = false := by
  induction s with
  | nil => simp at h
  | cons d t ih =>
    rw [List.dropWhile_cons] at h
    split at h
    · exact ih h
    · rename_i hd; simp at h; subst h; simpa using hd

theorem takeWhile_head {p : Byte → Bool} {s : Bytes} (h : ∀ c, s.head? = some c → p c = false) : s.takeWhile p = [] := by
  cases s with
  | nil => rfl
  | cons c t => rw [List.takeWhile_cons, if_neg]; simpa using h c rfl

theorem takeWhile_rep (p : Byte → Bool) (c : Byte) (hp : ∀ x, p x = true → x = c) (s : Bytes) :
    s.takeWhile p = List.replicate (s.takeWhile p).length c := by
  rw [List.eq_replicate_iff]
  refine ⟨rfl, fun b hb => hp b ?_⟩
  exact (List.all_eq_true.1 (List.all_takeWhile (l := s) (p := p))) b hb

theorem colon_eq (x : Byte) (h : (x == c!":") = true) : x = c!":" := by simpa using h

theorem split (line : Bytes) : ∃ indent ws k, Blanks indent ∧ Blanks ws ∧ countColons line = k ∧
    line = indent ++ List.replicate k c!":" ++ ws ++ behind line ∧ (∀ c, (behind line).head? = some c → isSpace c = false) ∧
    (ws = [] → ∀ c, (behind line).head? = some c → c ≠ c!":") := by
  have hb : ∀ s : Bytes, Blanks (s.takeWhile isSpace) := fun s c hc => by
    exact (List.all_eq_true.1 (List.all_takeWhile (l := s) (p := isSpace))) c hc
  refine ⟨line.takeWhile isSpace, ((line.dropWhile isSpace).dropWhile (· == c!":")).takeWhile isSpace, countColons line,
    hb _, hb _, rfl, ?_, fun c hc => head_dropWhile hc, ?_⟩
  · rw [countColons, ← takeWhile_rep _ _ colon_eq, behind, List.append_assoc, List.takeWhile_append_dropWhile, List.append_assoc,
      List.takeWhile_append_dropWhile, List.takeWhile_append_dropWhile]
  · intro hw c hc e
    subst e
    have : behind line = (line.dropWhile isSpace).dropWhile (· == c!":") := by
      have := List.takeWhile_append_dropWhile (p := isSpace) (l := (line.dropWhile isSpace).dropWhile (· == c!":"))
      rw [hw, List.nil_append] at this
      exact this
    rw [this] at hc
    simpa using head_dropWhile hc

theorem split_of {indent ws R : Bytes} {k : Nat} (h1 : Blanks indent) (h2 : Blanks ws) (hk : 3 ≤ k)
    (h3 : ∀ c, R.head? = some c → isSpace c = false) (h4 : ws = [] → ∀ c, R.head? = some c → c ≠ c!":") :
    countColons (indent ++ List.replicate k c!":" ++ ws ++ R) = k ∧
      behind (indent ++ List.replicate k c!":" ++ ws ++ R) = R := by
  have e1 : (indent ++ List.replicate k c!":" ++ ws ++ R).dropWhile isSpace = List.replicate k c!":" ++ (ws ++ R) := by
    simp only [List.append_assoc]
    rw [List.dropWhile_append_of_pos h1, dropWhile_head]
    intro c hc
    obtain ⟨k, rfl⟩ : ∃ k', k = k' + 1 := ⟨k - 1, by omega⟩
    simp [List.replicate_succ] at hc
    subst hc; decide
  have hr : ∀ c ∈ List.replicate k c!":", (c == c!":") = true := by intro c hc; simp [List.eq_of_mem_replicate hc]
  have hh : ∀ c, (ws ++ R).head? = some c → (c == c!":") = false := by
    intro c hc
    cases ws with
    | nil => simpa using h4 rfl c hc
    | cons d ws =>
      simp at hc; subst hc
      have := h2 d (by simp)
      cases h : d == c!":" with
      | false => rfl
      | true => rw [eq_of_beq h] at this; exact absurd this (by decide)
  constructor
  · rw [countColons, e1, List.takeWhile_append_of_pos hr, takeWhile_head hh]; simp
  · rw [behind, e1, List.dropWhile_append_of_pos hr, dropWhile_head hh, List.dropWhile_append_of_pos h2, dropWhile_head h3]

/-- The text between the colons. -/
def lastPart (line : Bytes) : Bytes :=
  if ((behind line).reverse.dropWhile (· == c!":")).dropWhile isSpace = [] then behind line
  else (((behind line).reverse.dropWhile (· == c!":")).dropWhile isSpace).reverse

theorem opening_eq (line : Bytes) (h : ¬ countColons line < 3) :
    opening line = if (lastPart line).all (fun c => isSpace c || c == c!":") = true then none else some (lastPart line) := by
  unfold opening
  rw [if_neg h]
  rfl

theorem opening_iff (line info : Bytes) : opening line = some info ↔ Opens line info := by
  constructor
  · intro h
    have hk : ¬ countColons line < 3 := by
      intro hk; unfold opening at h; rw [if_pos hk] at h; simp at h
    rw [opening_eq line hk] at h
    have hall : ¬ (lastPart line).all (fun c => isSpace c || c == c!":") = true := by
      intro ha; rw [if_pos ha] at h; simp at h
    rw [if_neg hall] at h
    unfold lastPart at h hall
    obtain ⟨indent, ws, k, h1, h2, h3, h4, h5, h6⟩ := split line
    simp only [Option.some.injEq] at h
    generalize hR : behind line = R at *
    have hrev : R.reverse = R.reverse.takeWhile (· == c!":") ++ R.reverse.dropWhile (· == c!":") := List.takeWhile_append_dropWhile.symm
    generalize hS : R.reverse.dropWhile (· == c!":") = S at *
    have hS' : S = S.takeWhile isSpace ++ S.dropWhile isSpace := List.takeWhile_append_dropWhile.symm
    have hcol : ∀ c ∈ R.reverse.takeWhile (· == c!":"), c = c!":" := fun c hc =>
      colon_eq c ((List.all_eq_true.1 (List.all_takeWhile (l := R.reverse) (p := (· == c!":")))) c hc)
    have hsp : ∀ c ∈ S.takeWhile isSpace, isSpace c = true := fun c hc =>
      (List.all_eq_true.1 (List.all_takeWhile (l := S) (p := isSpace))) c hc
    generalize hT : S.dropWhile isSpace = T at *
    by_cases hn : T = []
    · exfalso
      apply hall
      rw [if_pos hn, List.all_eq_true]
      intro c hc
      have : c ∈ R.reverse := by simpa using hc
      rw [hrev, hS', hn] at this
      simp only [List.append_nil, List.mem_append] at this
      rcases this with h | h
      · simp [hcol c h]
      · simp [hsp c h]
    · rw [if_neg hn] at h hall
      subst h
      obtain ⟨c, t, rfl⟩ : ∃ c t, T = c :: t := by
        cases T with
        | nil => exact absurd rfl hn
        | cons c t => exact ⟨c, t, rfl⟩
      have eR : R = (c :: t).reverse ++ (S.takeWhile isSpace).reverse ++ List.replicate (R.reverse.takeWhile (· == c!":")).length c!":" := by
        have := congrArg List.reverse hrev
        rw [List.reverse_reverse, List.reverse_append] at this
        rw [this]
        conv => lhs; rw [hS']
        rw [List.reverse_append]
        congr 1
        rw [← this]
        conv => lhs; rw [takeWhile_rep _ _ colon_eq]
        rw [List.reverse_replicate]
      refine ⟨indent, ws, (S.takeWhile isSpace).reverse, k, (R.reverse.takeWhile (· == c!":")).length, by omega, h1, h2, fun c hc => hsp c (by simpa using hc), ?_, ?_, ?_, ?_⟩
      · rw [h4]
        conv => lhs; rw [eR]
        simp only [List.append_assoc]
      · obtain ⟨d, u, hd⟩ : ∃ d u, (c :: t).reverse = d :: u := by
          cases h : (c :: t).reverse with
          | nil => simp at h
          | cons d u => exact ⟨d, u, rfl⟩
        have hdR : R.head? = some d := by rw [eR, hd]; rfl
        exact ⟨d, u, hd, h5 d hdR, fun hw => h6 hw d hdR⟩
      · refine ⟨t.reverse, c, by simp, head_dropWhile (s := S) (by rw [hT]; rfl), ?_⟩
        intro hw e
        subst e
        have : S = c!":" :: t := by
          rw [List.reverse_eq_nil_iff] at hw
          rw [hS', hw]; rfl
        have := head_dropWhile (p := (· == c!":")) (s := R.reverse) (c := c!":") (by rw [hS, this]; rfl)
        simp at this
      · rw [List.all_eq_true] at hall
        apply Classical.byContradiction
        intro hne
        apply hall
        intro x hx
        cases hx1 : isSpace x with
        | true => rfl
        | false =>
          cases hx2 : x == c!":" with
          | true => rfl
          | false => exact absurd ⟨x, hx, hx1, by simpa using hx2⟩ hne
  · rintro ⟨indent, ws, ws', k, j, hk, h1, h2, h3, rfl, ⟨c, t, h4, h5, h6⟩, ⟨u, d, h7, h8, h9⟩, ⟨x, hx, hx1, hx2⟩⟩
    have hs := split_of (R := info ++ ws' ++ List.replicate j c!":") (k := k) h1 h2 hk
      (by intro y hy; rw [h4] at hy; simp at hy; subst hy; exact h5)
      (by intro hw y hy; rw [h4] at hy; simp at hy; subst hy; exact h6 hw)
    rw [show indent ++ List.replicate k c!":" ++ ws ++ info ++ ws' ++ List.replicate j c!":" =
      indent ++ List.replicate k c!":" ++ ws ++ (info ++ ws' ++ List.replicate j c!":") by simp only [List.append_assoc]]
    rw [opening_eq _ (by rw [hs.1]; omega)]
    unfold lastPart
    rw [hs.2]
    have er : (info ++ ws' ++ List.replicate j c!":").reverse = List.replicate j c!":" ++ (ws'.reverse ++ info.reverse) := by
      simp only [List.reverse_append, List.reverse_replicate]
    have e1 : ((info ++ ws' ++ List.replicate j c!":").reverse.dropWhile (· == c!":")).dropWhile isSpace = info.reverse := by
      have hh : ∀ y, (ws'.reverse ++ info.reverse).head? = some y → (y == c!":") = false := by
        intro y hy
        rcases List.eq_nil_or_concat ws' with e | ⟨w, z, e⟩
        · rw [e, h7] at hy
          simp at hy; subst hy
          simpa using h9 e
        · rw [e] at hy
          simp at hy; subst hy
          have := h3 z (by rw [e]; simp)
          cases h : z == c!":" with
          | false => rfl
          | true => rw [eq_of_beq h] at this; exact absurd this (by decide)
      rw [er, List.dropWhile_append_of_pos (by intro y hy; simp [List.eq_of_mem_replicate hy]), dropWhile_head hh,
        List.dropWhile_append_of_pos (by intro y hy; exact h3 y (by simpa using hy)), dropWhile_head]
      intro y hy; rw [h7] at hy; simp at hy; subst hy; exact h8
    have hn : ¬ info.reverse = [] := by rw [h4]; simp
    simp only [e1, if_neg hn, List.reverse_reverse]
    rw [if_neg]
    · rw [List.all_eq_true]
      intro hall
      have := hall x hx
      simp [hx1] at this
      exact hx2 this

theorem closing_iff (line : Bytes) : closing line = true ↔ Closes line := by
  unfold closing
  simp only [Bool.and_eq_true, decide_eq_true_eq]
  constructor
  · rintro ⟨hk, hb⟩
    obtain ⟨indent, ws, k, h1, h2, h3, h4, -, -⟩ := split line
    rw [hb, List.append_nil] at h4
    exact ⟨indent, ws, k, by omega, h1, h2, h4⟩
  · rintro ⟨indent, ws, k, hk, h1, h2, rfl⟩
    have := split_of (R := []) h1 h2 hk (by simp) (by simp)
    rw [List.append_nil] at this
    exact ⟨by omega, this.2⟩

theorem opens_not_closes {line info : Bytes} (h : Opens line info) : ¬ Closes line := by
  intro hc
  have h1 := (opening_iff line info).2 h
  have h2 := (closing_iff line).2 hc
  unfold closing at h2
  simp only [Bool.and_eq_true, decide_eq_true_eq] at h2
  unfold opening at h1
  rw [if_neg (by omega)] at h1
  simp [h2.2] at h1

theorem plain_none {line : Bytes} (h : Plain line) : opening line = none ∧ closing line = false := by
  constructor
  · cases ho : opening line with
    | none => rfl
    | some info => exact absurd ((opening_iff line info).1 ho) (h.1 info)
  · cases hc : closing line with
    | false => rfl
    | true => exact absurd ((closing_iff line).1 hc) h.2

/-! ### Attributes -/

/-- Another attribute. -/
def Attrs.add (a : Attrs) : Attr → Attrs
  | .id s => { a with id := some s }
  | .cls s => { a with classes := a.classes ++ [s] }
  | .quoted _ k v => { a with attrs := a.attrs ++ [(k, v)] }
  | .bare k v => { a with attrs := a.attrs ++ [(k, v)] }

theorem quotedValue_ok (q : Byte) (v t : Bytes) (h : ∀ c ∈ v, c ≠ 0 ∧ c ≠ q ∧ c ≠ c!"\\") :
    quotedValue q (v ++ q :: t) = (v, q :: t) := by
  induction v with
  | nil => rw [List.nil_append, quotedValue.eq_def]; simp
  | cons c v ih =>
    obtain ⟨h1, h2, h3⟩ := h c (by simp)
    rw [List.cons_append, quotedValue.eq_def]
    simp only [h1, h2, h3, or_self, if_false, ih fun x hx => h x (by simp [hx])]

theorem word_take {bad s t : Bytes} {p : Byte → Bool} {d : Byte} (hs : Word bad s)
    (hp : ∀ c, c ≠ 0 → isSpace c = false → c ∉ bad → p c = true) (hd : p d = false) :
    (s ++ d :: t).takeWhile p = s ∧ (s ++ d :: t).dropWhile p = d :: t := by
  have h : ∀ c ∈ s, p c = true := fun c hc => hp c (hs.2 c hc).1 (hs.2 c hc).2.1 (hs.2 c hc).2.2
  constructor
  · rw [List.takeWhile_append_of_pos h, List.takeWhile_cons, if_neg (by simp [hd])]; simp
  · rw [List.dropWhile_append_of_pos h, List.dropWhile_cons, if_neg (by simp [hd])]

/-- One attribute, followed by a blank or NUL. -/
theorem parse_one (n : Nat) (a : Attrs) (x : Attr) (hx : x.Ok) (d : Byte) (t : Bytes) (hd : d = 0 ∨ d = 32)
    (h0 : 0 ∈ d :: t) : parse (n + 1) a (x.text ++ d :: t) = parse n (a.add x) (d :: t) := by
  have hc : ∀ c s, c ≠ 0 → ∃ u, cstr (c :: s ++ d :: t) = some (c :: u) := by
    intro c s hc
    refine ⟨(s ++ d :: t).takeWhile (· != 0), ?_⟩
    unfold cstr
    rw [if_pos (by simp only [List.mem_append]; exact Or.inr h0), List.cons_append, List.takeWhile_cons, if_pos (by simpa using hc)]
  have hds : ∀ p : Byte → Bool, p 0 = false → p 32 = false → p d = false := by
    rintro p h1 h2; rcases hd with rfl | rfl <;> assumption
  cases x with
  | id s =>
    obtain ⟨u, hu⟩ := hc c!"#" s (by decide)
    have hw := word_take (t := t) (p := fun c => c != 0 && !isSpace c && c != c!"." && c != c!"}") (d := d) hx
      (by intro c h1 h2 h3; simp at h3; simp [h1, h2, h3]) (hds (fun c => c != 0 && !isSpace c && c != c!"." && c != c!"}") (by decide) (by decide))
    rw [parse]
    simp only [Attr.text, List.cons_append, List.nil_append] at hu ⊢
    rw [hu]
    simp only [List.dropWhile_cons, (by decide : isSpace c!"#" = false), Bool.false_eq_true, if_false, (by decide : ¬ c!"#" = 0), if_true, hw.1, hw.2, hx.1, Attrs.add]
  | cls s =>
    obtain ⟨u, hu⟩ := hc c!"." s (by decide)
    have hw := word_take (t := t) (p := fun c => c != 0 && !isSpace c && c != c!"." && c != c!"#" && c != c!"}") (d := d) hx
      (by intro c h1 h2 h3; simp at h3; simp [h1, h2, h3]) (hds (fun c => c != 0 && !isSpace c && c != c!"." && c != c!"#" && c != c!"}") (by decide) (by decide))
    rw [parse]
    simp only [Attr.text, List.cons_append, List.nil_append] at hu ⊢
    rw [hu]
    simp only [List.dropWhile_cons, (by decide : isSpace c!"." = false), Bool.false_eq_true, if_false, (by decide : ¬ c!"." = 0),
      (by decide : ¬ c!"." = c!"#"), if_true, hw.1, hw.2, hx.1, Attrs.add]
  | quoted q k v =>
    obtain ⟨hq, hk, h1, h2, hv⟩ := hx
    obtain ⟨c, k', rfl⟩ : ∃ c k', k = c :: k' := by
      cases k with
      | nil => exact absurd rfl hk.1
      | cons c k' => exact ⟨c, k', rfl⟩
    have hcc := hk.2 c (by simp)
    obtain ⟨u, hu⟩ := hc c (k' ++ b!"=" ++ [q] ++ v ++ [q]) hcc.1
    have hw := word_take (t := q :: (v ++ q :: d :: t)) (p := fun c => c != 0 && c != c!"=" && !isSpace c && c != c!"}") (d := c!"=") hk
      (by intro c h1 h2 h3; simp at h3; simp [h1, h2, h3]) (by decide)
    have e : Attr.text (.quoted q (c :: k') v) ++ d :: t = c :: k' ++ c!"=" :: q :: (v ++ q :: d :: t) := by simp [Attr.text]
    have e' : c :: (k' ++ b!"=" ++ [q] ++ v ++ [q]) ++ d :: t = c :: k' ++ c!"=" :: q :: (v ++ q :: d :: t) := by simp
    rw [e'] at hu
    rw [e, parse]
    rw [hu]
    have ed : (c :: k' ++ c!"=" :: q :: (v ++ q :: d :: t)).dropWhile isSpace = c :: k' ++ c!"=" :: q :: (v ++ q :: d :: t) :=
      dropWhile_head (by intro y hy; simp at hy; subst hy; exact hcc.2.1)
    simp only [ed]
    rw [List.cons_append] at hw ⊢
    simp only [if_neg hcc.1, if_neg (by simpa using h1 : ¬ c = c!"#"), if_neg (by simpa using h2 : ¬ c = c!"."), hw.1, hw.2, if_true, if_pos hq,
      quotedValue_ok q v _ hv, Attrs.add]
  | bare k v =>
    obtain ⟨hk, h1, h2, hv, hv1, hv2⟩ := hx
    obtain ⟨c, k', rfl⟩ : ∃ c k', k = c :: k' := by
      cases k with
      | nil => exact absurd rfl hk.1
      | cons c k' => exact ⟨c, k', rfl⟩
    obtain ⟨w, v', rfl⟩ : ∃ c k', v = c :: k' := by
      cases v with
      | nil => exact absurd rfl hv.1
      | cons c k' => exact ⟨c, k', rfl⟩
    have hcc := hk.2 c (by simp)
    obtain ⟨u, hu⟩ := hc c (k' ++ b!"=" ++ w :: v') hcc.1
    have hw := word_take (t := w :: v' ++ d :: t) (p := fun c => c != 0 && c != c!"=" && !isSpace c && c != c!"}") (d := c!"=") hk
      (by intro c h1 h2 h3; simp at h3; simp [h1, h2, h3]) (by decide)
    have hw2 := word_take (t := t) (p := fun c => c != 0 && !isSpace c && c != c!"}") (d := d) hv
      (by intro c h1 h2 h3; simp at h3; simp [h1, h2, h3]) (hds (fun c => c != 0 && !isSpace c && c != c!"}") (by decide) (by decide))
    have e : Attr.text (.bare (c :: k') (w :: v')) ++ d :: t = c :: k' ++ c!"=" :: (w :: v' ++ d :: t) := by simp [Attr.text]
    have e' : c :: (k' ++ b!"=" ++ w :: v') ++ d :: t = c :: k' ++ c!"=" :: (w :: v' ++ d :: t) := by simp
    rw [e'] at hu
    rw [e, parse]
    rw [hu]
    have ed : (c :: k' ++ c!"=" :: (w :: v' ++ d :: t)).dropWhile isSpace = c :: k' ++ c!"=" :: (w :: v' ++ d :: t) :=
      dropWhile_head (by intro y hy; simp at hy; subst hy; exact hcc.2.1)
    simp only [ed]
    rw [List.cons_append] at hw ⊢
    have hq : ¬ (w = c!"\"" ∨ w = c!"'") := by simp at hv1 hv2; simp [hv1, hv2]
    simp only [if_neg hcc.1, if_neg (by simpa using h1 : ¬ c = c!"#"), if_neg (by simpa using h2 : ¬ c = c!"."), hw.1, hw.2, if_true, Attrs.add]
    rw [List.cons_append] at hw2 ⊢
    simp only [if_neg hq, hw2.1, hw2.2]

theorem parse_space (n : Nat) (a : Attrs) (m : Bytes) (h : 0 ∈ m) : parse (n + 1) a (32 :: m) = parse (n + 1) a m := by
  have h1 : cstr (32 :: m) = some (32 :: m.takeWhile (· != 0)) := by
    unfold cstr
    rw [if_pos (by simp [h]), List.takeWhile_cons, if_pos (by decide)]
  have h2 : cstr m = some (m.takeWhile (· != 0)) := by unfold cstr; rw [if_pos h]
  rw [parse, h1]
  simp only
  rw [List.dropWhile_cons, if_pos (by decide)]
  conv => rhs; rw [parse, h2]
  cases hm : m.takeWhile (· != 0) with
  | nil =>
    cases m with
    | nil => simp at h
    | cons c m =>
      rw [List.takeWhile_cons] at hm
      split at hm
      · simp at hm
      · rename_i hc
        have : c = 0 := by simpa using hc
        subst this
        rw [List.dropWhile_cons, if_neg (by decide)]
        simp
  | cons c u => rfl

theorem parse_all (n : Nat) (a : Attrs) (xs : List Attr) (hx : ∀ x ∈ xs, x.Ok) (t : Bytes) (hn : xs.length < n) :
    parse n a (List.intercalate b!" " (xs.map Attr.text) ++ 0 :: t) = .val (xs.foldl Attrs.add a) := by
  have key : ∀ n a, 0 < n → parse n a (0 :: t) = .val a := by
    intro n a hn
    obtain ⟨n, rfl⟩ : ∃ m, n = m + 1 := ⟨n - 1, by omega⟩
    rw [parse]
    have : cstr (0 :: t) = some [] := by simp [cstr]
    rw [this]
  induction xs generalizing n a with
  | nil => simpa using key n a hn
  | cons x xs ih =>
    obtain ⟨n, rfl⟩ : ∃ m, n = m + 1 := ⟨n - 1, by omega⟩
    simp only [List.length_cons] at hn
    cases xs with
    | nil =>
      rw [List.map_cons, List.map_nil, List.intercalate_singleton, parse_one n a x (hx x (by simp)) 0 t (Or.inl rfl) (by simp), key _ _ (by omega)]
      rfl
    | cons y ys =>
      rw [List.map_cons, List.map_cons, List.intercalate_cons_cons]
      simp only [List.append_assoc, List.cons_append, List.nil_append]
      rw [parse_one n a x (hx x (by simp)) 32 _ (Or.inr rfl) (by simp)]
      obtain ⟨n, rfl⟩ : ∃ m, n = m + 1 := ⟨n - 1, by simp at hn; omega⟩
      rw [parse_space _ _ _ (by simp)]
      have := ih (n + 1) (a.add x) (fun z hz => hx z (by simp [hz])) (by omega)
      rw [List.map_cons] at this
      rw [this]
      rfl

theorem fold_add (xs : List Attr) (a : Attrs) :
    (xs.foldl Attrs.add a).id = (idOf xs).or a.id ∧ (xs.foldl Attrs.add a).classes = a.classes ++ classesOf xs ∧
      (xs.foldl Attrs.add a).attrs = a.attrs ++ pairsOf xs := by
  induction xs generalizing a with
  | nil => simp [idOf, classesOf, pairsOf]
  | cons x xs ih =>
    rw [List.foldl_cons]
    obtain ⟨h1, h2, h3⟩ := ih (a.add x)
    rw [h1, h2, h3]
    cases x with
    | id s =>
      simp only [Attrs.add, idOf, classesOf, pairsOf, List.filterMap_cons, and_true, List.getLast?_cons]
      cases (List.filterMap _ xs).getLast? <;> simp
    | cls s => simp [Attrs.add, idOf, classesOf, pairsOf]
    | quoted q k v => simp [Attrs.add, idOf, classesOf, pairsOf]
    | bare k v => simp [Attrs.add, idOf, classesOf, pairsOf]

theorem html_eq (a : Attrs) (h : ∀ i, a.id = some i → i.length ≠ 250) : html a = attrHtml a.id a.classes a.attrs := by
  unfold html attrHtml
  cases hi : a.id with
  | none => rfl
  | some i => simp [h i hi]

theorem text_ne (x : Attr) (h : x.Ok) : x.text ≠ [] := by
  cases x with
  | id s => simp [Attr.text]
  | cls s => simp [Attr.text]
  | quoted q k v => simp [Attr.text]
  | bare k v => simp [Attr.text]

theorem attributes_braces (xs : List Attr) (hx : ∀ x ∈ xs, x.Ok) (hi : ∀ i, idOf xs = some i → i.length ≠ 250) :
    attributes (braces xs) = .val (some (attrHtml (idOf xs) (classesOf xs) (pairsOf xs))) := by
  have hlen : xs.length ≤ (List.intercalate b!" " (xs.map Attr.text)).length := by
    clear hi
    induction xs with
    | nil => simp
    | cons x xs ih =>
      have h1 := List.length_pos_iff.2 (text_ne x (hx x (by simp)))
      have h2 := ih fun y hy => hx y (by simp [hy])
      cases xs with
      | nil => simp [List.intercalate_singleton]; omega
      | cons y ys =>
        rw [List.map_cons, List.map_cons, List.intercalate_cons_cons]
        rw [List.map_cons] at h2
        simp only [List.length_append, List.length_cons, List.length_nil] at h2 ⊢
        omega
  generalize hm : List.intercalate b!" " (xs.map Attr.text) = m at *
  have e0 : braces xs = c!"{" :: (m ++ b!"}") := by simp [braces, hm]
  have e1 : (braces xs).dropWhile isSpace = c!"{" :: (m ++ b!"}") := by rw [e0, List.dropWhile_cons, if_neg (by decide)]
  have e2 : ((c!"{" :: (m ++ b!"}")).reverse.dropWhile isSpace).reverse = c!"{" :: (m ++ b!"}") := by
    simp only [List.reverse_cons, List.reverse_append, List.nil_append, List.cons_append, List.reverse_nil]
    rw [List.dropWhile_cons, if_neg (by decide)]
    simp
  unfold attributes
  rw [if_neg (by rw [e0]; simp)]
  rw [e1]
  simp only [e2, List.drop_length, if_true]
  rw [if_pos (by simp)]
  have := parse_all (m.length + 2 + 1) {} xs hx [0] (by omega)
  rw [hm] at this
  simp only [List.dropLast_concat, List.append_nil, List.append_assoc, List.cons_append, List.nil_append, List.length_append, List.length_cons, List.length_nil]
  rw [this]
  obtain ⟨f1, f2, f3⟩ := fold_add xs {}
  simp only [Option.or_none, List.nil_append] at f1 f2 f3
  simp only
  rw [html_eq _ (by rw [f1]; exact hi), f1, f2, f3]

/-- The attributes of a description, as the program holds them. -/
def attrsOf (i : Info) : Option Bytes :=
  match i with
  | .element _ => none
  | i => some i.html

theorem info_ok (i : Info) (h : i.Ok) : (blockType i.text).1 = i.name ∧ attributes (blockType i.text).2 = .val (attrsOf i) := by
  have name : ∀ (n r : Bytes), n ≠ [] → (∀ c ∈ n, isAlnum c = true ∨ c = c!"-") →
      (∀ c, r.head? = some c → isAlnum c = false ∧ c ≠ c!"-") →
      blockType (b!">" ++ n ++ r) = (n, r.dropWhile isSpace) := by
    intro n r hn hc hr
    have h1 : ∀ c ∈ n, (isAlnum c || c == c!"-") = true := by
      intro c h; rcases hc c h with h | h <;> simp [h]
    have h2 : ∀ c, r.head? = some c → (isAlnum c || c == c!"-") = false := by
      intro c h; simp [hr c h]
    unfold blockType
    have e : (b!">" ++ n ++ r).dropWhile isSpace = c!">" :: (n ++ r) := by
      simp only [List.append_assoc, List.cons_append, List.nil_append]
      rw [List.dropWhile_cons, if_neg (by decide)]
    rw [e]
    simp only [if_true]
    rw [List.takeWhile_append_of_pos h1, takeWhile_head h2, List.append_nil, if_neg hn, List.dropWhile_append_of_pos h1, dropWhile_head h2]
  cases i with
  | word s =>
    obtain ⟨h1, h2, h3⟩ := h
    have ed : s.dropWhile isSpace = s := dropWhile_head fun c hc => (h1.2 c (List.mem_of_mem_head? hc)).2.1
    have er : (s.reverse.dropWhile isSpace) = s.reverse :=
      dropWhile_head fun c hc => (h1.2 c (by simpa using List.mem_of_mem_head? hc)).2.1
    obtain ⟨c, t, rfl⟩ : ∃ c t, s = c :: t := by
      cases s with
      | nil => exact absurd rfl h1.1
      | cons c t => exact ⟨c, t, rfl⟩
    have e : blockType (c :: t) = (b!"div", c :: t) := by
      unfold blockType
      rw [ed]
      simp only
      rw [if_neg (by simpa using h2)]
    simp only [Info.text, e, Info.name, true_and, attrsOf, Info.html]
    unfold attributes
    rw [if_neg (by simp)]
    simp only [ed, er, List.reverse_reverse, if_neg (by simpa using h3 : ¬ c = c!"{")]
    have : (c :: t).takeWhile (fun c => !isSpace c) = c :: t := by
      have := List.takeWhile_append_of_pos (p := fun c => !isSpace c) (l₁ := c :: t) (l₂ := []) (fun x hx => by simp [(h1.2 x hx).2.1])
      simpa using this
    rw [this, html_eq _ (by simp)]
  | attrs as =>
    have e : blockType (braces as) = (b!"div", braces as) := by
      unfold blockType
      have : (braces as).dropWhile isSpace = braces as := by
        simp only [braces, List.cons_append, List.append_assoc]
        rw [List.dropWhile_cons, if_neg (by decide)]
      rw [this]
      simp [braces]
    simp only [Info.text, e, Info.name, true_and, attrsOf, Info.html]
    exact attributes_braces as h.1 h.2
  | element n =>
    have := name n [] h.1 h.2 (by simp)
    rw [List.append_nil] at this
    rw [Info.text, this]
    simp [Info.name, attrsOf, attributes]
  | elementWith n as =>
    have := name n (b!" " ++ braces as) h.1.1 h.1.2 (by intro c hc; simp at hc; subst hc; decide)
    have e : (b!" " ++ braces as).dropWhile isSpace = braces as := by
      simp only [braces, List.cons_append, List.append_assoc, List.nil_append]
      rw [List.dropWhile_cons, if_pos (by decide), List.dropWhile_cons, if_neg (by decide)]
    rw [e] at this
    simp only [Info.text, List.append_assoc] at this ⊢
    rw [this]
    simp only [Info.name, true_and, attrsOf, Info.html]
    exact attributes_braces as h.2.1 h.2.2

/-! ### Lines -/

/-- The loop with enough rounds. -/
def run (stack : List Bytes) (text : Bytes) : C (List Tok) := loop (text.length + 1) stack text

/-- What is behind the first line. -/
def next (text : Bytes) : Bytes := (text.dropWhile inLine).drop (eol (text.dropWhile inLine)).length

theorem next_lt (text : Bytes) (h : text ≠ []) : (next text).length < text.length := by
  have h1 : text.length = (text.takeWhile inLine).length + (text.dropWhile inLine).length := by
    rw [← List.length_append, List.takeWhile_append_dropWhile]
  have h2 : 0 < text.length := List.length_pos_iff.2 h
  unfold next
  rw [List.length_drop]
  cases hr : text.dropWhile inLine with
  | nil => rw [hr] at h1; simp; omega
  | cons c t =>
    have hc := head_dropWhile (p := inLine) (s := text) (c := c) (by rw [hr]; rfl)
    have : 0 < (eol (c :: t)).length := by
      unfold eol
      simp only [inLine, Bool.and_eq_false_iff, bne_eq_false_iff_eq] at hc
      rcases hc with rfl | rfl
      · simp
      · simp; split <;> simp
    rw [hr] at h1
    simp only [List.length_cons] at h1 ⊢
    omega

theorem loop_fuel (n m : Nat) (stack : List Bytes) (text : Bytes) (hn : text.length < n) (hm : text.length < m) :
    loop n stack text = loop m stack text := by
  induction n generalizing m stack text with
  | zero => omega
  | succ n ih =>
    obtain ⟨m, rfl⟩ : ∃ m', m = m' + 1 := ⟨m - 1, by omega⟩
    by_cases ht : text = []
    · subst ht; simp [loop]
    · have hlt := next_lt text ht
      have key := fun st => ih m st (next text) (by omega) (by omega)
      unfold next at key
      rw [loop, loop]
      simp only [key]

theorem run_eq (stack : List Bytes) (text : Bytes) (h : text ≠ []) (n : Nat) (hn : text.length ≤ n) :
    loop n stack (next text) = run stack (next text) := by
  have := next_lt text h
  exact loop_fuel _ _ _ _ (by omega) (by omega)

/-- More pieces in front. -/
def app (xs : List Tok) : C (List Tok) → C (List Tok)
  | .val ts => .val (xs ++ ts)
  | .ub => .ub

theorem app_app (xs ys : List Tok) (r : C (List Tok)) : app xs (app ys r) = app (xs ++ ys) r := by
  cases r <;> simp [app]

theorem run_nil (stack : List Bytes) : run stack [] = .val (stack.map .closes) := by simp [run, loop]

theorem take_line {l e rest : Bytes} (hl : ∀ c ∈ l, c ≠ 10 ∧ c ≠ 13) (he : Eol e) :
    (l ++ e ++ rest).takeWhile inLine = l ∧ eol ((l ++ e ++ rest).dropWhile inLine) = e ∧ next (l ++ e ++ rest) = rest := by
  have h : ∀ c ∈ l, inLine c = true := by intro c hc; simp [inLine, hl c hc]
  have hh : ∀ c, (e ++ rest).head? = some c → inLine c = false := by
    intro c hc
    rcases he with rfl | rfl <;> (simp at hc; subst hc; decide)
  have e1 : (l ++ e ++ rest).dropWhile inLine = e ++ rest := by
    rw [List.append_assoc, List.dropWhile_append_of_pos h, dropWhile_head hh]
  have e2 : eol (e ++ rest) = e := by rcases he with rfl | rfl <;> simp [eol]
  refine ⟨?_, by rw [e1, e2], by unfold next; rw [e1, e2]; simp⟩
  rw [List.append_assoc, List.takeWhile_append_of_pos h, takeWhile_head hh, List.append_nil]

theorem line_ne {l e rest : Bytes} (he : Eol e) : l ++ e ++ rest ≠ [] := by
  rcases he with rfl | rfl <;> simp

theorem run_line (stack : List Bytes) (l e rest : Bytes) (hl : ∀ c ∈ l, c ≠ 10 ∧ c ≠ 13) (he : Eol e) (hp : Plain l) :
    run stack (l ++ e ++ rest) = app [.line l e] (run stack rest) := by
  obtain ⟨h1, h2, h3⟩ := take_line (rest := rest) hl he
  obtain ⟨p1, p2⟩ := plain_none hp
  have hr := run_eq stack _ (line_ne (l := l) (rest := rest) he) _ (Nat.le_refl _)
  rw [h3] at hr
  have h3' := h3
  unfold next at h3'
  conv => lhs; unfold run
  rw [loop, if_neg (line_ne he)]
  simp only [h1, h3', p1, p2, hr]
  rw [h2]
  cases run stack rest <;> rfl

theorem run_open (stack : List Bytes) (i : Info) (l e rest : Bytes) (hi : i.Ok) (hl : ∀ c ∈ l, c ≠ 10 ∧ c ≠ 13) (he : Eol e)
    (ho : Opens l i.text) : run stack (l ++ e ++ rest) = app [.opens i.name (attrsOf i)] (run (i.name :: stack) rest) := by
  obtain ⟨h1, h2, h3⟩ := take_line (rest := rest) hl he
  obtain ⟨i1, i2⟩ := info_ok i hi
  have hr := run_eq (i.name :: stack) _ (line_ne (l := l) (rest := rest) he) _ (Nat.le_refl _)
  rw [h3] at hr
  have h3' := h3
  unfold next at h3'
  conv => lhs; unfold run
  rw [loop, if_neg (line_ne he)]
  simp only [h1, h3', (opening_iff l _).2 ho, i1, i2, hr]
  cases run (i.name :: stack) rest <;> simp [app]

theorem run_close (name : Bytes) (stack : List Bytes) (l e rest : Bytes) (hl : ∀ c ∈ l, c ≠ 10 ∧ c ≠ 13) (he : Eol e)
    (hc : Closes l) : run (name :: stack) (l ++ e ++ rest) = app [.closes name] (run stack rest) := by
  obtain ⟨h1, h2, h3⟩ := take_line (rest := rest) hl he
  have hr := run_eq stack _ (line_ne (l := l) (rest := rest) he) _ (Nat.le_refl _)
  rw [h3] at hr
  have h3' := h3
  unfold next at h3'
  have ho : opening l = none := by
    cases ho : opening l with
    | none => rfl
    | some info => exact absurd hc (opens_not_closes ((opening_iff l info).1 ho))
  conv => lhs; unfold run
  rw [loop, if_neg (line_ne he)]
  simp only [h1, h3', ho, (closing_iff l).2 hc, hr]
  cases run stack rest <;> simp [app]

mutual
/-- The pieces of a part. -/
def toks : Part → List Tok
  | .line l e => [.line l e]
  | .div i _ _ ps _ _ => [.opens i.name (attrsOf i)] ++ toksAll ps ++ [.closes i.name]
/-- The same of several parts. -/
def toksAll : List Part → List Tok
  | [] => []
  | p :: ps => toks p ++ toksAll ps
end

mutual
theorem run_part (p : Part) (hp : p.Ok) (stack : List Bytes) (rest : Bytes) :
    run stack (p.source ++ rest) = app (toks p) (run stack rest) := by
  match p, hp with
  | .line l e, hp =>
    simp only [Part.Ok] at hp
    simp only [Part.source, toks]
    exact run_line stack l e rest hp.1 hp.2.2 hp.2.1
  | .div i o e ps c e', hp =>
    simp only [Part.Ok] at hp
    obtain ⟨h1, h2, h3, h4, h5, h6, h7, h8⟩ := hp
    have e0 : (Part.div i o e ps c e').source ++ rest = o ++ e ++ (Part.sources ps ++ (c ++ e' ++ rest)) := by
      simp only [Part.source, List.append_assoc]
    rw [e0, run_open stack i o e _ h1 h3 h4 h2, run_parts ps h5, run_close _ _ _ _ _ h7 h8 h6, app_app, app_app]
    simp only [toks, List.append_assoc]
theorem run_parts (ps : List Part) (hp : Part.AllOk ps) (stack : List Bytes) (rest : Bytes) :
    run stack (Part.sources ps ++ rest) = app (toksAll ps) (run stack rest) := by
  match ps, hp with
  | [], _ =>
    simp only [Part.sources, toksAll, List.nil_append]
    cases run stack rest <;> simp [app]
  | p :: ps, hp =>
    simp only [Part.AllOk] at hp
    simp only [Part.sources, toksAll, List.append_assoc]
    rw [run_part p hp.1, run_parts ps hp.2, app_app]
end

theorem html_info (i : Info) : (attrsOf i).getD [] = i.html := by
  cases i <;> rfl

mutual
theorem page_part (p : Part) : pageOf (toks p) = p.page := by
  match p with
  | .line l e => simp [toks, Part.page, pageOf, Tok.html]
  | .div i o e ps c e' =>
    have := page_parts ps
    simp only [toks, Part.page, pageOf, List.flatMap_append, List.flatMap_cons, List.flatMap_nil, Tok.html, html_info, List.append_nil] at this ⊢
    rw [this]
theorem page_parts (ps : List Part) : pageOf (toksAll ps) = Part.pages ps := by
  match ps with
  | [] => rfl
  | p :: ps =>
    have h1 := page_part p
    have h2 := page_parts ps
    unfold pageOf at h1 h2 ⊢
    rw [toksAll, List.flatMap_append, h1, h2, Part.pages]
end

/-- The pieces of a document. -/
def docToks (d : Doc) : List Tok :=
  toksAll d.parts ++ d.opened.flatMap (fun o => .opens o.1.name (attrsOf o.1) :: toksAll o.2.2.2) ++
    (if d.last = [] then [] else [.line d.last []]) ++ d.opened.reverse.map fun o => .closes o.1.name

theorem run_last (stack : List Bytes) (l : Bytes) (hl : ∀ c ∈ l, c ≠ 10 ∧ c ≠ 13) (hp : Plain l) :
    run stack l = .val ((if l = [] then [] else [.line l []]) ++ stack.map .closes) := by
  by_cases h : l = []
  · subst h; rw [run_nil]; rfl
  · have h1 : ∀ c ∈ l, inLine c = true := by intro c hc; simp [inLine, hl c hc]
    have e1 : l.takeWhile inLine = l := by simpa using List.takeWhile_append_of_pos (l₂ := []) h1
    have e2 : l.dropWhile inLine = [] := by simpa using List.dropWhile_append_of_pos (l₂ := []) h1
    obtain ⟨p1, p2⟩ := plain_none hp
    have hr := run_eq stack l h _ (Nat.le_refl _)
    unfold next at hr
    rw [e2] at hr
    simp only [eol, List.length_nil, List.drop_nil] at hr
    unfold run
    rw [loop, if_neg h]
    simp only [e1, e2, p1, p2, eol, List.length_nil, List.drop_nil, hr, run_nil, if_neg h]
    rfl

theorem run_opened (os : List (Info × Bytes × Bytes × List Part)) (last : Bytes) (stack : List Bytes)
    (h : ∀ o ∈ os, o.1.Ok ∧ Opens o.2.1 o.1.text ∧ (∀ c ∈ o.2.1, c ≠ 10 ∧ c ≠ 13) ∧ Eol o.2.2.1 ∧ Part.AllOk o.2.2.2)
    (hl : ∀ c ∈ last, c ≠ 10 ∧ c ≠ 13) (hp : Plain last) :
    run stack (os.flatMap (fun o => o.2.1 ++ o.2.2.1 ++ Part.sources o.2.2.2) ++ last) =
      .val (os.flatMap (fun o => .opens o.1.name (attrsOf o.1) :: toksAll o.2.2.2) ++
        (if last = [] then [] else [.line last []]) ++ os.reverse.map (fun o => .closes o.1.name) ++ stack.map .closes) := by
  induction os generalizing stack with
  | nil => simpa using run_last stack last hl hp
  | cons o os ih =>
    obtain ⟨h1, h2, h3, h4, h5⟩ := h o (by simp)
    have := ih (o.1.name :: stack) (fun x hx => h x (by simp [hx]))
    rw [List.flatMap_cons]
    have e : o.2.1 ++ o.2.2.1 ++ Part.sources o.2.2.2 ++ os.flatMap (fun o => o.2.1 ++ o.2.2.1 ++ Part.sources o.2.2.2) ++ last =
        o.2.1 ++ o.2.2.1 ++ (Part.sources o.2.2.2 ++ (os.flatMap (fun o => o.2.1 ++ o.2.2.1 ++ Part.sources o.2.2.2) ++ last)) := by
      simp only [List.append_assoc]
    rw [e, run_open stack o.1 _ _ _ h1 h3 h4 h2, run_parts _ h5, this]
    simp [app]

theorem run_doc (d : Doc) (h : d.Ok) : run [] d.source = .val (docToks d) := by
  obtain ⟨h1, h2, h3, h4⟩ := h
  unfold Doc.source
  rw [List.append_assoc, run_parts _ h1, run_opened _ _ _ h2 h3 h4]
  simp [app, docToks]

theorem page_doc (d : Doc) : pageOf (docToks d) = d.page := by
  have e1 := page_parts d.parts
  unfold pageOf at e1
  have e2 : ∀ os : List (Info × Bytes × Bytes × List Part),
      (os.flatMap (fun o => Tok.opens o.1.name (attrsOf o.1) :: toksAll o.2.2.2)).flatMap Tok.html =
        os.flatMap (fun o => startTag o.1.name o.1.html ++ b!"\n" ++ Part.pages o.2.2.2) := by
    intro os
    induction os with
    | nil => rfl
    | cons o os ih =>
      have := page_parts o.2.2.2
      unfold pageOf at this
      simp only [List.flatMap_cons, List.flatMap_append, ih, Tok.html, html_info, this]
  unfold pageOf docToks Doc.page
  simp only [List.flatMap_append, e1, e2]
  congr 1
  · congr 1
    split
    · rename_i h; simp [h]
    · simp [Tok.html]
  · rw [List.flatMap_map]; rfl

/-! ### Tags are nested -/

theorem nested_closes (stack : List Bytes) : Nested stack (stack.map .closes) := by
  induction stack with
  | nil => rfl
  | cons n s ih => exact ⟨s, rfl, ih⟩

theorem loop_nested (n : Nat) (stack : List Bytes) (text : Bytes) (ts : List Tok) (h : loop n stack text = .val ts) : Nested stack ts := by
  induction n generalizing stack text ts with
  | zero => simp only [loop, C.val.injEq] at h; subst h; exact nested_closes _
  | succ n ih =>
    rw [loop] at h
    split at h
    · simp only [C.val.injEq] at h; subst h; exact nested_closes _
    · simp only at h
      split at h
      · split at h
        · simp at h
        · split at h
          · simp at h
          · rename_i hl
            simp only [C.val.injEq] at h; subst h
            rw [Nested]; exact ih _ _ _ hl
      · split at h
        · split at h
          · simp at h
          · rename_i hl
            simp only [C.val.injEq] at h; subst h
            exact ⟨_, rfl, ih _ _ _ hl⟩
        · split at h
          · simp at h
          · rename_i hl
            simp only [C.val.injEq] at h; subst h
            rw [Nested]; exact ih _ _ _ hl

theorem first_line (text : Bytes) (h : text ≠ []) :
    Line text (text.takeWhile inLine) (eol (text.dropWhile inLine)) ((text.dropWhile inLine).drop (eol (text.dropWhile inLine)).length) := by
  refine ⟨h, ?_, ?_, ?_⟩
  · conv => lhs; rw [← List.takeWhile_append_dropWhile (p := inLine) (l := text)]
    rw [List.append_assoc]
    congr 1
    generalize text.dropWhile inLine = r
    cases r with
    | nil => rfl
    | cons c t =>
      simp only [eol]
      split
      · rename_i hc
        split
        · rename_i ht
          cases t with
          | nil => simp at ht
          | cons d t => simp at ht; rw [hc, ht]; rfl
        · rw [hc]; rfl
      · split
        · rename_i hc; rw [hc]; rfl
        · rfl
  · intro c hc
    have := (List.all_eq_true.1 (List.all_takeWhile (l := text) (p := inLine))) c hc
    simpa [inLine] using this
  · have hh := fun c => head_dropWhile (p := inLine) (s := text) (c := c)
    generalize text.dropWhile inLine = r at hh
    cases r with
    | nil => simp [eol]
    | cons c t =>
      have := hh c rfl
      simp only [eol]
      split
      · rename_i hc
        split
        · simp
        · rename_i ht; right; right; left; exact ⟨rfl, by simpa using ht⟩
      · rename_i hc
        split
        · simp
        · rename_i hc'
          simp [inLine, hc, hc'] at this

theorem loop_reads (n : Nat) (stack : List Bytes) (text : Bytes) (ts : List Tok) (hn : text.length < n)
    (h : loop n stack text = .val ts) : Reads stack text ts := by
  induction n generalizing stack text ts with
  | zero => omega
  | succ n ih =>
    rw [loop] at h
    split at h
    · rename_i ht
      simp only [C.val.injEq] at h; subst h; subst ht; exact .done _
    · rename_i ht
      have hl := first_line text ht
      have hlt := next_lt text ht
      unfold next at hlt
      simp only at h
      split at h
      · rename_i info hi
        split at h
        · simp at h
        · split at h
          · simp at h
          · rename_i hr
            simp only [C.val.injEq] at h; subst h
            exact .opens hl ((opening_iff _ _).1 hi) (ih _ _ _ (by omega) hr)
      · rename_i ho
        have hno : ∀ info, ¬ Opens (text.takeWhile inLine) info := fun info h => by
          rw [(opening_iff _ _).2 h] at ho; simp at ho
        have hline : ∀ r, loop n stack ((text.dropWhile inLine).drop (eol (text.dropWhile inLine)).length) = .val r →
            (Closes (text.takeWhile inLine) → stack = []) → Reads stack text (.line (text.takeWhile inLine) (eol (text.dropWhile inLine)) :: r) :=
          fun r hr hc => .line hl hno hc (ih _ _ _ (by omega) hr)
        cases hcl : closing (text.takeWhile inLine) with
        | false =>
          rw [hcl] at h
          simp only at h
          split at h
          · simp at h
          · rename_i hr
            simp only [C.val.injEq] at h; subst h
            exact hline _ hr fun hc => by rw [(closing_iff _).2 hc] at hcl; simp at hcl
        | true =>
          rw [hcl] at h
          cases stack with
          | nil =>
            simp only at h
            split at h
            · simp at h
            · rename_i hr
              simp only [C.val.injEq] at h; subst h
              exact hline _ hr fun _ => rfl
          | cons name stack =>
            simp only at h
            split at h
            · simp at h
            · rename_i hr
              simp only [C.val.injEq] at h; subst h
              exact .closes hl ((closing_iff _).1 hcl) (ih _ _ _ (by omega) hr)

/-! ### The block the page is written to -/

theorem openTag_eq (n : Bytes) (a : Option Bytes) : openTag n a = startTag n (a.getD []) := by
  unfold openTag startTag emitted
  split <;> simp [*]

theorem closeTag_eq (n : Bytes) : closeTag n = endTag n := by
  unfold closeTag endTag emitted
  split <;> rfl

theorem reserve_out (b : Buf) (k : Nat) : (b.reserve k).out = b.out := by unfold Buf.reserve; split <;> rfl

theorem reserve_cap (b : Buf) (k : Nat) : b.cap ≤ (b.reserve k).cap := by
  unfold Buf.reserve; split
  · simp only; omega
  · exact Nat.le_refl _

theorem puts_ok (b : Buf) (ts : List Tok) (h : b.out.length + (pageOf ts).length < b.cap) :
    ∃ cap, b.cap ≤ cap ∧ b.puts ts = .val ⟨b.out ++ pageOf ts, cap⟩ := by
  induction ts generalizing b with
  | nil => exact ⟨b.cap, Nat.le_refl _, by simp [Buf.puts, pageOf]⟩
  | cons t ts ih =>
    have hp : pageOf (t :: ts) = Tok.html t ++ pageOf ts := rfl
    rw [hp, List.length_append] at h
    have : ∃ cap, b.cap ≤ cap ∧ b.put t = .val ⟨b.out ++ Tok.html t, cap⟩ := by
      cases t with
      | opens n a =>
        simp only [Tok.html, List.length_append, List.length_cons, List.length_nil] at h
        refine ⟨_, reserve_cap b (1 + (emitted n).length + 1 + (a.getD []).length + (if isBlockTag n then 0 else 22 + n.length) + 13 + 1), ?_⟩
        · generalize hk : 1 + (emitted n).length + 1 + (a.getD []).length + (if isBlockTag n then 0 else 22 + n.length) + 13 + 1 = k
          have hc := reserve_cap b k
          rw [Buf.put, hk, Buf.print, reserve_out, openTag_eq, if_pos (by omega)]
          simp only
          rw [if_pos (by simp only [List.length_append]; omega), Buf.store, if_pos (by simp only [List.length_append, List.length_cons, List.length_nil]; omega)]
          simp [Tok.html]
      | closes n =>
        simp only [Tok.html] at h
        refine ⟨_, reserve_cap b (2 + (emitted n).length + 1), ?_⟩
        have hc := reserve_cap b (2 + (emitted n).length + 1)
        rw [Buf.put, Buf.print, reserve_out, closeTag_eq, if_pos (by omega)]
        rfl
      | line l e =>
        simp only [Tok.html, List.length_append] at h
        refine ⟨_, reserve_cap b (l.length + 1), ?_⟩
        have hc := reserve_cap b (l.length + 1)
        rw [Buf.put, Buf.store, reserve_out, if_pos (by omega)]
        simp only
        rw [Buf.store, if_pos (by simp only [List.length_append]; omega)]
        simp [Tok.html]
    obtain ⟨cap, h1, h2⟩ := this
    obtain ⟨cap', h3, h4⟩ := ih ⟨b.out ++ Tok.html t, cap⟩ (by simp only [List.length_append]; omega)
    refine ⟨cap', by simp only at h3; omega, ?_⟩
    rw [Buf.puts, h2]
    simp only
    rw [h4, hp]
    simp

theorem process_ok (text : Bytes) (ts : List Tok) (h : run [] text = .val ts) (hl : (pageOf ts).length < 2 * text.length)
    (h0 : 0 ∉ pageOf ts) : process text = .val (pageOf ts) := by
  unfold process
  unfold run at h
  rw [h]
  simp only
  obtain ⟨cap, h1, h2⟩ := puts_ok ⟨[], text.length * 2⟩ ts (by simp only [List.length_nil]; omega)
  simp only at h1 h2
  rw [h2]
  simp only [List.nil_append]
  rw [Buf.store, if_pos (by simp only [List.length_cons, List.length_nil]; omega)]
  simp only
  rw [List.takeWhile_append_of_pos (by intro c hc; simp; intro e; exact h0 (e ▸ hc))]
  simp

theorem startTag_last (n a : Bytes) : (startTag n a).dropLast ++ b!">" = startTag n a := by
  have : ∃ u, startTag n a = u ++ b!">" := by
    unfold startTag
    split
    · exact ⟨b!"<" ++ n ++ a ++ b!" markdown=\"1\"", by simp⟩
    · exact ⟨b!"<div data-apex-fenced-element=\"" ++ n ++ b!"\"" ++ a ++ b!" markdown=\"1\"", by simp⟩
  obtain ⟨u, hu⟩ := this
  rw [hu, List.dropLast_concat]

theorem endTag_last (n : Bytes) : (endTag n).dropLast ++ b!">" = endTag n := by
  have : ∃ u, endTag n = u ++ b!">" := by
    unfold endTag
    split
    · exact ⟨b!"</" ++ n, by simp⟩
    · exact ⟨b!"</div", by simp⟩
  obtain ⟨u, hu⟩ := this
  rw [hu, List.dropLast_concat]

theorem store_out {b b' : Buf} {s : Bytes} (h : b.store s = .val b') : b'.out = b.out ++ s := by
  unfold Buf.store at h
  split at h
  · simp only [C.val.injEq] at h; subst h; rfl
  · simp at h

theorem put_out {b b' : Buf} {t : Tok} (h : b.put t = .val b') :
    b'.out = b.out ++ Tok.html t ∨ ∃ pre rest, Tok.html t = pre ++ b!">" ++ rest ∧ b'.out = b.out ++ pre ++ [0] := by
  cases t with
  | opens n a =>
    rw [Buf.put] at h
    generalize 1 + (emitted n).length + 1 + (a.getD []).length + (if isBlockTag n then 0 else 22 + n.length) + 13 + 1 = k at h
    unfold Buf.print at h
    rw [reserve_out, openTag_eq] at h
    split at h
    · simp at h
    rename_i c hc
    split at hc
    · rename_i hlt
      simp only [C.val.injEq] at hc
      subst hc
      rw [if_pos (by simp only [List.length_append]; omega)] at h
      exact Or.inl (by rw [store_out h]; simp [Tok.html])
    · split at hc
      · rename_i heq
        simp only [C.val.injEq] at hc
        subst hc
        have h1 : 0 < (startTag n (a.getD [])).length := by rw [← startTag_last]; simp
        rw [if_neg (by simp only [List.length_append, List.length_dropLast, List.length_cons, List.length_nil]; omega)] at h
        simp only [C.val.injEq] at h
        subst h
        refine Or.inr ⟨(startTag n (a.getD [])).dropLast, b!"\n", ?_, by simp⟩
        rw [startTag_last]; rfl
      · simp at hc
  | closes n =>
    rw [Buf.put] at h
    unfold Buf.print at h
    rw [reserve_out, closeTag_eq] at h
    split at h
    · simp only [C.val.injEq] at h
      subst h
      exact Or.inl rfl
    · split at h
      · simp only [C.val.injEq] at h
        subst h
        refine Or.inr ⟨(endTag n).dropLast, [], ?_, by simp⟩
        rw [endTag_last]; simp [Tok.html]
      · simp at h
  | line l e =>
    rw [Buf.put] at h
    split at h
    · simp at h
    · rename_i c hc
      left
      rw [store_out h, store_out hc, reserve_out]
      simp [Tok.html]

theorem puts_out {b b' : Buf} {ts : List Tok} (h : b.puts ts = .val b') :
    b'.out = b.out ++ pageOf ts ∨ ∃ pre junk, CutOff pre (pageOf ts) ∧ b'.out = b.out ++ pre ++ 0 :: junk := by
  induction ts generalizing b with
  | nil => simp only [Buf.puts, C.val.injEq] at h; subst h; simp [pageOf]
  | cons t ts ih =>
    have hp : pageOf (t :: ts) = Tok.html t ++ pageOf ts := rfl
    rw [Buf.puts] at h
    split at h
    · simp at h
    · rename_i c hc
      rcases put_out hc with h1 | ⟨pre, rest, h1, h2⟩
      · rcases ih h with h3 | ⟨pre, junk, ⟨rest, h3⟩, h4⟩
        · left; rw [h3, h1, hp]; simp
        · refine Or.inr ⟨Tok.html t ++ pre, junk, ⟨rest, by rw [hp, h3]; simp⟩, by rw [h4, h1]; simp⟩
      · right
        have hj : ∃ junk, b'.out = c.out ++ junk := by
          rcases ih h with h3 | ⟨p, junk, -, h4⟩
          · exact ⟨_, h3⟩
          · exact ⟨p ++ 0 :: junk, by rw [h4]; simp⟩
        obtain ⟨junk, hj⟩ := hj
        exact ⟨pre, junk, ⟨rest ++ pageOf ts, by rw [hp, h1]; simp⟩, by rw [hj, h2]; simp⟩

/-! ### No NULs -/

/-- No NUL in what was found. -/
def Attrs.Clean (a : Attrs) : Prop := (∀ i, a.id = some i → 0 ∉ i) ∧ (∀ c ∈ a.classes, 0 ∉ c) ∧ ∀ kv ∈ a.attrs, 0 ∉ kv.1 ∧ 0 ∉ kv.2

theorem takeWhile_clean (p : Byte → Bool) (hp : p 0 = false) (s : Bytes) : 0 ∉ s.takeWhile p := by
  intro h
  have := (List.all_eq_true.1 (List.all_takeWhile (l := s) (p := p))) 0 h
  simp [hp] at this

theorem quotedValue_clean (q : Byte) (n : Nat) (s : Bytes) (h : s.length ≤ n) : 0 ∉ (quotedValue q s).1 := by
  induction n generalizing s with
  | zero => cases s with
    | nil => simp [quotedValue.eq_def]
    | cons c t => simp at h
  | succ n ih =>
    cases s with
    | nil => simp [quotedValue.eq_def]
    | cons c t =>
      rw [quotedValue.eq_def]
      simp only
      split
      · simp
      · rename_i hc
        split
        · cases t with
          | nil => simp; intro e; exact hc (Or.inl e.symm)
          | cons e t =>
            simp only
            split
            · simp; intro e; exact hc (Or.inl e.symm)
            · rename_i he
              have := ih t (by simp at h ⊢; omega)
              simp only [List.mem_cons, not_or]
              exact ⟨fun e => hc (Or.inl e.symm), fun x => he x.symm, this⟩
        · have := ih t (by simpa using h)
          simp only [List.mem_cons, not_or]
          exact ⟨fun e => hc (Or.inl e.symm), this⟩

theorem value_clean {q : Byte} {s v t : Bytes} (h : quotedValue q s = (v, t)) : 0 ∉ v := by
  have := quotedValue_clean q s.length s (Nat.le_refl _)
  rw [h] at this
  exact this

theorem clean_attr {a : Attrs} {l : List (Bytes × Bytes)} (ha : a.Clean) (h : ∀ kv ∈ l, 0 ∉ kv.1 ∧ 0 ∉ kv.2) :
    Attrs.Clean { id := a.id, classes := a.classes, attrs := l } := ⟨ha.1, ha.2.1, h⟩

theorem parse_clean (n : Nat) (a : Attrs) (mem : Bytes) (r : Attrs) (ha : a.Clean) (h : parse n a mem = .val r) : r.Clean := by
  induction n generalizing a mem with
  | zero => simp only [parse, C.val.injEq] at h; subst h; exact ha
  | succ n ih =>
    rw [parse] at h
    split at h
    · simp at h
    · simp only [C.val.injEq] at h; subst h; exact ha
    · simp only at h
      split at h
      · simp at h
      · split at h
        · simp only [C.val.injEq] at h; subst h; exact ha
        · split at h
          · refine ih _ _ ?_ h
            split
            · exact ha
            · refine ⟨?_, ha.2⟩
              intro i hi
              simp only [Option.some.injEq] at hi
              subst hi
              exact takeWhile_clean _ (by decide) _
          · split at h
            · refine ih _ _ ?_ h
              split
              · exact ha
              · refine ⟨ha.1, ?_, ha.2.2⟩
                intro c hc
                rcases List.mem_append.1 hc with hc | hc
                · exact ha.2.1 c hc
                · rw [List.mem_singleton.1 hc]; exact takeWhile_clean _ (by decide) _
            · split at h
              · simp at h
              · split at h
                · split at h
                  · simp at h
                  · split at h
                    · split at h
                      · simp at h
                      · rename_i hq
                        split at h
                        · refine ih _ _ (clean_attr ha ?_) h
                          intro kv hkv
                          rcases List.mem_append.1 hkv with hkv | hkv
                          · exact ha.2.2 kv hkv
                          · rw [List.mem_singleton.1 hkv]
                            refine ⟨takeWhile_clean _ (by decide) _, ?_⟩
                            exact value_clean hq
                        · exact ih _ _ ha h
                    · refine ih _ _ (clean_attr ha ?_) h
                      intro kv hkv
                      rcases List.mem_append.1 hkv with hkv | hkv
                      · exact ha.2.2 kv hkv
                      · rw [List.mem_singleton.1 hkv]
                        exact ⟨takeWhile_clean _ (by decide) _, takeWhile_clean _ (by decide) _⟩
                · exact ih _ _ ha h

theorem intercalate_clean (l : List Bytes) (h : ∀ s ∈ l, 0 ∉ s) : 0 ∉ List.intercalate b!" " l := by
  induction l with
  | nil => simp
  | cons x l ih =>
    cases l with
    | nil => simpa [List.intercalate_singleton] using h x (by simp)
    | cons y l =>
      rw [List.intercalate_cons_cons]
      simp only [List.mem_append, not_or]
      exact ⟨⟨h x (by simp), by decide⟩, ih fun s hs => h s (by simp [hs])⟩

theorem html_clean (a : Attrs) (ha : a.Clean) : 0 ∉ html a := by
  obtain ⟨h1, h2, h3⟩ := ha
  have hi := fun i hi => h1 i hi
  have hfull : 0 ∉ attrHtml a.id a.classes a.attrs := by
    unfold attrHtml
    simp only [List.mem_append, not_or]
    refine ⟨⟨?_, ?_⟩, ?_⟩
    · cases h : a.id with
      | none => simp
      | some i =>
        simp only [List.mem_append, not_or]
        exact ⟨⟨by decide, h1 i h⟩, by decide⟩
    · split
      · simp
      · simp only [List.mem_append, not_or]
        exact ⟨⟨by decide, intercalate_clean _ h2⟩, by decide⟩
    · intro hm
      obtain ⟨kv, hk, hm⟩ := List.mem_flatMap.1 hm
      simp only [List.mem_append] at hm
      rcases hm with (((h | h) | h) | h) | h
      · exact absurd h (by decide)
      · exact (h3 kv hk).1 h
      · exact absurd h (by decide)
      · exact (h3 kv hk).2 h
      · exact absurd h (by decide)
  by_cases h : ∃ i, a.id = some i ∧ i.length = 250
  · obtain ⟨i, e1, e2⟩ := h
    unfold html
    simp only [e1, e2, if_true, List.mem_append, not_or]
    exact ⟨by decide, h1 i e1⟩
  · rw [html_eq a fun i hi hl => h ⟨i, hi, hl⟩]
    exact hfull

theorem attributes_clean (s : Bytes) (hs : 0 ∉ s) (r : Option Bytes) (h : attributes s = .val r) : 0 ∉ r.getD [] := by
  unfold attributes at h
  split at h
  · simp only [C.val.injEq] at h; subst h; simp
  · simp only at h
    split at h
    · rename_i c t hp
      split at h
      · split at h
        · rename_i a ha
          simp only [C.val.injEq] at h; subst h
          exact html_clean a (parse_clean _ _ _ _ ⟨by simp, by simp, by simp⟩ ha)
        · simp at h
      · simp only [C.val.injEq] at h; subst h
        refine html_clean { classes := _ } ⟨by simp, ?_, by simp⟩
        intro x hx
        rw [List.mem_singleton.1 hx]
        intro h0
        have h1 := (List.takeWhile_sublist _).mem h0
        rw [List.mem_reverse] at h1
        have h2 := (List.dropWhile_sublist _).mem h1
        rw [List.mem_reverse] at h2
        exact hs ((List.dropWhile_sublist _).mem h2)
    · simp only [C.val.injEq] at h; subst h
      exact html_clean {} ⟨by simp, by simp, by simp⟩

theorem blockType_clean (s : Bytes) (hs : 0 ∉ s) : 0 ∉ (blockType s).1 ∧ 0 ∉ (blockType s).2 := by
  unfold blockType
  split
  · rename_i c p hp
    have h1 : 0 ∉ p := fun h => hs ((List.dropWhile_sublist _).mem (hp ▸ List.mem_cons_of_mem _ h))
    split
    · simp only
      split
      · exact ⟨(by decide : (0 : Byte) ∉ b!"div"), hs⟩
      · exact ⟨takeWhile_clean _ (by decide) _, fun h => h1 ((List.dropWhile_sublist _).mem ((List.dropWhile_sublist _).mem h))⟩
    · exact ⟨(by decide : (0 : Byte) ∉ b!"div"), hs⟩
  · exact ⟨(by decide : (0 : Byte) ∉ b!"div"), hs⟩

theorem endTag_clean (n : Bytes) (h : 0 ∉ n) : 0 ∉ endTag n := by
  unfold endTag
  split
  · simp only [List.mem_append, not_or]; exact ⟨⟨by decide, h⟩, by decide⟩
  · decide

theorem startTag_clean (n a : Bytes) (h : 0 ∉ n) (ha : 0 ∉ a) : 0 ∉ startTag n a := by
  unfold startTag
  split
  · simp only [List.mem_append, not_or]; exact ⟨⟨⟨by decide, h⟩, ha⟩, by decide⟩
  · simp only [List.mem_append, not_or]; exact ⟨⟨⟨⟨by decide, h⟩, by decide⟩, ha⟩, by decide⟩

theorem loop_clean (n : Nat) (stack : List Bytes) (text : Bytes) (ts : List Tok) (hs : ∀ x ∈ stack, 0 ∉ x) (ht : 0 ∉ text)
    (h : loop n stack text = .val ts) : 0 ∉ pageOf ts := by
  have hclose : ∀ stack : List Bytes, (∀ x ∈ stack, 0 ∉ x) → 0 ∉ pageOf (stack.map .closes) := by
    intro stack hs hm
    obtain ⟨t, h1, h2⟩ := List.mem_flatMap.1 hm
    obtain ⟨x, h3, rfl⟩ := List.mem_map.1 h1
    exact endTag_clean x (hs x h3) h2
  induction n generalizing stack text ts with
  | zero => simp only [loop, C.val.injEq] at h; subst h; exact hclose _ hs
  | succ n ih =>
    have hn : 0 ∉ (text.dropWhile inLine).drop (eol (text.dropWhile inLine)).length :=
      fun h => ht ((List.dropWhile_sublist _).mem (List.mem_of_mem_drop h))
    have hcons : ∀ (t : Tok) (ts : List Tok), 0 ∉ Tok.html t → 0 ∉ pageOf ts → 0 ∉ pageOf (t :: ts) := by
      intro t ts h1 h2
      simp only [pageOf, List.flatMap_cons, List.mem_append, not_or] at h2 ⊢
      exact ⟨h1, h2⟩
    have hline : 0 ∉ text.takeWhile inLine := fun h => ht ((List.takeWhile_sublist _).mem h)
    have heol : ∀ s, 0 ∉ eol s := by
      intro s
      unfold eol
      split
      · split
        · split <;> decide
        · split <;> decide
      · decide
    rw [loop] at h
    split at h
    · simp only [C.val.injEq] at h; subst h; exact hclose _ hs
    · simp only at h
      split at h
      · rename_i info hi
        have hinfo : 0 ∉ info := by
          obtain ⟨_, _, _, _, _, _, _, _, _, e, _⟩ := (opening_iff _ _).1 hi
          intro h0
          apply hline
          rw [e]
          simp [h0]
        have hb := blockType_clean info hinfo
        split at h
        · simp at h
        · rename_i a ha
          split at h
          · simp at h
          · rename_i hl
            simp only [C.val.injEq] at h; subst h
            refine hcons _ _ ?_ (ih _ _ _ ?_ hn hl)
            · simp only [Tok.html, List.mem_append, not_or]
              exact ⟨startTag_clean _ _ hb.1 (attributes_clean _ hb.2 _ ha), by decide⟩
            · intro x hx
              rcases List.mem_cons.1 hx with rfl | hx
              · exact hb.1
              · exact hs x hx
      · split at h
        · split at h
          · simp at h
          · rename_i hl
            simp only [C.val.injEq] at h; subst h
            exact hcons _ _ (endTag_clean _ (hs _ (by simp))) (ih _ _ _ (fun x hx => hs x (by simp [hx])) hn hl)
        · split at h
          · simp at h
          · rename_i hl
            simp only [C.val.injEq] at h; subst h
            refine hcons _ _ ?_ (ih _ _ _ hs hn hl)
            simp only [Tok.html, List.mem_append, not_or]
            exact ⟨hline, heol _⟩

theorem process_out (text s : Bytes) (h0 : 0 ∉ text) (h : process text = .val s) :
    ∃ ts, run [] text = .val ts ∧ (s = pageOf ts ∨ CutOff s (pageOf ts)) := by
  unfold process at h
  split at h
  · simp at h
  rename_i ts hts
  refine ⟨ts, hts, ?_⟩
  have hc := loop_clean _ _ _ _ (by simp) h0 hts
  split at h
  · simp at h
  rename_i b hb
  split at h
  · simp at h
  rename_i b' hb'
  simp only [C.val.injEq] at h
  subst h
  rw [store_out hb']
  rcases puts_out hb with h1 | ⟨pre, junk, ⟨rest, h1⟩, h2⟩
  · left
    rw [h1, List.nil_append, List.takeWhile_append_of_pos (by intro c hm; simp; intro e; exact hc (e ▸ hm))]
    simp
  · right
    have : (b.out ++ [0]).takeWhile (· != 0) = pre := by
      rw [h2]
      simp only [List.nil_append, List.append_assoc, List.cons_append]
      rw [List.takeWhile_append_of_pos (by intro c hm; simp; intro e; apply hc; rw [h1, ← e]; simp [hm])]
      simp
    rw [this]
    exact ⟨rest, h1⟩

/-! ### The finished page -/

/-- A search that began further in front. -/
def shift (s : Bytes) (r : Option (Bytes × Bytes)) : Option (Bytes × Bytes) := r.map fun r => (s ++ r.1, r.2)

theorem shift_shift (s t : Bytes) (r : Option (Bytes × Bytes)) : shift s (shift t r) = shift (s ++ t) r := by
  cases r <;> simp [shift]

theorem scan_fuel (n m d : Nat) (s : Bytes) (hn : s.length < n) (hm : s.length < m) : scan n d s = scan m d s := by
  induction n generalizing m d s with
  | zero => omega
  | succ n ih =>
    obtain ⟨m, rfl⟩ : ∃ m', m = m' + 1 := ⟨m - 1, by omega⟩
    cases s with
    | nil => simp [scan]
    | cons c t =>
      simp only [List.length_cons] at hn hm
      have key : ∀ k d, scan n d (t.drop k) = scan m d (t.drop k) := fun k d =>
        ih m d (t.drop k) (by rw [List.length_drop]; omega) (by rw [List.length_drop]; omega)
      have key0 := fun d => ih m d t (by omega) (by omega)
      rw [scan, scan]
      simp only [key, key0]

/-- The search with enough rounds. -/
def scanAll (d : Nat) (s : Bytes) : Option (Bytes × Bytes) := scan (s.length + 1) d s

theorem not_prefix (c : Byte) (w : Bytes) (d : Byte) (t : Bytes) (h : c ≠ d) : (c :: w).isPrefixOf (d :: t) = false := by
  simp [List.isPrefixOf, h]

theorem scan_skip (d : Nat) (c : Byte) (t : Bytes) (h1 : b!"</div>".isPrefixOf (c :: t) = false) (h2 : divOpens (c :: t) = false) :
    scanAll d (c :: t) = shift [c] (scanAll d t) := by
  conv => lhs; unfold scanAll
  rw [scan, h1, h2]
  rfl

theorem scan_char (d : Nat) (c : Byte) (t : Bytes) (h : c ≠ c!"<") : scanAll d (c :: t) = shift [c] (scanAll d t) := by
  apply scan_skip
  · exact not_prefix _ _ _ _ (fun e => h e.symm)
  · unfold divOpens
    rw [not_prefix _ _ _ _ (fun e => h e.symm)]
    rfl

theorem scan_chars (d : Nat) (s t : Bytes) (h : ∀ c ∈ s, c ≠ c!"<") : scanAll d (s ++ t) = shift s (scanAll d t) := by
  induction s with
  | nil => simp [shift]
  | cons c s ih =>
    rw [List.cons_append, scan_char d c _ (h c (by simp)), ih fun x hx => h x (by simp [hx]), shift_shift]
    rfl

theorem stop_eq {s s' r r' : Bytes} {d : Byte} (h : s ++ d :: r = s' ++ d :: r') (h1 : d ∉ s) (h2 : d ∉ s') : s = s' ∧ r = r' := by
  induction s generalizing s' with
  | nil =>
    cases s' with
    | nil => simpa using h
    | cons c s' => simp at h; exact absurd (by rw [h.1]; simp) h2
  | cons c s ih =>
    cases s' with
    | nil => simp at h; exact absurd (by rw [h.1]; simp) h1
    | cons c' s' =>
      simp only [List.cons_append, List.cons.injEq] at h
      obtain ⟨h3, h4⟩ := ih h.2 (fun hh => h1 (by simp [hh])) (fun hh => h2 (by simp [hh]))
      exact ⟨by rw [h.1, h3], h4⟩

theorem scan_tag (d : Nat) (t r : Bytes) (h : (Node.tag t).Ok) : scanAll d (b!"<" ++ t ++ b!">" ++ r) = shift (b!"<" ++ t ++ b!">") (scanAll d r) := by
  simp only [Node.Ok] at h
  obtain ⟨h1, h2, h3, h4⟩ := h
  have hg : c!">" ∉ t := fun hh => (h1 _ hh).2 rfl
  have e : b!"<" ++ t ++ b!">" ++ r = c!"<" :: (t ++ (c!">" :: r)) := by simp
  rw [e, scan_skip, scan_chars d t _ (fun c hc => (h1 c hc).1), scan_char d _ _ (by decide), shift_shift, shift_shift]
  · cases hp : b!"</div>".isPrefixOf (c!"<" :: (t ++ (c!">" :: r))) with
    | false => rfl
    | true =>
      obtain ⟨u, hu⟩ := List.isPrefixOf_iff_prefix.1 hp
      have : b!"/div" ++ c!">" :: u = t ++ c!">" :: r := by simpa using hu
      exact absurd (stop_eq this (by decide) hg).1.symm h2
  · cases hp : divOpens (c!"<" :: (t ++ (c!">" :: r))) with
    | false => rfl
    | true =>
      unfold divOpens at hp
      rw [Bool.and_eq_true] at hp
      obtain ⟨u, hu⟩ := List.isPrefixOf_iff_prefix.1 hp.1
      have hu' : t ++ c!">" :: r = b!"div" ++ u := by simpa using hu.symm
      have hd : (c!"<" :: (t ++ (c!">" :: r))).drop 4 = u := by rw [← hu]; rfl
      rw [hd] at hp
      cases u with
      | nil => simp at hp
      | cons c u =>
        simp only [Bool.or_eq_true, beq_iff_eq] at hp
        by_cases hc : c = c!">"
        · subst hc
          exact absurd (stop_eq hu' hg (by decide)).1 h3
        · rcases hp.2 with hp | hp
          · exact absurd hp hc
          · have : b!"div" ++ [c] <+: t ++ c!">" :: r := ⟨u, by rw [hu']; simp⟩
            exact absurd (InlineNotes.pre_stop this (by simp; exact fun e => hc e.symm)) (h4 c hp)

theorem scan_open (d : Nat) (as r : Bytes) (h1 : ∀ c ∈ as, c ≠ c!">") (h2 : ∀ c, as.head? = some c → isSpace c = true) :
    scanAll d (b!"<div" ++ as ++ b!">" ++ r) = shift (b!"<div" ++ as ++ b!">") (scanAll (d + 1) r) := by
  have e : b!"<div" ++ as ++ b!">" ++ r = c!"<" :: (b!"div" ++ as ++ c!">" :: r) := by simp
  have ho : divOpens (c!"<" :: (b!"div" ++ as ++ c!">" :: r)) = true := by
    unfold divOpens
    cases as with
    | nil => simp [List.isPrefixOf]
    | cons c as =>
      have := h2 c rfl
      simp [List.isPrefixOf, this]
  have hp : b!"</div>".isPrefixOf (c!"<" :: (b!"div" ++ as ++ c!">" :: r)) = false := by simp [List.isPrefixOf]
  have hall : ∀ c ∈ b!"div" ++ as, (c != c!">") = true := by
    intro c hc
    rcases List.mem_append.1 hc with hc | hc
    · exact (by decide : ∀ c ∈ b!"div", (c != c!">") = true) c hc
    · simpa using h1 c hc
  have ht : (b!"div" ++ as ++ c!">" :: r).takeWhile (· != c!">") = b!"div" ++ as := by
    rw [List.takeWhile_append_of_pos hall]; simp
  have hd : (b!"div" ++ as ++ c!">" :: r).dropWhile (· != c!">") = c!">" :: r := by
    rw [List.dropWhile_append_of_pos hall]; simp
  rw [e]
  conv => lhs; unfold scanAll
  rw [scan, hp, ho]
  simp only [Bool.false_eq_true, if_false, if_true, ht, hd]
  have e2 : (b!"div" ++ as ++ c!">" :: r).drop (b!"div" ++ as ++ [c!">"]).length = r := by
    rw [show b!"div" ++ as ++ c!">" :: r = (b!"div" ++ as ++ [c!">"]) ++ r by simp, List.drop_left]
  simp only [List.take_succ_cons, List.take_zero]
  rw [e2, scan_fuel _ (r.length + 1) (d + 1) r (by simp; omega) (by omega)]
  unfold shift scanAll
  congr 1

theorem scan_close (d : Nat) (r : Bytes) : scanAll (d + 1) (b!"</div>" ++ r) = if d = 0 then some ([], r) else shift b!"</div>" (scanAll d r) := by
  conv => lhs; unfold scanAll
  rw [show b!"</div>" ++ r = c!"<" :: (b!"/div>" ++ r) from rfl, scan, if_pos (by simp [List.isPrefixOf])]
  cases d with
  | zero => simp
  | succ d =>
    rw [if_neg (by omega), if_neg (by omega)]
    have e : (b!"/div>" ++ r).drop 5 = r := rfl
    have e2 : (b!"/div>" ++ r).take 5 = b!"/div>" := rfl
    rw [e, e2, Nat.add_sub_cancel, scan_fuel _ (r.length + 1) (d + 1) r (by simp; omega) (by omega)]
    rfl

mutual
theorem scan_node (n : Node) (hn : n.Ok) (d : Nat) (r : Bytes) : scanAll (d + 1) (n.text ++ r) = shift n.text (scanAll (d + 1) r) := by
  match n, hn with
  | .char c, hn =>
    simp only [Node.Ok] at hn
    exact scan_char _ c r hn
  | .tag t, hn => exact scan_tag _ t r hn
  | .div as ns, hn =>
    simp only [Node.Ok] at hn
    have e : (Node.div as ns).text ++ r = b!"<div" ++ as ++ b!">" ++ (Node.texts ns ++ (b!"</div>" ++ r)) := by
      simp only [Node.text, List.append_assoc]
    rw [e, scan_open _ _ _ hn.1 hn.2.1, scan_nodes ns hn.2.2, scan_close, if_neg (by omega), shift_shift, shift_shift]
    simp only [Node.text, List.append_assoc]
theorem scan_nodes (ns : List Node) (hn : Node.AllOk ns) (d : Nat) (r : Bytes) :
    scanAll (d + 1) (Node.texts ns ++ r) = shift (Node.texts ns) (scanAll (d + 1) r) := by
  match ns, hn with
  | [], _ =>
    simp only [Node.texts, List.nil_append]
    cases scanAll (d + 1) r <;> simp [shift]
  | n :: ns, hn =>
    simp only [Node.AllOk] at hn
    simp only [Node.texts, List.append_assoc]
    rw [scan_node n hn.1, scan_nodes ns hn.2, shift_shift]
end

theorem write_ok (b : Buf) (k cap : Nat) (s : Bytes) (h1 : b.out.length + k < b.cap) (h2 : b.out.length + s.length ≤ b.cap) :
    b.write k cap s = .val ⟨b.out ++ s, b.cap⟩ := by
  unfold Buf.write
  rw [if_neg (by omega)]
  simp only
  rw [Buf.store, if_pos h2]

theorem find_byte (c : Byte) (a b : Bytes) (h : c ∉ a) : Embed.find [c] (a ++ c :: b) = some (a, b) := by
  have := (Embed.find_eq (d := c) (w := []) (by simp) a b).2 (by
    rintro ⟨u, v, huv⟩
    exact h (by rw [← huv]; simp))
  simpa using this

theorem post_one (n len : Nat) (b : Buf) (w : Wrapped) (hw : w.Ok) (r : Bytes)
    (hb : b.out.length + (w.source ++ r).length + 1024 ≤ b.cap) :
    postLoop (n + 1) len b (w.source ++ r) = postLoop n len ⟨b.out ++ w.html, b.cap⟩ r := by
  obtain ⟨h1, h2, h3, h4, h5, h6, h7⟩ := hw
  have hq : c!"\"" ∉ w.name := by
    intro hm
    rcases h4 _ hm with h | h
    · exact absurd h (by decide)
    · exact absurd h (by decide)
  generalize hA : (if w.attrs = [] then [] else b!" " ++ w.attrs) = A at *
  have hA1 : c!">" ∉ A := by
    rw [← hA]
    split
    · simp
    · simp only [List.mem_append, not_or]; exact ⟨by decide, fun h => h5 _ h rfl⟩
  have hA2 : A.dropWhile isSpace = w.attrs := by
    rw [← hA]
    split
    · rename_i h; rw [h]; rfl
    · rw [List.dropWhile_append_of_pos (by decide), dropWhile_head h6]
  have hA3 : w.attrs.length ≤ A.length := by rw [← hA2]; exact (List.dropWhile_sublist _).length_le
  have e : w.source ++ r = w.before ++ wrapPrefix ++ (w.name ++ c!"\"" :: (A ++ c!">" :: (Node.texts w.inside ++ (b!"</div>" ++ r)))) := by
    unfold Wrapped.source; rw [hA]; simp
  have hs : scan ((Node.texts w.inside ++ (b!"</div>" ++ r)).length + 1) 1 (Node.texts w.inside ++ (b!"</div>" ++ r)) =
      some (Node.texts w.inside, r) := by
    have := scan_nodes w.inside h7 0 (b!"</div>" ++ r)
    rw [scan_close, if_pos rfl] at this
    simp only [shift, Option.map_some, List.append_nil] at this
    exact this
  have hpre := (Embed.find_eq (d := c!"<") (w := b!"div data-apex-fenced-element=\"") (by decide) w.before
    (w.name ++ c!"\"" :: (A ++ c!">" :: (Node.texts w.inside ++ (b!"</div>" ++ r))))).2 h1
  have hpl : wrapPrefix.length = 31 := rfl
  rw [e] at hb
  simp only [List.length_append, List.length_cons, List.length_nil, hpl] at hb
  rw [e, postLoop]
  rw [show Embed.find wrapPrefix (w.before ++ wrapPrefix ++ (w.name ++ c!"\"" :: (A ++ c!">" :: (Node.texts w.inside ++ (b!"</div>" ++ r))))) = _ from hpre]
  simp only
  rw [write_ok _ _ _ _ (by omega) (by omega)]
  simp only
  rw [find_byte _ _ _ hq]
  simp only
  rw [if_neg (by rintro (h | h); exact h2 h; omega), find_byte _ _ _ hA1]
  simp only
  rw [hA2, hA, write_ok _ _ _ _ (by simp only [List.length_append]; omega) (by simp only [List.length_append, List.length_cons, List.length_nil]; omega)]
  simp only
  rw [hs]
  simp only
  rw [write_ok _ _ _ _ (by simp only [List.length_append, List.length_cons, List.length_nil]; omega) (by simp only [List.length_append, List.length_cons, List.length_nil]; omega)]
  simp only
  rw [write_ok _ _ _ _ (by simp only [List.length_append, List.length_cons, List.length_nil]; omega) (by simp only [List.length_append, List.length_cons, List.length_nil]; omega)]
  simp only
  congr 2
  unfold Wrapped.html
  rw [hA]
  simp

theorem html_le (w : Wrapped) (h : w.name.length ≤ 33) : w.html.length ≤ w.source.length := by
  have hpl : wrapPrefix.length = 31 := rfl
  unfold Wrapped.html Wrapped.source
  simp only [List.length_append, List.length_cons, List.length_nil, hpl]
  omega

theorem post_all (n len : Nat) (b : Buf) (ws : List Wrapped) (hw : ∀ w ∈ ws, w.Ok) (r : Bytes) (hr : ¬ wrapPrefix <:+: r)
    (hn : ws.length ≤ n) (hb : b.out.length + (ws.flatMap Wrapped.source ++ r).length + 1024 ≤ b.cap)
    (h0 : 0 ∉ b.out ++ ws.flatMap Wrapped.html ++ r) :
    postLoop n len b (ws.flatMap Wrapped.source ++ r) = .val (b.out ++ ws.flatMap Wrapped.html ++ r) := by
  have hrest : ∀ (b : Buf) (r : Bytes), b.out.length + r.length + 1024 ≤ b.cap → 0 ∉ b.out ++ r → b.rest r = .val (b.out ++ r) := by
    intro b r h h0
    unfold Buf.rest
    rw [write_ok _ _ _ _ (by omega) (by simp only [List.length_append, List.length_cons, List.length_nil]; omega)]
    simp only
    rw [← List.append_assoc, List.takeWhile_append_of_pos (by intro c hm; simp; intro e; exact h0 (e ▸ hm))]
    simp
  induction ws generalizing n b with
  | nil =>
    simp only [List.flatMap_nil, List.nil_append, List.append_nil] at hb h0 ⊢
    cases n with
    | zero => exact hrest b r hb h0
    | succ n =>
      rw [postLoop, (Embed.find_none (by decide)).2 hr]
      exact hrest b r hb h0
  | cons w ws ih =>
    obtain ⟨n, rfl⟩ : ∃ m, n = m + 1 := ⟨n - 1, by simp at hn; omega⟩
    have hk := hw w (by simp)
    have hl := html_le w hk.2.2.1
    rw [List.flatMap_cons, List.append_assoc] at hb ⊢
    rw [post_one n len b w hk _ hb, ih n ⟨b.out ++ w.html, b.cap⟩ (fun x hx => hw x (by simp [hx])) (by simpa using hn) ?_ ?_]
    · simp
    · simp only [List.length_append] at hb ⊢; omega
    · simpa using h0

theorem post_ok (ws : List Wrapped) (hw : ∀ w ∈ ws, w.Ok) (r : Bytes) (hr : ¬ wrapPrefix <:+: r)
    (h0 : 0 ∉ ws.flatMap Wrapped.source ++ r) :
    post (ws.flatMap Wrapped.source ++ r) = .val (ws.flatMap Wrapped.html ++ r) := by
  have hlen : ws.length ≤ (ws.flatMap Wrapped.source).length := by
    clear hw h0
    induction ws with
    | nil => simp
    | cons w ws ih =>
      have : 0 < w.source.length := by simp [Wrapped.source]; omega
      simp only [List.flatMap_cons, List.length_append, List.length_cons]
      omega
  have hmem : 0 ∈ ws.flatMap Wrapped.html → 0 ∈ ws.flatMap Wrapped.source := by
    intro hc
    obtain ⟨w, h1, h2⟩ := List.mem_flatMap.1 hc
    refine List.mem_flatMap.2 ⟨w, h1, ?_⟩
    apply Classical.byContradiction
    intro hn
    apply absurd h2
    unfold Wrapped.source at hn
    unfold Wrapped.html
    simp only [List.mem_append, not_or] at hn ⊢
    obtain ⟨⟨⟨⟨⟨⟨⟨n1, -⟩, n2⟩, -⟩, n3⟩, -⟩, n4⟩, -⟩ := hn
    exact ⟨⟨⟨⟨⟨⟨⟨⟨n1, by decide⟩, n2⟩, n3⟩, by decide⟩, n4⟩, by decide⟩, n2⟩, by decide⟩
  have := post_all ((ws.flatMap Wrapped.source ++ r).length + 1) (ws.flatMap Wrapped.source ++ r).length
    ⟨[], (ws.flatMap Wrapped.source ++ r).length + 1024⟩ ws hw r hr (by simp only [List.length_append]; omega) (by simp) (by
      simp only [List.nil_append]
      intro hm
      rcases List.mem_append.1 hm with hm | hm
      · exact h0 (List.mem_append.2 (Or.inl (hmem hm)))
      · exact h0 (List.mem_append.2 (Or.inr hm)))
  unfold post
  rw [this]
  simp

end Verif.FencedDivs
