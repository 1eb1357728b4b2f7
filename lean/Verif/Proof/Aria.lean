/-
Lemmas for C155.
-/
import Verif.Model.Aria
import Verif.Spec.Aria
import Verif.Proof.Embed
import Verif.Proof.InlineNotes

namespace Verif.Aria
open Spec
open Embed (find find_some find_none)

/-! ### Searches -/

theorem find_le {w s : Bytes} (hw : w ≠ []) : ∀ (a b : Bytes), s = a ++ w ++ b → ∃ a' b', find w s = some (a', b') ∧ a'.length ≤ a.length := by
  induction s with
  | nil =>
    intro a b h
    have := congrArg List.length h
    have := List.length_pos_iff.2 hw
    simp only [List.length_append, List.length_nil] at *
    omega
  | cons c t ih =>
    intro a b h
    rw [find]
    by_cases hp : w <+: c :: t
    · rw [if_pos hp]
      exact ⟨[], _, rfl, by simp⟩
    · rw [if_neg hp]
      cases a with
      | nil => exact absurd ⟨b, by rw [h]; simp⟩ hp
      | cons d a =>
        simp only [List.cons_append, List.cons.injEq] at h
        obtain ⟨a', b', h1, h2⟩ := ih a b (by rw [h.2])
        exact ⟨c :: a', b', by rw [h1]; rfl, by simpa using h2⟩

/-- What is found before a byte that is not part of it is found in front of that byte. -/
theorem before_iff {p u z : Bytes} {d : Byte} (hp : p ≠ []) (hd : d ∉ p) :
    before (find p (u ++ d :: z)) u.length = true ↔ p <:+: u := by
  constructor
  · intro h
    cases hf : find p (u ++ d :: z) with
    | none => rw [hf] at h; cases h
    | some r =>
      obtain ⟨a, b⟩ := r
      rw [hf] at h
      have hl : a.length < u.length := by simpa [before] using h
      have hs := find_some hf
      rcases List.append_eq_append_iff.1 hs with ⟨x, h1, h2⟩ | ⟨x, h1, h2⟩
      · rcases List.append_eq_append_iff.1 h1 with ⟨y, h3, h4⟩ | ⟨y, h3, h4⟩
        · cases x with
          | nil => exact ⟨a, [], by rw [h3, h4]; simp⟩
          | cons e x =>
            rw [List.cons_append] at h2
            rw [← (List.cons.inj h2).1] at h4
            exact absurd (by rw [h4]; simp) hd
        · have := congrArg List.length h3
          simp only [List.length_append] at this
          omega
      · exact ⟨a, x, h1.symm⟩
  · rintro ⟨a, b, rfl⟩
    obtain ⟨a', b', h1, h2⟩ := find_le hp a (b ++ d :: z) (s := a ++ p ++ b ++ d :: z) (by simp)
    rw [h1]
    have := List.length_pos_iff.2 hp
    simp only [before, Option.any_some, List.length_append, decide_eq_true_eq]
    omega

theorem either_iff {p q u z : Bytes} {d : Byte} (hp : p ≠ []) (hd : d ∉ p) (hq : q ≠ []) (hd' : d ∉ q) :
    before (either p q (u ++ d :: z)) u.length = true ↔ p <:+: u ∨ ¬ p <:+: u ++ d :: z ∧ q <:+: u := by
  unfold either
  by_cases h : p <:+: u ++ d :: z
  · have e : (find p (u ++ d :: z)).or (find q (u ++ d :: z)) = find p (u ++ d :: z) := by
      cases hf : find p (u ++ d :: z) with
      | none => exact absurd h ((find_none hp).1 hf)
      | some r => rfl
    rw [e, before_iff hp hd]
    simp [h]
  · rw [(find_none hp).2 h, Option.none_or, before_iff hq hd']
    have : ¬ p <:+: u := fun h' => h (h'.trans (List.prefix_append _ _).isInfix)
    simp [h, this]

theorem infix_cons {p w : Bytes} {d : Byte} (hp : p ≠ []) (hd : d ∉ p) : p <:+: d :: w ↔ p <:+: w := by
  constructor
  · rintro ⟨a, b, h⟩
    cases a with
    | nil =>
      cases p with
      | nil => exact absurd rfl hp
      | cons e p =>
        simp only [List.nil_append, List.cons_append, List.cons.injEq] at h
        exact absurd (by simp [h.1]) hd
    | cons e a =>
      simp only [List.cons_append, List.cons.injEq] at h
      exact ⟨a, b, h.2⟩
  · exact fun h => h.trans (List.suffix_cons _ _).isInfix

/-! ### Tags -/

theorem html_cons (x : Bytes × Bytes) (l : Tags) : html (x :: l) = c!"<" :: (x.1 ++ c!">" :: (x.2 ++ html l)) := by
  simp [html]

theorem html_one (x : Bytes × Bytes) : html [x] = c!"<" :: (x.1 ++ c!">" :: x.2) := by
  simp [html]

theorem html_split (x : Bytes × Bytes) (l : Tags) : html (x :: l) = html [x] ++ html l := by
  simp [html]

theorem tagEnd_tag {w : Bytes} (z : Bytes) (h : c!">" ∉ w) :
    (c!"<" :: (w ++ c!">" :: z)).takeWhile (· != c!">") = c!"<" :: w ∧ tagEnd (c!"<" :: (w ++ c!">" :: z)) = w.length + 1 := by
  have h1 : (w ++ c!">" :: z).takeWhile (· != c!">") = w := by
    induction w with
    | nil => rfl
    | cons c w ih =>
      have hc : (c != c!">") = true := by
        simp only [bne_iff_ne, ne_eq]
        rintro rfl
        exact h (by simp)
      rw [List.cons_append, List.takeWhile_cons, if_pos hc, ih fun h' => h (by simp [h'])]
  have h2 : (c!"<" :: (w ++ c!">" :: z)).takeWhile (· != c!">") = c!"<" :: w := by
    rw [List.takeWhile_cons, if_pos (by decide), h1]
  exact ⟨h2, by unfold tagEnd; rw [h2, List.length_cons]⟩

/-- An attribute in a tag. -/
theorem in_tag {p w : Bytes} (z : Bytes) (hw : c!">" ∉ w) (hp : p ≠ []) (h1 : c!"<" ∉ p) (h2 : c!">" ∉ p) :
    before (find p (c!"<" :: (w ++ c!">" :: z))) (tagEnd (c!"<" :: (w ++ c!">" :: z))) = true ↔ p <:+: w := by
  rw [(tagEnd_tag z hw).2]
  have := before_iff (p := p) (u := c!"<" :: w) (z := z) hp h2
  rw [List.cons_append, List.length_cons] at this
  rw [this, infix_cons hp h1]

theorem either_tag {p q w : Bytes} (z : Bytes) (hw : c!">" ∉ w) (hp : p ≠ []) (h1 : c!"<" ∉ p) (h2 : c!">" ∉ p)
    (hq : q ≠ []) (h3 : c!"<" ∉ q) (h4 : c!">" ∉ q) :
    before (either p q (c!"<" :: (w ++ c!">" :: z))) (tagEnd (c!"<" :: (w ++ c!">" :: z))) = true ↔
      p <:+: w ∨ ¬ p <:+: c!"<" :: (w ++ c!">" :: z) ∧ q <:+: w := by
  rw [(tagEnd_tag z hw).2]
  have := either_iff (p := p) (q := q) (u := c!"<" :: w) (z := z) hp h2 hq h4
  rw [List.cons_append, List.length_cons] at this
  rw [this, infix_cons hp h1, infix_cons hq h3]

/-- The name of a tag. -/
theorem name_tag {n w : Bytes} (z : Bytes) (hn : c!">" ∉ n) : c!"<" :: n <+: c!"<" :: (w ++ c!">" :: z) ↔ n <+: w := by
  rw [List.cons_prefix_cons]
  simp only [true_and]
  constructor
  · rintro ⟨t, ht⟩
    rcases List.append_eq_append_iff.1 ht with ⟨x, h1, h2⟩ | ⟨x, h1, h2⟩
    · exact ⟨x, h1.symm⟩
    · cases x with
      | nil => exact ⟨[], by rw [h1]; simp⟩
      | cons e x =>
        rw [List.cons_append] at h2
        rw [← (List.cons.inj h2).1] at h1
        exact absurd (by rw [h1]; simp) hn
  · exact fun h => h.trans (List.prefix_append _ _)

/-! ### Figures -/

theorem prefix_lt {c z : Bytes} (hc : c ≠ []) : b!"<figure" <+: c ++ c!"<" :: z ↔ b!"<figure" <+: c := by
  constructor
  · rintro ⟨t, ht⟩
    rcases List.append_eq_append_iff.1 ht with ⟨x, h1, h2⟩ | ⟨x, h1, h2⟩
    · exact ⟨x, h1.symm⟩
    · cases x with
      | nil => exact ⟨[], by rw [h1]; simp⟩
      | cons e x =>
        rw [List.cons_append] at h2
        rw [← (List.cons.inj h2).1] at h1
        cases c with
        | nil => exact absurd rfl hc
        | cons d c =>
          rw [List.cons_append] at h1
          have := (List.cons.inj h1).2
          have h3 : c!"<" ∈ b!"figure" := by rw [this]; simp
          exact absurd h3 (by decide)
  · exact fun h => h.trans (List.prefix_append _ _)

theorem figureAt_iff {a c z : Bytes} (hc : c ≠ []) :
    figureAt (a ++ c ++ c!"<" :: z) (a ++ c).length a.length = true ↔ Figure c (c!"<" :: z) := by
  unfold figureAt Figure
  rw [List.append_assoc, List.drop_left, List.length_append, Nat.add_sub_cancel_left, Bool.and_eq_true, decide_eq_true_eq, prefix_lt hc,
    either_iff (by simp) (by decide) (by simp) (by decide)]

theorem back_some {page : Bytes} {n i : Nat} : ∀ {j f : Nat}, back page n i j = some f ↔
    f < j ∧ i < f + n ∧ figureAt page i f = true ∧ ∀ g, f < g → g < j → figureAt page i g = false
  | 0, f => by simp [back]
  | j + 1, f => by
    rw [back]
    by_cases h1 : j + n ≤ i
    · rw [if_pos h1]
      constructor
      · intro h; cases h
      · rintro ⟨h2, h3, -⟩
        omega
    · rw [if_neg h1]
      by_cases h2 : figureAt page i j = true
      · rw [if_pos h2]
        constructor
        · intro h
          cases h
          exact ⟨by omega, by omega, h2, fun g h3 h4 => by omega⟩
        · rintro ⟨h3, h4, h5, h6⟩
          by_cases h7 : f < j
          · have := h6 j h7 (by omega)
            rw [this] at h2
            cases h2
          · rw [show f = j by omega]
      · rw [if_neg h2, back_some]
        constructor
        · rintro ⟨h3, h4, h5, h6⟩
          refine ⟨by omega, h4, h5, fun g h7 h8 => ?_⟩
          by_cases h9 : g = j
          · rw [h9]; simpa using h2
          · exact h6 g h7 (by omega)
        · rintro ⟨h3, h4, h5, h6⟩
          have : f ≠ j := by
            rintro rfl
            exact h2 h5
          exact ⟨by omega, h4, h5, fun g h7 h8 => h6 g h7 (by omega)⟩

theorem back_iff {pre z : Bytes} {n f : Nat} :
    back (pre ++ c!"<" :: z) n pre.length pre.length = some f ↔ ∃ a, a.length = f ∧ FigureOf n pre (c!"<" :: z) a := by
  have key : ∀ a c, pre = a ++ c → c ≠ [] →
      (figureAt (pre ++ c!"<" :: z) pre.length a.length = true ↔ Figure c (c!"<" :: z)) := by
    rintro a c rfl hc
    exact figureAt_iff hc
  rw [back_some]
  constructor
  · rintro ⟨h1, h2, h3, h4⟩
    have hl : (pre.take f).length = f := by rw [List.length_take]; omega
    have hne : pre.drop f ≠ [] := by
      intro h
      have := congrArg List.length h
      rw [List.length_drop, List.length_nil] at this
      omega
    refine ⟨pre.take f, hl, pre.drop f, (List.take_append_drop _ _).symm, hne, by rw [List.length_drop]; omega, ?_, ?_⟩
    · refine (key (pre.take f) _ (List.take_append_drop _ _).symm hne).1 ?_
      rw [hl]
      exact h3
    · intro a' c' he hc' hlen hf
      have h5 := (key a' c' he hc').2 hf
      have h6 := congrArg List.length he
      rw [List.length_append] at h6
      rw [List.length_drop] at hlen
      have := List.length_pos_iff.2 hc'
      rw [h4 a'.length (by omega) (by omega)] at h5
      cases h5
  · rintro ⟨a, rfl, c, he, hc, hn, hf, hl⟩
    have h6 := congrArg List.length he
    rw [List.length_append] at h6
    have := List.length_pos_iff.2 hc
    refine ⟨by omega, by omega, (key a c he hc).2 hf, fun g h1 h2 => ?_⟩
    cases hg : figureAt (pre ++ c!"<" :: z) pre.length g with
    | false => rfl
    | true =>
      have hl' : (pre.take g).length = g := by rw [List.length_take]; omega
      have hne : pre.drop g ≠ [] := by
        intro h
        have := congrArg List.length h
        rw [List.length_drop, List.length_nil] at this
        omega
      refine absurd ((key (pre.take g) _ (List.take_append_drop _ _).symm hne).1 (by rw [hl']; exact hg)) (hl _ _ (List.take_append_drop _ _).symm hne ?_)
      rw [List.length_drop]
      omega

theorem back_none {pre z : Bytes} {n : Nat} (h : back (pre ++ c!"<" :: z) n pre.length pre.length = none) (a : Bytes) :
    ¬ FigureOf n pre (c!"<" :: z) a := by
  intro hf
  rw [back_iff.2 ⟨a, rfl, hf⟩] at h
  cases h

/-! ### Captions -/

theorem number_eq (k : Nat) : Man.decimal k = number k := InlineNotes.decimal_number k

theorem captions_append (page : Bytes) : ∀ (s : Bytes) (i k : Nat) (acc : List Caption),
    ∃ new, captions page i s k acc = new ++ acc ∧ ∀ c ∈ new, i ≤ c.pos
  | [], i, k, acc => ⟨[], by simp [captions], by simp⟩
  | c :: s, i, k, acc => by
    have same : ∀ k', ∃ new, captions page (i + 1) s k' acc = new ++ acc ∧ ∀ c ∈ new, i ≤ c.pos := fun k' => by
      obtain ⟨new, h1, h2⟩ := captions_append page s (i + 1) k' acc
      exact ⟨new, h1, fun c hc => Nat.le_of_succ_le (h2 c hc)⟩
    rw [captions]
    split
    · split
      · exact same k
      · split
        · rename_i f _ _ id k' _
          obtain ⟨new, h1, h2⟩ := captions_append page s (i + 1) k' ({ pos := i, id := id, figure := f } :: acc)
          refine ⟨new ++ [{ pos := i, id := id, figure := f }], by rw [h1]; simp, fun c hc => ?_⟩
          rcases List.mem_append.1 hc with hc | hc
          · exact Nat.le_of_succ_le (h2 c hc)
          · rw [List.mem_singleton.1 hc]
            exact Nat.le_refl _
        · exact same _
    · exact same k

theorem captions_text (page : Bytes) {t : Bytes} (z : Bytes) (i k : Nat) (acc : List Caption) (ht : c!"<" ∉ t) :
    captions page i (t ++ z) k acc = captions page (i + t.length) z k acc := by
  induction t generalizing i with
  | nil => rfl
  | cons c t ih =>
    rw [List.cons_append, captions, if_neg, ih (i + 1) fun h => ht (by simp [h]), List.length_cons]
    · congr 1
      omega
    · rintro ⟨h, -⟩
      rw [List.cons_prefix_cons] at h
      exact ht (by simp [h.1])

/-- The ID of a tag. -/
def ownId (k : Nat) (w : Bytes) : Option Bytes × Nat :=
  match find b!"id=\"" w with
  | some (_, y) => (if y.takeWhile (· != c!"\"") = [] then none else some (y.takeWhile (· != c!"\"")), k)
  | none => (some (generated (k + 1)), k + 1)

theorem find_append {p u z a b : Bytes} (h : find p u = some (a, b)) : find p (u ++ z) = some (a, b ++ z) := by
  induction u generalizing a b with
  | nil => cases h
  | cons c u ih =>
    rw [find] at h
    rw [List.cons_append, find]
    by_cases hp : p <+: c :: u
    · rw [if_pos hp] at h
      cases h
      have hp' : p <+: c :: (u ++ z) := hp.trans (by rw [← List.cons_append]; exact List.prefix_append _ _)
      rw [if_pos hp']
      obtain ⟨t, ht⟩ := hp
      rw [← List.cons_append, ← ht]
      simp
    · rw [if_neg hp] at h
      obtain ⟨r, h1, h2⟩ := Option.map_eq_some_iff.1 h
      obtain ⟨a', b'⟩ := r
      cases h2
      have hlen : p.length ≤ (c :: u).length := by
        have := congrArg List.length (find_some h1)
        simp only [List.length_append, List.length_cons] at this ⊢
        omega
      have hp' : ¬ p <+: c :: (u ++ z) := by
        intro h'
        rw [← List.cons_append] at h'
        exact hp (List.prefix_of_prefix_length_le h' (List.prefix_append _ _) hlen)
      rw [if_neg hp', ih h1]
      rfl

theorem takeWhile_stop' {d : Byte} {y : Bytes} (z : Bytes) (h : d ∈ y) : (y ++ z).takeWhile (· != d) = y.takeWhile (· != d) := by
  induction y with
  | nil => cases h
  | cons c y ih =>
    rw [List.cons_append, List.takeWhile_cons, List.takeWhile_cons]
    by_cases hc : (c != d) = true
    · rw [if_pos hc, if_pos hc, ih]
      rcases List.mem_cons.1 h with rfl | h
      · simp at hc
      · exact h
    · rw [if_neg hc, if_neg hc]

theorem captionId_tag {w : Bytes} (z : Bytes) (k : Nat) (hw : c!">" ∉ w) (hs : ¬ b!"id='" <:+: w)
    (hq : ∀ a v, w = a ++ b!"id=\"" ++ v → c!"\"" ∈ v) : captionId k (c!"<" :: (w ++ c!">" :: z)) = ownId k w := by
  have hb := either_tag (p := b!"id=\"") (q := b!"id='") z hw (by simp) (by decide) (by decide) (by simp) (by decide) (by decide)
  unfold captionId ownId
  cases hf : find b!"id=\"" w with
  | some r =>
    obtain ⟨x, y⟩ := r
    have h1 : find b!"id=\"" (c!"<" :: (w ++ c!">" :: z)) = some (c!"<" :: x, y ++ c!">" :: z) := by
      rw [find, if_neg, find_append hf]
      · rfl
      · rw [List.cons_prefix_cons]
        rintro ⟨h, -⟩
        exact absurd h (by decide)
    have hy := hq x y (find_some hf)
    have hl := congrArg List.length (find_some hf)
    simp only [List.length_append, List.length_cons, List.length_nil] at hl
    unfold either
    rw [h1, Option.some_or]
    simp only []
    rw [(tagEnd_tag z hw).2, if_pos (by rw [List.length_cons]; omega)]
    unfold idValue
    rw [if_pos (by simp [hy]), takeWhile_stop' _ hy]
  | none =>
    have h1 : ¬ b!"id=\"" <:+: w := (find_none (by simp)).1 hf
    cases he : either b!"id=\"" b!"id='" (c!"<" :: (w ++ c!">" :: z)) with
    | none => rfl
    | some r =>
      obtain ⟨x, y⟩ := r
      simp only []
      rw [if_neg]
      intro hlt
      rw [he] at hb
      rcases hb.1 (by simpa [before] using hlt) with h | h
      · exact h1 h
      · exact hs h.2

/-- What a tag adds to the captions. -/
def capStep (page pre : Bytes) (x : Bytes × Bytes) (k : Nat) (acc : List Caption) : Nat × List Caption :=
  if b!"figcaption" <+: x.1 then
    match back page 200 pre.length pre.length with
    | none => (k, acc)
    | some f =>
      match ownId k x.1 with
      | (some id, k) => (k, { pos := pre.length, id := id, figure := f } :: acc)
      | (none, k) => (k, acc)
  else (k, acc)

theorem captions_tag {pre : Bytes} {x : Bytes × Bytes} {l : Tags} (page : Bytes) (hg : Good (x :: l)) (k : Nat) (acc : List Caption) :
    captions page pre.length (html (x :: l)) k acc =
      captions page (pre ++ html [x]).length (html l) (capStep page pre x k acc).1 (capStep page pre x k acc).2 := by
  obtain ⟨h1, h2, h3, h4⟩ := hg x (by simp)
  have hrest : ∀ k acc, captions page (pre.length + 1) (x.1 ++ c!">" :: (x.2 ++ html l)) k acc =
      captions page (pre ++ html [x]).length (html l) k acc := by
    intro k acc
    have e : x.1 ++ c!">" :: (x.2 ++ html l) = (x.1 ++ c!">" :: x.2) ++ html l := by simp
    rw [e, captions_text page _ _ _ _ (by simp [h1, h3]), html_one]
    congr 1
    simp only [List.length_append, List.length_cons]
    omega
  rw [html_cons, captions, capStep]
  by_cases hf : b!"figcaption" <+: x.1
  · rw [if_pos ⟨(name_tag (n := b!"figcaption") _ (by decide)).2 hf, by simp⟩, if_pos hf, captionId_tag _ _ h2 (h4 hf).1 (h4 hf).2]
    cases back page 200 pre.length pre.length with
    | none => exact hrest _ _
    | some f =>
      simp only []
      cases ownId k x.1 with
      | mk o k' =>
        cases o with
        | none => exact hrest _ _
        | some id => exact hrest _ _
  · rw [if_neg (fun h => hf ((name_tag (n := b!"figcaption") _ (by decide)).1 h.1)), if_neg hf]
    exact hrest _ _

/-- The first ID is the one that is found. -/
theorem ownId_cases (k : Nat) {w : Bytes} (hq : ∀ a v, w = a ++ b!"id=\"" ++ v → c!"\"" ∈ v) :
    (∃ v, GivenId w v ∧ ownId k w = (if v = [] then none else some v, k)) ∨
    (¬ b!"id=\"" <:+: w ∧ ownId k w = (some (generated (k + 1)), k + 1)) := by
  unfold ownId
  cases hf : find b!"id=\"" w with
  | none => exact .inr ⟨(find_none (by simp)).1 hf, rfl⟩
  | some r =>
    obtain ⟨x, y⟩ := r
    have hs := find_some hf
    have hy := hq x y hs
    refine .inl ⟨y.takeWhile (· != c!"\""), ⟨x, (y.dropWhile (· != c!"\"")).tail, ?_, ?_, ?_⟩, rfl⟩
    · have h1 := List.takeWhile_append_dropWhile (p := (· != c!"\"")) (l := y)
      have h2 : y.dropWhile (· != c!"\"") = c!"\"" :: (y.dropWhile (· != c!"\"")).tail := by
        cases hd : y.dropWhile (· != c!"\"") with
        | nil =>
          rw [hd, List.append_nil] at h1
          have := List.all_takeWhile (p := (· != c!"\"")) (l := y)
          rw [h1, List.all_eq_true] at this
          exact absurd (this _ hy) (by decide)
        | cons c t =>
          have := List.head_dropWhile_not (p := (· != c!"\"")) (l := y) (by rw [hd]; simp)
          simp only [hd, List.head_cons] at this
          have : c = c!"\"" := by simpa using this
          rw [this]
          rfl
      rw [hs]
      simp only [List.append_assoc, List.cons_append, List.nil_append, List.cons.injEq, List.append_cancel_left_eq, true_and]
      rw [← h2, h1]
    · rintro ⟨a, b, hab⟩
      have hb : b ≠ [] ∨ True := .inr trivial
      obtain ⟨a', b', h1, h2⟩ := find_le (w := b!"id=\"") (s := w) (by simp) a (b ++ c!"\"" :: y) (by
        rw [hs, show x ++ b!"id=\"" ++ y = (x ++ b!"id=") ++ c!"\"" :: y by simp, ← hab]
        simp)
      rw [hf] at h1
      cases h1
      have := congrArg List.length hab
      simp only [List.length_append, List.length_cons, List.length_nil] at this
      omega
    · intro hm
      have := List.all_takeWhile (p := (· != c!"\"")) (l := y)
      rw [List.all_eq_true] at this
      exact absurd (this _ hm) (by decide)

theorem given_infix {w v : Bytes} (h : GivenId w v) : b!"id=\"" <:+: w := by
  obtain ⟨b, c, h, -⟩ := h
  exact ⟨b, v ++ b!"\"" ++ c, by rw [h]; simp⟩

/-- What a caption stands for. -/
def key (page : Bytes) (c : Caption) : Bytes × Bytes := (page.take c.figure, c.id)

theorem captions_run (page : Bytes) : ∀ (l : Tags) (pre : Bytes) (k : Nat) (acc : List Caption), page = pre ++ html l → Good l →
    ∃ ids, Captions pre k l ids ∧ (captions page pre.length (html l) k acc).map (key page) = ids.reverse ++ acc.map (key page)
  | [], pre, k, acc, _, _ => ⟨[], .nil, by simp [html, captions]⟩
  | x :: l, pre, k, acc, hp, hg => by
    obtain ⟨h1, h2, h3, h4⟩ := hg x (by simp)
    have hg' : Good l := fun y hy => hg y (by simp [hy])
    have hp' : page = (pre ++ html [x]) ++ html l := by rw [hp, html_split, List.append_assoc]
    rw [captions_tag page hg]
    have ih := fun k acc => captions_run page l (pre ++ html [x]) k acc hp' hg'
    by_cases hf : b!"figcaption" <+: x.1
    · cases hb : back page 200 pre.length pre.length with
      | none =>
        have e : capStep page pre x k acc = (k, acc) := by unfold capStep; rw [if_pos hf, hb]
        rw [e]
        obtain ⟨ids, hc, he⟩ := ih k acc
        refine ⟨ids, .other (fun _ => .inr ?_) hc, he⟩
        rw [hp, html_cons] at hb
        rw [html_cons]
        exact back_none hb
      | some f =>
        have hb' := hb
        rw [hp, html_cons, back_iff] at hb'
        obtain ⟨a, ha, hfo⟩ := hb'
        rw [← html_cons] at hfo
        have hk : page.take f = a := by
          obtain ⟨c, hc, -⟩ := hfo
          rw [hp, hc, ← ha, List.append_assoc, List.take_left]
        rcases ownId_cases k (h4 hf).2 with ⟨v, hv, ho⟩ | ⟨hv, ho⟩
        · by_cases hv0 : v = []
          · have e : capStep page pre x k acc = (k, acc) := by
              unfold capStep; rw [if_pos hf, hb]; simp only []; rw [ho, if_pos hv0]
            rw [e]
            obtain ⟨ids, hc, he⟩ := ih k acc
            exact ⟨ids, .other (fun _ => .inl (hv0 ▸ hv)) hc, he⟩
          · have e : capStep page pre x k acc = (k, { pos := pre.length, id := v, figure := f } :: acc) := by
              unfold capStep; rw [if_pos hf, hb]; simp only []; rw [ho, if_neg hv0]
            rw [e]
            obtain ⟨ids, hc, he⟩ := ih k ({ pos := pre.length, id := v, figure := f } :: acc)
            refine ⟨(a, v) :: ids, .given hf hfo hv hv0 hc, ?_⟩
            rw [he]
            simp [key, hk]
        · have e : capStep page pre x k acc = (k + 1, { pos := pre.length, id := generated (k + 1), figure := f } :: acc) := by
            unfold capStep; rw [if_pos hf, hb]; simp only []; rw [ho]
          rw [e]
          obtain ⟨ids, hc, he⟩ := ih (k + 1) ({ pos := pre.length, id := generated (k + 1), figure := f } :: acc)
          refine ⟨_, .new hf hfo hv hc, ?_⟩
          rw [he]
          simp [key, hk, generated, number_eq]
    · have e : capStep page pre x k acc = (k, acc) := by unfold capStep; rw [if_neg hf]
      rw [e]
      obtain ⟨ids, hc, he⟩ := ih k acc
      exact ⟨ids, .other (fun h => absurd h hf) hc, he⟩

theorem captions_figure (page : Bytes) (m : Nat) : ∀ (s : Bytes) (i k : Nat) (acc : List Caption), i + s.length ≤ m →
    (∀ c ∈ acc, c.figure ≤ m) → ∀ c ∈ captions page i s k acc, c.figure ≤ m
  | [], i, k, acc, _, h => by rw [captions]; exact h
  | c :: s, i, k, acc, hi, h => by
    simp only [List.length_cons] at hi
    have ih := fun k acc => captions_figure page m s (i + 1) k acc (by omega)
    rw [captions]
    split
    · split
      · exact ih _ _ h
      · split
        · rename_i f hf _ id k' _
          refine ih _ _ fun c hc => ?_
          rcases List.mem_cons.1 hc with rfl | hc
          · have := (back_some.1 hf).1
            simp only []
            omega
          · exact h c hc
        · exact ih _ _ h
    · exact ih _ _ h

/-! ### The second pass -/

theorem described_some {page pre z : Bytes} {caps : List Caption} {ids : List (Bytes × Bytes)} (hp : page = pre ++ c!"<" :: z)
    (hk : caps.map (key page) = ids.reverse) (hf : ∀ c ∈ caps, c.figure ≤ page.length) :
    (∀ id, described page caps pre.length = some id → Described ids pre (c!"<" :: z) id) ∧
    (described page caps pre.length = none → ∀ id, ¬ Described ids pre (c!"<" :: z) id) := by
  have hids : ids = (caps.map (key page)).reverse := by rw [hk, List.reverse_reverse]
  have hpre : ∀ a, FigureOf 500 pre (c!"<" :: z) a → page.take a.length = a := by
    rintro a ⟨c, hc, -⟩
    rw [hp, hc, List.append_assoc, List.take_left]
  unfold described
  constructor
  · intro id h
    rw [Option.bind_eq_some_iff] at h
    obtain ⟨f, hb, h⟩ := h
    rw [Option.map_eq_some_iff] at h
    obtain ⟨c, hc, rfl⟩ := h
    rw [hp, back_iff] at hb
    obtain ⟨a, ha, hfo⟩ := hb
    rw [List.find?_eq_some_iff_append] at hc
    obtain ⟨h1, x, y, h2, h3⟩ := hc
    have h1 : c.figure = f := by simpa using h1
    refine ⟨a, (y.map (key page)).reverse, (x.map (key page)).reverse, hfo, ?_, ?_⟩
    · rw [hids, h2]
      simp only [List.map_append, List.map_cons, List.reverse_append, List.reverse_cons, List.append_assoc, List.cons_append, List.nil_append,
        List.append_cancel_left_eq, List.cons.injEq, and_true]
      unfold key
      rw [h1, ← ha, hpre a hfo]
    · intro i hi
      rw [List.mem_reverse, List.mem_map] at hi
      obtain ⟨c', hc', he⟩ := hi
      have h4 := h3 c' hc'
      have h5 := hf c' (by rw [h2]; simp [hc'])
      have h6 : page.take c'.figure = a := (Prod.mk.inj he).1
      have h7 := congrArg List.length h6
      rw [List.length_take, Nat.min_eq_left h5, ha] at h7
      simp [h7] at h4
  · rintro h id ⟨a, x, y, hfo, he, -⟩
    have hb : back page 500 pre.length pre.length = some a.length := by
      rw [hp, back_iff]
      exact ⟨a, rfl, hfo⟩
    rw [hb, Option.bind_some, Option.map_eq_none_iff, List.find?_eq_none] at h
    have hm : (a, id) ∈ caps.map (key page) := by
      rw [hk, he]
      simp
    obtain ⟨c, hc, hce⟩ := List.mem_map.1 hm
    have h6 : page.take c.figure = a := (Prod.mk.inj hce).1
    have h7 := congrArg List.length h6
    rw [List.length_take, Nat.min_eq_left (hf c hc)] at h7
    exact h c hc (by simp [h7])

theorem find_pos {new acc : List Caption} {i : Nat} (h1 : ∀ c ∈ new, i < c.pos) (h2 : ∀ c ∈ acc, c.pos < i) :
    (new ++ acc).find? (fun c => c.pos == i) = none := by
  rw [List.find?_eq_none]
  intro c hc
  rcases List.mem_append.1 hc with hc | hc
  · have := h1 c hc
    simp only [beq_iff_eq]
    omega
  · have := h2 c hc
    simp only [beq_iff_eq]
    omega

theorem find_pos_here {new acc : List Caption} {c : Caption} (h1 : ∀ x ∈ new, c.pos < x.pos) :
    (new ++ c :: acc).find? (fun x => x.pos == c.pos) = some c := by
  rw [List.find?_append]
  have : new.find? (fun x => x.pos == c.pos) = none := by
    rw [List.find?_eq_none]
    intro x hx
    have := h1 x hx
    simp only [beq_iff_eq]
    omega
  rw [this]
  simp

theorem number_len (k : Nat) (h : k < 10 ^ 20) : (number k).length ≤ 20 := by
  unfold number
  rw [List.length_map]
  exact (Nat.length_toDigits_le_iff (by decide) (by decide)).2 h

theorem tail_tag {a : Byte} {n w : Bytes} : a :: n <+: w → ∃ t, w = a :: t ∧ n <+: t := by
  rintro ⟨t, rfl⟩
  exact ⟨n ++ t, rfl, List.prefix_append _ _⟩

/-- The attributes of a tag, and how the captions go on. -/
theorem attrs_tag {page pre : Bytes} {x : Bytes × Bytes} {l : Tags} {k : Nat} {caps acc : List Caption} {ids : List (Bytes × Bytes)}
    (hp : page = pre ++ html (x :: l)) (hg : Good (x :: l)) (hk : caps.map (key page) = ids.reverse) (hf : ∀ c ∈ caps, c.figure ≤ page.length)
    (hc : captions page pre.length (html (x :: l)) k acc = caps) (ha : ∀ c ∈ acc, c.pos < pre.length) (hk20 : k + 1 < 10 ^ 20) :
    ∃ as, Attributes ids pre x.1 (x.2 ++ html l) k (capStep page pre x k acc).1 as ∧
      ((attrs page caps pre.length (html (x :: l))).getD []).flatten = as ∧ 
      (attrs page caps pre.length (html (x :: l)) = some [] → False) := by
  obtain ⟨h1, h2, h3, h4⟩ := hg x (by simp)
  have hp' := hp
  rw [html_cons] at hp'
  have hcaps := hc
  rw [captions_tag page hg] at hcaps
  obtain ⟨new, hnew, hpos⟩ := captions_append page (html l) (pre ++ html [x]).length (capStep page pre x k acc).1 (capStep page pre x k acc).2
  rw [hcaps] at hnew
  have hpos' : ∀ c ∈ new, pre.length < c.pos := by
    intro c hc
    have := hpos c hc
    rw [html_one] at this
    simp only [List.length_append, List.length_cons] at this
    omega
  have efig : html (x :: l) = b!"<" ++ x.1 ++ b!">" ++ (x.2 ++ html l) := by rw [html_cons]; simp
  have step : ¬ b!"figcaption" <+: x.1 → (capStep page pre x k acc).1 = k := by
    intro h; unfold capStep; rw [if_neg h]
  have hnone : ∀ {n : Bytes}, b!"figcaption" <+: x.1 → n.head? ≠ none → n.take 4 ≠ b!"figc" → n.length ≥ 4 → ¬ n <+: x.1 := by
    intro n hfc _ hn hl hpn
    obtain ⟨t, ht⟩ := hfc
    obtain ⟨u, hu⟩ := hpn
    have e1 : x.1.take 4 = b!"figc" := by rw [← ht]; rfl
    have e2 : x.1.take 4 = n.take 4 := by rw [← hu, List.take_append_of_le_length hl]
    exact hn (e2.symm.trans e1)
  unfold attrs
  simp only []
  rw [html_cons, if_neg (by simp)]
  by_cases hnav : b!"nav" <+: x.1
  · have hnf : ¬ b!"figcaption" <+: x.1 := by
      obtain ⟨t, ht, -⟩ := tail_tag hnav
      intro h
      obtain ⟨u, hu, -⟩ := tail_tag h
      rw [ht] at hu
      exact absurd (List.cons.inj hu).1 (by decide)
    rw [if_pos ((name_tag (n := b!"nav") _ (by decide)).2 hnav), step hnf]
    have b1 := either_tag (p := b!"class=\"toc\"") (q := b!"class='toc'") (x.2 ++ html l) h2 (by simp) (by decide) (by decide) (by simp) (by decide) (by decide)
    have b2 := in_tag (p := b!"aria-label=") (x.2 ++ html l) h2 (by simp) (by decide) (by decide)
    have b1' : before (either b!"class=\"toc\"" b!"class='toc'" (c!"<" :: (x.1 ++ c!">" :: (x.2 ++ html l)))) (tagEnd (c!"<" :: (x.1 ++ c!">" :: (x.2 ++ html l)))) = true ↔
        Toc x.1 (x.2 ++ html l) := by
      rw [b1]
      unfold Toc
      simp
    by_cases hcond : Toc x.1 (x.2 ++ html l) ∧ ¬ b!"aria-label=" <:+: x.1
    · rw [if_pos (by rw [Bool.and_eq_true, Bool.not_eq_true', b1']; exact ⟨hcond.1, by rw [← Bool.not_eq_true, b2]; exact hcond.2⟩)]
      exact ⟨_, .toc hnav hcond.1 hcond.2, by simp, by simp⟩
    · rw [if_neg (by
        rw [Bool.and_eq_true, Bool.not_eq_true', b1', ← Bool.not_eq_true, b2]; exact hcond)]
      refine ⟨_, .other (fun _ => ?_) (fun h => ?_) (fun h => ?_) (fun h => absurd h hnf), rfl, by simp⟩
      · by_cases ht : Toc x.1 (x.2 ++ html l)
        · by_cases hal : b!"aria-label=" <:+: x.1
          · exact .inl hal
          · exact absurd ⟨ht, hal⟩ hcond
        · exact .inr ht
      · obtain ⟨t, ht, -⟩ := tail_tag hnav
        obtain ⟨u, hu, -⟩ := tail_tag h
        rw [ht] at hu
        exact absurd (List.cons.inj hu).1 (by decide)
      · obtain ⟨t, ht, -⟩ := tail_tag hnav
        obtain ⟨u, hu, -⟩ := tail_tag h
        rw [ht] at hu
        exact absurd (List.cons.inj hu).1 (by decide)
  rw [if_neg (mt (name_tag (n := b!"nav") _ (by decide)).1 hnav)]
  have b3 := in_tag (p := b!"role=") (x.2 ++ html l) h2 (by simp) (by decide) (by decide)
  by_cases hfig : b!"figure" <+: x.1
  · have hnf : ¬ b!"figcaption" <+: x.1 := fun h => hnone h (by simp) (by decide) (by decide) hfig
    have hnt : ¬ b!"table" <+: x.1 := by
      obtain ⟨t, ht, -⟩ := tail_tag hfig
      intro h
      obtain ⟨u, hu, -⟩ := tail_tag h
      rw [ht] at hu
      exact absurd (List.cons.inj hu).1 (by decide)
    rw [if_pos ((name_tag (n := b!"figure") _ (by decide)).2 hfig), step hnf]
    by_cases hr : b!"role=" <:+: x.1
    · rw [if_pos (b3.2 hr)]
      exact ⟨_, .other (fun h => absurd h hnav) (fun _ => hr) hnt (fun h => absurd h hnf), rfl, by simp⟩
    · rw [if_neg (mt b3.1 hr)]
      exact ⟨_, .figure hfig hr, by simp, by simp⟩
  rw [if_neg (mt (name_tag (n := b!"figure") _ (by decide)).1 hfig)]
  by_cases htab : b!"table" <+: x.1
  · have hnf : ¬ b!"figcaption" <+: x.1 := by
      obtain ⟨t, ht, -⟩ := tail_tag htab
      intro h
      obtain ⟨u, hu, -⟩ := tail_tag h
      rw [ht] at hu
      exact absurd (List.cons.inj hu).1 (by decide)
    rw [if_pos ((name_tag (n := b!"table") _ (by decide)).2 htab), step hnf]
    have b4 := in_tag (p := b!"aria-describedby=") (x.2 ++ html l) h2 (by simp) (by decide) (by decide)
    obtain ⟨d1, d2⟩ := described_some hp' hk hf
    have ed : c!"<" :: (x.1 ++ c!">" :: (x.2 ++ html l)) = b!"<" ++ x.1 ++ b!">" ++ (x.2 ++ html l) := by simp
    have role : ∃ r : List Bytes, (if before (find b!"role=" (c!"<" :: (x.1 ++ c!">" :: (x.2 ++ html l)))) (tagEnd (c!"<" :: (x.1 ++ c!">" :: (x.2 ++ html l)))) = true
        then ([] : List Bytes) else [b!" role=\"table\""]) = r ∧
        (b!"role=" <:+: x.1 ∧ r.flatten = [] ∨ ¬ b!"role=" <:+: x.1 ∧ r.flatten = b!" role=\"table\"") ∧ (r.flatten = [] → r = []) := by
      by_cases hr : b!"role=" <:+: x.1
      · exact ⟨[], by rw [if_pos (b3.2 hr)], .inl ⟨hr, rfl⟩, fun _ => rfl⟩
      · exact ⟨[b!" role=\"table\""], by rw [if_neg (mt b3.1 hr)], .inr ⟨hr, by simp⟩, fun h => by simp at h⟩
    obtain ⟨r, er, hr, hr0⟩ := role
    rw [er]
    have hNone : ∀ d : Bytes, ((b!"aria-describedby=" <:+: x.1 ∨ ∀ id, ¬ Described ids pre (b!"<" ++ x.1 ++ b!">" ++ (x.2 ++ html l)) id) ∧ d = []) →
        ∃ as, Attributes ids pre x.1 (x.2 ++ html l) k k as ∧
        ((if r = [] then none else some r : Option (List Bytes)).getD []).flatten = as ∧ ((if r = [] then none else some r : Option (List Bytes)) = some [] → False) := by
      rintro d hd
      refine ⟨r.flatten ++ d, .table htab hr (.inl hd), ?_, ?_⟩
      · rw [hd.2, List.append_nil]
        by_cases h0 : r = []
        · rw [if_pos h0, h0]; rfl
        · rw [if_neg h0]; rfl
      · by_cases h0 : r = []
        · rw [if_pos h0]; simp
        · rw [if_neg h0]; simp [h0]
    by_cases had : b!"aria-describedby=" <:+: x.1
    · rw [if_pos (b4.2 had)]
      exact hNone [] ⟨.inl had, rfl⟩
    · rw [if_neg (mt b4.1 had)]
      cases hde : described page caps pre.length with
      | none =>
        have := d2 hde
        rw [ed] at this
        exact hNone [] ⟨.inr this, rfl⟩
      | some id =>
        have := d1 id hde
        rw [ed] at this
        refine ⟨r.flatten ++ (b!" aria-describedby=\"" ++ id ++ b!"\"").take 255, .table htab hr (.inr ⟨had, id, this, rfl⟩), ?_, ?_⟩
        · simp
        · simp
  rw [if_neg (mt (name_tag (n := b!"table") _ (by decide)).1 htab)]
  by_cases hcap : b!"figcaption" <+: x.1
  · rw [if_pos ((name_tag (n := b!"figcaption") _ (by decide)).2 hcap)]
    have b5 := either_tag (p := b!"id=\"") (q := b!"id='") (x.2 ++ html l) h2 (by simp) (by decide) (by decide) (by simp) (by decide) (by decide)
    have b5' : before (either b!"id=\"" b!"id='" (c!"<" :: (x.1 ++ c!">" :: (x.2 ++ html l)))) (tagEnd (c!"<" :: (x.1 ++ c!">" :: (x.2 ++ html l)))) = true ↔
        b!"id=\"" <:+: x.1 := by
      rw [b5]
      constructor
      · rintro (h | h)
        · exact h
        · exact absurd h.2 (h4 hcap).1
      · exact .inl
    have plain : (capStep page pre x k acc).1 = k → (b!"id=\"" <:+: x.1 ∨ ∀ a, ¬ FigureOf 200 pre (b!"<" ++ x.1 ++ b!">" ++ (x.2 ++ html l)) a) →
        ∃ as, Attributes ids pre x.1 (x.2 ++ html l) k (capStep page pre x k acc).1 as ∧
        ((none : Option (List Bytes)).getD []).flatten = as ∧ ((none : Option (List Bytes)) = some [] → False) := by
      intro hk' hid
      rw [hk']
      exact ⟨_, .other (fun h => absurd h hnav) (fun h => absurd h hfig) htab (fun _ => hid), rfl, by simp⟩
    cases hb : back page 200 pre.length pre.length with
    | none =>
      have e : capStep page pre x k acc = (k, acc) := by unfold capStep; rw [if_pos hcap, hb]
      have hfo : ∀ a, ¬ FigureOf 200 pre (b!"<" ++ x.1 ++ b!">" ++ (x.2 ++ html l)) a := by
        rw [hp'] at hb
        rw [← efig, html_cons]
        exact back_none hb
      rw [hnew, e, find_pos hpos' ha]
      rw [e] at plain
      exact plain rfl (.inr hfo)
    | some f =>
      have hb' := hb
      rw [hp', back_iff] at hb'
      obtain ⟨a, ha', hfo⟩ := hb'
      rw [← html_cons, efig] at hfo
      rcases ownId_cases k (h4 hcap).2 with ⟨v, hv, ho⟩ | ⟨hv, ho⟩
      · have hi := given_infix hv
        have e1 : (capStep page pre x k acc).1 = k := by
          unfold capStep
          rw [if_pos hcap, hb]
          simp only []
          rw [ho]
          by_cases hv0 : v = []
          · rw [if_pos hv0]
          · rw [if_neg hv0]
        have := plain e1 (.inl hi)
        cases caps.find? (fun c => c.pos == pre.length) with
        | none => exact this
        | some c =>
          simp only []
          rw [if_pos (b5'.2 hi)]
          exact this
      · have e : capStep page pre x k acc = (k + 1, { pos := pre.length, id := generated (k + 1), figure := f } :: acc) := by
          unfold capStep; rw [if_pos hcap, hb]; simp only []; rw [ho]
        rw [hnew, e]
        have := find_pos_here (acc := acc) (c := { pos := pre.length, id := generated (k + 1), figure := f }) hpos'
        simp only [] at this
        rw [this]
        simp only []
        rw [if_neg (mt b5'.1 hv)]
        have hlen := number_len (k + 1) hk20
        refine ⟨_, .caption hcap hfo hv, ?_, by simp⟩
        unfold generated
        rw [number_eq, List.take_of_length_le]
        · simp
        · simp only [List.length_append, List.length_cons, List.length_nil]
          omega
  · rw [if_neg (mt (name_tag (n := b!"figcaption") _ (by decide)).1 hcap), step hcap]
    exact ⟨_, .other (fun h => absurd h hnav) (fun h => absurd h hfig) htab (fun h => absurd h hcap), rfl, by simp⟩

/-- What a write adds if there is room. -/
def Tok.out : Tok → Bytes
  | .byte c => [c]
  | .chunk s => s

theorem toks_text (page : Bytes) (caps : List Caption) {t : Bytes} (z : Bytes) (n i : Nat) (ht : c!"<" ∉ t) :
    toks page caps (n + t.length) i (t ++ z) = t.map .byte ++ toks page caps n (i + t.length) z := by
  induction t generalizing i with
  | nil => rfl
  | cons c t ih =>
    rw [List.length_cons, ← Nat.add_assoc, List.cons_append, toks, if_neg (by rintro rfl; exact ht (by simp))]
    simp only []
    rw [ih (i + 1) fun h => ht (by simp [h]), List.map_cons, List.cons_append, Nat.add_right_comm, Nat.add_assoc i]

theorem out_bytes (t : Bytes) : (t.map Tok.byte).flatMap Tok.out = t := by
  induction t with
  | nil => rfl
  | cons c t ih => rw [List.map_cons, List.flatMap_cons, ih]; rfl

theorem out_chunks (as : List Bytes) : (as.map Tok.chunk).flatMap Tok.out = as.flatten := by
  induction as with
  | nil => rfl
  | cons c t ih => rw [List.map_cons, List.flatMap_cons, ih]; rfl

theorem toks_tag (page : Bytes) (caps : List Caption) {pre : Bytes} {x : Bytes × Bytes} {l : Tags} (hg : Good (x :: l)) (n : Nat)
    (hn : (html (x :: l)).length < n) : ∃ m, (html l).length < m ∧
    (toks page caps n pre.length (html (x :: l))).flatMap Tok.out =
      b!"<" ++ x.1 ++ ((attrs page caps pre.length (html (x :: l))).getD []).flatten ++ b!">" ++ x.2 ++
        (toks page caps m (pre ++ html [x]).length (html l)).flatMap Tok.out := by
  obtain ⟨h1, h2, h3, h4⟩ := hg x (by simp)
  rw [html_cons] at hn
  simp only [List.length_cons, List.length_append] at hn
  have hlen : (pre ++ html [x]).length = pre.length + 1 + x.1.length + 1 + x.2.length := by
    rw [html_one]
    simp only [List.length_append, List.length_cons]
    omega
  cases ha : attrs page caps pre.length (html (x :: l)) with
  | some as =>
    obtain ⟨m, rfl⟩ : ∃ m, n = (m + x.2.length) + 1 := ⟨n - 1 - x.2.length, by omega⟩
    refine ⟨m, by omega, ?_⟩
    have hd : (c!"<" :: (x.1 ++ c!">" :: (x.2 ++ html l))).drop (x.1.length + 1 + 1) = x.2 ++ html l := by
      rw [show c!"<" :: (x.1 ++ c!">" :: (x.2 ++ html l)) = (c!"<" :: x.1 ++ [c!">"]) ++ (x.2 ++ html l) by simp]
      exact List.drop_left' (by simp)
    rw [html_cons] at ha ⊢
    rw [toks, if_pos rfl, ha]
    simp only []
    rw [(tagEnd_tag _ h2).1, (tagEnd_tag _ h2).2, hd, toks_text page caps _ _ _ h3]
    simp only [List.flatMap_append, List.flatMap_cons, out_bytes, out_chunks, Tok.out, Option.getD_some]
    rw [hlen, show pre.length + (x.1.length + 1) + 1 + x.2.length = pre.length + 1 + x.1.length + 1 + x.2.length by omega]
    simp
  | none =>
    obtain ⟨m, rfl⟩ : ∃ m, n = (m + (x.1 ++ c!">" :: x.2).length) + 1 := ⟨n - 1 - (x.1 ++ c!">" :: x.2).length, by
      simp only [List.length_append, List.length_cons]; omega⟩
    simp only [List.length_append, List.length_cons] at hn
    refine ⟨m, by omega, ?_⟩
    rw [html_cons] at ha ⊢
    rw [toks, if_pos rfl, ha]
    simp only []
    rw [show x.1 ++ c!">" :: (x.2 ++ html l) = (x.1 ++ c!">" :: x.2) ++ html l by simp, toks_text page caps _ _ _ (by simp [h1, h3])]
    rw [hlen, show pre.length + 1 + (x.1 ++ c!">" :: x.2).length = pre.length + 1 + x.1.length + 1 + x.2.length by
      simp only [List.length_append, List.length_cons]; omega]
    rw [List.flatMap_cons, List.flatMap_append, out_bytes]
    simp [Tok.out]

theorem capStep_acc {page pre : Bytes} {x : Bytes × Bytes} {k : Nat} {acc : List Caption} (ha : ∀ c ∈ acc, c.pos < pre.length) :
    (capStep page pre x k acc).1 ≤ k + 1 ∧ ∀ c ∈ (capStep page pre x k acc).2, c.pos < (pre ++ html [x]).length := by
  have h0 : ∀ c ∈ acc, c.pos < (pre ++ html [x]).length := fun c hc => by
    have := ha c hc
    rw [List.length_append]
    omega
  unfold capStep
  split
  · split
    · exact ⟨by simp only []; omega, h0⟩
    · split
      · rename_i f _ _ id k' ho
        refine ⟨?_, fun c hc => ?_⟩
        · unfold ownId at ho
          split at ho
          · have := congrArg Prod.snd ho
            simp only [] at this ⊢
            omega
          · have := congrArg Prod.snd ho
            simp only [] at this ⊢
            omega
        · rcases List.mem_cons.1 hc with rfl | hc
          · simp only []
            rw [html_one]
            simp only [List.length_append, List.length_cons]
            omega
          · exact h0 c hc
      · rename_i f _ _ k' ho
        refine ⟨?_, h0⟩
        unfold ownId at ho
        split at ho
        · have := congrArg Prod.snd ho
          simp only [] at this ⊢
          omega
        · have := congrArg Prod.snd ho
          simp only [] at this ⊢
          omega
  · exact ⟨by simp only []; omega, h0⟩

theorem labelled_run (page : Bytes) (hpl : page.length < 2 ^ 64) (caps : List Caption) (ids : List (Bytes × Bytes)) (hk : caps.map (key page) = ids.reverse)
    (hf : ∀ c ∈ caps, c.figure ≤ page.length) : ∀ (l : Tags) (pre : Bytes) (k n : Nat) (acc : List Caption), page = pre ++ html l → Good l → k ≤ pre.length →
    captions page pre.length (html l) k acc = caps → (∀ c ∈ acc, c.pos < pre.length) → (html l).length < n →
    Labelled ids pre k l ((toks page caps n pre.length (html l)).flatMap Tok.out)
  | [], pre, k, n, acc, _, _, _, _, _, hn => by
    obtain ⟨n, rfl⟩ : ∃ m, n = m + 1 := ⟨n - 1, by omega⟩
    rw [show html [] = [] from rfl, toks]
    exact .nil
  | x :: l, pre, k, n, acc, hp, hg, hkl, hc, ha, hn => by
    have hpre : pre.length + 1 ≤ page.length := by
      rw [hp, html_cons]
      simp only [List.length_append, List.length_cons]
      omega
    obtain ⟨as, h1, h2, -⟩ := attrs_tag hp hg hk hf hc ha (by omega)
    obtain ⟨m, hm, he⟩ := toks_tag page caps (pre := pre) hg n hn
    obtain ⟨c1, c2⟩ := capStep_acc (page := page) (x := x) (k := k) ha
    rw [he, h2]
    refine .tag h1 (labelled_run page hpl caps ids hk hf l (pre ++ html [x]) _ m _ ?_ ?_ ?_ ?_ c2 hm)
    · rw [hp, html_split, List.append_assoc]
    · exact fun y hy => hg y (by simp [hy])
    · rw [html_one]
      simp only [List.length_append, List.length_cons]
      omega
    · rw [← captions_tag page hg]
      exact hc

theorem write_len {cap : Nat} : ∀ (ts : List Tok) (out : Bytes), out.length ≤ cap → (ts.foldl (write cap) out).length ≤ cap
  | [], _, h => h
  | t :: ts, out, h => by
    rw [List.foldl_cons]
    refine write_len ts _ ?_
    cases t with
    | byte c =>
      rw [write]
      split
      · simp only [List.length_append, List.length_cons, List.length_nil]; omega
      · exact h
    | chunk s =>
      rw [write]
      split
      · simp only [List.length_append]; omega
      · exact h

theorem write_all {cap : Nat} : ∀ (ts : List Tok) (out : Bytes), out.length + (ts.flatMap Tok.out).length ≤ cap →
    ts.foldl (write cap) out = out ++ ts.flatMap Tok.out
  | [], out, _ => by simp
  | t :: ts, out, h => by
    rw [List.flatMap_cons, List.length_append] at h
    have e : write cap out t = out ++ t.out := by
      cases t with
      | byte c => rw [write, if_pos (by simp only [Tok.out, List.length_cons, List.length_nil] at h; omega)]; rfl
      | chunk s => rw [write, if_pos (by simp only [Tok.out] at h; omega)]; rfl
    rw [List.foldl_cons, e, write_all ts _ (by rw [List.length_append]; omega), List.flatMap_cons, List.append_assoc]

/-- There is always a result, and it is not longer than the block. -/
theorem label_val (page : Bytes) : ∃ o, label page = .val o ∧ o.length ≤ capacity page (captions page 0 page 0 []) := by
  unfold label
  have := write_len (cap := capacity page (captions page 0 page 0 [])) (toks page (captions page 0 page 0 []) (page.length + 1) 0 page) [] (by simp)
  exact ⟨_, finish_val (by omega), this⟩

theorem label_page {text : Bytes} {l : Tags} (ht : c!"<" ∉ text) (hg : Good l) (hl : (text ++ html l).length < 2 ^ 64) :
    ∃ ids o, Captions text 0 l ids ∧ Labelled ids text 0 l o ∧
      ((text ++ o).length ≤ (text ++ html l).length + 2048 → label (text ++ html l) = .val (text ++ o)) := by
  have e0 : captions (text ++ html l) 0 (text ++ html l) 0 [] = captions (text ++ html l) text.length (html l) 0 [] := by
    rw [captions_text _ _ _ _ _ ht, Nat.zero_add]
  obtain ⟨ids, hids, hk⟩ := captions_run (text ++ html l) l text 0 [] rfl hg
  rw [List.map_nil, List.append_nil] at hk
  have hf := captions_figure (text ++ html l) (text ++ html l).length (html l) text.length 0 [] (by simp) (by simp)
  have hlab := labelled_run (text ++ html l) hl _ ids hk hf l text 0 ((html l).length + 1) [] rfl hg (by omega) rfl (by simp) (by omega)
  refine ⟨ids, _, hids, hlab, fun hlen => ?_⟩
  unfold label
  simp only []
  rw [e0]
  have e1 : toks (text ++ html l) (captions (text ++ html l) text.length (html l) 0 []) ((text ++ html l).length + 1) 0 (text ++ html l) =
      text.map .byte ++ toks (text ++ html l) (captions (text ++ html l) text.length (html l) 0 []) ((html l).length + 1) text.length (html l) := by
    rw [show (text ++ html l).length + 1 = ((html l).length + 1) + text.length by rw [List.length_append]; omega, toks_text _ _ _ _ _ ht, Nat.zero_add]
  have e2 := congrArg (List.flatMap Tok.out) e1
  rw [List.flatMap_append, out_bytes] at e2
  have hcap : (text ++ html l).length + 2048 ≤ capacity (text ++ html l) (captions (text ++ html l) text.length (html l) 0 []) := by
    unfold capacity
    omega
  rw [write_all _ [] (by rw [e2, List.length_nil]; omega), e2, List.nil_append]
  exact finish_val (by omega)

end Verif.Aria
