/-
The specification of the attributes for accessibility allows one result.
-/
import Verif.Spec.Aria

namespace Verif.Aria
open Spec

theorem figureOf_unique {n : Nat} {pre post a a' : Bytes} (h : FigureOf n pre post a) (h' : FigureOf n pre post a') : a = a' := by
  obtain ⟨c, hp, hc, -, hf, hm⟩ := h
  obtain ⟨c', hp', hc', -, hf', hm'⟩ := h'
  have h1 : ¬ c'.length < c.length := fun hl => hm a' c' hp' hc' hl hf'
  have h2 : ¬ c.length < c'.length := fun hl => hm' a c hp hc hl hf
  exact (List.append_inj' (hp.symm.trans hp') (by omega)).1

theorem given_unique {w v v' : Bytes} (h : GivenId w v) (h' : GivenId w v') : v = v' := by
  obtain ⟨b, c, hw, hb, hv⟩ := h
  obtain ⟨b', c', hw', hb', hv'⟩ := h'
  have key : ∀ {b c v b' c' v' : Bytes}, b ++ b!"id=\"" ++ v ++ b!"\"" ++ c = b' ++ b!"id=\"" ++ v' ++ b!"\"" ++ c' →
      ¬ b!"id=\"" <:+: b' ++ b!"id=" → ¬ b.length < b'.length := by
    intro b c v b' c' v' he hn hl
    apply hn
    have h1 : b ++ b!"id=\"" <+: b' ++ b!"id=\"" ++ v' ++ b!"\"" ++ c' := by
      rw [← he, List.append_assoc, List.append_assoc]
      exact List.prefix_append _ _
    have h2 : b' ++ b!"id=" <+: b' ++ b!"id=\"" ++ v' ++ b!"\"" ++ c' :=
      ⟨b!"\"" ++ v' ++ b!"\"" ++ c', by simp⟩
    have h3 := List.prefix_of_prefix_length_le h1 h2 (by
      simp only [List.length_append, List.length_cons, List.length_nil]; omega)
    exact (List.suffix_append b b!"id=\"").isInfix.trans h3.isInfix
  have e := hw.symm.trans hw'
  have hl : b.length = b'.length := by
    have := key e hb'
    have := key e.symm hb
    omega
  simp only [List.append_assoc] at e
  have e2 := List.append_cancel_left (List.append_inj e hl).2
  have hq : ∀ {v v' c c' : Bytes}, v ++ (b!"\"" ++ c) = v' ++ (b!"\"" ++ c') → c!"\"" ∉ v' → ¬ v.length < v'.length := by
    intro v v' c c' he hv hl
    apply hv
    have h1 : v ++ b!"\"" <+: v' ++ (b!"\"" ++ c') := by
      rw [← he, ← List.append_assoc]
      exact List.prefix_append _ _
    have h2 := List.prefix_of_prefix_length_le h1 (List.prefix_append v' _) (by
      simp only [List.length_append, List.length_cons, List.length_nil]; omega)
    exact h2.subset (by simp)
  have a1 := hq e2 hv'
  have a2 := hq e2.symm hv
  exact (List.append_inj e2 (by omega)).1

theorem given_infix {w v : Bytes} (h : GivenId w v) : b!"id=\"" <:+: w := by
  obtain ⟨b, c, hw, -, -⟩ := h
  exact ⟨b, v ++ b!"\"" ++ c, by rw [hw]; simp⟩

theorem captions_unique {pre : Bytes} {k : Nat} {l : Tags} {ids ids' : List (Bytes × Bytes)} (h : Captions pre k l ids) :
    Captions pre k l ids' → ids = ids' := by
  induction h generalizing ids' with
  | nil => intro h'; cases h'; rfl
  | other hc _ ih =>
    intro h'
    cases h' with
    | other _ h' => exact ih h'
    | given hn hf hg hv h' =>
      rcases hc hn with h | h
      · exact absurd (given_unique hg h) hv
      · exact absurd hf (h _)
    | new hn hf hi h' =>
      rcases hc hn with h | h
      · exact absurd (given_infix h) hi
      · exact absurd hf (h _)
  | given hn hf hg hv _ ih =>
    intro h'
    cases h' with
    | other hc h' =>
      rcases hc hn with h | h
      · exact absurd (given_unique hg h) hv
      · exact absurd hf (h _)
    | given _ hf' hg' _ h' => rw [ih h', figureOf_unique hf hf', given_unique hg hg']
    | new _ _ hi h' => exact absurd (given_infix hg) hi
  | new hn hf hi _ ih =>
    intro h'
    cases h' with
    | other hc h' =>
      rcases hc hn with h | h
      · exact absurd (given_infix h) hi
      · exact absurd hf (h _)
    | given _ _ hg _ h' => exact absurd (given_infix hg) hi
    | new _ hf' _ h' => rw [ih h', figureOf_unique hf hf']

theorem described_unique {ids : List (Bytes × Bytes)} {pre post i i' : Bytes} (h : Described ids pre post i) (h' : Described ids pre post i') : i = i' := by
  obtain ⟨a, x, y, hf, he, hy⟩ := h
  obtain ⟨a', x', y', hf', he', hy'⟩ := h'
  obtain rfl := figureOf_unique hf hf'
  rcases List.append_eq_append_iff.1 (he.symm.trans he') with ⟨z, e1, e2⟩ | ⟨z, e1, e2⟩
  · cases z with
    | nil => exact (Prod.mk.inj (List.cons.inj e2).1).2
    | cons c z => exact absurd (show (a, i') ∈ y by rw [(List.cons.inj e2).2]; simp) (hy _)
  · cases z with
    | nil => exact (Prod.mk.inj (List.cons.inj e2).1).2.symm
    | cons c z => exact absurd (show (a, i) ∈ y' by rw [(List.cons.inj e2).2]; simp) (hy' _)

theorem names {w : Bytes} {a b : Bytes} (h : a <+: w) (h' : b <+: w) (hn : ¬ (a <+: b ∨ b <+: a)) : False :=
  hn (List.prefix_or_prefix_of_prefix h h')

theorem attributes_unique {ids : List (Bytes × Bytes)} {pre w post : Bytes} {k k1 k2 : Nat} {as as' : Bytes} (h : Attributes ids pre w post k k1 as) :
    Attributes ids pre w post k k2 as' → k1 = k2 ∧ as = as' := by
  intro h'
  cases h with
  | toc n1 t1 a1 =>
    cases h' with
    | toc => exact ⟨rfl, rfl⟩
    | figure n2 => exact (names n1 n2 (by decide)).elim
    | table n2 => exact (names n1 n2 (by decide)).elim
    | caption n2 => exact (names n1 n2 (by decide)).elim
    | other h2 => rcases h2 n1 with h | h <;> contradiction
  | figure n1 r1 =>
    cases h' with
    | toc n2 => exact (names n1 n2 (by decide)).elim
    | figure => exact ⟨rfl, rfl⟩
    | table n2 => exact (names n1 n2 (by decide)).elim
    | caption n2 => exact (names n1 n2 (by decide)).elim
    | other _ h2 => exact absurd (h2 n1) r1
  | table n1 r1 d1 =>
    cases h' with
    | toc n2 => exact (names n1 n2 (by decide)).elim
    | figure n2 => exact (names n1 n2 (by decide)).elim
    | table n2 r2 d2 =>
      refine ⟨rfl, ?_⟩
      congr 1
      · rcases r1 with ⟨ra, rfl⟩ | ⟨ra, rfl⟩ <;> rcases r2 with ⟨rb, rfl⟩ | ⟨rb, rfl⟩
        · rfl
        · contradiction
        · contradiction
        · rfl
      · rcases d1 with ⟨ha, rfl⟩ | ⟨ha, i1, hi1, rfl⟩ <;> rcases d2 with ⟨hb, rfl⟩ | ⟨hb, i2, hi2, rfl⟩
        · rfl
        · rcases ha with h | h
          · contradiction
          · exact absurd hi2 (h _)
        · rcases hb with h | h
          · contradiction
          · exact absurd hi1 (h _)
        · rw [described_unique hi1 hi2]
    | caption n2 => exact (names n1 n2 (by decide)).elim
    | other _ _ h2 => contradiction
  | caption n1 f1 i1 =>
    cases h' with
    | toc n2 => exact (names n1 n2 (by decide)).elim
    | figure n2 => exact (names n1 n2 (by decide)).elim
    | table n2 => exact (names n1 n2 (by decide)).elim
    | caption => exact ⟨rfl, rfl⟩
    | other _ _ _ h2 =>
      rcases h2 n1 with h | h
      · contradiction
      · exact absurd f1 (h _)
  | other h1 h2 h3 h4 =>
    cases h' with
    | toc n2 t a => rcases h1 n2 with h | h <;> contradiction
    | figure n2 r => exact absurd (h2 n2) r
    | table n2 => contradiction
    | caption n2 f i =>
      rcases h4 n2 with h | h
      · contradiction
      · exact absurd f (h _)
    | other => exact ⟨rfl, rfl⟩

theorem labelled_unique {ids : List (Bytes × Bytes)} {pre : Bytes} {k : Nat} {l : Tags} {o o' : Bytes} (h : Labelled ids pre k l o) :
    Labelled ids pre k l o' → o = o' := by
  induction h generalizing o' with
  | nil => intro h'; cases h'; rfl
  | tag ha _ ih =>
    intro h'
    cases h' with
    | tag ha' h' =>
      obtain ⟨rfl, rfl⟩ := attributes_unique ha ha'
      rw [ih h']

end Verif.Aria
