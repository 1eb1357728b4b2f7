/-
Entries of the index: the parsers find what the specification says.
-/
import Verif.Model.Index
import Verif.Spec.Index
import Verif.Proof.Embed
import Verif.Proof.InlineNotes
import Verif.Proof.Aria

namespace Verif.Index
open Spec (IndexChar Trimmed Term Mmark Bracket PhraseChar Phrase Params Textindex Escaped noStars Leanpub Form)
open Embed (find)

theorem valid_iff (c : Byte) : valid c = true ↔ IndexChar c := by
  simp only [valid, IndexChar, Bool.or_eq_true, beq_iff_eq, List.mem_cons, List.not_mem_nil, or_false, or_assoc]

instance (c : Byte) : Decidable (IndexChar c) := decidable_of_iff _ (valid_iff c)

theorem valid_false (c : Byte) : valid c = false ↔ ¬ IndexChar c := by
  rw [← valid_iff, Bool.not_eq_true]

/-- Up to the first byte that does not fit. -/
theorem span_stop {p : Byte → Bool} {a b : Bytes} {c : Byte} (ha : ∀ x ∈ a, p x = true) (hc : p c = false) :
    (a ++ c :: b).takeWhile p = a ∧ (a ++ c :: b).dropWhile p = c :: b := by
  induction a with
  | nil => simp [hc]
  | cons x a ih =>
    obtain ⟨h1, h2⟩ := ih fun y hy => ha y (by simp [hy])
    have := ha x (by simp)
    simp [this, h1, h2]

theorem span_all {p : Byte → Bool} {a : Bytes} (ha : ∀ x ∈ a, p x = true) : a.takeWhile p = a ∧ a.dropWhile p = [] := by
  induction a with
  | nil => simp
  | cons x a ih =>
    obtain ⟨h1, h2⟩ := ih fun y hy => ha y (by simp [hy])
    have := ha x (by simp)
    simp [this, h1, h2]

theorem span_split (p : Byte → Bool) (s : Bytes) : ∃ a r, s = a ++ r ∧ (∀ x ∈ a, p x = true) ∧ (r = [] ∨ ∃ c b, r = c :: b ∧ p c = false) ∧
    s.takeWhile p = a ∧ s.dropWhile p = r := by
  induction s with
  | nil => exact ⟨[], [], rfl, by simp, Or.inl rfl, rfl, rfl⟩
  | cons c s ih =>
    cases hc : p c with
    | false => exact ⟨[], c :: s, rfl, by simp, Or.inr ⟨c, s, rfl, hc⟩, by simp [hc], by simp [hc]⟩
    | true =>
      obtain ⟨a, r, h1, h2, h3, h4, h5⟩ := ih
      refine ⟨c :: a, r, by rw [h1]; rfl, ?_, h3, by simp [hc, h4], by simp [hc, h5]⟩
      intro x hx
      rcases List.mem_cons.1 hx with rfl | hx
      · exact hc
      · exact h2 x hx

theorem trimmed_trim (raw : Bytes) : Trimmed raw (trim raw) := by
  obtain ⟨a, r, h1, h2, h3, h4, h5⟩ := span_split isSpace raw
  unfold trim
  rw [h4, h5]
  rcases h3 with rfl | ⟨c, b, rfl, hc⟩
  · rw [List.append_nil] at h1
    subst h1
    exact ⟨[], by simp, by simp, Or.inr ⟨rfl, h2⟩⟩
  · obtain ⟨z, core, e1, e2, e3, -, e5⟩ := span_split isSpace (c :: b).reverse
    rw [e5]
    have hr : c :: b = core.reverse ++ z.reverse := by rw [← List.reverse_append, ← e1, List.reverse_reverse]
    refine ⟨z.reverse, by rw [h1, hr, List.append_assoc], fun x hx => e2 x (List.mem_reverse.1 hx), Or.inl ?_⟩
    rcases e3 with rfl | ⟨d, y, rfl, hd⟩
    · rw [List.reverse_nil, List.nil_append] at hr
      have := e2 c (List.mem_reverse.1 (by rw [← hr]; simp))
      rw [hc] at this
      cases this
    · exact ⟨a ++ y.reverse, d, by rw [List.reverse_cons, List.append_assoc], hd⟩

theorem trimmed_le {raw v v' z z' : Bytes} (e : raw = v ++ z) (e' : raw = v' ++ z') (hz : ∀ c ∈ z, isSpace c = true)
    (hv : (∃ x c, v = x ++ [c] ∧ isSpace c = false) ∨ z = [] ∧ ∀ c ∈ raw, isSpace c = true)
    (hv' : (∃ x c, v' = x ++ [c] ∧ isSpace c = false) ∨ z' = [] ∧ ∀ c ∈ raw, isSpace c = true) {as : Bytes} (h1 : v' = v ++ as) (h2 : z = as ++ z') : v = v' := by
  rcases List.eq_nil_or_concat as with rfl | ⟨as, d, rfl⟩
  · rw [h1, List.append_nil]
  · have hd : isSpace d = true := hz d (by rw [h2]; simp)
    rcases hv' with ⟨x, c, hx, hc⟩ | ⟨rfl, hb⟩
    · rw [h1, List.concat_eq_append, ← List.append_assoc] at hx
      have := (List.append_inj' hx rfl).2
      rw [List.cons.injEq] at this
      rw [this.1, hc] at hd
      cases hd
    · rcases hv with ⟨x, c, hx, hc⟩ | ⟨hz0, -⟩
      · have := hb c (by rw [e, hx]; simp)
        rw [hc] at this
        cases this
      · rw [hz0] at h2
        exact absurd (congrArg List.length h2) (by simp)

theorem trimmed_iff {raw v : Bytes} : Trimmed raw v ↔ v = trim raw := by
  constructor
  · intro h
    obtain ⟨z, e, hz, hv⟩ := h
    obtain ⟨z', e', hz', hv'⟩ := trimmed_trim raw
    rcases List.append_eq_append_iff.1 (e.symm.trans e') with ⟨as, h1, h2⟩ | ⟨as, h1, h2⟩
    · exact trimmed_le e e' hz hv hv' h1 h2
    · exact (trimmed_le e' e hz' hv' hv h1 h2).symm
  · rintro rfl
    exact trimmed_trim raw

theorem not_sep {c : Byte} (h1 : IndexChar c ∨ c = c!"!") (h2 : c ≠ c!",") : (c != c!"," && c != c!")") = true := by
  have : c ≠ c!")" := by
    rintro rfl
    revert h1
    decide
  simp [h2, this]

/-- The characters of an item. -/
def ItemChars (raw : Bytes) : Prop := ∀ c ∈ raw, (IndexChar c ∨ c = c!"!") ∧ c ≠ c!","

/-- Behind an item. -/
def Behind (sub : Option Bytes) (x : Bytes) : Prop :=
  x = b!")" ∧ sub = none ∨ ∃ ws rs, (∀ c ∈ ws, isSpace c = true) ∧ (∀ c ∈ rs, IndexChar c) ∧ (∀ c, rs.head? = some c → isSpace c = false) ∧
    x = b!"," ++ ws ++ rs ++ b!")" ∧ (rs = [] ∧ sub = none ∨ rs ≠ [] ∧ sub = some (trim rs))

theorem index_not_close {c : Byte} (h : IndexChar c) : (c != c!")") = true := by
  have : c ≠ c!")" := by
    rintro rfl
    revert h
    decide
  simp [this]

theorem any_valid {t : Bytes} : (t.any fun c => !valid c) = true ↔ ¬ ∀ c ∈ t, IndexChar c := by
  simp only [List.any_eq_true, Bool.not_eq_true', valid_false]
  constructor
  · rintro ⟨c, hc, hn⟩ h
    exact hn (h c hc)
  · intro h
    exact Classical.byContradiction fun hn => h fun c hc => Classical.byContradiction fun hv => hn ⟨c, hc, hv⟩

theorem mmarkSub_iff {item : Bytes} {primary : Bool} {s i : Bytes} {sub : Option Bytes} {p : Bool} {r : Bytes}
    (hs : ∀ c, s.head? = some c → c = c!"," ∨ c = c!")") :
    mmarkSub item primary s = some (i, sub, p, r) ↔ i = trim item ∧ p = primary ∧ ∃ x, s = x ++ r ∧ Behind sub x := by
  cases s with
  | nil =>
    rw [mmarkSub]
    constructor
    · intro h; cases h
    · rintro ⟨-, -, x, hx, hb⟩
      rw [(List.append_eq_nil_iff.1 hx.symm).1] at hb
      rcases hb with ⟨h, -⟩ | ⟨ws, rs, -, -, -, h, -⟩ <;> simp at h
  | cons c t =>
    rw [mmarkSub]
    by_cases hc : c = c!","
    · subst hc
      simp only [if_true]
      obtain ⟨ws, t1, e1, e2, e3, -, e5⟩ := span_split isSpace t
      rw [e5]
      obtain ⟨rs, t2, f1, f2, f3, f4, f5⟩ := span_split (· != c!")") t1
      rw [f4, f5]
      constructor
      · intro h
        by_cases ha : (rs.any fun c => !valid c) = true
        · rw [if_pos ha] at h; cases h
        · rw [if_neg ha] at h
          rw [any_valid, Classical.not_not] at ha
          rcases f3 with rfl | ⟨d, b, rfl, hd⟩
          · cases h
          · have hd : d = c!")" := by simpa using hd
            subst hd
            simp only [Option.some.injEq, Prod.mk.injEq] at h
            obtain ⟨rfl, h2, rfl, rfl⟩ := h
            refine ⟨rfl, rfl, b!"," ++ ws ++ rs ++ b!")", by rw [e1, f1]; simp, Or.inr ⟨ws, rs, e2, ha, ?_, rfl, ?_⟩⟩
            · intro c hc
              rcases e3 with h0 | ⟨c', b', h0, hc'⟩
              · rw [h0] at f1
                exact absurd (congrArg List.length f1) (by simp)
              · rw [h0] at f1
                cases rs with
                | nil => cases hc
                | cons c0 rs =>
                  rw [List.cons_append, List.cons.injEq] at f1
                  rw [List.head?_cons, Option.some.injEq] at hc
                  rw [← hc, ← f1.1, hc']
            · by_cases hr : rs = []
              · rw [if_pos hr] at h2; exact Or.inl ⟨hr, h2.symm⟩
              · rw [if_neg hr] at h2; exact Or.inr ⟨hr, h2.symm⟩
      · rintro ⟨rfl, rfl, x, hx, ⟨rfl, -⟩ | ⟨ws', rs', g1, g2, g3, rfl, g5⟩⟩
        · simp at hx
        · have hx : t = ws' ++ (rs' ++ c!")" :: r) := by simpa using hx
          have hw : t1 = rs' ++ c!")" :: r := by
            rw [← e5, hx]
            cases rs' with
            | nil => exact (span_stop g1 (by decide)).2
            | cons c0 rs' => exact (span_stop g1 (g3 c0 rfl)).2
          obtain ⟨k1, k2⟩ := span_stop (p := (· != c!")")) (b := r) (c := c!")") (fun x hx => index_not_close (g2 x hx)) (by decide)
          rw [hw] at f4 f5
          rw [k1] at f4
          rw [k2] at f5
          subst f4 f5
          rw [if_neg (by rw [any_valid, Classical.not_not]; exact g2)]
          simp only [Option.some.injEq, Prod.mk.injEq, true_and, and_true]
          rcases g5 with ⟨h, h'⟩ | ⟨h, h'⟩
          · rw [if_pos h, h']
          · rw [if_neg h, h']
    · rw [if_neg hc]
      have hc' := (hs c rfl).resolve_left hc
      subst hc'
      simp only [Option.some.injEq, Prod.mk.injEq]
      constructor
      · rintro ⟨rfl, rfl, rfl, rfl⟩
        exact ⟨rfl, rfl, b!")", rfl, Or.inl ⟨rfl, rfl⟩⟩
      · rintro ⟨rfl, rfl, x, hx, ⟨rfl, rfl⟩ | ⟨ws', rs', -, -, -, rfl, -⟩⟩
        · exact ⟨rfl, rfl, rfl, by simpa using hx⟩
        · simp at hx

theorem mmarkItem_iff {primary : Bool} {s i : Bytes} {sub : Option Bytes} {p : Bool} {r : Bytes} :
    mmarkItem primary s = some (i, sub, p, r) ↔ p = primary ∧ ∃ raw, raw ≠ [] ∧ ItemChars raw ∧ i = trim raw ∧ ∃ x, s = raw ++ x ++ r ∧ Behind sub x := by
  unfold mmarkItem
  obtain ⟨raw, t, e1, e2, e3, e4, e5⟩ := span_split (fun c => c != c!"," && c != c!")") s
  simp only [e4, e5]
  have hany : (raw.any fun c => !(valid c || c == c!"!")) = true ↔ ¬ ItemChars raw := by
    simp only [List.any_eq_true, Bool.not_eq_true', Bool.or_eq_false_iff, valid_false, beq_eq_false_iff_ne]
    constructor
    · rintro ⟨c, hc, h1, h2⟩ h
      rcases (h c hc).1 with h | h
      · exact h1 h
      · exact h2 h
    · intro h
      refine Classical.byContradiction fun hn => h fun c hc => ⟨?_, ?_⟩
      · refine Classical.byContradiction fun hv => hn ⟨c, hc, fun h => hv (Or.inl h), fun h => hv (Or.inr h)⟩
      · have := e2 c hc
        simp at this
        exact this.1
  have hh : ∀ c, t.head? = some c → c = c!"," ∨ c = c!")" := by
    intro c hc
    rcases e3 with rfl | ⟨d, b, rfl, hd⟩
    · cases hc
    · cases hc
      by_cases h : c = c!","
      · exact Or.inl h
      · simp [h] at hd
        exact Or.inr hd
  constructor
  · intro h
    by_cases ha : ItemChars raw
    · rw [if_neg (by rw [hany, Classical.not_not]; exact ha)] at h
      by_cases hr : raw = []
      · rw [if_pos hr] at h; cases h
      · rw [if_neg hr, mmarkSub_iff hh] at h
        obtain ⟨h1, h2, x, h3, h4⟩ := h
        exact ⟨h2, raw, hr, ha, h1, x, by rw [e1, h3, List.append_assoc], h4⟩
    · rw [if_pos (hany.2 ha)] at h; cases h
  · rintro ⟨rfl, raw', h1, h2, rfl, x, h3, h4⟩
    have hx : ∃ c y, x = c :: y ∧ (c != c!"," && c != c!")") = false := by
      rcases h4 with ⟨rfl, -⟩ | ⟨ws, rs, -, -, -, rfl, -⟩
      · exact ⟨_, _, rfl, by decide⟩
      · exact ⟨_, _, by simp only [List.cons_append, List.nil_append]; rfl, by decide⟩
    obtain ⟨c, y, hx, hc⟩ := hx
    obtain ⟨k1, k2⟩ := span_stop (p := fun c => c != c!"," && c != c!")") (a := raw') (b := y ++ r) (c := c) (fun z hz => not_sep (h2 z hz).1 (h2 z hz).2) hc
    have hs : s = raw' ++ c :: (y ++ r) := by rw [h3, hx]; simp
    rw [hs, k1] at e4
    rw [hs, k2] at e5
    subst e4
    rw [if_neg (by rw [hany, Classical.not_not]; exact h2), if_neg h1, mmarkSub_iff hh]
    exact ⟨rfl, rfl, x, by rw [← e5, hx]; rfl, h4⟩

theorem mmark_iff {s i : Bytes} {sub : Option Bytes} {p : Bool} {r : Bytes} :
    mmark s = some (i, sub, p, r) ↔ ∃ src, s = src ++ r ∧ Mmark src ⟨i, sub, p⟩ := by
  have hb : ∀ x, Behind sub x ↔ x = b!")" ∧ sub = none ∨
      ∃ ws rs, (∀ c ∈ ws, isSpace c = true) ∧ (∀ c ∈ rs, IndexChar c) ∧ (∀ c, rs.head? = some c → isSpace c = false) ∧
        x = b!"," ++ ws ++ rs ++ b!")" ∧ (rs = [] ∧ sub = none ∨ rs ≠ [] ∧ ∃ v, Trimmed rs v ∧ sub = some v) := by
    intro x
    simp only [Behind, trimmed_iff, exists_eq_left]
  unfold mmark
  constructor
  · intro h
    split at h
    · cases h
    split at h
    · rename_i hp
      obtain ⟨t, rfl⟩ := List.isPrefixOf_iff_prefix.1 hp
      have key : ∀ (primary : Bool) (bang t' : Bytes), t = bang ++ t' → mmarkItem primary t' = some (i, sub, p, r) →
          (bang = b!"!" ∧ primary = true ∨ bang = [] ∧ primary = false ∧ t'.head? ≠ some c!"!") → ∃ src, b!"(!" ++ t = src ++ r ∧ Mmark src ⟨i, sub, p⟩ := by
        intro primary bang t' ht hm hbang
        rw [mmarkItem_iff] at hm
        obtain ⟨rfl, raw, h1, h2, h3, x, h4, h5⟩ := hm
        have hbang' : bang = b!"!" ∧ p = true ∨ bang = [] ∧ p = false ∧ raw.head? ≠ some c!"!" := by
          rcases hbang with h | ⟨g1, g2, g3⟩
          · exact Or.inl h
          · refine Or.inr ⟨g1, g2, ?_⟩
            rw [h4] at g3
            cases raw with
            | nil => exact absurd rfl h1
            | cons a b => simpa using g3
        refine ⟨b!"(!" ++ bang ++ raw ++ x, by rw [ht, h4]; simp only [List.append_assoc], raw, bang, h1, h2, hbang', trimmed_iff.2 h3, ?_⟩
        rcases (hb x).1 h5 with ⟨rfl, g⟩ | ⟨ws, rs, g1, g2, g3, rfl, g5⟩
        · exact Or.inl ⟨rfl, g⟩
        · exact Or.inr ⟨ws, rs, g1, g2, g3, by simp only [List.append_assoc], g5⟩
      have hd : (b!"(!" ++ t).drop 2 = t := rfl
      rw [hd] at h
      cases t with
      | nil => cases h
      | cons c t =>
        simp only [] at h
        by_cases hc : c = c!"!"
        · subst hc
          rw [if_pos rfl] at h
          exact key true b!"!" t rfl h (Or.inl ⟨rfl, rfl⟩)
        · rw [if_neg hc] at h
          exact key false [] (c :: t) rfl h (Or.inr ⟨rfl, rfl, by simpa using hc⟩)
    · cases h
  · rintro ⟨src, rfl, raw, bang, h1, h2, h3, h4, h5⟩
    rw [trimmed_iff] at h4
    obtain ⟨x, hs, hx⟩ : ∃ x, src = b!"(!" ++ bang ++ raw ++ x ∧ Behind sub x := by
      rcases h5 with ⟨g1, g2⟩ | ⟨ws, rs, g1, g2, g3, g4, g5⟩
      · exact ⟨b!")", g1, (hb _).2 (Or.inl ⟨rfl, g2⟩)⟩
      · exact ⟨b!"," ++ ws ++ rs ++ b!")", by rw [g4]; simp only [List.append_assoc], (hb _).2 (Or.inr ⟨ws, rs, g1, g2, g3, rfl, g5⟩)⟩
    subst hs
    have hxl : 0 < x.length := by
      rcases hx with ⟨rfl, -⟩ | ⟨ws, rs, -, -, -, rfl, -⟩ <;> simp
    have hrl : 0 < raw.length := List.length_pos_iff.2 h1
    rw [if_neg (by simp only [List.length_append, List.length_cons]; omega)]
    have hp : b!"(!".isPrefixOf (b!"(!" ++ bang ++ raw ++ x ++ r) = true := by
      rw [List.isPrefixOf_iff_prefix]
      exact ⟨bang ++ raw ++ x ++ r, by simp only [List.append_assoc]⟩
    rw [if_pos hp]
    have hd : (b!"(!" ++ bang ++ raw ++ x ++ r).drop 2 = bang ++ (raw ++ x ++ r) := by
      simp only [List.append_assoc, List.cons_append, List.nil_append, List.drop_succ_cons, List.drop_zero]
    rw [hd]
    have hm : ∀ primary, mmarkItem primary (raw ++ x ++ r) = some (i, sub, primary, r) := fun primary =>
      mmarkItem_iff.2 ⟨rfl, raw, h1, h2, h4, x, rfl, hx⟩
    rcases h3 with ⟨rfl, hpr⟩ | ⟨rfl, hpr, hh⟩
    · simp only [] at hpr
      subst hpr
      exact hm true
    · simp only [] at hpr
      subst hpr
      cases raw with
      | nil => exact absurd rfl h1
      | cons c raw =>
        simp only [List.nil_append, List.cons_append]
        rw [if_neg (by simpa using hh)]
        exact hm false

theorem getLast?_reverse_head (s : Bytes) : s.reverse.getLast? = s.head? := by
  rw [List.getLast?_reverse]

theorem bracket_iff {back t : Bytes} : bracket back = some t ↔ ∃ raw, Bracket back.reverse raw ∧ t = trim raw := by
  unfold bracket
  constructor
  · intro h
    split at h
    · rename_i hh
      simp only [] at h
      split at h
      · rename_i hl
        cases h
        cases back with
        | nil => cases hh
        | cons c back =>
          cases hh
          obtain ⟨a, r, e1, e2, e3, e4, e5⟩ := span_split (· != c!"[") ((c!"]" :: back).take 201)
          rw [e4] at hl ⊢
          have hle : a.length < 201 := by
            have : ((c!"]" :: back).take 201).length ≤ 201 := by rw [List.length_take]; omega
            omega
          rcases e3 with rfl | ⟨d, b, rfl, hd⟩
          · rw [List.append_nil] at e1
            rw [e1] at hl
            omega
          · have hd : d = c!"[" := by simpa using hd
            subst hd
            cases a with
            | nil => simp at hl
            | cons a0 a =>
              have ha0 : a0 = c!"]" := by
                rw [List.take_succ_cons, List.cons_append, List.cons.injEq] at e1
                exact e1.1.symm
              subst ha0
              have e6 := List.take_append_drop 201 (c!"]" :: back)
              rw [e1] at e6
              simp only [List.length_cons] at hl hle
              refine ⟨a.reverse, ⟨?_, ?_, ?_, ((b ++ (c!"]" :: back).drop 201)).reverse, ?_⟩, rfl⟩
              · intro h
                rw [List.reverse_eq_nil_iff] at h
                subst h
                simp at hl
              · rw [List.length_reverse]; omega
              · intro h
                have := e2 c!"[" (by simp [List.mem_reverse.1 h])
                simp at this
              · generalize (c!"]" :: back).drop 201 = w' at e6 ⊢
                rw [← e6]
                simp
      · cases h
    · cases h
  · rintro ⟨raw, ⟨h1, h2, h3, a, h4⟩, rfl⟩
    have hb : back = c!"]" :: (raw.reverse ++ c!"[" :: a.reverse) := by
      rw [← List.reverse_reverse back, h4]
      simp
    subst hb
    rw [if_pos (by rfl)]
    have ht : (c!"]" :: (raw.reverse ++ c!"[" :: a.reverse)).take 201 = (c!"]" :: raw.reverse) ++ c!"[" :: a.reverse.take (199 - raw.length) := by
      rw [List.take_succ_cons, List.take_append, List.take_of_length_le (by rw [List.length_reverse]; omega), List.length_reverse,
        show 200 - raw.length = (199 - raw.length) + 1 by omega, List.take_succ_cons]
      rfl
    have hs := span_stop (p := (· != c!"[")) (a := c!"]" :: raw.reverse) (b := a.reverse.take (199 - raw.length)) (c := c!"[") (by
      intro x hx
      rcases List.mem_cons.1 hx with rfl | hx
      · decide
      · have : x ≠ c!"[" := by rintro rfl; exact h3 (List.mem_reverse.1 hx)
        simpa using this) (by decide)
    simp only [ht, hs.1]
    have hrl : 0 < raw.length := List.length_pos_iff.2 h1
    rw [if_pos (by simp only [List.length_append, List.length_cons, List.length_reverse]; omega)]
    simp

theorem phraseChar_iff (c : Byte) : (isAlnum c || c == 32 || c == c!"-" || c == c!"_") = true ↔ PhraseChar c := by
  simp only [PhraseChar, Bool.or_eq_true, beq_iff_eq, List.mem_cons, List.not_mem_nil, or_false, or_assoc]

theorem phraseChar_false (c : Byte) : (isAlnum c || c == 32 || c == c!"-" || c == c!"_") = false ↔ ¬ PhraseChar c := by
  rw [← phraseChar_iff, Bool.not_eq_true]

theorem phrase_iff {back t : Bytes} : phrase back = some t ↔ ∃ raw, Phrase back.reverse raw ∧ t = trim raw := by
  unfold phrase
  obtain ⟨ws, w, e1, e2, e3, -, e5⟩ := span_split isSpace back
  obtain ⟨a, r, f1, f2, f3, f4, -⟩ := span_split (fun c => isAlnum c || c == 32 || c == c!"-" || c == c!"_") (w.take 50)
  simp only [e5, f4]
  constructor
  · intro h
    by_cases ha : a = []
    · rw [if_pos ha] at h; cases h
    · rw [if_neg ha] at h
      cases h
      have e6 := List.take_append_drop 50 w
      rw [f1] at e6
      have hl : (w.take 50).length ≤ 50 := by rw [List.length_take]; omega
      rw [f1, List.length_append] at hl
      refine ⟨a.reverse, ⟨(r ++ w.drop 50).reverse, ws.reverse, ?_, by simpa using ha, fun c hc => e2 c (List.mem_reverse.1 hc), ?_,
        fun c hc => (phraseChar_iff c).1 (f2 c (List.mem_reverse.1 hc)), by rw [List.length_reverse]; omega, ?_⟩, rfl⟩
      · generalize w.drop 50 = w' at e6 ⊢
        rw [e1, ← e6]
        simp only [List.reverse_append, List.append_assoc]
      · intro c hc
        rw [List.getLast?_reverse] at hc
        rcases e3 with rfl | ⟨d, b, rfl, hd⟩
        · rw [List.take_nil] at f1
          exact absurd (List.append_eq_nil_iff.1 f1.symm).1 ha
        · cases a with
          | nil => exact absurd rfl ha
          | cons a0 a =>
            cases hc
            rw [List.take_succ_cons, List.cons_append, List.cons.injEq] at f1
            rw [← f1.1, hd]
      · rw [List.length_reverse]
        by_cases hl50 : a.length = 50
        · exact Or.inl hl50
        · refine Or.inr fun c hc => ?_
          rw [List.getLast?_reverse] at hc
          rcases f3 with rfl | ⟨d, b, rfl, hd⟩
          · have : w.drop 50 = [] := by
              rw [List.append_nil] at f1
              apply List.drop_of_length_le
              have := congrArg List.length f1
              rw [List.length_take] at this
              omega
            rw [this] at hc
            cases hc
          · cases hc
            exact (phraseChar_false _).1 hd
  · rintro ⟨raw, ⟨x, z, h1, h2, h3, h4, h5, h6, h7⟩, rfl⟩
    have hb : back = z.reverse ++ (raw.reverse ++ x.reverse) := by
      rw [← List.reverse_reverse back, h1]
      simp only [List.reverse_append]
    have hw : w = raw.reverse ++ x.reverse := by
      rw [← e5, hb]
      cases hr : raw.reverse with
      | nil => exact absurd (List.reverse_eq_nil_iff.1 hr) h2
      | cons c y =>
        refine (span_stop (fun c hc => h3 c (List.mem_reverse.1 hc)) (h4 c ?_)).2
        rw [← List.reverse_reverse raw, hr, List.getLast?_reverse]
        rfl
    have ha : a = raw.reverse := by
      rw [← f4, hw, List.take_append, List.take_of_length_le (by rw [List.length_reverse]; omega)]
      have hall : ∀ c ∈ raw.reverse, (isAlnum c || c == 32 || c == c!"-" || c == c!"_") = true := fun c hc =>
        (phraseChar_iff c).2 (h5 c (List.mem_reverse.1 hc))
      by_cases hl : raw.length = 50
      · rw [List.length_reverse, hl, Nat.sub_self, List.take_zero, List.append_nil]
        exact (span_all hall).1
      · cases hx : x.reverse with
        | nil =>
          rw [List.take_nil, List.append_nil]
          exact (span_all hall).1
        | cons c y =>
          rw [List.length_reverse, show 50 - raw.length = (49 - raw.length) + 1 by omega, List.take_succ_cons]
          refine (span_stop hall ?_).1
          rw [phraseChar_false]
          refine h7.resolve_left hl c ?_
          rw [← List.reverse_reverse x, hx, List.getLast?_reverse]
          rfl
    rw [ha, if_neg (by simpa using h2), List.reverse_reverse]

theorem params_iff {p : Bytes} {sub : Option Bytes} : params p = sub ↔ Params p sub := by
  unfold params
  have hq : ∀ c : Byte, (c != 32 && c != c!",") = true ↔ c ≠ 32 ∧ c ≠ c!"," := by simp
  obtain ⟨a, r, e1, e2, e3, -, e5⟩ := span_split (fun c => c != 32 && c != c!",") p
  rw [e5]
  have hind : ∀ (c : Byte) (r : Bytes), (if r.dropWhile isSpace = [] then none else some (trim (r.dropWhile isSpace))) = sub ↔
      ((∀ c ∈ r, isSpace c = true) ∧ sub = none ∨
      ∃ ws x v, r = ws ++ x ∧ (∀ c ∈ ws, isSpace c = true) ∧ (∃ d y, x = d :: y ∧ isSpace d = false) ∧ Trimmed x v ∧ sub = some v) := by
    intro c r
    obtain ⟨ws, x, f1, f2, f3, -, f5⟩ := span_split isSpace r
    rw [f5]
    rcases f3 with rfl | ⟨d, y, rfl, hd⟩
    · rw [if_pos rfl]
      rw [List.append_nil] at f1
      subst f1
      constructor
      · rintro rfl
        exact Or.inl ⟨f2, rfl⟩
      · rintro (⟨-, h⟩ | ⟨ws', x, v, h1, -, ⟨d, y, rfl, hd⟩, -⟩)
        · exact h.symm
        · have := f2 d (by rw [h1]; simp)
          rw [hd] at this
          cases this
    · rw [if_neg (by simp)]
      constructor
      · rintro rfl
        exact Or.inr ⟨ws, d :: y, _, f1, f2, ⟨d, y, rfl, hd⟩, trimmed_trim _, rfl⟩
      · rintro (⟨h, -⟩ | ⟨ws', x, v, h1, h2, ⟨d', y', rfl, hd'⟩, h3, rfl⟩)
        · have := h d (by rw [f1]; simp)
          rw [hd] at this
          cases this
        · rw [trimmed_iff] at h3
          have := (span_stop (b := y') h2 hd').2
          rw [← h1, f5] at this
          rw [h3, this]
  constructor
  · intro h
    rcases e3 with rfl | ⟨c, b, rfl, hc⟩
    · rw [List.append_nil] at e1
      subst e1
      exact Or.inl ⟨fun c hc => (hq c).1 (e2 c hc), h.symm⟩
    · refine Or.inr ⟨a, c, b, by rw [e1]; simp, fun c hc => (hq c).1 (e2 c hc), ?_, (hind c b).1 h⟩
      by_cases h32 : c = 32
      · exact Or.inl h32
      · simp [h32] at hc
        exact Or.inr hc
  · rintro (⟨h1, h2⟩ | ⟨a', c, b, h1, h2, h3, h4⟩)
    · have := (span_all fun c hc => (hq c).2 (h1 c hc)).2
      rw [e5] at this
      rw [this, h2]
    · have := (span_stop (p := fun c => c != 32 && c != c!",") (b := b) (c := c) (fun c hc => (hq c).2 (h2 c hc)) (by
        rcases h3 with rfl | rfl <;> decide)).2
      rw [h1, List.append_assoc, List.cons_append, List.nil_append, this] at e5
      rw [← e5]
      exact (hind c b).2 h4

theorem textindex_iff {back s i : Bytes} {sub : Option Bytes} {p : Bool} {r : Bytes} :
    textindex back s = some (i, sub, p, r) ↔ ∃ src, s = src ++ r ∧ Textindex back.reverse src ⟨i, sub, p⟩ := by
  have hterm : ∀ i, (bracket back).or (phrase back) = some i ↔ ((∃ raw, Bracket back.reverse raw ∧ Trimmed raw i) ∨
      (∀ raw, ¬ Bracket back.reverse raw) ∧ ∃ raw, Phrase back.reverse raw ∧ Trimmed raw i) := by
    intro i
    simp only [trimmed_iff]
    cases hb : bracket back with
    | some t =>
      obtain ⟨raw, h1, h2⟩ := bracket_iff.1 hb
      rw [Option.some_or]
      constructor
      · rintro ⟨⟩
        exact Or.inl ⟨raw, h1, h2⟩
      · rintro (⟨raw', g1, g2⟩ | ⟨h, -⟩)
        · have := bracket_iff.2 ⟨raw', g1, g2⟩
          rw [← this, hb]
        · exact absurd h1 (h _)
    | none =>
      have hn : ∀ raw, ¬ Bracket back.reverse raw := fun raw h => by
        have := bracket_iff.2 ⟨raw, h, rfl⟩
        rw [hb] at this
        cases this
      rw [Option.none_or, phrase_iff]
      constructor
      · exact fun h => Or.inr ⟨hn, h⟩
      · rintro (⟨raw', g1, -⟩ | ⟨-, h⟩)
        · exact absurd g1 (hn _)
        · exact h
  unfold textindex
  have hq : ∀ c : Byte, (c != c!"}" && c != 10) = true ↔ c ≠ c!"}" ∧ c ≠ 10 := by simp
  constructor
  · intro h
    split at h
    · cases h
    split at h
    · rename_i hp
      obtain ⟨t, rfl⟩ := List.isPrefixOf_iff_prefix.1 hp
      rw [show (b!"{^" ++ t).drop 2 = t from rfl] at h
      obtain ⟨a, x, e1, e2, e3, e4, e5⟩ := span_split (fun c => c != c!"}" && c != 10) t
      rw [e4, e5] at h
      rcases e3 with rfl | ⟨c, b, rfl, hc⟩
      · cases h
      · simp only [] at h
        by_cases hc' : c = c!"}"
        · subst hc'
          rw [if_pos rfl] at h
          cases ht : (bracket back).or (phrase back) with
          | none => rw [ht] at h; cases h
          | some u =>
            rw [ht] at h
            simp only [Option.some.injEq, Prod.mk.injEq] at h
            obtain ⟨rfl, h2, rfl, rfl⟩ := h
            exact ⟨b!"{^" ++ a ++ b!"}", by rw [e1]; simp, a, rfl, fun c hc => (hq c).1 (e2 c hc), params_iff.1 h2, rfl, (hterm _).1 ht⟩
        · rw [if_neg hc'] at h; cases h
    · cases h
  · rintro ⟨src, rfl, q, rfl, h2, h3, h4, h5⟩
    simp only [] at h4
    subst h4
    have hp : b!"{^".isPrefixOf (b!"{^" ++ q ++ b!"}" ++ r) = true := by
      rw [List.isPrefixOf_iff_prefix]
      exact ⟨q ++ b!"}" ++ r, by simp only [List.append_assoc]⟩
    have hd : (b!"{^" ++ q ++ b!"}" ++ r).drop 2 = q ++ c!"}" :: r := by simp
    obtain ⟨k1, k2⟩ := span_stop (p := fun c => c != c!"}" && c != 10) (b := r) (c := c!"}") (fun c hc => (hq c).2 (h2 c hc)) (by decide)
    rw [if_neg (by simp only [List.length_append, List.length_cons]; omega), if_pos hp, hd, k1, k2]
    simp only [if_true]
    rw [(hterm i).2 h5, params_iff.2 h3]

theorem strip_eq (s : Bytes) : strip s = noStars s := by
  induction s using strip.induct with
  | case1 => rfl
  | case2 => rfl
  | case3 t ih => rw [strip]; simp only [if_true]; rw [ih]; simp [noStars]
  | case4 d t hd ih => rw [strip]; simp only [if_true]; rw [if_neg hd, ih]; simp [noStars]
  | case5 c s hc ih => rw [strip.eq_def]; simp only []; rw [if_neg hc, ih]; simp [noStars, hc]

theorem quoted_iff {s q r : Bytes} : quoted s = some (q, r) ↔ s = q ++ b!"\"" ++ r ∧ Escaped q := by
  constructor
  · intro h
    induction s using quoted.induct generalizing q with
    | case1 => cases h
    | case2 s => rw [quoted.eq_def] at h; simp only [if_true] at h; cases h; exact ⟨rfl, .nil⟩
    | case3 h0 => rw [quoted, if_neg h0, if_pos rfl] at h; cases h
    | case4 d t h0 ih =>
      rw [quoted, if_neg h0, if_pos rfl] at h
      simp only [Option.map_eq_some_iff] at h
      obtain ⟨⟨q', r'⟩, h, e⟩ := h
      cases e
      obtain ⟨rfl, h2⟩ := ih h
      exact ⟨by simp, .escape h2⟩
    | case5 c s h0 h1 ih =>
      rw [quoted.eq_def] at h
      simp only [] at h
      rw [if_neg h0, if_neg h1] at h
      simp only [Option.map_eq_some_iff] at h
      obtain ⟨⟨q', r'⟩, h, e⟩ := h
      cases e
      obtain ⟨rfl, h2⟩ := ih h
      exact ⟨by simp, .plain h0 h1 h2⟩
  · rintro ⟨rfl, h⟩
    induction h with
    | nil => rw [show ([] : Bytes) ++ b!"\"" ++ r = c!"\"" :: r from rfl, quoted.eq_def]; simp only [if_true]
    | plain h0 h1 _ ih => rw [List.cons_append, List.cons_append, quoted.eq_def]; simp only []; rw [if_neg h0, if_neg h1, ih]; rfl
    | escape _ ih => rw [List.cons_append, List.cons_append, List.cons_append, List.cons_append, quoted.eq_def]; simp only []; rw [if_neg (by decide), if_pos trivial, ih]; rfl

theorem levels_iff {q i : Bytes} {sub : Option Bytes} : levels q = (i, sub) ↔
    (c!"!" ∉ q ∧ Trimmed (noStars q) i ∧ sub = none ∨
        ∃ a b x y, q = a ++ b!"!" ++ b ∧ c!"!" ∉ a ∧ Trimmed a x ∧ Trimmed b y ∧ i = noStars x ∧ sub = some (noStars y)) := by
  unfold levels
  simp only [trimmed_iff, strip_eq]
  obtain ⟨a, r, e1, e2, e3, e4, e5⟩ := span_split (· != c!"!") q
  rw [e4, e5]
  have ha : c!"!" ∉ a := fun h => by simpa using e2 _ h
  rcases e3 with rfl | ⟨c, b, rfl, hc⟩
  · rw [List.append_nil] at e1
    subst e1
    simp only [Prod.mk.injEq]
    constructor
    · rintro ⟨rfl, rfl⟩
      exact Or.inl ⟨ha, rfl, rfl⟩
    · rintro (⟨-, rfl, rfl⟩ | ⟨a', b', x, y, h, -⟩)
      · exact ⟨rfl, rfl⟩
      · exact absurd (by rw [h]; simp) ha
  · have hc : c = c!"!" := by simpa using hc
    subst hc
    simp only [Prod.mk.injEq]
    constructor
    · rintro ⟨rfl, rfl⟩
      exact Or.inr ⟨a, b, _, _, by rw [e1]; simp, ha, rfl, rfl, rfl, rfl⟩
    · rintro (⟨h, -⟩ | ⟨a', b', x, y, h, ha', rfl, rfl, rfl, rfl⟩)
      · exact absurd (by rw [e1]; simp) h
      · have := span_stop (p := (· != c!"!")) (a := a') (b := b') (c := c!"!") (fun x hx => by
          have : x ≠ c!"!" := by rintro rfl; exact ha' hx
          simpa using this) (by decide)
        rw [List.append_assoc, List.cons_append, List.nil_append] at h
        rw [← h, e4, e5] at this
        obtain ⟨rfl, h2⟩ := this
        cases h2
        exact ⟨rfl, rfl⟩

theorem closed_iff {item : Bytes} {sub : Option Bytes} {s : Bytes} {i : Bytes} {sub' : Option Bytes} {p : Bool} {r : Bytes} :
    closed item sub s = some (i, sub', p, r) ↔ i = item ∧ sub' = sub ∧ p = false ∧ ∃ ws, (∀ c ∈ ws, c = 32 ∨ c = 9) ∧ s = ws ++ b!"}" ++ r := by
  unfold closed
  have hq : ∀ c : Byte, (c == 32 || c == 9) = true ↔ c = 32 ∨ c = 9 := by simp
  obtain ⟨ws, x, e1, e2, e3, -, e5⟩ := span_split (fun c => c == 32 || c == 9) s
  rw [e5]
  constructor
  · intro h
    rcases e3 with rfl | ⟨c, b, rfl, hc⟩
    · cases h
    · simp only [] at h
      by_cases hc' : c = c!"}"
      · subst hc'
        rw [if_pos rfl] at h
        cases h
        exact ⟨rfl, rfl, rfl, ws, fun c hc => (hq c).1 (e2 c hc), by rw [e1]; simp⟩
      · rw [if_neg hc'] at h; cases h
  · rintro ⟨rfl, rfl, rfl, ws', h1, h2⟩
    have := (span_stop (p := fun c => c == 32 || c == 9) (b := r) (c := c!"}") (fun c hc => (hq c).2 (h1 c hc)) (by decide)).2
    rw [List.append_assoc, List.cons_append, List.nil_append] at h2
    rw [← h2, e5] at this
    rw [this]
    simp

theorem index_brace {c : Byte} (h : IndexChar c) : (c != c!"}" && c != 10) = true := by
  have h1 : c ≠ c!"}" := by
    rintro rfl
    revert h
    decide
  have h2 : c ≠ 10 := by
    rintro rfl
    revert h
    decide
  simp [h1, h2]

theorem unquoted_iff {s i : Bytes} {sub : Option Bytes} {p : Bool} {r : Bytes} :
    unquoted s = some (i, sub, p, r) ↔ p = false ∧ sub = none ∧ ∃ raw, s = raw ++ b!"}" ++ r ∧ raw ≠ [] ∧ (∀ c ∈ raw, IndexChar c) ∧ i = trim raw := by
  unfold unquoted
  obtain ⟨t, x, e1, e2, e3, e4, e5⟩ := span_split (fun c => c != c!"}" && c != 10) s
  simp only [e4, e5]
  constructor
  · intro h
    split at h
    · cases h
    rename_i ha
    rw [any_valid, Classical.not_not] at ha
    split at h
    · cases h
    rename_i hx
    split at h
    · cases h
    rename_i ht
    rw [closed_iff] at h
    obtain ⟨rfl, rfl, rfl, ws, h1, h2⟩ := h
    refine ⟨rfl, rfl, t, ?_, ht, ha, rfl⟩
    rw [Ne, Classical.not_not] at hx
    cases ws with
    | nil => rw [e1, h2]; simp
    | cons w ws =>
      rw [h2] at hx
      cases hx
      rcases h1 c!"}" (by simp) with h | h <;> cases h
  · rintro ⟨rfl, rfl, raw, rfl, h1, h2, rfl⟩
    have := span_stop (p := fun c => c != c!"}" && c != 10) (b := r) (c := c!"}") (fun c hc => index_brace (h2 c hc)) (by decide)
    rw [List.append_assoc, List.cons_append, List.nil_append] at e4 e5
    rw [e4, e5] at this
    obtain ⟨rfl, rfl⟩ := this
    rw [if_neg (by rw [any_valid, Classical.not_not]; exact h2), if_neg (by simp), if_neg h1, closed_iff]
    exact ⟨rfl, rfl, rfl, [], by simp, rfl⟩

theorem leanpub_iff {s i : Bytes} {sub : Option Bytes} {p : Bool} {r : Bytes} :
    leanpub s = some (i, sub, p, r) ↔ ∃ src, s = src ++ r ∧ Leanpub src ⟨i, sub, p⟩ := by
  unfold leanpub
  have hq : ∀ c : Byte, (c == 32 || c == 9) = true ↔ c = 32 ∨ c = 9 := by simp
  constructor
  · intro h
    split at h
    · cases h
    split at h
    · rename_i hp
      obtain ⟨t, rfl⟩ := List.isPrefixOf_iff_prefix.1 hp
      rw [show (b!"{i:" ++ t).drop 3 = t from rfl] at h
      obtain ⟨ws, x, e1, e2, e3, -, e5⟩ := span_split (fun c => c == 32 || c == 9) t
      rw [e5] at h
      rcases e3 with rfl | ⟨c, b, rfl, hc⟩
      · cases h
      · simp only [] at h
        by_cases hc' : c = c!"\""
        · subst hc'
          rw [if_pos rfl] at h
          cases hqq : quoted b with
          | none => rw [hqq] at h; cases h
          | some y =>
            obtain ⟨q, r1⟩ := y
            rw [hqq] at h
            simp only [] at h
            rw [closed_iff] at h
            obtain ⟨h1, h2, rfl, ws', h3, rfl⟩ := h
            obtain ⟨rfl, hesc⟩ := quoted_iff.1 hqq
            refine ⟨b!"{i:" ++ ws ++ b!"\"" ++ q ++ b!"\"" ++ ws' ++ b!"}", by rw [e1]; simp, ws, fun c hc => (hq c).1 (e2 c hc), rfl,
              Or.inr ⟨q, ws', rfl, hesc, h3, ?_⟩⟩
            rw [← levels_iff]
            rw [h1, h2]
        · rw [if_neg hc', unquoted_iff] at h
          obtain ⟨rfl, rfl, raw, h1, h2, h3, h4⟩ := h
          refine ⟨b!"{i:" ++ ws ++ raw ++ b!"}", by rw [e1, h1]; simp, ws, fun c hc => (hq c).1 (e2 c hc), rfl,
            Or.inl ⟨raw, rfl, ?_, h3, trimmed_iff.2 h4, rfl⟩⟩
          cases raw with
          | nil => exact absurd rfl h2
          | cons d y =>
            rw [List.cons_append, List.cons_append, List.cons.injEq] at h1
            refine ⟨d, y, rfl, ?_, ?_⟩
            · rw [← h1.1]; exact hc'
            · rw [← h1.1]
              rintro rfl
              simp at hc
    · cases h
  · rintro ⟨src, rfl, ws, h1, h2, h3⟩
    simp only [] at h2
    subst h2
    have key : ∀ (c : Byte) (b : Bytes), src ++ r = b!"{i:" ++ ws ++ c :: b → (c == 32 || c == 9) = false → 1 ≤ b.length →
        leanpub (src ++ r) = if c = c!"\"" then
          match quoted b with
          | none => none
          | some (term, r) => closed (levels term).1 (levels term).2 r
        else unquoted (c :: b) := by
      intro c b e hc hb
      unfold leanpub
      have hp : b!"{i:".isPrefixOf (src ++ r) = true := by
        rw [List.isPrefixOf_iff_prefix, e]
        exact ⟨ws ++ c :: b, by simp only [List.append_assoc]⟩
      have hd : (src ++ r).drop 3 = ws ++ c :: b := by rw [e]; simp
      rw [if_neg (by rw [e]; simp only [List.length_append, List.length_cons]; omega), if_pos hp, hd, (span_stop (fun c hc => (hq c).2 (h1 c hc)) hc).2]
      rfl
    change leanpub (src ++ r) = _
    rcases h3 with ⟨raw, rfl, ⟨d, y, rfl, hd1, hd2⟩, g2, g3, g4⟩ | ⟨q, ws', rfl, g1, g2, g3⟩
    · have hd9 : d ≠ 9 := by
        rintro rfl
        have := g2 9 (by simp)
        revert this
        decide
      rw [key d (y ++ b!"}" ++ r) (by simp) (by simp [hd2, hd9]) (by simp only [List.length_append, List.length_cons]; omega), if_neg hd1, unquoted_iff]
      exact ⟨rfl, g4, d :: y, rfl, by simp, g2, trimmed_iff.1 g3⟩
    · rw [key c!"\"" (q ++ b!"\"" ++ (ws' ++ b!"}" ++ r)) (by simp) (by decide) (by simp only [List.length_append, List.length_cons]; omega), if_pos rfl,
        quoted_iff.2 ⟨rfl, g1⟩]
      have := levels_iff.2 g3
      simp only []
      rw [this, closed_iff]
      exact ⟨rfl, rfl, rfl, ws', g2, rfl⟩

/-- The options as the specification has them. -/
def on (o : Options) : Spec.On := ⟨o.mmark, o.textindex, o.leanpub⟩

theorem mmark_head {src : Bytes} {t : Term} (h : Mmark src t) : ∃ x, src = b!"(!" ++ x ∧ 2 ≤ x.length := by
  obtain ⟨raw, bang, h1, -, -, -, ⟨rfl, -⟩ | ⟨ws, rs, -, -, -, rfl, -⟩⟩ := h
  · have := List.length_pos_iff.2 h1
    exact ⟨bang ++ raw ++ b!")", by simp only [List.append_assoc], by simp only [List.length_append, List.length_cons]; omega⟩
  · have := List.length_pos_iff.2 h1
    exact ⟨bang ++ raw ++ b!"," ++ ws ++ rs ++ b!")", by simp only [List.append_assoc], by simp only [List.length_append, List.length_cons]; omega⟩

theorem textindex_head {pre src : Bytes} {t : Term} (h : Textindex pre src t) : ∃ x, src = b!"{^" ++ x ∧ 1 ≤ x.length := by
  obtain ⟨p, rfl, -⟩ := h
  exact ⟨p ++ b!"}", by simp only [List.append_assoc], by simp⟩

theorem leanpub_head {src : Bytes} {t : Term} (h : Leanpub src t) : ∃ x, src = b!"{i:" ++ x ∧ 2 ≤ x.length := by
  obtain ⟨ws, -, -, ⟨raw, rfl, ⟨d, y, rfl, -⟩, -⟩ | ⟨q, ws', rfl, -⟩⟩ := h
  · exact ⟨ws ++ (d :: y) ++ b!"}", by simp only [List.append_assoc], by simp only [List.length_append, List.length_cons]; omega⟩
  · exact ⟨ws ++ b!"\"" ++ q ++ b!"\"" ++ ws' ++ b!"}", by simp only [List.append_assoc], by simp only [List.length_append, List.length_cons]; omega⟩

theorem parse_iff {o : Options} {back s i : Bytes} {sub : Option Bytes} {p : Bool} {r : Bytes} :
    parse o back s = some (i, sub, p, r) ↔ ∃ src, s = src ++ r ∧ Form (on o) back.reverse src ⟨i, sub, p⟩ := by
  have hm : ∀ {x : Bytes}, (∀ y, s ≠ b!"(!" ++ y) → mmark s = none := by
    intro _ h
    cases hm : mmark s with
    | none => rfl
    | some y =>
      obtain ⟨i, sub, p, r⟩ := y
      obtain ⟨src, e, h'⟩ := mmark_iff.1 hm
      obtain ⟨x, rfl, -⟩ := mmark_head h'
      exact absurd (by rw [e, List.append_assoc]) (h (x ++ r))
  have ht : (∀ y, s ≠ b!"{^" ++ y) → textindex back s = none := by
    intro h
    cases hm : textindex back s with
    | none => rfl
    | some y =>
      obtain ⟨i, sub, p, r⟩ := y
      obtain ⟨src, e, h'⟩ := textindex_iff.1 hm
      obtain ⟨x, rfl, -⟩ := textindex_head h'
      exact absurd (by rw [e, List.append_assoc]) (h (x ++ r))
  unfold parse Form on
  simp only []
  constructor
  · intro h
    rcases Option.or_eq_some_iff.1 h with h | ⟨-, h⟩
    · rcases Option.or_eq_some_iff.1 h with h | ⟨-, h⟩
      · split at h
        · rename_i ho
          obtain ⟨src, e, h'⟩ := mmark_iff.1 h
          exact ⟨src, e, Or.inl ⟨ho, h'⟩⟩
        · cases h
      · split at h
        · rename_i ho
          obtain ⟨src, e, h'⟩ := textindex_iff.1 h
          exact ⟨src, e, Or.inr (Or.inl ⟨ho, h'⟩)⟩
        · cases h
    · split at h
      · rename_i ho
        obtain ⟨src, e, h'⟩ := leanpub_iff.1 h
        exact ⟨src, e, Or.inr (Or.inr ⟨ho, h'⟩)⟩
      · cases h
  · rintro ⟨src, e, ⟨ho, h⟩ | ⟨ho, h⟩ | ⟨ho, h⟩⟩
    · rw [if_pos ho, mmark_iff.2 ⟨src, e, h⟩]
      rfl
    · obtain ⟨x, hx, -⟩ := textindex_head h
      have h1 : mmark s = none := hm (x := []) fun y hy => by
        rw [hy, hx] at e
        simp at e
      rw [h1, if_pos ho, textindex_iff.2 ⟨src, e, h⟩]
      simp
    · obtain ⟨x, hx, -⟩ := leanpub_head h
      have h1 : mmark s = none := hm (x := []) fun y hy => by
        rw [hy, hx] at e
        simp at e
      have h2 : textindex back s = none := ht fun y hy => by
        rw [hy, hx] at e
        simp at e
      rw [h1, h2, if_pos ho, leanpub_iff.2 ⟨src, e, h⟩]
      simp

theorem form_length {o : Spec.On} {pre src : Bytes} {t : Term} (h : Form o pre src t) : 1 ≤ src.length := by
  rcases h with ⟨-, h⟩ | ⟨-, h⟩ | ⟨-, h⟩
  · obtain ⟨x, rfl, -⟩ := mmark_head h
    simp
  · obtain ⟨x, rfl, -⟩ := textindex_head h
    simp
  · obtain ⟨x, rfl, -⟩ := leanpub_head h
    simp

theorem parse_none {o : Options} {back s : Bytes} : parse o back s = none ↔ ∀ src r t, s = src ++ r → ¬ Form (on o) back.reverse src t := by
  constructor
  · intro h src r t e hf
    have := parse_iff.2 ⟨src, e, hf⟩
    rw [h] at this
    cases this
  · intro h
    cases hp : parse o back s with
    | none => rfl
    | some y =>
      obtain ⟨i, sub, p, r⟩ := y
      obtain ⟨src, e, hf⟩ := parse_iff.1 hp
      exact absurd hf (h _ _ _ e)

/-- The entry of the registry. -/
def toEntry (x : Spec.Listed) : Entry := ⟨x.1.item, x.1.sub, x.1.primary, b!"idxref-" ++ Spec.number x.2⟩

theorem anchor_eq (k : Nat) : anchor k = b!"idxref-" ++ Spec.number k := by
  rw [anchor, InlineNotes.decimal_number]
  rfl

theorem placeholder_eq (k : Nat) : placeholder (anchor k) = Spec.comment k := by
  rw [placeholder, anchor_eq, Spec.comment]
  simp

theorem grow_room (cap used len : Nat) : used + len < grow cap used len 1 := by
  unfold grow
  split <;> omega

theorem grow_byte (cap used : Nat) : used + 1 < grow cap used 1 0 := by
  unfold grow
  split <;> omega

theorem loop_marked {o : Options} {k : Nat} {pre s : Bytes} {ts : List Term} {out' : Bytes} (h : Spec.Marked (on o) k pre s ts out') :
    ∀ (n : Nat) (es : List Entry) (cap : Nat) (out : Bytes), s.length ≤ n → out.length < cap →
      loop o n k pre.reverse es cap out s = .val (out ++ out', ((ts.zipIdx k).map toEntry).reverse ++ es) := by
  induction h with
  | nil =>
    intro n es cap out hn hc
    cases n <;> simp [loop, finish_val hc]
  | @entry k pre src s t ts out' hf _ ih =>
    intro n es cap out hn hc
    have hl := form_length hf
    cases src with
    | nil => simp at hl
    | cons c src =>
      cases n with
      | zero => simp at hn
      | succ n =>
        have hp : parse o pre.reverse (c :: src ++ s) = some (t.item, t.sub, t.primary, s) :=
          parse_iff.2 ⟨_, rfl, by rw [List.reverse_reverse]; exact hf⟩
        rw [List.cons_append] at hp ⊢
        rw [loop, hp]
        simp only []
        have hg := grow_room cap out.length (placeholder (anchor k)).length
        rw [puts_val (by omega), C.val_bind]
        have ht : (c :: (src ++ s)).take ((c :: (src ++ s)).length - s.length) = c :: src := by
          rw [← List.cons_append, List.length_append, Nat.add_sub_cancel, List.take_left']
          rfl
        rw [ht, show (c :: src).reverse ++ pre.reverse = (pre ++ c :: src).reverse by simp, ih n _ _ _ (by
          simp only [List.length_append, List.length_cons] at hn; omega) (by rw [List.length_append]; omega), placeholder_eq]
        rw [List.zipIdx_cons, List.map_cons, List.reverse_cons]
        simp only [List.append_assoc, List.cons_append, List.nil_append, toEntry, anchor_eq]
  | @copy k pre c s ts out' hn' _ ih =>
    intro n es cap out hn hc
    cases n with
    | zero => simp at hn
    | succ n =>
      have hp : parse o pre.reverse (c :: s) = none := parse_none.2 (by rw [List.reverse_reverse]; exact hn')
      rw [loop, hp]
      simp only []
      have hg := grow_byte cap out.length
      rw [put_val (by omega), C.val_bind, show c :: pre.reverse = (pre ++ [c]).reverse by simp, ih n _ _ _ (by
        simp only [List.length_cons] at hn; omega) (by simp only [List.length_append, List.length_cons, List.length_nil]; omega)]
      simp

theorem marked_exists (o : Options) : ∀ (n : Nat) (s : Bytes) (k : Nat) (pre : Bytes), s.length ≤ n → ∃ ts out, Spec.Marked (on o) k pre s ts out
  | _, [], k, pre, _ => ⟨[], [], .nil⟩
  | 0, _ :: _, _, _, h => by simp at h
  | n + 1, c :: s, k, pre, h => by
    cases hp : parse o pre.reverse (c :: s) with
    | none =>
      obtain ⟨ts, out, hm⟩ := marked_exists o n s k (pre ++ [c]) (by simp only [List.length_cons] at h; omega)
      have := parse_none.1 hp
      rw [List.reverse_reverse] at this
      exact ⟨ts, c :: out, .copy this hm⟩
    | some y =>
      obtain ⟨i, sub, p, r⟩ := y
      obtain ⟨src, e, hf⟩ := parse_iff.1 hp
      rw [List.reverse_reverse] at hf
      have hl := form_length hf
      have := congrArg List.length e
      rw [List.length_append] at this
      obtain ⟨ts, out, hm⟩ := marked_exists o n r (k + 1) (pre ++ src) (by omega)
      rw [e]
      exact ⟨_, _, .entry hf hm⟩

theorem find_here {w p q : Bytes} (hw : w ≠ []) (h : 0 < (w ++ q).length) : ∃ x, find w (p ++ w ++ q) = some x ∧ x.1.length ≤ p.length := by
  induction p with
  | nil =>
    cases w with
    | nil => exact absurd rfl hw
    | cons c w =>
      refine ⟨([], q), ?_, by simp⟩
      rw [List.nil_append, List.cons_append, find, if_pos (by rw [← List.cons_append]; exact List.prefix_append _ _)]
      simp
  | cons c p ih =>
    obtain ⟨x, h1, h2⟩ := ih
    rw [List.cons_append, List.cons_append, find]
    split
    · exact ⟨_, rfl, by simp⟩
    · rw [h1]
      exact ⟨_, rfl, by simp only [List.length_cons]; omega⟩

theorem starts_form {o : Options} {text pre src r : Bytes} {t : Term} (e : text = pre ++ src ++ r) (hf : Form (on o) pre src t) : starts o text = true := by
  have key : ∀ (w x : Bytes) (n : Nat), w ≠ [] → src = w ++ x → n < src.length → ((find w text).any fun y => y.1.length + n < text.length) = true := by
    intro w x n hw hs hl
    subst hs
    obtain ⟨y, h1, h2⟩ := find_here (w := w) (p := pre) (q := x ++ r) hw (by
      have := List.length_pos_iff.2 hw
      rw [List.length_append]
      omega)
    rw [e, show pre ++ (w ++ x) ++ r = pre ++ w ++ (x ++ r) by simp, h1]
    simp only [Option.any_some, decide_eq_true_eq, List.length_append] at hl ⊢
    omega
  unfold starts
  simp only [Bool.or_eq_true, Bool.and_eq_true]
  rcases hf with ⟨ho, h⟩ | ⟨ho, h⟩ | ⟨ho, h⟩
  · obtain ⟨x, hx, hl⟩ := mmark_head h
    exact Or.inl (Or.inl ⟨ho, key _ x 2 (by simp) hx (by rw [hx]; simp only [List.length_append, List.length_cons]; omega)⟩)
  · obtain ⟨x, hx, hl⟩ := textindex_head h
    exact Or.inl (Or.inr ⟨ho, key _ x 1 (by simp) hx (by rw [hx]; simp only [List.length_append, List.length_cons]; omega)⟩)
  · obtain ⟨x, hx, hl⟩ := leanpub_head h
    exact Or.inr ⟨ho, key _ x 4 (by simp) hx (by rw [hx]; simp only [List.length_append, List.length_cons, List.length_nil]; omega)⟩

theorem marked_none {o : Options} {text : Bytes} (hs : starts o text = false) {k : Nat} {pre s : Bytes} {ts : List Term} {out : Bytes}
    (h : Spec.Marked (on o) k pre s ts out) (e : text = pre ++ s) : ts = [] ∧ out = s := by
  induction h with
  | nil => exact ⟨rfl, rfl⟩
  | entry hf _ _ =>
    rw [starts_form (by rw [e, ← List.append_assoc]) hf] at hs
    cases hs
  | copy _ _ ih =>
    obtain ⟨rfl, rfl⟩ := ih (by rw [e]; simp)
    exact ⟨rfl, rfl⟩

/-- The pass as the specification says. -/
theorem process_marked {o : Options} {text : Bytes} {ts : List Term} {out : Bytes} (h : Spec.Marked (on o) 0 [] text ts out) :
    ∃ r, process o text = .val (r, (ts.zipIdx.map toEntry).reverse) ∧ r.getD text = out := by
  unfold process
  cases hs : starts o text with
  | false =>
    obtain ⟨rfl, rfl⟩ := marked_none hs h rfl
    exact ⟨none, rfl, rfl⟩
  | true =>
    have hl : 0 < text.length := by
      cases text with
      | nil => cases o with | mk a b c => revert hs; cases a <;> cases b <;> cases c <;> decide
      | cons c s => simp
    have := loop_marked h text.length [] (text.length * 2) [] (by omega) (by rw [List.length_nil]; omega)
    rw [List.reverse_nil] at this
    simp only [if_true]
    rw [this]
    exact ⟨some out, by rw [C.val_bind]; simp, rfl⟩

end Verif.Index
