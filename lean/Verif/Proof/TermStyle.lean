/- Lemmas about styles and terminals. -/
import Verif.Model.TermStyle
import Verif.Spec.TermStyle

namespace Verif.TermStyle
open Spec

theorem exec_append (t : Term) (a b : Bytes) : exec t (a ++ b) = ((exec (exec t a).1 b).1, (exec t a).2 ++ (exec (exec t a).1 b).2) := by
  induction a generalizing t with
  | nil => simp [exec]
  | cons c a ih => simp [exec, ih]

theorem Spec.Effect.nil : Effect [] id := fun _ => rfl

theorem Spec.Effect.append {a b : Bytes} {f g : Style → Style} (ha : Effect a f) (hb : Effect b g) : Effect (a ++ b) fun s => g (f s) := by
  intro s
  rw [exec_append, ha s]
  simp [hb (f s)]

/-- Digits add to the number. -/
theorem exec_digits (s : Style) (d : List Nat) (r : Bytes) : ∀ (ds : Bytes) (n : Nat), (∀ c ∈ ds, isDigit c = true) →
    exec (s, .nums d n) (ds ++ r) = exec (s, .nums d (ds.foldl (fun a c => a * 10 + (c.toNat - 48)) n)) r
  | [], _, _ => rfl
  | c :: ds, n, h => by
    have hc := h c (List.mem_cons_self ..)
    rw [List.cons_append, exec, step, if_pos hc]
    simp only
    rw [exec_digits s d r ds _ fun x hx => h x (List.mem_cons_of_mem _ hx)]
    simp

/-- Numbers in a command. -/
inductive Nums : Bytes → List Nat → Prop
  | one {d : Bytes} : (∀ c ∈ d, isDigit c = true) → Nums d [d.foldl (fun a c => a * 10 + (c.toNat - 48)) 0]
  | cons {d r : Bytes} {l : List Nat} : (∀ c ∈ d, isDigit c = true) → Nums r l → Nums (d ++ c!";" :: r) (d.foldl (fun a c => a * 10 + (c.toNat - 48)) 0 :: l)

theorem exec_nums {w : Bytes} {l : List Nat} (h : Nums w l) : ∀ (s : Style) (d : List Nat), exec (s, .nums d 0) (w ++ b!"m") = (ready (sgr (d ++ l) s), []) := by
  induction h with
  | one hd =>
    intro s d
    rw [exec_digits s d _ _ _ hd]
    rfl
  | @cons x r l hd _ ih =>
    intro s d
    rw [List.append_assoc, exec_digits s d _ _ _ hd, List.cons_append, exec, step, if_neg (by decide), if_pos rfl]
    simp only [ih]
    simp

theorem effect_seq {w : Bytes} {l : List Nat} (h : Nums w l) : Effect (seq w) (sgr l) := by
  intro s
  have e : seq w = b!"\x1b[" ++ (w ++ b!"m") := by simp [seq]
  rw [e, exec_append]
  have e2 : exec (ready s) b!"\x1b[" = ((s, .nums [] 0), []) := rfl
  rw [e2]
  simp only [exec_nums h]
  simp

theorem decimal_all : ∀ n < 256, (∀ c ∈ Man.decimal n, isDigit c = true) ∧ (Man.decimal n).foldl (fun a c => a * 10 + (c.toNat - 48)) 0 = n := by decide +kernel

theorem nums_decimal {n : Nat} (h : n < 256) : Nums (Man.decimal n) [n] := by
  have := Nums.one (decimal_all n h).1
  rwa [(decimal_all n h).2] at this

theorem effect_reset : Effect reset fun _ => {} := fun _ => rfl

theorem base_lt {s : Bytes} {n : Nat} (h : base s = some n) : n < 8 := by
  unfold base at h
  repeat' split at h
  all_goals first | (cases h; decide) | cases h

theorem code_lt {s : Bytes} {n : Nat} (h : code s = some n) : n < 108 := by
  unfold code at h
  cases hb : base (bright (ground s).2).2 with
  | none => simp [hb] at h
  | some b =>
    have := base_lt hb
    simp only [hb, Option.map_some, Option.some.injEq] at h
    subst h
    repeat' split
    all_goals omega

/-- A name has an effect, maybe none. -/
theorem effect_named (w : Bytes) : ∃ f, Effect (named w) f := by
  unfold named
  cases h : code w with
  | none => exact ⟨id, .nil⟩
  | some n => exact ⟨_, effect_seq (nums_decimal (by have := code_lt h; omega))⟩

theorem six_le (r : Nat) : six r ≤ 5 := Nat.min_le_left ..

theorem grey_le (r : Nat) : grey r ≤ 23 := Nat.min_le_left ..

theorem to256_le (r g b : Nat) : 16 ≤ to256 r g b ∧ to256 r g b ≤ 255 := by
  unfold to256
  have := six_le r; have := six_le g; have := six_le b; have := grey_le r
  repeat' split
  all_goals omega

theorem sgr_fg (n : Nat) : sgr [38, 5, n] = fun s => { s with fg := some n } := rfl

theorem sgr_bg (n : Nat) : sgr [48, 5, n] = fun s => { s with bg := some n } := rfl

theorem effect_rgb (bg : Bool) (r g b : Nat) : Effect (rgb true bg r g b) fun s => if bg then { s with bg := some (to256 r g b) } else { s with fg := some (to256 r g b) } := by
  have h : ∀ (p : Bytes) (k : Nat), (∀ c ∈ p, isDigit c = true) → p.foldl (fun a c => a * 10 + (c.toNat - 48)) 0 = k →
      Nums (p ++ b!";5;" ++ Man.decimal (to256 r g b)) [k, 5, to256 r g b] := by
    intro p k hp hk
    have h1 : Nums (Man.decimal (to256 r g b)) [to256 r g b] := nums_decimal (by have := to256_le r g b; omega)
    have h2 := Nums.cons (d := b!"5") (by decide) h1
    have h3 := Nums.cons hp h2
    rw [hk] at h3
    simpa using h3
  cases bg
  · have := effect_seq (h b!"38" 38 (by decide) rfl)
    simpa [rgb, sgr_fg, sgr_bg] using this
  · have := effect_seq (h b!"48" 48 (by decide) rfl)
    simpa [rgb, sgr_fg, sgr_bg] using this

/-- A word that is no number of the palette has an effect, maybe none. -/
theorem effect_token (wide : Bool) (w : Bytes) (h1 : b!"38;5;".isPrefixOf w = false) (h2 : b!"48;5;".isPrefixOf w = false) : ∃ f, Effect (token wide w) f := by
  have one : ∀ d : Bytes, (∀ c ∈ d, isDigit c = true) → ∃ f, Effect (seq d) f := fun d hd => ⟨_, effect_seq (.one hd)⟩
  unfold token
  by_cases c1 : w = []
  · rw [if_pos c1]; exact ⟨id, .nil⟩
  rw [if_neg c1]
  split
  · exact one _ (by decide)
  split
  · exact one _ (by decide)
  split
  · exact one _ (by decide)
  split
  · exact one _ (by decide)
  split
  · exact one _ (by decide)
  rw [h1, h2, if_neg (by decide)]
  split
  · split
    · cases wide
      · exact effect_named _
      · exact ⟨_, effect_rgb _ _ _ _⟩
    · exact effect_named _
  · exact effect_named _

theorem effect_flag (wide : Bool) {w : Bytes} {f : Style → Style} (h : Flag w f) : Effect (token wide w) f ∧ w.length < 64 := by
  cases h with
  | bold h => simp only [List.mem_cons, List.not_mem_nil, or_false] at h; rcases h with rfl | rfl <;> exact ⟨fun s => rfl, by decide⟩
  | dim h => simp only [List.mem_cons, List.not_mem_nil, or_false] at h; rcases h with rfl | rfl <;> exact ⟨fun s => rfl, by decide⟩
  | italic h => simp only [List.mem_cons, List.not_mem_nil, or_false] at h; rcases h with rfl | rfl <;> exact ⟨fun s => rfl, by decide⟩
  | under h => simp only [List.mem_cons, List.not_mem_nil, or_false] at h; rcases h with rfl | rfl | rfl <;> exact ⟨fun s => rfl, by decide⟩
  | reverse h => simp only [List.mem_cons, List.not_mem_nil, or_false] at h; rcases h with rfl | rfl | rfl <;> exact ⟨fun s => rfl, by decide⟩

/-- A word that is none of the others is looked up as a name. -/
theorem effect_name {wide : Bool} {w : Bytes} {n : Nat} {f : Style → Style} (h : token wide w = seq (Man.decimal n)) (hn : n < 256) (hf : sgr [n] = f) : Effect (token wide w) f := by
  rw [h, ← hf]
  exact effect_seq (nums_decimal hn)

theorem token_fg : ∀ wide : Bool, ∀ x ∈ colours, token wide x.1 = seq (Man.decimal (30 + x.2)) ∧ x.1.length < 64 ∧ x.2 < 8 := by decide +kernel
theorem token_bright : ∀ wide : Bool, ∀ p ∈ [b!"intense_", b!"bright_"], ∀ x ∈ colours, token wide (p ++ x.1) = seq (Man.decimal (90 + x.2)) ∧ (p ++ x.1).length < 64 := by decide +kernel
theorem token_bg : ∀ wide : Bool, ∀ x ∈ colours, token wide (b!"on_" ++ x.1) = seq (Man.decimal (40 + x.2)) ∧ (b!"on_" ++ x.1).length < 64 := by decide +kernel
theorem token_bgBright : ∀ wide : Bool, ∀ p ∈ [b!"intense_", b!"bright_"], ∀ x ∈ colours, token wide (b!"on_" ++ p ++ x.1) = seq (Man.decimal (100 + x.2)) ∧ (b!"on_" ++ p ++ x.1).length < 64 := by decide +kernel

theorem sgr_one : ∀ n < 8, sgr [30 + n] = (fun s => { s with fg := some n }) ∧ sgr [90 + n] = (fun s => { s with fg := some (8 + n) }) ∧
    sgr [40 + n] = (fun s => { s with bg := some n }) ∧ sgr [100 + n] = (fun s => { s with bg := some (8 + n) }) := by
  intro n hn
  match n, hn with
  | 0, _ => exact ⟨rfl, rfl, rfl, rfl⟩
  | 1, _ => exact ⟨rfl, rfl, rfl, rfl⟩
  | 2, _ => exact ⟨rfl, rfl, rfl, rfl⟩
  | 3, _ => exact ⟨rfl, rfl, rfl, rfl⟩
  | 4, _ => exact ⟨rfl, rfl, rfl, rfl⟩
  | 5, _ => exact ⟨rfl, rfl, rfl, rfl⟩
  | 6, _ => exact ⟨rfl, rfl, rfl, rfl⟩
  | 7, _ => exact ⟨rfl, rfl, rfl, rfl⟩

theorem effect_of_named (wide : Bool) {w : Bytes} {f : Style → Style} (h : Named w f) : Effect (token wide w) f ∧ w.length < 64 := by
  cases h with
  | @fg w n h =>
    have t := token_fg wide (w, n) h
    exact ⟨effect_name t.1 (by have := t.2.2; simp only at this; omega) (sgr_one n t.2.2).1, t.2.1⟩
  | @bright p w n hp h =>
    have t := token_bright wide p hp (w, n) h
    have l := (token_fg wide (w, n) h).2.2
    exact ⟨effect_name t.1 (by simp only at l ⊢; omega) (sgr_one n l).2.1, t.2⟩
  | @bg w n h =>
    have t := token_bg wide (w, n) h
    have l := (token_fg wide (w, n) h).2.2
    exact ⟨effect_name t.1 (by simp only at l ⊢; omega) (sgr_one n l).2.2.1, t.2⟩
  | @bgBright p w n hp h =>
    have t := token_bgBright wide p hp (w, n) h
    have l := (token_fg wide (w, n) h).2.2
    exact ⟨effect_name t.1 (by simp only at l ⊢; omega) (sgr_one n l).2.2.2, t.2⟩

theorem token_raw (wide : Bool) {p d : Bytes} (hp : p ∈ [b!"38;5;", b!"48;5;"]) : token wide (p ++ d) = seq (p ++ d) := by
  simp only [List.mem_cons, List.not_mem_nil, or_false] at hp
  rcases hp with rfl | rfl <;> simp [token]

theorem effect_raw (wide : Bool) {w : Bytes} {f : Style → Style} (h : Raw w f) : Effect (token wide w) f := by
  have nums : ∀ (p : Bytes) (k : Nat) (d : Bytes) (n : Nat), (∀ c ∈ p, isDigit c = true) → p.foldl (fun a c => a * 10 + (c.toNat - 48)) 0 = k → (∀ c ∈ d, isDigit c = true) →
      n = d.foldl (fun a c => a * 10 + (c.toNat - 48)) 0 → Nums (p ++ b!";5;" ++ d) [k, 5, n] := by
    intro p k d n hp hk hd hn
    have h1 := Nums.one hd
    have h2 := Nums.cons (d := b!"5") (by decide) h1
    have h3 := Nums.cons hp h2
    rw [hk] at h3
    subst hn
    simpa using h3
  cases h with
  | @fg d n hd hn =>
    rw [token_raw wide (by simp)]
    have := effect_seq (nums b!"38" 38 d n (by decide) rfl hd hn)
    simpa [sgr_fg, sgr_bg] using this
  | @bg d n hd hn =>
    rw [token_raw wide (by simp)]
    have := effect_seq (nums b!"48" 48 d n (by decide) rfl hd hn)
    simpa [sgr_fg, sgr_bg] using this

theorem effect_means (wide : Bool) {w : Bytes} {f : Style → Style} (h : Means w f) : Effect (token wide w) f ∧ w.length < 64 := by
  cases h with
  | flag h => exact effect_flag wide h
  | named h => exact effect_of_named wide h
  | raw l h => exact ⟨effect_raw wide h, l⟩

/-! ### Words -/

theorem words_space {c : Byte} (h : isSpace c = true) (t : Bytes) : words (c :: t) = words t := by
  unfold words
  rw [if_pos h]
  cases t <;> simp [words]

theorem words_last {c : Byte} (h : isSpace c = false) : words [c] = [[c]] := by
  simp [words, h]

theorem words_end {c d : Byte} (h : isSpace c = false) (hd : isSpace d = true) (t : Bytes) : words (c :: d :: t) = [c] :: words (d :: t) := by
  rw [words.eq_def]
  simp [h, hd]

theorem words_more {c d : Byte} (h : isSpace c = false) (hd : isSpace d = false) (t : Bytes) :
    words (c :: d :: t) = match words (d :: t) with | w :: ws => (c :: w) :: ws | [] => [[c]] := by
  rw [words.eq_def]
  cases hw : words (d :: t) <;> simp [h, hd] <;> rw [hw]

theorem words_gap {g : Bytes} (h : ∀ c ∈ g, isSpace c = true) (r : Bytes) : words (g ++ r) = words r := by
  induction g with
  | nil => rfl
  | cons c g ih => rw [List.cons_append, words_space (h c (List.mem_cons_self ..)), ih fun x hx => h x (List.mem_cons_of_mem _ hx)]

theorem words_word {r : Bytes} (hr : r = [] ∨ ∃ c t, r = c :: t ∧ isSpace c = true) : ∀ {w : Bytes}, w ≠ [] → (∀ c ∈ w, isSpace c = false) → words (w ++ r) = w :: words r
  | [], h, _ => absurd rfl h
  | [c], _, h => by
    rw [List.cons_append, List.nil_append]
    rcases hr with rfl | ⟨d, t, rfl, hd⟩
    · rw [words_last (h c (List.mem_cons_self ..))]; rfl
    · rw [words_end (h c (List.mem_cons_self ..)) hd]
  | c :: d :: w, _, h => by
    have ih := words_word hr (w := d :: w) (by simp) fun x hx => h x (List.mem_cons_of_mem _ hx)
    rw [List.cons_append] at ih
    rw [List.cons_append, List.cons_append, words_more (h c (List.mem_cons_self ..)) (h d (by simp)), ih]

theorem words_spaced {ws : List Bytes} {s : Bytes} (h : Spaced ws s) : words s = ws := by
  induction h with
  | nil h =>
    have := words_gap h []
    simpa [words] using this
  | cons hg hw hs _ hr ih => rw [List.append_assoc, words_gap hg, words_word hr hw hs, ih]

/-- The words of a style have no white space and are not empty. -/
theorem words_mem : ∀ {s w : Bytes}, w ∈ words s → w ≠ [] ∧ ∀ c ∈ w, isSpace c = false
  | [], _, h => by simp [words] at h
  | c :: t, w, h => by
    by_cases hc : isSpace c = true
    · rw [words_space hc] at h; exact words_mem h
    have hc' : isSpace c = false := by simpa using hc
    cases t with
    | nil =>
      rw [words_last hc', List.mem_singleton] at h
      subst h
      simpa using hc'
    | cons d t =>
      by_cases hd : isSpace d = true
      · rw [words_end hc' hd] at h
        rcases List.mem_cons.1 h with rfl | h
        · simpa using hc'
        · exact words_mem h
      · rw [words_more hc' (by simpa using hd)] at h
        cases e : words (d :: t) with
        | nil =>
          rw [e] at h
          simp only [List.mem_singleton] at h
          subst h
          simpa using hc'
        | cons v vs =>
          rw [e] at h
          rcases List.mem_cons.1 h with rfl | h
          · have := words_mem (s := d :: t) (w := v) (by rw [e]; simp)
            refine ⟨by simp, fun x hx => ?_⟩
            rcases List.mem_cons.1 hx with rfl | hx
            · exact hc'
            · exact this.2 x hx
          · exact words_mem (s := d :: t) (by rw [e]; exact List.mem_cons_of_mem _ h)

/-- Words are parts of the style. -/
theorem words_infix : ∀ {s w : Bytes}, w ∈ words s → w <:+: s
  | [], _, h => by simp [words] at h
  | c :: t, w, h => by
    have up : ∀ {v : Bytes}, v <:+: t → v <:+: c :: t := fun h => h.trans (List.suffix_cons c t).isInfix
    by_cases hc : isSpace c = true
    · rw [words_space hc] at h; exact up (words_infix h)
    have hc' : isSpace c = false := by simpa using hc
    have fst : ∀ {s w : Bytes} {ws : List Bytes}, words s = w :: ws → ∀ d t, s = d :: t → isSpace d = false → w <+: s := by
      intro s
      induction s with
      | nil => intro _ _ _ _ _ e; cases e
      | cons x s ih =>
        intro w ws hw d t e hd
        obtain ⟨rfl, rfl⟩ : x = d ∧ s = t := by simpa using e
        cases s with
        | nil =>
          rw [words_last hd] at hw
          obtain ⟨rfl, _⟩ : [x] = w ∧ _ := by simpa using hw
          exact List.prefix_rfl
        | cons y s =>
          by_cases hy : isSpace y = true
          · rw [words_end hd hy] at hw
            obtain ⟨rfl, _⟩ : [x] = w ∧ _ := by simpa using hw
            exact ⟨y :: s, rfl⟩
          · have hy' : isSpace y = false := by simpa using hy
            rw [words_more hd hy'] at hw
            cases e2 : words (y :: s) with
            | nil =>
              rw [e2] at hw
              obtain ⟨rfl, _⟩ : [x] = w ∧ _ := by simpa using hw
              exact ⟨y :: s, rfl⟩
            | cons v vs =>
              rw [e2] at hw
              obtain ⟨rfl, _⟩ : x :: v = w ∧ _ := by simpa using hw
              exact (List.cons_prefix_cons).2 ⟨rfl, ih e2 y s rfl hy'⟩
    cases e : words (c :: t) with
    | nil => rw [e] at h; cases h
    | cons v vs =>
      rw [e] at h
      rcases List.mem_cons.1 h with rfl | h
      · exact (fst e c t rfl hc').isInfix
      · cases t with
        | nil => rw [words_last hc'] at e; cases e; exact absurd ‹_ ∈ ([] : List Bytes)› List.not_mem_nil
        | cons d t =>
          by_cases hd : isSpace d = true
          · rw [words_end hc' hd] at e
            obtain ⟨_, rfl⟩ : _ ∧ words (d :: t) = vs := by simpa using e
            exact up (words_infix h)
          · rw [words_more hc' (by simpa using hd)] at e
            cases e2 : words (d :: t) with
            | nil => rw [e2] at e; cases e; exact absurd ‹_ ∈ ([] : List Bytes)› List.not_mem_nil
            | cons u us =>
              rw [e2] at e
              obtain ⟨_, rfl⟩ : _ ∧ us = vs := by simpa using e
              exact up (words_infix (s := d :: t) (by rw [e2]; exact List.mem_cons_of_mem _ h))

theorem effect_flatMap (wide : Bool) : ∀ ps : List (Bytes × (Style → Style)), (∀ p ∈ ps, Effect (token wide (p.1.take 63)) p.2) →
    Effect ((ps.map Prod.fst).flatMap fun w => token wide (w.take 63)) fun s => ps.foldl (fun s p => p.2 s) s
  | [], _ => .nil
  | p :: ps, h => by
    have := (h p (List.mem_cons_self ..)).append (effect_flatMap wide ps fun q hq => h q (List.mem_cons_of_mem _ hq))
    simpa using this

/-- A style without numbers of the palette that are none has an effect. -/
theorem effect_style (wide : Bool) (s : Bytes) (h : ∀ w ∈ words s, ∃ f, Effect (token wide (w.take 63)) f) : ∃ f, Effect (style wide s) f := by
  unfold style
  generalize words s = ws at h
  induction ws with
  | nil => exact ⟨id, .nil⟩
  | cons w ws ih =>
    obtain ⟨f, hf⟩ := h w (List.mem_cons_self ..)
    obtain ⟨g, hg⟩ := ih fun v hv => h v (List.mem_cons_of_mem _ hv)
    exact ⟨_, by rw [List.flatMap_cons]; exact hf.append hg⟩

/-! ### Colours in hexadecimal -/

theorem nibble_digit : ∀ x ∈ digits, nibble x.1 = some x.2 ∧ x.2 < 16 ∧ x.1 ≠ c!"#" ∧ isSpace x.1 = false := by decide +kernel

theorem hexRgb_hex {h : Bytes} {r g b : Nat} (hh : Hex h r g b) : hexRgb h = some (r, g, b) ∧ hexRgb (c!"#" :: h) = some (r, g, b) ∧ r < 256 ∧ g < 256 ∧ b < 256 := by
  cases hh with
  | @three r g b x y z h1 h2 h3 =>
    obtain ⟨a1, b1, c1, _⟩ := nibble_digit _ h1
    obtain ⟨a2, b2, c2, _⟩ := nibble_digit _ h2
    obtain ⟨a3, b3, c3, _⟩ := nibble_digit _ h3
    simp only at a1 a2 a3 b1 b2 b3 c1
    refine ⟨?_, ?_, by omega, by omega, by omega⟩
    · simp only [hexRgb, List.head?_cons, Option.some.injEq, c1, if_false, a1, a2, a3, Option.bind_eq_bind, Option.bind_some, Prod.mk.injEq]
      omega
    · simp only [hexRgb, List.head?_cons, if_true, List.drop_succ_cons, List.drop_zero, a1, a2, a3, Option.bind_eq_bind, Option.bind_some, Option.some.injEq, Prod.mk.injEq]
      omega
  | @six r r' g g' b b' x x' y y' z z' h1 h1' h2 h2' h3 h3' =>
    obtain ⟨a1, b1, c1, _⟩ := nibble_digit _ h1
    obtain ⟨a2, b2, _, _⟩ := nibble_digit _ h2
    obtain ⟨a3, b3, _, _⟩ := nibble_digit _ h3
    obtain ⟨a1', b1', _, _⟩ := nibble_digit _ h1'
    obtain ⟨a2', b2', _, _⟩ := nibble_digit _ h2'
    obtain ⟨a3', b3', _, _⟩ := nibble_digit _ h3'
    simp only at a1 a2 a3 a1' a2' a3' b1 b2 b3 b1' b2' b3' c1
    refine ⟨?_, ?_, by omega, by omega, by omega⟩
    · simp only [hexRgb, List.head?_cons, Option.some.injEq, c1, if_false, a1, a2, a3, a1', a2', a3', Option.bind_eq_bind, Option.bind_some, Prod.mk.injEq]
      omega
    · simp only [hexRgb, List.head?_cons, if_true, List.drop_succ_cons, List.drop_zero, a1, a2, a3, a1', a2', a3', Option.bind_eq_bind, Option.bind_some, Option.some.injEq, Prod.mk.injEq]
      omega

theorem hex_ne {h : Bytes} {r g b : Nat} (hh : Hex h r g b) : h.length = 3 ∨ h.length = 6 := by
  cases hh <;> simp

/-- Words of colours in hexadecimal. -/
theorem token_hash (wide : Bool) {h : Bytes} {r g b : Nat} (hh : Hex h r g b) : token wide (c!"#" :: h) = rgb wide false r g b := by
  have e := (hexRgb_hex hh).2.1
  simp [token, hexPart, e]

theorem token_on (wide : Bool) {h : Bytes} {r g b : Nat} (hh : Hex h r g b) : token wide (b!"on_" ++ h) = rgb wide true r g b := by
  have e := (hexRgb_hex hh).1
  simp [token, hexPart, e]

theorem token_bgHex (wide : Bool) {h : Bytes} {r g b : Nat} (hh : Hex h r g b) : token wide (b!"bg" ++ h) = rgb wide true r g b := by
  have e := (hexRgb_hex hh).1
  simp [token, hexPart, e]

theorem six_near : ∀ r < 256, Near 69 (level (six r)) r := by decide +kernel

theorem grey_near : ∀ r < 256, 8 ≤ r → r ≤ 248 → Near 11 (8 + 10 * grey r) r := by decide +kernel

theorem palette_cube : ∀ x < 6, ∀ y < 6, ∀ z < 6, palette (16 + 36 * x + 6 * y + z) = (level x, level y, level z) := by decide +kernel

theorem to256_near {r g b : Nat} (hr : r < 256) (hg : g < 256) (hb : b < 256) :
    Near 69 (palette (to256 r g b)).1 r ∧ Near 69 (palette (to256 r g b)).2.1 g ∧ Near 69 (palette (to256 r g b)).2.2 b ∧
      (r = g → g = b → (palette (to256 r g b)).1 = (palette (to256 r g b)).2.1 ∧ (palette (to256 r g b)).2.1 = (palette (to256 r g b)).2.2 ∧ Near 11 (palette (to256 r g b)).1 r) := by
  unfold to256
  by_cases h : r = g ∧ g = b
  · obtain ⟨rfl, rfl⟩ := h
    rw [if_pos ⟨rfl, rfl⟩]
    have e16 : palette 16 = (0, 0, 0) := rfl
    have e231 : palette 231 = (255, 255, 255) := rfl
    by_cases h1 : r < 8
    · rw [if_pos h1, e16]
      refine ⟨?_, ?_, ?_, fun _ _ => ⟨rfl, rfl, ?_⟩⟩ <;> simp only [Near] <;> omega
    rw [if_neg h1]
    by_cases h2 : r > 248
    · rw [if_pos h2, e231]
      refine ⟨?_, ?_, ?_, fun _ _ => ⟨rfl, rfl, ?_⟩⟩ <;> simp only [Near] <;> omega
    rw [if_neg h2]
    have := grey_near r hr (by omega) (by omega)
    have e : palette (232 + grey r) = (8 + 10 * grey r, 8 + 10 * grey r, 8 + 10 * grey r) := by
      unfold palette
      rw [if_neg (by omega)]
      simp
    rw [e]
    refine ⟨?_, ?_, ?_, fun _ _ => ⟨rfl, rfl, this⟩⟩ <;> simp only [Near] at this ⊢ <;> omega
  · rw [if_neg h, palette_cube _ (by have := six_le r; omega) _ (by have := six_le g; omega) _ (by have := six_le b; omega)]
    exact ⟨six_near r hr, six_near g hg, six_near b hb, fun h1 h2 => absurd ⟨h1, h2⟩ h⟩

end Verif.TermStyle
