/-
Helper lemmas for C161 and C162.
-/
import Verif.Spec.Citations
import Verif.Proof.Index

namespace Verif.Citations
open Spec
open Index (span_stop span_all span_split)
open Embed (find)

theorem white_iff (c : Byte) : isSpace c = true ↔ White c := by
  unfold White
  revert c
  apply forall_byte
  decide +kernel

theorem keyByte_iff (c : Byte) : valid c = true ↔ KeyByte c := by
  simp [valid, KeyByte]

theorem keyByte_false (c : Byte) : valid c = false ↔ ¬ KeyByte c := by
  rw [← keyByte_iff, Bool.not_eq_true]

theorem start_valid {c : Byte} (h : isAlnum c = true ∨ c = c!"_") : valid c = true := by
  rcases h with h | rfl
  · simp [valid, h]
  · decide

theorem brace_key : valid c!"}" = false ∧ valid c!"{" = false := by decide

/-- A run of bytes, and what is behind it. -/
theorem span_iff {p : Byte → Bool} {a r : Bytes} (ha : ∀ x ∈ a, p x = true) (hr : Ends (fun c => p c = true) r) :
    (a ++ r).takeWhile p = a ∧ (a ++ r).dropWhile p = r := by
  cases r with
  | nil => rw [List.append_nil]; exact span_all ha
  | cons c r => exact span_stop ha (by simpa using hr c r rfl)

theorem key_of {s k r : Bytes} (h : Key s k r) : key s = some (k, r) := by
  cases h with
  | @plain c k r hc hk hr =>
    have h2 := span_iff (p := valid) (a := c :: k) (r := r) (by
      intro x hx
      rcases List.mem_cons.1 hx with rfl | hx
      · exact start_valid hc
      · exact (keyByte_iff x).2 (hk x hx)) (fun d t e hd => hr d t e ((keyByte_iff d).1 hd))
    rw [show [c] ++ k ++ r = c :: (k ++ r) from rfl, key, if_pos (by simpa using hc)]
    rw [← List.cons_append, h2.1, h2.2]
    rfl
  | @braced k r h0 hk =>
    have h2 := span_stop (p := valid) (a := k) (b := r) (fun x hx => (keyByte_iff x).2 (hk x hx)) brace_key.1
    rw [show b!"{" ++ k ++ b!"}" ++ r = c!"{" :: (k ++ c!"}" :: r) from by simp, key, if_neg (by decide), if_pos rfl, h2.1, h2.2]
    simp [h0]

theorem of_key {s k r : Bytes} (h : key s = some (k, r)) : Key s k r := by
  unfold key at h
  cases s with
  | nil => simp at h
  | cons c t =>
    simp only [] at h
    split at h
    · rename_i hc
      obtain ⟨a, b, e, h1, h2, h3, h4⟩ := span_split valid (c :: t)
      rw [h3, h4] at h
      simp only [Option.some.injEq, Prod.mk.injEq] at h
      obtain ⟨rfl, rfl⟩ := h
      have hc : isAlnum c = true ∨ c = c!"_" := by simpa using hc
      cases a with
      | nil =>
        have : (c :: t).dropWhile valid = t.dropWhile valid := by rw [List.dropWhile_cons_of_pos (start_valid hc)]
        rw [h4] at this
        have h5 := congrArg List.length this
        have h6 := (List.dropWhile_suffix valid (l := t)).length_le
        rw [List.nil_append] at e
        rw [← e, List.length_cons] at h5
        omega
      | cons x a =>
        have e' := e
        rw [List.cons_append, List.cons.injEq] at e'
        obtain ⟨rfl, rfl⟩ := e'
        refine Key.plain (c := c) (k := a) hc (fun y hy => (keyByte_iff y).1 (h1 y (by simp [hy]))) ?_
        intro d z ez hd
        rcases h2 with rfl | ⟨d', z', rfl, hd'⟩
        · simp at ez
        · simp only [List.cons.injEq] at ez
          obtain ⟨rfl, rfl⟩ := ez
          exact (keyByte_false d').1 hd' hd
    · split at h
      · rename_i hc
        subst hc
        obtain ⟨a, b, e, h1, h2, h3, h4⟩ := span_split valid t
        rw [h3, h4] at h
        cases b with
        | nil => simp at h
        | cons d b =>
          simp only [] at h
          split at h
          · rename_i hd
            simp only [Option.some.injEq, Prod.mk.injEq] at h
            obtain ⟨rfl, rfl⟩ := h
            obtain ⟨rfl, h0⟩ := hd
            subst e
            have := Key.braced (k := a) (r := b) h0 (fun y hy => (keyByte_iff y).1 (h1 y hy))
            simpa using this
          · simp at h
      · simp at h

theorem key_iff {s k r : Bytes} : key s = some (k, r) ↔ Key s k r := ⟨of_key, key_of⟩

/-- A key is not empty, and takes at least one byte. -/
theorem key_length {s k r : Bytes} (h : Key s k r) : k ≠ [] ∧ ∃ x, s = x ++ r ∧ x ≠ [] := by
  cases h with
  | @plain c k r _ _ _ => exact ⟨by simp, [c] ++ k, rfl, by simp⟩
  | @braced k r h0 _ => exact ⟨h0, b!"{" ++ k ++ b!"}", by simp, by simp⟩

theorem mmarkByte_iff (c : Byte) : mmarkByte c = true ↔ isAlnum c = true ∨ c ∈ b!".-#" := by
  simp [mmarkByte, or_assoc]

/-- The bytes of the names of standards. -/
def NameByte (c : Byte) : Prop := isAlnum c = true ∨ c ∈ b!".-#"

theorem digit_alnum {c : Byte} (h : isDigit c = true) : isAlnum c = true := by
  revert c
  apply forall_byte
  decide +kernel

/-- The pattern is that of a standard, at the front. -/
theorem pattern_iff {k r : Bytes} (hk : ∀ x ∈ k, NameByte x) (hr : Ends NameByte r) : pattern (k ++ r) = true ↔ Standard k := by
  have pre : ∀ p : Bytes, (∀ x ∈ p, NameByte x) → (p <+: k ++ r ↔ p <+: k) := by
    intro p hp
    constructor
    · intro h
      rcases Nat.le_total p.length k.length with hl | hl
      · exact List.prefix_of_prefix_length_le h (List.prefix_append k r) hl
      · obtain ⟨z, hz⟩ := List.prefix_of_prefix_length_le (List.prefix_append k r) h hl
        obtain ⟨y, hy⟩ := h
        cases z with
        | nil => rw [← hz, List.append_nil]; exact List.prefix_refl k
        | cons c z =>
          exfalso
          rw [← hz, List.append_assoc] at hy
          have := List.append_cancel_left hy
          exact hr c (z ++ y) this.symm (hp c (by rw [← hz]; simp))
    · exact fun h => h.trans (List.prefix_append k r)
  have name : ∀ p ∈ [b!"RFC", b!"BCP", b!"STD", b!"I-D.", b!"W3C."], ∀ x ∈ p, NameByte x := by
    unfold NameByte
    decide +kernel
  unfold pattern Standard
  simp only [Bool.and_eq_true, Bool.or_eq_true, decide_eq_true_eq, List.any_eq_true, List.isPrefixOf_iff_prefix]
  constructor
  · rintro ⟨_, (⟨p, hp, h1, h2⟩ | h) | h⟩
    · refine ⟨hk, Or.inl ⟨p, hp, ?_⟩⟩
      have hp' : ∀ x ∈ p, NameByte x := name p (by
        simp only [List.mem_cons, List.not_mem_nil, or_false] at hp ⊢
        rcases hp with h | h | h <;> simp [h])
      have hl : p.length = 3 := by
        simp only [List.mem_cons, List.not_mem_nil, or_false] at hp
        rcases hp with rfl | rfl | rfl <;> rfl
      obtain ⟨z, rfl⟩ := (pre p hp').1 h1
      rw [List.append_assoc, List.drop_left' hl] at h2
      cases z with
      | nil =>
        exfalso
        cases r with
        | nil => simp at h2
        | cons c r =>
          simp only [List.nil_append, List.head?_cons, Option.any_some] at h2
          exact hr c r rfl (Or.inl (digit_alnum h2))
      | cons d z => exact ⟨d, z, rfl, by simpa using h2⟩
    · exact ⟨hk, Or.inr ⟨b!"I-D.", by simp, (pre _ (name _ (by simp))).1 h⟩⟩
    · exact ⟨hk, Or.inr ⟨b!"W3C.", by simp, (pre _ (name _ (by simp))).1 h⟩⟩
  · rintro ⟨_, ⟨p, hp, d, t, rfl, hd⟩ | ⟨p, hp, h⟩⟩
    · have hl : p.length = 3 := by
        simp only [List.mem_cons, List.not_mem_nil, or_false] at hp
        rcases hp with rfl | rfl | rfl <;> rfl
      refine ⟨by simp only [List.length_append, List.length_cons]; omega, Or.inl (Or.inl ⟨p, hp, by simp, ?_⟩)⟩
      rw [List.append_assoc, List.drop_left' hl]
      simpa using hd
    · have hl : p.length = 4 := by
        simp only [List.mem_cons, List.not_mem_nil, or_false] at hp
        rcases hp with rfl | rfl <;> rfl
      refine ⟨by have := h.length_le; rw [List.length_append]; omega, ?_⟩
      have h' := h.trans (List.prefix_append k r)
      simp only [List.mem_cons, List.not_mem_nil, or_false] at hp
      rcases hp with rfl | rfl
      · exact Or.inl (Or.inr h')
      · exact Or.inr h'

/-- A standard begins with a letter. -/
theorem standard_head {k : Bytes} (h : Standard k) : ∃ c t, k = c :: t ∧ c ≠ c!"!" ∧ c ≠ c!"?" ∧ c ≠ c!"-" := by
  rcases h.2 with ⟨p, hp, d, t, rfl, _⟩ | ⟨p, hp, z, rfl⟩
  · simp only [List.mem_cons, List.not_mem_nil, or_false] at hp
    rcases hp with rfl | rfl | rfl <;> exact ⟨_, _, rfl, by decide, by decide, by decide⟩
  · simp only [List.mem_cons, List.not_mem_nil, or_false] at hp
    rcases hp with rfl | rfl <;> exact ⟨_, _, rfl, by decide, by decide, by decide⟩

/-- The end of a citation of mmark. -/
def mmarkEnd (sup : Bool) (s : Bytes) : Option (Citation × Bytes) :=
  if pattern s then
    match (match s.dropWhile mmarkByte with
      | c :: r' => if c = c!";" then r' else s.dropWhile mmarkByte
      | [] => s.dropWhile mmarkByte) with
    | c :: r => if c = c!"]" ∧ s.takeWhile mmarkByte ≠ [] then some ({ key := s.takeWhile mmarkByte, suppressed := sup }, r) else none
    | [] => none
  else none

theorem mmarkEnd_iff {sup : Bool} {s r : Bytes} {x : Citation} : mmarkEnd sup s = some (x, r) ↔
    ∃ k e, Standard k ∧ e ∈ [[], b!";"] ∧ s = k ++ e ++ b!"]" ++ r ∧ x = { key := k, suppressed := sup } := by
  obtain ⟨a, z, es, ha, hz, h3, h4⟩ := span_split mmarkByte s
  have hz' : Ends NameByte z := by
    intro d t e hd
    rcases hz with rfl | ⟨c, b, rfl, hc⟩
    · simp at e
    · simp only [List.cons.injEq] at e
      rw [e.1] at hc
      rw [(mmarkByte_iff d).2 hd] at hc
      simp at hc
  have ha' : ∀ x ∈ a, NameByte x := fun x hx => (mmarkByte_iff x).1 (ha x hx)
  unfold mmarkEnd
  rw [h3, h4]
  constructor
  · intro h
    split at h
    · rename_i hp
      rw [es] at hp
      have hst := (pattern_iff ha' hz').1 hp
      split at h
      · rename_i c q hq
        split at h
        · rename_i hc
          simp only [Option.some.injEq, Prod.mk.injEq] at h
          obtain ⟨rfl, rfl⟩ := h
          obtain ⟨rfl, -⟩ := hc
          cases z with
          | nil => simp at hq
          | cons d z =>
            simp only [] at hq
            split at hq
            · rename_i hd
              subst hd hq
              exact ⟨a, b!";", hst, by simp, by simpa using es, rfl⟩
            · rw [hq] at es
              exact ⟨a, [], hst, by simp, by simpa using es, rfl⟩
        · simp at h
      · simp at h
    · simp at h
  · rintro ⟨k, e, hk, he, e2, rfl⟩
    have hz2 : Ends NameByte (e ++ b!"]" ++ r) := by
      intro d t ed hd
      simp only [List.mem_cons, List.not_mem_nil, or_false] at he
      rcases he with rfl | rfl <;>
      · simp only [List.nil_append, List.cons_append, List.cons.injEq] at ed
        rw [← ed.1] at hd
        revert hd
        unfold NameByte
        decide
    have hk2 : ∀ x ∈ k, NameByte x := hk.1
    have sp := span_iff (p := mmarkByte) (a := k) (r := e ++ b!"]" ++ r) (fun x hx => (mmarkByte_iff x).2 (hk2 x hx))
      (fun d t ed hd => hz2 d t ed ((mmarkByte_iff d).1 hd))
    rw [← List.append_assoc, ← List.append_assoc, ← e2, h3, h4] at sp
    obtain ⟨rfl, rfl⟩ := sp
    have h0 : a ≠ [] := by
      obtain ⟨c, t, rfl, _⟩ := standard_head hk
      simp
    rw [if_pos (by rw [es]; exact (pattern_iff ha' hz').2 hk)]
    simp only [List.mem_cons, List.not_mem_nil, or_false] at he
    rcases he with rfl | rfl
    · simp [h0]
    · simp [h0]

theorem mmarkEnd_short {sup : Bool} {s : Bytes} (h : s.length ≤ 3) : mmarkEnd sup s = none := by
  unfold mmarkEnd
  rw [if_neg]
  unfold pattern
  rw [decide_eq_false (by omega), Bool.false_and]
  simp

theorem mmark_eq (t : Bytes) : mmark (b!"[@" ++ t) = match t with
    | c :: r => if c = c!"!" ∨ c = c!"?" ∨ c = c!"-" then mmarkEnd (c == c!"-") r else mmarkEnd false t
    | [] => none := by
  rw [show b!"[@" ++ t = c!"[" :: c!"@" :: t from rfl]
  unfold mmark
  cases t with
  | nil => rfl
  | cons c r =>
    simp only []
    by_cases hl : 3 < (c!"[" :: c!"@" :: c :: r).length
    · rw [if_pos ⟨hl, trivial, trivial⟩]
      by_cases hc : c = c!"!" ∨ c = c!"?" ∨ c = c!"-"
      · rw [if_pos hc, if_pos hc]
        rfl
      · rw [if_neg hc, if_neg hc]
        rfl
    · rw [if_neg (by simp only [hl, false_and]; trivial)]
      simp only [List.length_cons] at hl
      rw [mmarkEnd_short (by omega), mmarkEnd_short (by simp only [List.length_cons]; omega)]
      simp

theorem mmark_front {s r : Bytes} {x : Citation} (h : mmark s = some (x, r)) : ∃ t, s = b!"[@" ++ t := by
  unfold mmark at h
  split at h
  · split at h
    · rename_i hc
      exact ⟨_, by rw [hc.2.1, hc.2.2]; rfl⟩
    · simp at h
  · simp at h

theorem mmark_iff {s r : Bytes} {x : Citation} : mmark s = some (x, r) ↔ Mmark s x r := by
  constructor
  · intro h
    obtain ⟨t, rfl⟩ := mmark_front h
    rw [mmark_eq] at h
    split at h
    · rename_i c q
      split at h
      · rename_i hc
        obtain ⟨k, e, hk, he, rfl, rfl⟩ := mmarkEnd_iff.1 h
        exact ⟨[c], k, e, by rcases hc with rfl | rfl | rfl <;> simp, hk, he, by simp, by
          rcases hc with rfl | rfl | rfl <;> rfl⟩
      · obtain ⟨k, e, hk, he, e2, rfl⟩ := mmarkEnd_iff.1 h
        exact ⟨[], k, e, by simp, hk, he, by rw [e2]; simp, rfl⟩
    · simp at h
  · rintro ⟨m, k, e, hm, hk, he, rfl, rfl⟩
    rw [List.append_assoc, List.append_assoc, List.append_assoc, List.append_assoc, mmark_eq]
    simp only [List.mem_cons, List.not_mem_nil, or_false] at hm
    obtain ⟨c, t, rfl, h1, h2, h3⟩ := standard_head hk
    rcases hm with rfl | rfl | rfl | rfl
    · simp only [List.nil_append, List.cons_append]
      rw [if_neg (by simp only [h1, h2, h3, or_self]; trivial)]
      exact mmarkEnd_iff.2 ⟨c :: t, e, hk, he, by simp, rfl⟩
    all_goals
      simp only [List.nil_append, List.cons_append]
      rw [if_pos (by simp)]
      exact mmarkEnd_iff.2 ⟨c :: t, e, hk, he, by simp, rfl⟩

theorem before_iff {back : Bytes} {l : Option Bytes} : locatorBefore back = l ↔ Before back.reverse l := by
  have key : ∀ {x a : Bytes}, c!"[" ∉ x → (x.reverse ++ c!"[" :: a).takeWhile (· != c!"[") = x.reverse := fun {x a} hx =>
    (span_stop (fun y hy => by
      rw [List.mem_reverse] at hy
      simp only [bne_iff_ne, ne_eq]
      rintro rfl
      exact hx hy) (by simp)).1
  have rev : ∀ {a x : Bytes}, back.reverse = a ++ b!"[" ++ x ++ b!"]" → back = c!"]" :: (x.reverse ++ c!"[" :: a.reverse) := by
    intro a x e
    rw [← List.reverse_reverse back, e]
    simp
  constructor
  · rintro rfl
    unfold locatorBefore
    split
    · rename_i c t
      split
      · rename_i hc
        obtain ⟨rfl, hm, h0⟩ := hc
        obtain ⟨a, z, e, h1, h2, h3, h4⟩ := span_split (· != c!"[") t
        rcases h2 with rfl | ⟨d, b, rfl, hd⟩
        · rw [List.append_nil] at e
          have := h1 _ (e ▸ hm)
          simp at this
        · have hd : d = c!"[" := by simpa using hd
          subst hd
          rw [h3] at h0 ⊢
          exact Or.inl ⟨b.reverse, a.reverse, by rw [e]; simp, by
            intro hm'
            rw [List.mem_reverse] at hm'
            have := h1 _ hm'
            simp at this, by simpa using h0, rfl⟩
      · rename_i hc
        refine Or.inr ⟨fun a x e hx => ?_, rfl⟩
        have e' := rev e
        simp only [List.cons.injEq] at e'
        obtain ⟨rfl, rfl⟩ := e'
        rw [key hx] at hc
        have : ¬ x ≠ [] := fun h0 => hc ⟨rfl, by simp, by simpa using h0⟩
        simpa using this
    · exact Or.inr ⟨fun a x e _ => by simp at e, rfl⟩
  · rintro (⟨a, x, e, hx, h0, rfl⟩ | ⟨h, rfl⟩)
    · have e' := rev e
      subst e'
      unfold locatorBefore
      simp only []
      rw [key hx, if_pos ⟨trivial, by simp, by simpa using h0⟩, List.reverse_reverse]
    · unfold locatorBefore
      split
      · rename_i c t
        rw [if_neg]
        rintro ⟨rfl, hm, h0⟩
        obtain ⟨a, z, e, h1, h2, h3, h4⟩ := span_split (· != c!"[") t
        rcases h2 with rfl | ⟨d, b, rfl, hd⟩
        · rw [List.append_nil] at e
          have := h1 _ (e ▸ hm)
          simp at this
        · have hd : d = c!"[" := by simpa using hd
          subst hd
          have := h b.reverse a.reverse (by rw [e]; simp) (by
            intro hm'
            rw [List.mem_reverse] at hm'
            have := h1 _ hm'
            simp at this)
          rw [h3] at h0
          exact h0 (by simpa using this)
      · rfl

theorem mmd_iff {back s r : Bytes} {x : Citation} : mmd back s = some (x, r) ↔ Mmd back.reverse s x r := by
  unfold mmd Mmd
  constructor
  · intro h
    split at h
    · rename_i a b t
      split at h
      · rename_i hc
        obtain ⟨_, rfl, rfl⟩ := hc
        split at h
        · rename_i k c q hk
          split at h
          · rename_i hc
            subst hc
            simp only [Option.some.injEq, Prod.mk.injEq] at h
            obtain ⟨rfl, rfl⟩ := h
            exact ⟨t, k, _, rfl, key_iff.1 hk, before_iff.1 rfl, rfl⟩
          · simp at h
        · simp at h
      · simp at h
    · simp at h
  · rintro ⟨t, k, l, rfl, hk, hl, rfl⟩
    have h0 : 0 < t.length := by
      obtain ⟨_, y, rfl, hy⟩ := key_length hk
      have := List.length_pos_iff.2 hy
      rw [List.length_append]
      omega
    simp only [List.cons_append, List.nil_append]
    rw [if_pos ⟨by simp only [List.length_cons]; omega, trivial, trivial⟩, key_iff.2 hk]
    simp [before_iff.2 hl]

theorem inText_iff {s r : Bytes} {x : Citation} : inText s = some (x, r) ↔ InText (b!"@" ++ s) x r := by
  constructor
  · intro h
    unfold inText at h
    split at h
    · simp at h
    · rename_i k q hk
      have hk := key_iff.1 hk
      simp only [] at h
      obtain ⟨w, z, rfl, h1, h2, h3, h4⟩ := span_split isSpace q
      rw [h4] at h
      have hw : ∀ c ∈ w, White c := fun c hc => (white_iff c).1 (h1 c hc)
      have hz : Ends White z := by
        intro d t e hd
        rcases h2 with rfl | ⟨c, b, rfl, hc⟩
        · simp at e
        · simp only [List.cons.injEq] at e
          rw [e.1, (white_iff d).2 hd] at hc
          simp at hc
      cases z with
      | nil =>
        simp only [Option.some.injEq, Prod.mk.injEq] at h
        obtain ⟨rfl, rfl⟩ := h
        exact ⟨s, k, w, rfl, hw, Or.inr ⟨hk, hz, by simp, rfl⟩⟩
      | cons c t =>
        simp only [] at h
        split at h
        · rename_i hc
          obtain ⟨rfl, hm⟩ := hc
          simp only [Option.some.injEq, Prod.mk.injEq] at h
          obtain ⟨rfl, rfl⟩ := h
          obtain ⟨l, y, rfl, g1, g2, g3, g4⟩ := span_split (· != c!"]") t
          have g5 : c!"]" ∉ l := fun hm' => by
            have := g1 _ hm'
            simp at this
          rcases g2 with rfl | ⟨d, b, rfl, hd⟩
          · rw [List.append_nil] at hm
            exact absurd hm g5
          · have hd : d = c!"]" := by simpa using hd
            subst hd
            rw [g3, g4]
            exact ⟨s, k, w, rfl, hw, Or.inl ⟨l, by simpa using hk, g5, rfl⟩⟩
        · rename_i hc
          simp only [Option.some.injEq, Prod.mk.injEq] at h
          obtain ⟨rfl, rfl⟩ := h
          refine ⟨s, k, w, rfl, hw, Or.inr ⟨hk, hz, fun l y e => ?_, rfl⟩⟩
          simp only [List.cons_append, List.nil_append, List.cons.injEq] at e
          exact hc ⟨e.1, by rw [e.2]; simp⟩
  · rintro ⟨t, k, w, e, hw, h⟩
    rw [List.append_cancel_left e]
    have hw' : ∀ c ∈ w, isSpace c = true := fun c hc => (white_iff c).2 (hw c hc)
    rcases h with ⟨l, hk, hl, rfl⟩ | ⟨hk, hz, hn, rfl⟩
    · unfold inText
      rw [key_iff.2 hk]
      simp only []
      rw [show w ++ b!"[" ++ l ++ b!"]" ++ r = w ++ c!"[" :: (l ++ c!"]" :: r) by simp, (span_stop (p := isSpace) (c := c!"[") (b := l ++ c!"]" :: r) hw' (by decide)).2]
      simp only []
      rw [if_pos ⟨trivial, by simp⟩]
      have := span_stop (p := (· != c!"]")) (a := l) (b := r) (c := c!"]") (fun y hy => by
        simp only [bne_iff_ne, ne_eq]
        rintro rfl
        exact hl hy) (by simp)
      rw [this.1, this.2]
      rfl
    · unfold inText
      rw [key_iff.2 hk]
      simp only []
      rw [(span_iff hw' (fun d t e hd => hz d t e ((white_iff d).1 hd))).2]
      cases r with
      | nil => rfl
      | cons c r =>
        simp only []
        rw [if_neg]
        rintro ⟨rfl, hm⟩
        obtain ⟨a, b, rfl⟩ := List.append_of_mem hm
        exact hn a b (by simp)

/-- A prefix does not reach behind bytes that it does not have. -/
theorem prefix_of {P : Byte → Prop} {p k r : Bytes} (hp : ∀ x ∈ p, P x) (hr : Ends P r) : p <+: k ++ r ↔ p <+: k := by
  constructor
  · intro h
    rcases Nat.le_total p.length k.length with hl | hl
    · exact List.prefix_of_prefix_length_le h (List.prefix_append k r) hl
    · obtain ⟨z, hz⟩ := List.prefix_of_prefix_length_le (List.prefix_append k r) h hl
      obtain ⟨y, hy⟩ := h
      cases z with
      | nil => rw [← hz, List.append_nil]; exact List.prefix_refl k
      | cons c z =>
        exfalso
        rw [← hz, List.append_assoc] at hy
        have := List.append_cancel_left hy
        exact hr c (z ++ y) this.symm (hp c (by rw [← hz]; simp))
  · exact fun h => h.trans (List.prefix_append k r)

/-- Not the end of the text in brackets. -/
def Inside (c : Byte) : Prop := c ≠ c!"]" ∧ c ≠ c!";"

theorem inside_iff (c : Byte) : (!stop c) = true ↔ Inside c := by
  simp [stop, Inside]

def words : List Bytes := [b!"p.", b!"pp.", b!"chap.", b!"chapter", b!"sec.", b!"section"]

theorem words_inside : ∀ w ∈ words, ∀ x ∈ w, Inside x := by
  unfold Inside words
  decide +kernel

theorem words_ne : ∀ w ∈ words, w ≠ [] := by
  unfold words
  decide +kernel

theorem looks_iff {x z : Bytes} (hz : Ends Inside z) : looks x z = true ↔ ∃ w ∈ words, w <:+: x := by
  induction x with
  | nil =>
    simp only [looks, Bool.false_eq_true, false_iff]
    rintro ⟨w, hw, h⟩
    exact words_ne w hw (List.infix_nil.1 h)
  | cons c x ih =>
    unfold looks
    rw [Bool.or_eq_true, ih, List.any_eq_true]
    constructor
    · rintro (⟨w, hw, h⟩ | ⟨w, hw, h⟩)
      · rw [List.isPrefixOf_iff_prefix] at h
        exact ⟨w, hw, ((prefix_of (words_inside w hw) hz).1 h).isInfix⟩
      · exact ⟨w, hw, h.trans (List.suffix_cons c x).isInfix⟩
    · rintro ⟨w, hw, h⟩
      rcases List.infix_cons_iff.1 h with h | h
      · exact Or.inl ⟨w, hw, List.isPrefixOf_iff_prefix.2 ((prefix_of (words_inside w hw) hz).2 h)⟩
      · exact Or.inr ⟨w, hw, h⟩

theorem locates_iff {x z : Bytes} (hz : Ends Inside z) : (looks x z || x.head?.any isDigit) = true ↔ Locates x := by
  rw [Bool.or_eq_true, looks_iff hz, Locates, or_comm]
  apply or_congr _ Iff.rfl
  cases x with
  | nil => simp
  | cons c x => simp

theorem white_inside {c : Byte} (h : White c) : Inside c ∧ c ≠ c!"," := by
  unfold White at h
  unfold Inside
  revert c
  apply forall_byte
  decide +kernel

theorem details_skip {a s : Bytes} (h : ∀ c ∈ a, Inside c ∧ c ≠ c!",") : details (a ++ s) = details s := by
  induction a with
  | nil => rfl
  | cons c a ih =>
    have hc := h c (by simp)
    rw [List.cons_append, details.eq_def]
    simp only []
    rw [if_neg hc.2, if_neg (by have := (inside_iff c).2 hc.1; simpa using this), ih fun x hx => h x (by simp [hx])]

theorem details_end {z : Bytes} (hz : Ends Inside z) : details z = (none, none, z) := by
  cases z with
  | nil => rfl
  | cons c z =>
    have hc : stop c = true := by
      have h1 := hz c z rfl
      rw [← inside_iff] at h1
      simpa using h1
    rw [details.eq_def]
    simp only []
    rw [if_neg (by rintro rfl; revert hc; decide), if_pos hc]

theorem details_of {y z : Bytes} {l f : Option Bytes} (hy : ∀ c ∈ y, Inside c) (hz : Ends Inside z) (h : Details y l f) :
    details (y ++ z) = (l, f, z) := by
  rcases h with ⟨hc, rfl, rfl⟩ | ⟨a, w, q, rfl, ha, hw, hq, h⟩
  · rw [details_skip fun c hm => ⟨hy c hm, by rintro rfl; exact hc hm⟩, details_end hz]
  · have h1 : ∀ c ∈ a, Inside c ∧ c ≠ c!"," := fun c hm => ⟨hy c (by simp [hm]), by rintro rfl; exact ha hm⟩
    rw [show a ++ b!"," ++ w ++ q ++ z = a ++ c!"," :: (w ++ (q ++ z)) by simp, details_skip h1, details.eq_def]
    simp only []
    rw [if_pos trivial]
    have h2 : (w ++ (q ++ z)).dropWhile isSpace = q ++ z := by
      refine (span_iff (fun c hm => (white_iff c).2 (hw c hm)) ?_).2
      intro d t e hd
      have hd := (white_iff d).1 hd
      cases q with
      | nil => exact hz d t e (white_inside hd).1
      | cons c q =>
        simp only [List.cons_append, List.cons.injEq] at e
        exact hq c q rfl (e.1 ▸ hd)
    have h3 := span_iff (p := fun c => !stop c) (a := q) (r := z) (fun c hm => (inside_iff c).2 (hy c (by simp [hm])))
      (fun d t e hd => hz d t e ((inside_iff d).1 hd))
    rw [h2, h3.1, h3.2]
    rcases h with ⟨rfl, rfl, rfl⟩ | ⟨h0, hl, rfl, rfl⟩ | ⟨h0, hl, rfl, rfl⟩
    · rw [if_pos rfl]
    · rw [if_neg h0, if_pos ((locates_iff hz).2 hl)]
    · rw [if_neg h0, if_neg (fun h => hl ((locates_iff hz).1 h))]

theorem details_exists (y : Bytes) : ∃ l f, Details y l f := by
  by_cases hc : c!"," ∈ y
  · obtain ⟨a, b, e, h1, h2, _, _⟩ := span_split (· != c!",") y
    have ha : c!"," ∉ a := fun hm => by
      have := h1 _ hm
      simp at this
    rcases h2 with rfl | ⟨d, b, rfl, hd⟩
    · rw [e, List.append_nil] at hc
      exact absurd hc ha
    · have hd : d = c!"," := by simpa using hd
      subst hd
      obtain ⟨w, z, rfl, h3, h4, _, _⟩ := span_split isSpace b
      have hz : Ends White z := by
        intro d t ed hd
        rcases h4 with rfl | ⟨c, b, rfl, hc⟩
        · simp at ed
        · simp only [List.cons.injEq] at ed
          rw [ed.1, (white_iff d).2 hd] at hc
          simp at hc
      have e' : y = a ++ b!"," ++ w ++ z := by rw [e]; simp
      by_cases h0 : z = []
      · exact ⟨none, none, Or.inr ⟨a, w, z, e', ha, fun c hm => (white_iff c).1 (h3 c hm), hz, Or.inl ⟨h0, rfl, rfl⟩⟩⟩
      · by_cases hl : Locates z
        · exact ⟨some z, none, Or.inr ⟨a, w, z, e', ha, fun c hm => (white_iff c).1 (h3 c hm), hz, Or.inr (Or.inl ⟨h0, hl, rfl, rfl⟩)⟩⟩
        · exact ⟨none, some z, Or.inr ⟨a, w, z, e', ha, fun c hm => (white_iff c).1 (h3 c hm), hz, Or.inr (Or.inr ⟨h0, hl, rfl, rfl⟩)⟩⟩
  · exact ⟨none, none, Or.inl ⟨hc, rfl, rfl⟩⟩

theorem details_white (s : Bytes) : details (s.dropWhile isSpace) = details s := by
  obtain ⟨w, z, e, h1, _, _, h4⟩ := span_split isSpace s
  rw [h4]
  conv => rhs; rw [e]
  rw [details_skip fun c hm => white_inside ((white_iff c).1 (h1 c hm))]

/-- A citation in brackets, from its key on. -/
def behind (sup : Bool) (t : Bytes) : Option (Citation × Bytes) :=
  match key t with
  | none => none
  | some (k, r) =>
    let d := details r
    some ({ key := k, «prefix» := if sup then some b!"-" else none, locator := d.1, suffix := d.2.1, suppressed := sup },
      match d.2.2 with
      | c :: r' => if c = c!"]" then r' else d.2.2
      | [] => d.2.2)

theorem pandoc_eq (s : Bytes) : pandoc s =
    match s with
    | a :: t => if a = c!"@" then inText t else if b!"[-@".isPrefixOf s then behind true (s.drop 3) else if b!"[@".isPrefixOf s then behind false (s.drop 2) else none
    | [] => none := by
  unfold pandoc behind
  cases s with
  | nil => rfl
  | cons a t =>
    simp only []
    by_cases ha : a = c!"@"
    · rw [if_pos ha, if_pos ha]
    · rw [if_neg ha, if_neg ha]
      by_cases h1 : b!"[-@".isPrefixOf (a :: t) = true
      · rw [if_pos h1, if_pos h1]
        simp only [details_white]
        cases key ((a :: t).drop 3) <;> rfl
      · rw [if_neg h1, if_neg h1]
        by_cases h2 : b!"[@".isPrefixOf (a :: t) = true
        · rw [if_pos h2, if_pos h2]
          simp only [details_white]
          cases key ((a :: t).drop 2) <;> rfl
        · rw [if_neg h2, if_neg h2]

theorem behind_iff {sup : Bool} {t r : Bytes} {x : Citation} : behind sup t = some (x, r) ↔
    ∃ k y z l f, Key t k (y ++ z) ∧ (∀ c ∈ y, Inside c) ∧ (z = b!"]" ++ r ∨ z = r ∧ (r = [] ∨ ∃ q, r = b!";" ++ q)) ∧ Details y l f ∧
      x = { key := k, «prefix» := if sup then some b!"-" else none, locator := l, suffix := f, suppressed := sup } := by
  unfold behind
  constructor
  · intro h
    split at h
    · simp at h
    · rename_i k q hk
      obtain ⟨y, z, rfl, h1, h2, _, _⟩ := span_split (fun c => !stop c) q
      obtain ⟨l, f, hd⟩ := details_exists y
      have hy : ∀ c ∈ y, Inside c := fun c hm => (inside_iff c).1 (h1 c hm)
      have hz : Ends Inside z := by
        intro d t ed hd
        rcases h2 with rfl | ⟨c, b, rfl, hc⟩
        · simp at ed
        · simp only [List.cons.injEq] at ed
          have := (inside_iff d).2 hd
          rw [ed.1] at hc
          rw [this] at hc
          simp at hc
      rw [details_of hy hz hd] at h
      simp only [Option.some.injEq, Prod.mk.injEq] at h
      obtain ⟨rfl, h⟩ := h
      refine ⟨k, y, z, l, f, key_iff.1 hk, hy, ?_, hd, rfl⟩
      cases z with
      | nil => exact Or.inr ⟨h, Or.inl h.symm⟩
      | cons c z =>
        simp only [] at h
        split at h
        · rename_i hc
          subst hc h
          exact Or.inl rfl
        · rename_i hc
          refine Or.inr ⟨h, Or.inr ⟨z, ?_⟩⟩
          have := hz c z rfl
          have hc2 : c = c!";" := by
            unfold Inside at this
            exact Decidable.byContradiction fun hn => this ⟨hc, hn⟩
          rw [← h, hc2]
          rfl
  · rintro ⟨k, y, z, l, f, hk, hy, hz, hd, rfl⟩
    have hz' : Ends Inside z := by
      intro d t ed hd
      rcases hz with rfl | ⟨rfl, rfl | ⟨q, rfl⟩⟩
      · simp only [List.cons_append, List.nil_append, List.cons.injEq] at ed
        exact hd.1 ed.1.symm
      · simp at ed
      · simp only [List.cons_append, List.nil_append, List.cons.injEq] at ed
        exact hd.2 ed.1.symm
    rw [key_iff.2 hk]
    simp only []
    rw [details_of hy hz' hd]
    rcases hz with rfl | ⟨rfl, rfl | ⟨q, rfl⟩⟩
    · simp
    · simp
    · simp

theorem pandoc_iff {s r : Bytes} {x : Citation} : pandoc s = some (x, r) ↔ InText s x r ∨ Bracketed s x r := by
  rw [pandoc_eq]
  constructor
  · intro h
    split at h
    · rename_i a t
      split at h
      · rename_i ha
        subst ha
        exact Or.inl (inText_iff.1 h)
      · split at h
        · rename_i hp
          obtain ⟨q, hq⟩ := List.isPrefixOf_iff_prefix.1 hp
          rw [← hq] at h ⊢
          change behind true q = _ at h
          obtain ⟨k, y, z, l, f, h1, h2, h3, h4, rfl⟩ := behind_iff.1 h
          exact Or.inr ⟨b!"-", q, k, y, z, l, f, by simp, rfl, h1, h2, h3, h4, rfl⟩
        · split at h
          · rename_i hp
            obtain ⟨q, hq⟩ := List.isPrefixOf_iff_prefix.1 hp
            rw [← hq] at h ⊢
            change behind false q = _ at h
            obtain ⟨k, y, z, l, f, h1, h2, h3, h4, rfl⟩ := behind_iff.1 h
            exact Or.inr ⟨[], q, k, y, z, l, f, by simp, rfl, h1, h2, h3, h4, rfl⟩
          · simp at h
    · simp at h
  · rintro (h | ⟨m, t, k, y, z, l, f, hm, rfl, h1, h2, h3, h4, rfl⟩)
    · obtain ⟨t, k, w, rfl, h'⟩ := h
      simp only [List.cons_append, List.nil_append]
      rw [if_pos trivial]
      exact inText_iff.2 ⟨t, k, w, rfl, h'⟩
    · simp only [List.mem_cons, List.not_mem_nil, or_false] at hm
      rcases hm with rfl | rfl
      · have := behind_iff (sup := false).2 ⟨k, y, z, l, f, h1, h2, h3, h4, rfl⟩
        simpa using this
      · have := behind_iff (sup := true).2 ⟨k, y, z, l, f, h1, h2, h3, h4, rfl⟩
        have e : (b!"-" != []) = true := rfl
        simpa [e] using this

theorem mmark_start {s r : Bytes} {x : Citation} (h : Mmark s x r) : ∃ t, s = b!"[@" ++ t := by
  obtain ⟨m, k, e, _, _, _, rfl, _⟩ := h
  exact ⟨m ++ k ++ e ++ b!"]" ++ r, by simp⟩

theorem mmd_start {pre s r : Bytes} {x : Citation} (h : Mmd pre s x r) : ∃ t, s = b!"[#" ++ t := by
  obtain ⟨t, _, _, rfl, _⟩ := h
  exact ⟨t, rfl⟩

theorem not_mmd {pre s r : Bytes} {x : Citation} (h : Mmd pre s x r) : (∀ x' r', ¬ Mmark s x' r') ∧ ∀ x' r', ¬ (InText s x' r' ∨ Bracketed s x' r') := by
  obtain ⟨t, rfl⟩ := mmd_start h
  constructor
  · intro x' r' hm
    obtain ⟨t', e⟩ := mmark_start hm
    simp at e
  · rintro x' r' (⟨t', k, w, e, _⟩ | ⟨m, t', k, y, z, l, f, hm, e, _⟩)
    · simp at e
    · simp only [List.mem_cons, List.not_mem_nil, or_false] at hm
      rcases hm with rfl | rfl <;> simp at e

theorem parse_iff {u : Bool} {back s r : Bytes} {x : Citation} : parse u back s = some (x, r) ↔ Cite u back.reverse s x r := by
  unfold parse Cite
  simp only []
  cases u with
  | false =>
    simp only [Bool.false_eq_true, if_false, false_and, or_false]
    cases h : mmd back s with
    | none => simp only [reduceCtorEq, false_iff]; intro hm; rw [mmd_iff.2 hm] at h; simp at h
    | some p =>
      obtain ⟨x', r'⟩ := p
      rw [← mmd_iff, h]
  | true =>
    simp only [if_true, true_and]
    cases h : mmark s with
    | some p =>
      obtain ⟨x', r'⟩ := p
      simp only []
      have hm := mmark_iff.1 h
      constructor
      · intro e
        exact Or.inr (Or.inl (mmark_iff.1 (h.trans e)))
      · rintro (h' | h' | ⟨h', _⟩)
        · exact absurd hm ((not_mmd h').1 _ _)
        · rw [← h]
          exact mmark_iff.2 h'
        · exact absurd hm (h' _ _)
    | none =>
      have hm : ∀ x r, ¬ Mmark s x r := fun x r hm => by rw [mmark_iff.2 hm] at h; simp at h
      simp only []
      cases h2 : mmd back s with
      | some p =>
        obtain ⟨x', r'⟩ := p
        have hd := mmd_iff.1 h2
        simp only []
        constructor
        · intro e
          exact Or.inl (mmd_iff.1 (h2.trans e))
        · rintro (h' | h' | ⟨_, h'⟩)
          · rw [← h2]
            exact mmd_iff.2 h'
          · exact absurd h' (hm _ _)
          · exact absurd h' ((not_mmd hd).2 _ _)
      | none =>
        simp only []
        rw [pandoc_iff]
        constructor
        · intro h'
          exact Or.inr (Or.inr ⟨hm, h'⟩)
        · rintro (h' | h' | ⟨_, h'⟩)
          · rw [mmd_iff.2 h'] at h2
            simp at h2
          · exact absurd h' (hm _ _)
          · exact h'

theorem parse_none {u : Bool} {back s : Bytes} : parse u back s = none ↔ ∀ x r, ¬ Cite u back.reverse s x r := by
  constructor
  · intro h x r hc
    rw [parse_iff.2 hc] at h
    simp at h
  · intro h
    cases hp : parse u back s with
    | none => rfl
    | some p =>
      obtain ⟨x, r⟩ := p
      exact absurd (parse_iff.1 hp) (h x r)

theorem cite_length {u : Bool} {pre s r : Bytes} {x : Citation} (h : Cite u pre s x r) : ∃ src, s = src ++ r ∧ src ≠ [] := by
  have key : ∀ {p t k r : Bytes}, Key t k r → ∃ src, p ++ t = src ++ r ∧ src ≠ [] := by
    intro p t k r hk
    obtain ⟨_, y, rfl, hy⟩ := key_length hk
    exact ⟨p ++ y, by simp, by simp [hy]⟩
  rcases h with ⟨t, k, l, rfl, hk, _⟩ | ⟨_, ⟨m, k, e, _, _, _, rfl, _⟩ | ⟨_, ⟨t, k, w, rfl, _, ⟨l, hk, _⟩ | ⟨hk, _⟩⟩ | ⟨m, t, k, y, z, l, f, _, rfl, hk, _, hz, _⟩⟩⟩
  · obtain ⟨a, e, h0⟩ := key (p := b!"[#") hk
    exact ⟨a ++ b!"]", by rw [e]; simp, by simp⟩
  · exact ⟨b!"[@" ++ m ++ k ++ e ++ b!"]", rfl, by simp⟩
  · obtain ⟨a, e, h0⟩ := key (p := b!"@") hk
    exact ⟨a ++ (w ++ b!"[" ++ l ++ b!"]"), by rw [e]; simp, by simp⟩
  · obtain ⟨a, e, h0⟩ := key (p := b!"@") hk
    exact ⟨a ++ w, by rw [e]; simp, by simp [h0]⟩
  · obtain ⟨a, e, h0⟩ := key (p := b!"[" ++ m ++ b!"@") hk
    rcases hz with rfl | ⟨rfl, _⟩
    · exact ⟨a ++ y ++ b!"]", by rw [e]; simp, by simp⟩
    · exact ⟨a ++ y, by rw [e]; simp, by simp [h0]⟩

theorem tick_iff {b i b' i' : Bool} {c : Byte} {s : Bytes} : code (b, i) c s = (b', i') ↔ Tick b i (c :: s) b' i' := by
  have three : b!"``".isPrefixOf s = true ↔ b!"```" <+: b!"`" ++ s := by
    rw [List.isPrefixOf_iff_prefix, show b!"```" = c!"`" :: b!"``" from rfl, show b!"`" ++ s = c!"`" :: s from rfl, List.prefix_cons_inj]
  constructor
  · intro h
    unfold code at h
    split at h
    · rename_i hc
      subst hc
      split at h
      · rename_i hp
        simp only [Prod.mk.injEq] at h
        obtain ⟨rfl, rfl⟩ := h
        obtain ⟨z, hz⟩ := List.isPrefixOf_iff_prefix.1 hp
        have := Tick.three (b := b) (i := i) (s := z)
        rw [← hz]
        exact this
      · rename_i hp
        rw [three] at hp
        simp only [] at h
        cases b with
        | true =>
          simp only [if_true, Prod.mk.injEq] at h
          obtain ⟨rfl, rfl⟩ := h
          exact Tick.block hp
        | false =>
          simp only [Bool.false_eq_true, if_false, Prod.mk.injEq] at h
          obtain ⟨rfl, rfl⟩ := h
          exact Tick.one hp
    · rename_i hc
      simp only [Prod.mk.injEq] at h
      obtain ⟨rfl, rfl⟩ := h
      exact Tick.other hc
  · intro h
    generalize hs : c :: s = l at h
    cases h with
    | @three _ _ s' =>
      simp only [List.cons_append, List.nil_append, List.cons.injEq] at hs
      obtain ⟨rfl, rfl⟩ := hs
      simp [code]
    | @one _ s' hp =>
      simp only [List.cons_append, List.nil_append, List.cons.injEq] at hs
      obtain ⟨rfl, rfl⟩ := hs
      unfold code
      rw [if_pos rfl, if_neg (by rw [three]; exact hp)]
      rfl
    | @block _ s' hp =>
      simp only [List.cons_append, List.nil_append, List.cons.injEq] at hs
      obtain ⟨rfl, rfl⟩ := hs
      unfold code
      rw [if_pos rfl, if_neg (by rw [three]; exact hp)]
      rfl
    | @other _ _ c' s' hc =>
      simp only [List.cons.injEq] at hs
      obtain ⟨rfl, rfl⟩ := hs
      unfold code
      rw [if_neg hc]

theorem byte_val {c : Byte} {cap : Nat} {o : Bytes} (h : o.length < cap) : byte c ⟨cap, o⟩ = ⟨cap, o ++ [c]⟩ := by
  unfold byte
  rw [if_pos (by simp only []; omega)]

theorem copy_val {s : Bytes} {cap : Nat} {o : Bytes} (h : o.length + s.length < cap) : copy s ⟨cap, o⟩ = ⟨cap, o ++ s⟩ := by
  unfold copy
  rw [if_pos (by simp only []; omega)]

theorem comment_length (k : Bytes) : (Spec.comment k).length = k.length + 12 := by
  unfold Spec.comment
  simp only [List.length_append, List.length_cons, List.length_nil]
  omega

theorem placeholder_eq {k : Bytes} (h : k.length ≤ 243) : placeholder k = Spec.comment k := by
  have := comment_length k
  unfold placeholder
  exact List.take_of_length_le (by unfold Spec.comment at this; omega)

theorem loop_cited {u b i : Bool} {pre s out : Bytes} {xs : List Citation} (h : Cited u b i pre s xs out) :
    ∀ (n : Nat) (cs : List Citation) (cap : Nat) (o : Bytes), s.length ≤ n → (∀ x ∈ xs, x.key.length ≤ 243) → o.length + out.length < cap →
      loop u n (b, i) pre.reverse cs ⟨cap, o⟩ s = (⟨cap, o ++ out⟩, xs.reverse ++ cs) := by
  induction h with
  | nil =>
    intro n cs cap o _ _ _
    cases n <;> simp [loop]
  | @code b i b' i' pre c s xs out ht hb _ ih =>
    intro n cs cap o hn hk hl
    cases n with
    | zero => simp at hn
    | succ n =>
      simp only [List.length_cons] at hn hl
      rw [loop]
      rw [tick_iff.2 ht, if_pos (by simpa using hb), byte_val (by omega), ← List.reverse_concat]
      rw [ih n cs cap (o ++ [c]) (by omega) hk (by simp only [List.length_append, List.length_cons, List.length_nil]; omega)]
      simp
  | @cite b i pre src r x xs out ht hc _ ih =>
    intro n cs cap o hn hk hl
    obtain ⟨src', e, h0⟩ := cite_length hc
    have e := List.append_cancel_right e
    subst e
    cases src with
    | nil => exact absurd rfl h0
    | cons c src =>
      cases n with
      | zero => simp at hn
      | succ n =>
        simp only [List.cons_append, List.length_cons, List.length_append] at hn hl
        have hp := parse_iff (u := u) (back := pre.reverse) (s := c :: (src ++ r)) (r := r) (x := x) |>.2 (by rw [List.reverse_reverse]; exact hc)
        rw [List.cons_append, loop]
        rw [tick_iff (s := src ++ r) |>.2 ht, if_neg (by simp), hp]
        simp only []
        rw [show c :: (src ++ r) = (c :: src) ++ r from rfl, show ((c :: src) ++ r).length - r.length = (c :: src).length by
          rw [List.length_append]; omega, List.take_left, ← List.reverse_append,
          placeholder_eq (hk x (by simp)), copy_val (by omega)]
        rw [ih n (x :: cs) cap (o ++ Spec.comment x.key) (by omega) (fun y hy => hk y (by simp [hy])) (by rw [List.length_append]; omega)]
        simp
  | @copy b i pre c s xs out ht hc _ ih =>
    intro n cs cap o hn hk hl
    cases n with
    | zero => simp at hn
    | succ n =>
      simp only [List.length_cons] at hn hl
      have hp := parse_none (u := u) (back := pre.reverse) (s := c :: s) |>.2 (by rw [List.reverse_reverse]; exact hc)
      rw [loop]
      rw [tick_iff.2 ht, if_neg (by simp), hp]
      simp only []
      rw [byte_val (by omega), ← List.reverse_concat]
      rw [ih n cs cap (o ++ [c]) (by omega) hk (by simp only [List.length_append, List.length_cons, List.length_nil]; omega)]
      simp

theorem cited_exists (u : Bool) : ∀ (n : Nat) (s : Bytes) (b i : Bool) (pre : Bytes), s.length ≤ n → ∃ xs out, Cited u b i pre s xs out
  | _, [], _, _, _, _ => ⟨[], [], .nil⟩
  | 0, c :: s, _, _, _, h => by simp at h
  | n + 1, c :: s, b, i, pre, h => by
    simp only [List.length_cons] at h
    obtain ⟨b', i', ht⟩ : ∃ b' i', Tick b i (c :: s) b' i' := ⟨_, _, tick_iff.1 rfl⟩
    by_cases hb : b' = true ∨ i' = true
    · obtain ⟨xs, out, hx⟩ := cited_exists u n s b' i' (pre ++ [c]) (by omega)
      exact ⟨xs, c :: out, .code ht hb hx⟩
    · have hb : b' = false ∧ i' = false := by
        cases b' <;> cases i' <;> simp at hb ⊢
      obtain ⟨rfl, rfl⟩ := hb
      cases hp : parse u pre.reverse (c :: s) with
      | none =>
        have := parse_none.1 hp
        rw [List.reverse_reverse] at this
        obtain ⟨xs, out, hx⟩ := cited_exists u n s false false (pre ++ [c]) (by omega)
        exact ⟨xs, c :: out, .copy ht this hx⟩
      | some p =>
        obtain ⟨x, r⟩ := p
        have hc := parse_iff.1 hp
        rw [List.reverse_reverse] at hc
        obtain ⟨src, e, h0⟩ := cite_length hc
        have hl := congrArg List.length e
        have := List.length_pos_iff.2 h0
        rw [List.length_append, List.length_cons] at hl
        obtain ⟨xs, out, hx⟩ := cited_exists u n r false false (pre ++ src) (by omega)
        rw [e] at ht hc ⊢
        exact ⟨x :: xs, _, .cite ht hc hx⟩

/-- There is one way to read a text. -/
theorem cited_unique {u b i : Bool} {pre s out : Bytes} {xs : List Citation} (h : Cited u b i pre s xs out) :
    ∀ {xs' out'}, Cited u b i pre s xs' out' → xs' = xs ∧ out' = out := by
  have tick : ∀ {b i b1 i1 b2 i2 : Bool} {s : Bytes}, Tick b i s b1 i1 → Tick b i s b2 i2 → b1 = b2 ∧ i1 = i2 := by
    intro b i b1 i1 b2 i2 s h1 h2
    cases s with
    | nil => generalize hs : ([] : Bytes) = l at h1; cases h1 <;> simp at hs
    | cons c s => rw [← Prod.mk.injEq, ← tick_iff.2 h1, ← tick_iff.2 h2]
  have one : ∀ {pre s r r' : Bytes} {x x' : Citation}, Cite u pre s x r → Cite u pre s x' r' → x' = x ∧ r' = r := by
    intro pre s r r' x x' h1 h2
    rw [← List.reverse_reverse pre] at h1 h2
    have := (parse_iff.2 h2).symm.trans (parse_iff.2 h1)
    simpa using this
  induction h with
  | nil =>
    intro xs' out' h'
    generalize hs : ([] : Bytes) = l at h'
    cases h' with
    | nil => exact ⟨rfl, rfl⟩
    | code => simp at hs
    | cite _ hc =>
      obtain ⟨_, e, h0⟩ := cite_length hc
      rw [← hs] at e
      simp at e
      exact absurd e.1 h0
    | copy => simp at hs
  | @code b i b' i' pre c s xs out ht hb _ ih =>
    intro xs' out' h'
    generalize hs : c :: s = l at h'
    cases h' with
    | nil => simp at hs
    | code ht' _ h' =>
      simp only [List.cons.injEq] at hs
      obtain ⟨rfl, rfl⟩ := hs
      obtain ⟨rfl, rfl⟩ := tick ht ht'
      obtain ⟨rfl, rfl⟩ := ih h'
      exact ⟨rfl, rfl⟩
    | cite ht' =>
      rw [← hs] at ht'
      obtain ⟨rfl, rfl⟩ := tick ht ht'
      simp at hb
    | copy ht' =>
      rw [← hs] at ht'
      obtain ⟨rfl, rfl⟩ := tick ht ht'
      simp at hb
  | @cite b i pre src r x xs out ht hc _ ih =>
    intro xs' out' h'
    generalize hs : src ++ r = l at h'
    cases h' with
    | nil =>
      obtain ⟨_, e, h0⟩ := cite_length hc
      rw [hs] at e
      simp at e
      exact absurd e.1 h0
    | code ht' hb =>
      rw [hs] at ht
      obtain ⟨rfl, rfl⟩ := tick ht ht'
      simp at hb
    | @cite _ _ _ src' r' x' xs' out' ht' hc' h' =>
      rw [hs] at hc
      obtain ⟨rfl, rfl⟩ := one hc hc'
      have := List.append_cancel_right hs
      subst this
      obtain ⟨rfl, rfl⟩ := ih h'
      exact ⟨rfl, rfl⟩
    | copy _ hn =>
      rw [hs] at hc
      exact absurd hc (hn _ _)
  | @copy b i pre c s xs out ht hn _ ih =>
    intro xs' out' h'
    generalize hs : c :: s = l at h'
    cases h' with
    | nil => simp at hs
    | code ht' hb =>
      rw [hs] at ht
      obtain ⟨rfl, rfl⟩ := tick ht ht'
      simp at hb
    | cite _ hc =>
      rw [← hs] at hc
      exact absurd hc (hn _ _)
    | copy ht' _ h' =>
      simp only [List.cons.injEq] at hs
      obtain ⟨rfl, rfl⟩ := hs
      obtain ⟨rfl, rfl⟩ := ih h'
      exact ⟨rfl, rfl⟩

theorem starts_iff {s : Bytes} : ∀ {p : Option Byte}, starts p s = true ↔
    ∃ a c d z, s = a ++ c :: d :: z ∧ (c = c!"[" ∧ (d = c!"@" ∨ d = c!"#") ∨ c = c!"@" ∧ ∀ q, (a.getLast?.or p) = some q → White q ∨ q = c!"(") := by
  induction s with
  | nil =>
    intro p
    simp [starts]
  | cons c s ih =>
    intro p
    cases s with
    | nil =>
      simp only [starts, Bool.false_eq_true, false_iff]
      rintro ⟨a, c', d, z, e, _⟩
      have := congrArg List.length e
      simp at this
      omega
    | cons d s =>
      rw [starts, Bool.or_eq_true, ih]
      have hd : ((c == c!"[" && (d == c!"@" || d == c!"#") || (c == c!"@" && p.all fun p => isSpace p || p == c!"(")) = true) ↔
          (c = c!"[" ∧ (d = c!"@" ∨ d = c!"#") ∨ c = c!"@" ∧ ∀ q, (([] : Bytes).getLast?.or p) = some q → White q ∨ q = c!"(") := by
        cases p with
        | none => simp
        | some p => simp [white_iff]
      rw [hd]
      constructor
      · rintro (h | ⟨a, c', d', z, e, h⟩)
        · exact ⟨[], c, d, s, rfl, h⟩
        · refine ⟨c :: a, c', d', z, by rw [e]; rfl, ?_⟩
          have : (c :: a).getLast?.or p = a.getLast?.or (some c) := by
            cases a with
            | nil => rfl
            | cons y a => simp [List.getLast?_cons]
          rw [this]
          exact h
      · rintro ⟨a, c', d', z, e, h⟩
        cases a with
        | nil =>
          simp only [List.nil_append, List.cons.injEq] at e
          obtain ⟨rfl, rfl, rfl⟩ := e
          exact Or.inl h
        | cons y a =>
          simp only [List.cons_append, List.cons.injEq] at e
          obtain ⟨rfl, e⟩ := e
          refine Or.inr ⟨a, c', d', z, e, ?_⟩
          have : (c :: a).getLast?.or p = a.getLast?.or (some c) := by
            cases a with
            | nil => rfl
            | cons y a => simp [List.getLast?_cons]
          rw [this] at h
          exact h

theorem detected_iff {s : Bytes} : starts none s = true ↔ Detected s := by
  rw [starts_iff]
  unfold Detected
  constructor
  · rintro ⟨a, c, d, z, rfl, ⟨rfl, rfl | rfl⟩ | ⟨rfl, h⟩⟩
    · exact Or.inl ⟨a, z, by simp⟩
    · exact Or.inr (Or.inl ⟨a, z, by simp⟩)
    · refine Or.inr (Or.inr ⟨a, d :: z, by simp, by simp, ?_⟩)
      rcases List.eq_nil_or_concat a with rfl | ⟨y, q, rfl⟩
      · exact Or.inl rfl
      · exact Or.inr ⟨y, q, by simp, h q (by simp)⟩
  · rintro (⟨a, z, rfl⟩ | ⟨a, z, rfl⟩ | ⟨a, z, rfl, h0, h⟩)
    · exact ⟨a, c!"[", c!"@", z, by simp, Or.inl ⟨rfl, Or.inl rfl⟩⟩
    · exact ⟨a, c!"[", c!"#", z, by simp, Or.inl ⟨rfl, Or.inr rfl⟩⟩
    · cases z with
      | nil => exact absurd rfl h0
      | cons d z =>
        refine ⟨a, c!"@", d, z, by simp, Or.inr ⟨rfl, fun q hq => ?_⟩⟩
        rcases h with rfl | ⟨y, c, rfl, h⟩
        · simp at hq
        · simp only [List.getLast?_append, List.getLast?_singleton, Option.some_or, Option.some.injEq] at hq
          exact hq ▸ h

theorem text_iff {e : Option Entry} {x : Citation} {t : Bytes} : Text e x t ↔ t = text e x := by
  constructor
  · intro h
    cases h with
    | inText h1 h2 h3 => simp [text, h1, h2, h3]
    | author h1 h2 h3 => simp [text, h1, h2, h3]
    | key h1 h2 =>
      cases e with
      | none => simp [text, h1]
      | some e => simp [text, h1, h2 e rfl]
    | both h1 h2 h3 h4 => simp [text, h1, h2, h3, h4]
    | year h1 h2 h3 =>
      rcases h2 with h2 | h2
      · simp [text, h1, h2, h3]
      · rename_i e' y
        cases hs : x.suppressed <;> simp [text, h1, h2, h3, hs]
    | brackets h1 h2 =>
      cases e with
      | none => simp [text, h1]
      | some e =>
        have h2 := h2 e rfl
        cases hs : x.suppressed <;> cases ha : e.author <;> simp [text, h1, h2, hs, ha]
  · rintro rfl
    cases hi : x.inText with
    | true =>
      cases e with
      | none =>
        have := Text.key (e := none) (x := x) hi (by simp)
        simpa [text, hi] using this
      | some e =>
        cases ha : e.author with
        | none =>
          have := Text.key (e := some e) (x := x) hi (by rintro e' ⟨⟩; exact ha)
          simpa [text, hi, ha] using this
        | some a =>
          cases hy : e.year with
          | none =>
            have := Text.author (e := e) (x := x) hi ha hy
            simpa [text, hi, ha, hy] using this
          | some y =>
            have := Text.inText (e := e) (x := x) hi ha hy
            simpa [text, hi, ha, hy] using this
    | false =>
      cases e with
      | none =>
        have := Text.brackets (e := none) (x := x) hi (by simp)
        simpa [text, hi] using this
      | some e =>
        cases hy : e.year with
        | none =>
          have := Text.brackets (e := some e) (x := x) hi (by rintro e' ⟨⟩; exact hy)
          cases hs : x.suppressed <;> cases ha : e.author <;> simpa [text, hi, hy, hs, ha] using this
        | some y =>
          cases hs : x.suppressed with
          | true =>
            have := Text.year (e := e) (x := x) hi (Or.inl hs) hy
            simpa [text, hi, hy, hs] using this
          | false =>
            cases ha : e.author with
            | none =>
              have := Text.year (e := e) (x := x) hi (Or.inr ha) hy
              simpa [text, hi, hy, hs, ha] using this
            | some a =>
              have := Text.both (e := e) (x := x) hi hs ha hy
              simpa [text, hi, hy, hs, ha] using this

theorem html_eq {link : Bool} {e : Option Entry} {x : Citation} (ht : (text e x).length ≤ 255) (hl : (Spec.html link x.key (text e x)).length ≤ 511) :
    html link e x = Spec.html link x.key (text e x) := by
  unfold html
  rw [List.take_of_length_le ht]
  exact List.take_of_length_le hl

theorem find_shows {link : Bool} {bib : List Entry} {cs : List Citation} {k h : Bytes} (hs : Shows link bib cs k h)
    (hl : ∀ x ∈ cs, x.key = k → ∀ t, Text (bib.find? fun e => e.id == k) x t → t.length ≤ 255 ∧ (Spec.html link k t).length ≤ 511) :
    (cs.find? (fun x => x.key == k) = none ∧ h = []) ∨ ∃ x, cs.find? (fun x => x.key == k) = some x ∧ html link (bib.find? fun e => e.id == k) x = h := by
  rcases hs with ⟨h1, rfl⟩ | ⟨a, x, b, t, rfl, rfl, ha, ht, rfl⟩
  · refine Or.inl ⟨?_, rfl⟩
    rw [List.find?_eq_none]
    intro x hx
    simpa using h1 x hx
  · refine Or.inr ⟨x, ?_, ?_⟩
    · rw [List.find?_append, List.find?_eq_none.2 (fun y hy => by simpa using ha y hy)]
      simp
    · obtain ⟨h1, h2⟩ := hl x (by simp) rfl t ht
      rw [text_iff] at ht
      subst ht
      exact html_eq h1 h2

theorem arrow_first {k r : Bytes} (hk : ¬ b!"-->" <:+: k) : find b!"-->" (k ++ b!"-->" ++ r) = some (k, r) := by
  have key : ∀ (k : Bytes), ¬ b!"-->" <:+: k → k ≠ [] → ¬ b!"-->" <+: k ++ b!"-->" ++ r := by
    intro k hk h0 h
    obtain ⟨z, hz⟩ := h
    match k, h0 with
    | [a], _ => simp at hz
    | [a, b], _ => simp at hz
    | a :: b :: c :: k, _ =>
      simp only [List.cons_append, List.nil_append, List.cons.injEq] at hz
      obtain ⟨rfl, rfl, rfl, _⟩ := hz
      exact hk ⟨[], k, by simp⟩
  induction k with
  | nil => simp [find]
  | cons c k ih =>
    have h1 := key (c :: k) hk (by simp)
    simp only [List.cons_append] at h1 ⊢
    rw [find, if_neg h1]
    rw [show k ++ b!"-->" ++ r = k ++ b!"-->" ++ r from rfl, ih (fun h => hk (h.trans (List.suffix_cons c k).isInfix))]
    rfl

theorem arrow_inside {s k r : Bytes} (h : find b!"-->" s = some (k, r)) : s = k ++ b!"-->" ++ r ∧ ¬ b!"-->" <:+: k := by
  refine ⟨Embed.find_some h, ?_⟩
  induction s generalizing k with
  | nil => simp [find] at h
  | cons c s ih =>
    rw [find] at h
    split at h
    · simp only [Option.some.injEq, Prod.mk.injEq] at h
      rw [← h.1]
      simp
    · rename_i hn
      cases hf : find b!"-->" s with
      | none => rw [hf] at h; simp at h
      | some p =>
        rw [hf] at h
        simp only [Option.map_some, Option.some.injEq, Prod.mk.injEq] at h
        obtain ⟨rfl, rfl⟩ := h
        have := ih (k := p.1) hf
        have e := Embed.find_some (a := p.1) (b := p.2) hf
        intro hi
        rcases List.infix_cons_iff.1 hi with hi | hi
        · apply hn
          rw [e, List.append_assoc, ← List.cons_append]
          exact hi.trans (List.prefix_append _ _)
        · exact this hi

/-- Where the loop finds a comment. -/
theorem comment_found {c : Byte} {s k r : Bytes} : (if b!"<!--CITE:" <+: c :: s then find b!"-->" (s.drop 8) else none) = some (k, r) ↔
    c :: s = Spec.comment k ++ r ∧ ¬ b!"-->" <:+: k := by
  constructor
  · intro h
    split at h
    · rename_i hp
      obtain ⟨z, hz⟩ := hp
      simp only [List.cons_append, List.nil_append, List.cons.injEq] at hz
      obtain ⟨rfl, rfl⟩ := hz
      simp only [List.drop_succ_cons, List.drop_zero] at h
      obtain ⟨rfl, hk⟩ := arrow_inside h
      exact ⟨by simp [Spec.comment], hk⟩
    · simp at h
  · rintro ⟨e, hk⟩
    unfold Spec.comment at e
    simp only [List.cons_append, List.nil_append, List.cons.injEq] at e
    obtain ⟨rfl, rfl⟩ := e
    rw [if_pos ⟨k ++ b!"-->" ++ r, by simp⟩]
    simp only [List.drop_succ_cons, List.drop_zero]
    exact arrow_first hk

theorem comment_not_found {c : Byte} {s : Bytes} : (if b!"<!--CITE:" <+: c :: s then find b!"-->" (s.drop 8) else none) = none ↔
    ∀ k r, c :: s ≠ Spec.comment k ++ r := by
  constructor
  · intro h k r e
    have e' := e
    unfold Spec.comment at e'
    simp only [List.cons_append, List.nil_append, List.cons.injEq] at e'
    obtain ⟨rfl, rfl⟩ := e'
    rw [if_pos ⟨k ++ b!"-->" ++ r, by simp⟩] at h
    simp only [List.drop_succ_cons, List.drop_zero] at h
    rw [Embed.find_none (by simp)] at h
    exact h ⟨k, r, by simp⟩
  · intro h
    cases hf : (if b!"<!--CITE:" <+: c :: s then find b!"-->" (s.drop 8) else none) with
    | none => rfl
    | some p =>
      obtain ⟨k, r⟩ := p
      exact absurd (comment_found.1 hf).1 (h k r)

theorem rbyte_val {c : Byte} {cap : Nat} {o : Bytes} (h : o.length + 1 < cap) : rbyte c ⟨cap, o⟩ = ⟨cap, o ++ [c]⟩ := by
  unfold rbyte
  rw [if_pos (by simp only []; omega)]

theorem renderLoop_shown {link : Bool} {bib : List Entry} {cs : List Citation} {f : Bytes → Bytes} (hf : ∀ k, Shows link bib cs k (f k))
    (hs : ∀ x ∈ cs, ∀ t, Text (bib.find? fun e => e.id == x.key) x t → t.length ≤ 255 ∧ (Spec.html link x.key t).length ≤ 511)
    {s out : Bytes} (h : Shown f s out) : ∀ (n cap : Nat) (o : Bytes), s.length ≤ n → o.length + out.length < cap →
      renderLoop link bib cs n s ⟨cap, o⟩ = ⟨cap, o ++ out⟩ := by
  induction h with
  | nil => intro n cap o _ _; cases n <;> simp [renderLoop]
  | @comment k r out hk _ ih =>
    intro n cap o hn hl
    cases n with
    | zero => rw [List.length_append, comment_length] at hn; omega
    | succ n =>
      rw [List.length_append, comment_length] at hn
      rw [List.length_append] at hl
      have hc : ∃ c s, Spec.comment k ++ r = c :: s := ⟨_, _, rfl⟩
      obtain ⟨c, s, e⟩ := hc
      rw [e, renderLoop, comment_found.2 ⟨e.symm, hk⟩]
      simp only []
      rcases find_shows (hf k) (fun x hx e => e ▸ hs x hx) with ⟨h1, h2⟩ | ⟨x, h1, h2⟩
      · rw [h1]
        simp only []
        rw [h2] at hl ⊢
        rw [ih n cap _ (by omega) (by rw [List.length_nil] at hl; omega), List.nil_append]
      · rw [h1]
        simp only []
        rw [h2, copy_val (by omega), ih n cap _ (by omega) (by rw [List.length_append]; omega), List.append_assoc]
  | @copy c s out hc _ ih =>
    intro n cap o hn hl
    cases n with
    | zero => simp at hn
    | succ n =>
      simp only [List.length_cons] at hn hl
      rw [renderLoop, comment_not_found.2 hc]
      simp only []
      rw [rbyte_val (by omega), ih n cap _ (by omega) (by simp only [List.length_append, List.length_cons, List.length_nil]; omega)]
      simp

theorem renderLoop_room (link : Bool) (bib : List Entry) (cs : List Citation) : ∀ (n : Nat) (s : Bytes) (cap : Nat) (o : Bytes), o.length < cap →
    (renderLoop link bib cs n s ⟨cap, o⟩).cap = cap ∧ (renderLoop link bib cs n s ⟨cap, o⟩).out.length < cap
  | 0, _, _, _, h => ⟨rfl, h⟩
  | n + 1, [], _, _, h => ⟨rfl, h⟩
  | n + 1, c :: s, cap, o, h => by
    rw [renderLoop]
    split
    · rename_i k r _
      split
      · unfold copy
        split
        · rename_i hl
          exact renderLoop_room link bib cs n r cap _ (by simp only [List.length_append] at hl ⊢; omega)
        · exact renderLoop_room link bib cs n r cap o h
      · exact renderLoop_room link bib cs n r cap o h
    · unfold rbyte
      split
      · rename_i hl
        exact renderLoop_room link bib cs n s cap _ (by simp only [List.length_append, List.length_cons, List.length_nil] at hl ⊢; omega)
      · exact renderLoop_room link bib cs n s cap o h

theorem shown_exists (f : Bytes → Bytes) : ∀ (n : Nat) (s : Bytes), s.length ≤ n → ∃ out, Shown f s out
  | _, [], _ => ⟨[], .nil⟩
  | 0, c :: s, h => by simp at h
  | n + 1, c :: s, h => by
    simp only [List.length_cons] at h
    cases hf : (if b!"<!--CITE:" <+: c :: s then find b!"-->" (s.drop 8) else none) with
    | none =>
      obtain ⟨out, ho⟩ := shown_exists f n s (by omega)
      exact ⟨_, .copy (comment_not_found.1 hf) ho⟩
    | some p =>
      obtain ⟨k, r⟩ := p
      obtain ⟨e, hk⟩ := comment_found.1 hf
      have hl := congrArg List.length e
      rw [List.length_append, comment_length, List.length_cons] at hl
      obtain ⟨out, ho⟩ := shown_exists f n r (by omega)
      rw [e]
      exact ⟨_, .comment hk ho⟩

theorem shown_unique {f : Bytes → Bytes} {s out : Bytes} (h : Shown f s out) : ∀ {out'}, Shown f s out' → out' = out := by
  have one : ∀ {k k' r r' : Bytes}, Spec.comment k ++ r = Spec.comment k' ++ r' → ¬ b!"-->" <:+: k → ¬ b!"-->" <:+: k' → k' = k ∧ r' = r := by
    intro k k' r r' e h1 h2
    unfold Spec.comment at e
    rw [List.append_assoc, List.append_assoc, List.append_assoc, List.append_assoc] at e
    have e := List.append_cancel_left e
    have h3 := arrow_first (r := r) h1
    have h4 := arrow_first (r := r') h2
    rw [List.append_assoc] at h3 h4
    rw [e, h4] at h3
    simpa using h3
  induction h with
  | nil =>
    intro out' h'
    generalize hs : ([] : Bytes) = l at h'
    cases h' with
    | nil => rfl
    | comment => simp [Spec.comment] at hs
    | copy => simp at hs
  | @comment k r out hk _ ih =>
    intro out' h'
    generalize hs : Spec.comment k ++ r = l at h'
    cases h' with
    | nil => simp [Spec.comment] at hs
    | comment hk' h' =>
      obtain ⟨rfl, rfl⟩ := one hs hk hk'
      rw [ih h']
    | copy hc => exact absurd hs.symm (hc _ _)
  | @copy c s out hc _ ih =>
    intro out' h'
    generalize hs : c :: s = l at h'
    cases h' with
    | nil => simp at hs
    | comment => exact absurd hs (hc _ _)
    | copy _ h' =>
      simp only [List.cons.injEq] at hs
      obtain ⟨rfl, rfl⟩ := hs
      rw [ih h']

end Verif.Citations
