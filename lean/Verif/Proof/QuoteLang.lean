/- Lemmas about the quotation marks of a language. -/
import Verif.Model.QuoteLang
import Verif.Spec.QuoteLang

namespace Verif.QuoteLang
open Spec

def Marks.of (m : Marks) : Mark → Bytes
  | .double_open => m.double_open
  | .double_close => m.double_close
  | .single_open => m.single_open
  | .single_close => m.single_close

theorem mark_some {m : Marks} {p r : Bytes} {n : Nat} (h : mark m p = some (r, n)) :
    ∃ k s, r = m.of k ∧ (p = entity k ++ s ∧ n = (entity k).length ∨ p = character k ++ s ∧ n = (character k).length) := by
  unfold mark at h
  repeat' split at h
  all_goals first
    | (rename_i hp
       obtain ⟨s, rfl⟩ := List.isPrefixOf_iff_prefix.1 hp
       simp only [Option.some.injEq, Prod.mk.injEq] at h
       obtain ⟨rfl, rfl⟩ := h
       first
         | exact ⟨.double_open, s, rfl, Or.inl ⟨rfl, rfl⟩⟩
         | exact ⟨.double_close, s, rfl, Or.inl ⟨rfl, rfl⟩⟩
         | exact ⟨.single_open, s, rfl, Or.inl ⟨rfl, rfl⟩⟩
         | exact ⟨.single_close, s, rfl, Or.inl ⟨rfl, rfl⟩⟩
         | exact ⟨.double_open, s, rfl, Or.inr ⟨rfl, rfl⟩⟩
         | exact ⟨.double_close, s, rfl, Or.inr ⟨rfl, rfl⟩⟩
         | exact ⟨.single_open, s, rfl, Or.inr ⟨rfl, rfl⟩⟩
         | exact ⟨.single_close, s, rfl, Or.inr ⟨rfl, rfl⟩⟩)
    | cases h

theorem mark_entity (m : Marks) (k : Mark) (s : Bytes) : mark m (entity k ++ s) = some (m.of k, 7) := by
  cases k <;> simp [mark, entity, Marks.of]

theorem mark_character (m : Marks) (k : Mark) (s : Bytes) : mark m (character k ++ s) = some (m.of k, 3) := by
  cases k <;> simp [mark, character, Marks.of]

theorem mark_none {m : Marks} {p : Bytes} : mark m p = none ↔ ∀ k, ¬ entity k <+: p ∧ ¬ character k <+: p := by
  constructor
  · intro h k
    constructor
    · rintro ⟨s, rfl⟩; rw [mark_entity] at h; cases h
    · rintro ⟨s, rfl⟩; rw [mark_character] at h; cases h
  · intro h
    cases hm : mark m p with
    | none => rfl
    | some r =>
      obtain ⟨k, s, _, hs | hs⟩ := mark_some hm
      · exact absurd ⟨s, hs.1.symm⟩ (h k).1
      · exact absurd ⟨s, hs.1.symm⟩ (h k).2

theorem room_pos (cap len : Nat) : len < room cap len := by
  unfold room
  split <;> omega

/-! ### All marks -/

theorem loop_replaced (m : Marks) {s o : Bytes} (h : Replaced m.of s o) : ∀ (f cap : Nat) (out : Bytes), s.length ≤ f →
    out.length + o.length < cap → loop m f cap out s = .val (out ++ o) := by
  induction h with
  | nil =>
    intro f cap out _ hc
    have : loop m f cap out [] = finish cap out := by cases f <;> rfl
    rw [this, finish_val (by simpa using hc), List.append_nil]
  | @entity k s o h ih =>
    intro f cap out hf hc
    obtain ⟨c, t, e⟩ : ∃ c t, entity k ++ s = c :: t := by cases k <;> exact ⟨_, _, rfl⟩
    have hm := mark_entity m k s
    have hl : (entity k).length = 7 := by cases k <;> rfl
    have hd : (entity k ++ s).drop 7 = s := by rw [← hl, List.drop_left]
    rw [List.length_append, hl] at hf
    rw [List.length_append] at hc
    obtain ⟨f, rfl⟩ : ∃ g, f = g + 1 := ⟨f - 1, by omega⟩
    rw [e] at hm hd ⊢
    rw [loop, hm]
    simp only
    rw [if_pos (by omega), puts_val (by omega), C.val_bind, hd, ih f cap _ (by omega) (by simp; omega), List.append_assoc]
  | @character k s o h ih =>
    intro f cap out hf hc
    obtain ⟨c, t, e⟩ : ∃ c t, character k ++ s = c :: t := by cases k <;> exact ⟨_, _, rfl⟩
    have hm := mark_character m k s
    have hl : (character k).length = 3 := by cases k <;> rfl
    have hd : (character k ++ s).drop 3 = s := by rw [← hl, List.drop_left]
    rw [List.length_append, hl] at hf
    rw [List.length_append] at hc
    obtain ⟨f, rfl⟩ : ∃ g, f = g + 1 := ⟨f - 1, by omega⟩
    rw [e] at hm hd ⊢
    rw [loop, hm]
    simp only
    rw [if_pos (by omega), puts_val (by omega), C.val_bind, hd, ih f cap _ (by omega) (by simp; omega), List.append_assoc]
  | @other c s o hn h ih =>
    intro f cap out hf hc
    simp only [List.length_cons] at hf hc
    obtain ⟨f, rfl⟩ : ∃ g, f = g + 1 := ⟨f - 1, by omega⟩
    have hr : room cap out.length = cap := by unfold room; rw [if_pos (by omega)]
    rw [loop, mark_none.2 hn]
    simp only
    rw [hr, put_val (by omega), C.val_bind, ih f cap _ (by omega) (by simp; omega)]
    simp

theorem replaced_exists (q : Mark → Bytes) : ∀ (n : Nat) (s : Bytes), s.length ≤ n → ∃ o, Replaced q s o
  | _, [], _ => ⟨[], .nil⟩
  | 0, _ :: _, h => by simp at h
  | n + 1, c :: t, h => by
    let m : Marks := ⟨q .double_open, q .double_close, q .single_open, q .single_close⟩
    cases hm : mark m (c :: t) with
    | none =>
      obtain ⟨o, ho⟩ := replaced_exists q n t (by simpa using h)
      exact ⟨_, .other (mark_none.1 hm) ho⟩
    | some r =>
      obtain ⟨k, s, _, hs | hs⟩ := mark_some (r := r.1) (n := r.2) hm
      · have hl : (entity k).length = 7 := by cases k <;> rfl
        have := congrArg List.length hs.1
        simp only [List.length_append, List.length_cons] at this h
        obtain ⟨o, ho⟩ := replaced_exists q n s (by omega)
        exact ⟨_, by rw [hs.1]; exact .entity ho⟩
      · have hl : (character k).length = 3 := by cases k <;> rfl
        have := congrArg List.length hs.1
        simp only [List.length_append, List.length_cons] at this h
        obtain ⟨o, ho⟩ := replaced_exists q n s (by omega)
        exact ⟨_, by rw [hs.1]; exact .character ho⟩

theorem replaced_unique {q : Mark → Bytes} {s o o' : Bytes} (h : Replaced q s o) (h' : Replaced q s o') : o = o' := by
  let m : Marks := ⟨q .double_open, q .double_close, q .single_open, q .single_close⟩
  have hq : m.of = q := by funext k; cases k <;> rfl
  rw [← hq] at h h'
  have h1 := loop_replaced m h s.length (o.length + o'.length + 1) [] (Nat.le_refl _) (by simp; omega)
  have h2 := loop_replaced m h' s.length (o.length + o'.length + 1) [] (Nat.le_refl _) (by simp; omega)
  rw [h1] at h2
  simpa using h2

/-! ### Some marks -/

theorem loop_partly (m : Marks) : ∀ (f cap : Nat) (out s o : Bytes), loop m f cap out s = .val o → ∃ o', o = out ++ o' ∧ Partly m.of s o'
  | f, cap, out, [], o, h => by
    have h2 : loop m f cap out [] = finish cap out := by cases f <;> rfl
    rw [h2] at h
    unfold finish at h
    split at h
    · cases h; exact ⟨[], by simp, .nil⟩
    · cases h
  | 0, _, _, _ :: _, _, h => by cases h
  | f + 1, cap, out, c :: t, o, h => by
    have copy : (put (room cap out.length) out c >>= fun o => loop m f (room cap out.length) o t) = .val o →
        ∃ o', o = out ++ o' ∧ Partly m.of (c :: t) o' := by
      intro h
      rw [put_val (room_pos _ _), C.val_bind] at h
      obtain ⟨o', rfl, h2⟩ := loop_partly m f _ _ t o h
      exact ⟨c :: o', by simp, .keep h2⟩
    rw [loop] at h
    cases hm : mark m (c :: t) with
    | none => rw [hm] at h; exact copy h
    | some r =>
      obtain ⟨r, n⟩ := r
      rw [hm] at h
      simp only at h
      split at h
      · rename_i hr
        rw [puts_val (by omega), C.val_bind] at h
        obtain ⟨o', rfl, h2⟩ := loop_partly m f _ _ _ o h
        refine ⟨r ++ o', by simp, ?_⟩
        obtain ⟨k, s, rfl, ⟨h3, rfl⟩ | ⟨h3, rfl⟩⟩ := mark_some hm
        · rw [h3, List.drop_left] at h2; rw [h3]; exact .entity h2
        · rw [h3, List.drop_left] at h2; rw [h3]; exact .character h2
      · exact copy h

/-! ### Names of languages -/

theorem space_iff (c : Byte) : isSpace c = true ↔ (c ∈ b!" \t\n\r" ∨ c = 11 ∨ c = 12) := by
  revert c
  apply forall_byte
  decide +kernel

theorem letter_iff (c d : Byte) : toLower c = d ↔ ¬ (65 ≤ d ∧ d ≤ 90) ∧ sameLetter c d := by
  have h : ∀ c : Byte, (¬ (65 ≤ toLower c ∧ toLower c ≤ 90)) ∧ (c = toLower c ∨ (65 ≤ c ∧ c ≤ 90 ∧ toLower c = c + 32)) ∧
      (¬ (65 ≤ c ∧ c ≤ 90) → toLower c = c) := by
    apply forall_byte
    decide +kernel
  obtain ⟨h1, h2, h3⟩ := h c
  constructor
  · rintro rfl; exact ⟨h1, h2⟩
  · rintro ⟨hd, rfl | ⟨a, b, rfl⟩⟩
    · exact h3 hd
    · rcases h2 with h2 | h2
      · rw [← h2] at h1; exact absurd ⟨a, b⟩ h1
      · exact h2.2.2

theorem writes_iff (l : Bytes) : ∀ n, Writes l n ↔ (l.filter fun c => !isSpace c).map toLower = n := by
  induction l with
  | nil =>
    intro n
    constructor
    · intro h; cases h; rfl
    · rintro rfl; exact .nil
  | cons c l ih =>
    intro n
    cases hc : isSpace c with
    | true =>
      rw [List.filter_cons_of_neg (by simp [hc]), ← ih]
      constructor
      · intro h
        cases h with
        | space _ h => exact h
        | letter hn => exact absurd ((space_iff c).1 hc) hn
      · exact fun h => .space ((space_iff c).1 hc) h
    | false =>
      have hn : ¬ (c ∈ b!" \t\n\r" ∨ c = 11 ∨ c = 12) := fun h => by rw [(space_iff c).2 h] at hc; cases hc
      rw [List.filter_cons_of_pos (by simp [hc]), List.map_cons]
      constructor
      · intro h
        cases h with
        | space h => exact absurd h hn
        | letter _ hd hs h => rw [(ih _).1 h, (letter_iff c _).2 ⟨hd, hs⟩]
      · rintro rfl
        have := (letter_iff c _).1 rfl
        exact .letter hn this.1 this.2 ((ih _).2 rfl)

theorem marks_style {n : Bytes} {m : Marks} (h : marks n = some m) : ∃ q, Style n q := by
  unfold marks at h
  split at h
  · cases h
  split at h
  · rename_i hn; exact ⟨_, .french (by simpa using hn)⟩
  split at h
  · rename_i hn; exact ⟨_, .german (by rcases hn with rfl | rfl <;> simp)⟩
  split at h
  · rename_i hn; exact ⟨_, .guillemets hn⟩
  split at h
  · rename_i hn; exact ⟨_, .spanish (by simpa using hn)⟩
  split at h
  · rename_i hn; exact ⟨_, .german (by rcases hn with rfl | rfl <;> simp)⟩
  split at h
  · rename_i hn; exact ⟨_, .swedish (by simpa using hn)⟩
  · cases h

theorem style_marks {n : Bytes} {q : Mark → Bytes} (h : Style n q) : ∃ m, marks n = some m ∧ m.of = q := by
  cases h with
  | french h => simp at h; rcases h with rfl | rfl <;> exact ⟨_, rfl, funext fun k => by cases k <;> rfl⟩
  | german h => simp at h; rcases h with rfl | rfl | rfl | rfl <;> exact ⟨_, rfl, funext fun k => by cases k <;> rfl⟩
  | guillemets h => subst h; exact ⟨_, rfl, funext fun k => by cases k <;> rfl⟩
  | spanish h => simp at h; rcases h with rfl | rfl <;> exact ⟨_, rfl, funext fun k => by cases k <;> rfl⟩
  | swedish h => simp at h; rcases h with rfl | rfl <;> exact ⟨_, rfl, funext fun k => by cases k <;> rfl⟩

theorem style_short {n : Bytes} {q : Mark → Bytes} (h : Style n q) : n.length ≤ 16 := by
  cases h with
  | french h => simp at h; rcases h with rfl | rfl <;> decide
  | german h => simp at h; rcases h with rfl | rfl | rfl | rfl <;> decide
  | guillemets h => subst h; decide
  | spanish h => simp at h; rcases h with rfl | rfl <;> decide
  | swedish h => simp at h; rcases h with rfl | rfl <;> decide

theorem style_len {n : Bytes} {q : Mark → Bytes} (h : Style n q) (k : Mark) : (q k).length ≤ 13 := by
  cases h <;> cases k <;> decide

theorem normalized_style {l n : Bytes} {q : Mark → Bytes} (hw : Writes l n) (hs : Style n q) : normalized l = n := by
  unfold normalized
  rw [(writes_iff l n).1 hw]
  exact List.take_of_length_le (by have := style_short hs; omega)

theorem adjust_style {l n : Bytes} {q : Mark → Bytes} (html : Bytes) (hw : Writes l n) (hs : Style n q) :
    ∃ m, m.of = q ∧ adjust html (some l) = loop m html.length (html.length * 2) [] html := by
  obtain ⟨m, h1, h2⟩ := style_marks hs
  refine ⟨m, h2, ?_⟩
  have hl : l ≠ [] := by
    rintro rfl
    have := (writes_iff [] n).1 hw
    cases hs <;> simp_all
  unfold adjust
  simp only
  rw [if_neg hl, normalized_style hw hs, h1]

theorem entities_short {q : Mark → Bytes} (hq : ∀ k, (q k).length ≤ 13) {s o : Bytes} (h : Replaced q s o)
    (hn : ∀ k, ¬ character k <:+: s) : o.length * 7 ≤ s.length * 13 := by
  induction h with
  | nil => simp
  | @entity k s o h ih =>
    have hl : (entity k).length = 7 := by cases k <;> rfl
    have := ih fun j hj => hn j (hj.trans (List.suffix_append _ _).isInfix)
    have := hq k
    simp only [List.length_append, hl]
    omega
  | @character k s o h ih => exact absurd (List.prefix_append _ _).isInfix (hn k)
  | @other c s o _ h ih =>
    have := ih fun j hj => hn j (hj.trans (List.suffix_cons _ _).isInfix)
    simp only [List.length_cons]
    omega

end Verif.QuoteLang
