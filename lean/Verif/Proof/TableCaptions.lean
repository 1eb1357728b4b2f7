/- Proofs about captions of tables. -/
import Verif.Model.TableCaptions
import Verif.Spec.TableCaptions
import Verif.Proof.Liquid
import Verif.Proof.EmojiHtml

namespace Verif.TableCaptions

open Spec (Blank Line Eol Fence Attr Split bracketed Trimmed Pandoc Colon One Lines)

/-! ### Attributes -/

def Key (k : Byte) : Prop := k = c!":" ∨ k = c!"#" ∨ k = c!"."

theorem openAt_iff {n : Byte} {t r : Bytes} (hn : n ≠ c!"{") :
    openAt n t = some r ↔ ∃ k x, t.reverse ++ [n] = r.reverse ++ c!"{" :: k :: x ∧ Key k ∧ c!"{" ∉ x := by
  induction t generalizing n with
  | nil =>
    simp only [openAt, List.reverse_nil, List.nil_append]
    constructor
    · intro h; cases h
    · rintro ⟨k, x, h, _⟩
      have := congrArg List.length h
      simp at this
      omega
  | cons c t ih =>
    rw [openAt]
    by_cases hc : c = c!"{"
    · subst hc
      rw [if_pos (by simp)]
      by_cases hk : Key n
      · rw [if_pos (by simpa [Key, or_assoc] using hk)]
        constructor
        · intro h
          cases h
          exact ⟨n, [], by simp, hk, by simp⟩
        · rintro ⟨k, x, h, h1, h2⟩
          rw [List.reverse_cons] at h
          rcases List.eq_nil_or_concat x with rfl | ⟨x', y, rfl⟩
          · have e : t.reverse ++ [c!"{"] ++ [n] = r.reverse ++ [c!"{"] ++ [k] := by simpa using h
            have e1 := (List.append_inj' e rfl).1
            have e2 := (List.append_inj' e1 rfl).1
            have := congrArg List.reverse e2
            simp at this
            rw [this]
          · exfalso
            rw [List.concat_eq_append] at h h2
            have e : t.reverse ++ [c!"{"] ++ [n] = (r.reverse ++ c!"{" :: k :: x') ++ [y] := by simpa using h
            have e1 := (List.append_inj' e rfl).1
            rcases List.eq_nil_or_concat x' with rfl | ⟨x'', z, rfl⟩
            · have e2 : t.reverse ++ [c!"{"] = (r.reverse ++ [c!"{"]) ++ [k] := by simpa using e1
              have := (List.append_inj' e2 rfl).2
              simp at this
              subst this
              rcases h1 with h1 | h1 | h1 <;> exact absurd h1 (by decide)
            · rw [List.concat_eq_append] at e1 h2
              have e2 : t.reverse ++ [c!"{"] = (r.reverse ++ c!"{" :: k :: x'') ++ [z] := by simpa using e1
              have := (List.append_inj' e2 rfl).2
              simp at this
              exact h2 (by simp [← this])
      · rw [if_neg (by simpa [Key, or_assoc] using hk)]
        constructor
        · intro h; cases h
        · rintro ⟨k, x, h, h1, h2⟩
          exfalso
          rw [List.reverse_cons] at h
          rcases List.eq_nil_or_concat x with rfl | ⟨x', y, rfl⟩
          · have e : t.reverse ++ [c!"{"] ++ [n] = (r.reverse ++ [c!"{"]) ++ [k] := by simpa using h
            have := (List.append_inj' e rfl).2
            simp at this
            exact hk (this ▸ h1)
          · rw [List.concat_eq_append] at h h2
            have e : t.reverse ++ [c!"{"] ++ [n] = (r.reverse ++ c!"{" :: k :: x') ++ [y] := by simpa using h
            have e1 := (List.append_inj' e rfl).1
            rcases List.eq_nil_or_concat x' with rfl | ⟨x'', z, rfl⟩
            · have e2 : t.reverse ++ [c!"{"] = (r.reverse ++ [c!"{"]) ++ [k] := by simpa using e1
              have := (List.append_inj' e2 rfl).2
              simp at this
              subst this
              rcases h1 with h1 | h1 | h1 <;> exact absurd h1 (by decide)
            · rw [List.concat_eq_append] at e1 h2
              have e2 : t.reverse ++ [c!"{"] = (r.reverse ++ c!"{" :: k :: x'') ++ [z] := by simpa using e1
              have := (List.append_inj' e2 rfl).2
              simp at this
              exact h2 (by simp [← this])
    · rw [if_neg (by simpa using hc), ih hc]
      constructor
      · rintro ⟨k, x, h, h1, h2⟩
        refine ⟨k, x ++ [n], by rw [List.reverse_cons, h]; simp, h1, ?_⟩
        simp [h2, Ne.symm hn]
      · rintro ⟨k, x, h, h1, h2⟩
        rw [List.reverse_cons] at h
        rcases List.eq_nil_or_concat x with rfl | ⟨x', y, rfl⟩
        · have e : t.reverse ++ [c] ++ [n] = (r.reverse ++ [c!"{"]) ++ [k] := by simpa using h
          have e1 := (List.append_inj' e rfl).1
          have := (List.append_inj' e1 rfl).2
          simp at this
          exact absurd this hc
        · rw [List.concat_eq_append] at h h2
          have e : t.reverse ++ [c] ++ [n] = (r.reverse ++ c!"{" :: k :: x') ++ [y] := by simpa using h
          exact ⟨k, x', (List.append_inj' e rfl).1, h1, fun hm => h2 (by simp [hm])⟩

theorem attr_snoc {b : Bytes} {c : Byte} (h : Attr b) : Attr (b ++ [c]) := by
  obtain ⟨k, x, b', rfl, h1, h2⟩ := h
  exact ⟨k, x, b' ++ [c], by simp, h1, h2⟩

/-- Attributes that end with the last byte, or already before it. -/
theorem attr_last {b : Bytes} {c : Byte} (h : Attr (b ++ [c])) : Attr b ∨ (c = c!"}" ∧ ∃ k x, b = c!"{" :: k :: x ∧ Key k ∧ c!"{" ∉ x) := by
  obtain ⟨k, x, b', e, h1, h2⟩ := h
  rcases List.eq_nil_or_concat b' with rfl | ⟨b'', y, rfl⟩
  · right
    have e' : b ++ [c] = (c!"{" :: k :: x) ++ [c!"}"] := by simpa using e
    have := (List.append_inj' e' rfl)
    exact ⟨by simpa using this.2, k, x, this.1, h1, h2⟩
  · left
    rw [List.concat_eq_append] at e
    have e' : b ++ [c] = (c!"{" :: k :: x ++ c!"}" :: b'') ++ [y] := by simpa using e
    exact ⟨k, x, b'', (List.append_inj' e' rfl).1, h1, h2⟩

theorem not_attr_nil : ¬ Attr [] := by
  rintro ⟨k, x, b, e, _⟩
  simp at e

/-- What `cut` finds. -/
theorem cut_spec (t : Bytes) :
    (∀ r, cut t = some r → ∃ attr, t.reverse = r.reverse ++ attr ∧ Attr attr ∧ ∀ a b, attr = a ++ b → a ≠ [] → ¬ Attr b) ∧
    (cut t = none → ∀ a b, t.reverse = a ++ b → ¬ Attr b) := by
  induction t with
  | nil =>
    refine ⟨fun r h => (by cases h), fun _ a b h => ?_⟩
    have : b = [] := by
      have := congrArg List.length h
      simp at this
      exact List.eq_nil_of_length_eq_zero (by omega)
    rw [this]
    exact not_attr_nil
  | cons c t ih =>
    obtain ⟨ih1, ih2⟩ := ih
    -- the step over a byte with which no attributes end
    have skip : (∀ a k x, t.reverse = a ++ c!"{" :: k :: x → Key k → c!"{" ∉ x → c ≠ c!"}") →
        (∀ r, cut t = some r → ∃ attr, (c :: t).reverse = r.reverse ++ attr ∧ Attr attr ∧ ∀ a b, attr = a ++ b → a ≠ [] → ¬ Attr b) ∧
        (cut t = none → ∀ a b, (c :: t).reverse = a ++ b → ¬ Attr b) := by
      intro hno
      have key : ∀ a b, t.reverse = a ++ b → Attr (b ++ [c]) → Attr b := by
        intro a b e h
        rcases attr_last h with h | ⟨hc, k, x, e', h1, h2⟩
        · exact h
        · exact absurd hc (hno a k x (by rw [e, e']) h1 h2)
      constructor
      · intro r hr
        obtain ⟨attr, e, h1, h2⟩ := ih1 r hr
        refine ⟨attr ++ [c], by rw [List.reverse_cons, e]; simp, attr_snoc h1, ?_⟩
        intro a b eb ha hb
        rcases List.eq_nil_or_concat b with rfl | ⟨b', y, rfl⟩
        · exact not_attr_nil hb
        · rw [List.concat_eq_append, ← List.append_assoc] at eb
          obtain ⟨e1, e2⟩ := List.append_inj' eb rfl
          simp at e2
          subst e2
          rw [List.concat_eq_append] at hb
          exact h2 a b' e1 ha (key (r.reverse ++ a) b' (by rw [e, e1]; simp) hb)
      · intro hr a b eb hb
        rcases List.eq_nil_or_concat b with rfl | ⟨b', y, rfl⟩
        · exact not_attr_nil hb
        · rw [List.concat_eq_append, ← List.append_assoc, List.reverse_cons] at eb
          obtain ⟨e1, e2⟩ := List.append_inj' eb rfl
          simp at e2
          subst e2
          rw [List.concat_eq_append] at hb
          exact ih2 hr a b' e1 (key a b' e1 hb)
    rw [cut]
    by_cases hc : c = c!"}"
    · subst hc
      rw [if_pos (by simp)]
      cases ho : openAt c!"}" t with
      | some r =>
        simp only
        refine ⟨fun r' h => ?_, fun h => (by cases h)⟩
        cases h
        obtain ⟨k, x, e, h1, h2⟩ := (openAt_iff (by decide)).1 ho
        refine ⟨c!"{" :: k :: x, by rw [List.reverse_cons, e], ?_, ?_⟩
        · rcases List.eq_nil_or_concat x with rfl | ⟨x', y, rfl⟩
          · have e' : t.reverse ++ [c!"}"] = (r.reverse ++ [c!"{"]) ++ [k] := by simpa using e
            have := (List.append_inj' e' rfl).2
            simp at this
            subst this
            rcases h1 with h1 | h1 | h1 <;> exact absurd h1 (by decide)
          · rw [List.concat_eq_append] at e h2 ⊢
            have e' : t.reverse ++ [c!"}"] = (r.reverse ++ c!"{" :: k :: x') ++ [y] := by simpa using e
            have := (List.append_inj' e' rfl).2
            simp at this
            subst this
            exact ⟨k, x', [], by simp, h1, fun hm => h2 (by simp [hm])⟩
        · rintro a b eb ha ⟨k', x', b', rfl, h1', h2'⟩
          cases a with
          | nil => exact ha rfl
          | cons y a =>
            simp only [List.cons_append, List.cons.injEq] at eb
            obtain ⟨_, eb⟩ := eb
            have hm : c!"{" ∈ k :: x := by rw [eb]; simp
            rcases List.mem_cons.1 hm with hm | hm
            · subst hm
              rcases h1 with h1 | h1 | h1 <;> exact absurd h1 (by decide)
            · exact h2 hm
      | none =>
        simp only
        refine skip ?_
        intro a k x e h1 h2 _
        have : openAt c!"}" t = some a.reverse := (openAt_iff (by decide)).2 ⟨k, x ++ [c!"}"], by rw [e]; simp, h1, by simp [h2]⟩
        rw [ho] at this
        cases this
    · rw [if_neg (by simpa using hc)]
      exact skip fun _ _ _ _ _ _ => hc

theorem front_split (s : Bytes) : ∃ attr, s = front s ++ attr ∧ Split s (front s) attr := by
  obtain ⟨h1, h2⟩ := cut_spec s.reverse
  unfold front
  cases hc : cut s.reverse with
  | none =>
    simp only
    refine ⟨[], by simp, by simp, Or.inl ⟨rfl, ?_⟩⟩
    have := h2 hc
    rwa [List.reverse_reverse] at this
  | some r =>
    simp only
    obtain ⟨attr, e, h3, h4⟩ := h1 r hc
    rw [List.reverse_reverse] at e
    exact ⟨attr, e, e, Or.inr ⟨h3, h4⟩⟩

/-! ### Captions -/

theorem dropEnd_spec (p : Byte → Bool) (s : Bytes) :
    ∃ w, s = dropEnd p s ++ w ∧ (∀ c ∈ w, p c = true) ∧ ∀ c, (dropEnd p s).getLast? = some c → p c = false := by
  refine ⟨(s.reverse.takeWhile p).reverse, ?_, fun c hc => ?_, fun c hc => ?_⟩
  · have := congrArg List.reverse (List.takeWhile_append_dropWhile (p := p) (l := s.reverse))
    rw [List.reverse_append, List.reverse_reverse] at this
    exact this.symm
  · exact List.all_eq_true.1 List.all_takeWhile c (List.mem_reverse.1 hc)
  · unfold dropEnd at hc
    rw [List.getLast?_reverse] at hc
    exact FencedDivs.head_dropWhile hc

theorem attr_head {a : Bytes} (h : Attr a) : ∃ t, a = c!"{" :: t := by
  obtain ⟨k, x, b, rfl, _⟩ := h
  exact ⟨_, rfl⟩

theorem attributes_eq {s front attr w : Bytes} (h : Split s front attr) (hw : ∀ c ∈ w, isSpace c = true) :
    attributes (w ++ attr) = if attr = [] then [] else b!" " ++ attr := by
  unfold attributes
  rcases h.2 with ⟨rfl, _⟩ | ⟨h, _⟩
  · have := EmojiHtml.dropWhile_pre (y := []) hw (by simp)
    rw [this]
    simp
  · obtain ⟨t, rfl⟩ := attr_head h
    rw [EmojiHtml.dropWhile_pre hw (by simp; decide)]
    simp

theorem space_of_blank {c : Byte} (h : blank c = true) : isSpace c = true := by
  simp only [blank, Bool.or_eq_true, beq_iff_eq] at h
  rcases h with rfl | rfl <;> decide

theorem blank_iff (s : Bytes) : Blank s ↔ ∀ c ∈ s, blank c = true := by simp [Blank, blank]

theorem pandoc_spec {before m s : Bytes} (hm : m = b!"Table:" ∨ m = b!"table:") (hl : Line (before ++ m ++ s)) (hc : pandoc s ≠ []) :
    Pandoc (before ++ m ++ s) (pandocLine before s) := by
  have hsp := List.takeWhile_append_dropWhile (p := blank) (l := s)
  obtain ⟨attr, e1, hs⟩ := front_split (s.dropWhile blank)
  obtain ⟨w, e2, hw, hlast⟩ := dropEnd_spec (fun c => blank c || c == c!"\r") (front (s.dropWhile blank))
  have e3 : s.dropWhile blank = pandoc s ++ w ++ attr := by
    rw [e2] at e1
    exact e1
  have hw' : ∀ c ∈ w, blank c = true := by
    intro c hcw
    have h := hw c hcw
    simp only [Bool.or_eq_true, beq_iff_eq] at h
    rcases h with h | rfl
    · exact h
    · exfalso
      refine hl.2 ?_
      rw [← hsp, e3]
      simp [hcw]
  refine ⟨before, m, s.takeWhile blank, pandoc s, w, attr, ?_, hm, ?_, ?_, hc, ⟨?_, ?_⟩, ?_, ?_⟩
  · conv => lhs; rw [← hsp, e3]
    simp
  · exact (blank_iff _).2 fun c hc => List.all_eq_true.1 List.all_takeWhile c hc
  · exact (blank_iff _).2 hw'
  · intro c hh
    refine FencedDivs.head_dropWhile (p := blank) (s := s) ?_
    rw [e3]
    cases hp : pandoc s with
    | nil => exact absurd hp hc
    | cons x t => rw [hp] at hh; simpa using hh
  · intro c hh
    have := hlast c hh
    simp only [Bool.or_eq_false_iff] at this
    exact this.1
  · have : front (s.dropWhile blank) = pandoc s ++ w := e2
    rw [← e3, ← this]
    exact hs
  · unfold pandocLine bracketed
    have : (s.dropWhile blank).drop (pandoc s).length = w ++ attr := by rw [e3, List.append_assoc, List.drop_left]
    rw [this, attributes_eq hs fun c hc => space_of_blank (hw' c hc)]
    simp

theorem colon_spec {ws s : Bytes} {d : Byte} (hws : Blank ws) (hd : blank d = true) :
    Colon (ws ++ c!":" :: d :: s) (colonLine s) := by
  obtain ⟨attr, e1, hs⟩ := front_split s
  have hsp := List.takeWhile_append_dropWhile (p := isSpace) (l := front s)
  obtain ⟨w, e2, hw, hlast⟩ := dropEnd_spec isSpace ((front s).dropWhile isSpace)
  have e2' : (front s).dropWhile isSpace = colon s ++ w := e2
  have e3 : front s = (front s).takeWhile isSpace ++ colon s ++ w := by rw [List.append_assoc, ← e2', hsp]
  refine ⟨ws, d, (front s).takeWhile isSpace, colon s, w, attr, ?_, hws, by simpa [blank] using hd, fun c hc => List.all_eq_true.1 List.all_takeWhile c hc,
    hw, ⟨?_, hlast⟩, ?_, ?_⟩
  · conv => lhs; rw [e1, e3]
    simp
  · intro c hh
    refine FencedDivs.head_dropWhile (p := isSpace) (s := front s) ?_
    rw [e2']
    cases hp : colon s with
    | nil => rw [hp] at hh; cases hh
    | cons x t => rw [hp] at hh; simpa using hh
  · rw [← e3, ← e1]
    exact hs
  · unfold colonLine bracketed
    have : s.drop (((front s).takeWhile isSpace).length + (colon s).length) = w ++ attr := by
      have e4 : s = ((front s).takeWhile isSpace ++ colon s) ++ (w ++ attr) := by
        rw [← List.append_assoc, ← e3, ← e1]
      rw [← List.length_append]
      exact (congrArg (List.drop _) e4).trans List.drop_left
    rw [this, attributes_eq hs hw]
    simp

/-! ### Lines -/

theorem fence_iff (l : Bytes) : fence (l.dropWhile blank) = true ↔ Fence l := by
  have hsp := List.takeWhile_append_dropWhile (p := blank) (l := l)
  unfold fence
  rw [Bool.or_eq_true, List.isPrefixOf_iff_prefix, List.isPrefixOf_iff_prefix]
  constructor
  · rintro (⟨t, ht⟩ | ⟨t, ht⟩)
    · exact ⟨l.takeWhile blank, t, (blank_iff _).2 fun c hc => List.all_eq_true.1 List.all_takeWhile c hc, Or.inl (by rw [List.append_assoc, ht, hsp])⟩
    · exact ⟨l.takeWhile blank, t, (blank_iff _).2 fun c hc => List.all_eq_true.1 List.all_takeWhile c hc, Or.inr (by rw [List.append_assoc, ht, hsp])⟩
  · rintro ⟨ws, t, hws, rfl | rfl⟩
    · left
      rw [List.append_assoc, EmojiHtml.dropWhile_pre ((blank_iff _).1 hws) (by simp; decide)]
      exact List.prefix_append _ _
    · right
      rw [List.append_assoc, EmojiHtml.dropWhile_pre ((blank_iff _).1 hws) (by simp; decide)]
      exact List.prefix_append _ _

theorem find_anywhere {w l : Bytes} {p : Byte → Bool} (hw : w ≠ []) (h : (Embed.find w (l.dropWhile p)).isSome = true) : (Embed.find w l).isSome = true := by
  cases hf : Embed.find w l with
  | some r => rfl
  | none =>
    rw [Embed.find_none hw] at hf
    cases hg : Embed.find w (l.dropWhile p) with
    | none => rw [hg] at h; cases h
    | some r =>
      obtain ⟨a, b⟩ := r
      exfalso
      refine hf ?_
      have e := Embed.find_some hg
      have hsp := List.takeWhile_append_dropWhile (p := p) (l := l)
      rw [e] at hsp
      exact ⟨l.takeWhile p ++ a, b, by simpa using hsp⟩

theorem anywhere_of_marked {p : Bytes} (h : marked p = true) : anywhere p = true := by
  unfold marked at h
  unfold anywhere
  rw [Bool.or_eq_true, List.isPrefixOf_iff_prefix, List.isPrefixOf_iff_prefix] at h
  rw [Bool.or_eq_true]
  rcases h with h | h
  · left
    cases hf : Embed.find b!"Table:" p with
    | some r => rfl
    | none => exact absurd h.isInfix ((Embed.find_none (by decide)).1 hf)
  · right
    cases hf : Embed.find b!"table:" p with
    | some r => rfl
    | none => exact absurd h.isInfix ((Embed.find_none (by decide)).1 hf)

theorem split_spec {l : Bytes} (h : anywhere (l.dropWhile blank) = true) :
    ∃ m, (m = b!"Table:" ∨ m = b!"table:") ∧ l = (split l (l.dropWhile blank)).1 ++ m ++ (split l (l.dropWhile blank)).2 := by
  unfold anywhere at h
  rw [Bool.or_eq_true] at h
  unfold split
  cases hf : Embed.find b!"Table:" l with
  | some r =>
    obtain ⟨a, b⟩ := r
    exact ⟨_, Or.inl rfl, Embed.find_some hf⟩
  | none =>
    simp only
    cases hg : Embed.find b!"table:" l with
    | some r =>
      obtain ⟨a, b⟩ := r
      exact ⟨_, Or.inr rfl, Embed.find_some hg⟩
    | none =>
      exfalso
      rcases h with h | h
      · have := find_anywhere (by decide) h
        rw [hf] at this
        cases this
      · have := find_anywhere (by decide) h
        rw [hg] at this
        cases this

theorem pandoc_length {l c : Bytes} (h : Pandoc l c) : c.length + 1 ≤ l.length ∧ 6 ≤ l.length := by
  obtain ⟨before, m, ws, cap, ws', attr, rfl, hm, _, _, _, _, _, rfl⟩ := h
  have hm6 : m.length = 6 := by rcases hm with rfl | rfl <;> rfl
  unfold bracketed
  simp only [List.length_append, hm6]
  split <;> split <;> simp <;> omega

theorem colon_length {l c : Bytes} (h : Colon l c) : c.length ≤ l.length + 2 ∧ 2 ≤ l.length := by
  obtain ⟨ws, d, ws1, cap, ws2, attr, rfl, _, _, _, _, _, _, rfl⟩ := h
  unfold bracketed
  simp only [List.length_append, List.length_cons]
  split <;> simp <;> omega

theorem getLast_append {a b : Bytes} (h : b ≠ []) : (a ++ b).getLast? = b.getLast? := by
  rcases List.eq_nil_or_concat b with rfl | ⟨b', x, rfl⟩
  · exact absurd rfl h
  · rw [List.concat_eq_append, ← List.append_assoc, List.getLast?_concat, List.getLast?_concat]

theorem bracketed_last {cap attr : Bytes} (hl : Line attr) : ∃ c, (bracketed cap attr).getLast? = some c ∧ c ≠ c!"\n" ∧ c ≠ c!"\r" := by
  unfold bracketed
  rcases List.eq_nil_or_concat attr with rfl | ⟨a, x, rfl⟩
  · refine ⟨c!"]", ?_, by decide, by decide⟩
    rw [if_pos rfl, List.append_nil, List.getLast?_concat]
  · rw [List.concat_eq_append] at hl ⊢
    rw [if_neg (by simp), getLast_append (by simp), getLast_append (by simp), List.getLast?_concat]
    refine ⟨x, rfl, ?_, ?_⟩
    · rintro rfl; exact hl.1 (by simp)
    · rintro rfl; exact hl.2 (by simp)

theorem caption_last {l c : Bytes} (hl : Line l) (h : Pandoc l c ∨ Colon l c) : ∃ x, c.getLast? = some x ∧ x ≠ c!"\n" ∧ x ≠ c!"\r" := by
  have hb : ∀ cap attr, bracketed cap attr ≠ [] := by intro cap attr; simp [bracketed]
  rcases h with h | h
  · obtain ⟨before, m, ws, cap, ws', attr, rfl, hm, _, _, _, _, _, rfl⟩ := h
    rw [getLast_append (hb _ _)]
    exact bracketed_last ⟨fun hm => hl.1 (by simp [hm]), fun hm => hl.2 (by simp [hm])⟩
  · obtain ⟨ws, d, ws1, cap, ws2, attr, rfl, _, _, _, _, _, _, rfl⟩ := h
    rw [getLast_append (hb _ _)]
    exact bracketed_last ⟨fun hm => hl.1 (by simp [hm]), fun hm => hl.2 (by simp [hm])⟩

/-- Bytes that must be left for what can come. -/
def need (st : St) : Nat := (if st.row then 2 else 0) + (if st.buf then 1 else 0)

theorem line_last {l : Bytes} (hl : Line l) (h : l ≠ []) : ∃ c, l.getLast? = some c ∧ c ≠ c!"\n" ∧ c ≠ c!"\r" := by
  rcases List.eq_nil_or_concat l with rfl | ⟨a, x, rfl⟩
  · exact absurd rfl h
  · rw [List.concat_eq_append] at hl ⊢
    refine ⟨x, List.getLast?_concat, ?_, ?_⟩
    · rintro rfl; exact hl.1 (by simp)
    · rintro rfl; exact hl.2 (by simp)

/-- What is true of a line and its piece `q` of the result. -/
structure Fine (st : St) (l q : Bytes) (st' : St) : Prop where
  one : One st.code l (q ++ b!"\n") st'.code
  buf : st'.code = true → st'.buf = false
  full : q.length + 1 + need st' ≤ need st + 2 * (l.length + 1)
  last : l ≠ [] → q.length + 1 ≤ need st + 2 * l.length
  ends : l ≠ [] → ∃ c, q.getLast? = some c ∧ c ≠ c!"\n" ∧ c ≠ c!"\r"

theorem after_code (st : St) (i : Info) : (after st i).code = i.code := by
  unfold after
  cases hc : i.code with
  | true => simp
  | false =>
    simp only [Bool.false_eq_true, if_false]
    repeat' split
    all_goals rfl

theorem after_buf (st : St) (i : Info) : (after st i).buf = st.buf := by
  unfold after
  repeat' split
  all_goals rfl

theorem after_row {st : St} {i : Info} (h : (after st i).row = true) : st.row = true ∨ i.row = true := by
  unfold after at h
  split at h
  · exact Or.inl h
  · split at h
    · rename_i h'; exact Or.inr h'
    · split at h
      · exact Or.inl h
      · split at h
        · exact Or.inl h
        · cases h

theorem info_row {st : St} {l : Bytes} (h : (info st l).row = true) : 1 ≤ l.length := by
  simp only [info, Bool.and_eq_true] at h
  have : l ≠ [] := by rintro rfl; simp at h
  exact List.length_pos_iff.2 this

theorem need_after (st : St) (l : Bytes) (st0 : St) : need (after st (info st0 l)) ≤ need st + l.length + 1 := by
  unfold need
  rw [after_buf]
  by_cases hr : (after st (info st0 l)).row = true
  · rcases after_row hr with h | h
    · simp [hr, h]
      omega
    · have := info_row h
      simp [hr]
      split <;> split <;> omega
  · simp [hr]
    split <;> split <;> omega

/-- A line that is kept. -/
theorem fine_keep {st st1 st0 : St} {l k : Bytes} (hl : Line l) (hone : One st.code l (k ++ l ++ b!"\n") (after st1 (info st0 l)).code)
    (hbuf : (info st0 l).code = true → st1.buf = false) (hneed : k.length + need st1 ≤ need st) : Fine st l (k ++ l) (after st1 (info st0 l)) := by
  refine ⟨hone, ?_, ?_, ?_, ?_⟩
  · rw [after_code, after_buf]
    exact hbuf
  · have := need_after st1 l st0
    simp only [List.length_append]
    omega
  · intro h
    have := List.length_pos_iff.2 h
    simp only [List.length_append]
    omega
  · intro h
    rw [getLast_append h]
    exact line_last hl h

theorem fine_pandoc {st st1 st0 : St} {l c : Bytes} (hl : Line l) (hc : Pandoc l c) (hf : Fence l ↔ st.code = true) (hcode : (info st0 l).code = false)
    (h1 : need st1 ≤ need st) : Fine st l c (after st1 (info st0 l)) := by
  have hlen := pandoc_length hc
  refine ⟨?_, ?_, ?_, ?_, fun _ => caption_last hl (Or.inl hc)⟩
  · rw [after_code, hcode]
    exact .caption hf (Or.inl hc)
  · rw [after_code, hcode]
    intro h; cases h
  · have := need_after st1 l st0
    omega
  · intro _
    omega

theorem fine_colon {st st1 st0 : St} {l c : Bytes} (hl : Line l) (hc : Colon l c) (hf : Fence l ↔ st.code = true) (hcode : (info st0 l).code = false)
    (hrow : st.row = true) (h1 : st1.buf = false) : Fine st l c (after st1 (info st0 l)) := by
  have hlen := colon_length hc
  have hn : 2 ≤ need st := by simp [need, hrow]
  refine ⟨?_, ?_, ?_, ?_, fun _ => caption_last hl (Or.inr hc)⟩
  · rw [after_code, hcode]
    exact .caption hf (Or.inr hc)
  · rw [after_code, hcode]
    intro h; cases h
  · have : need (after st1 (info st0 l)) ≤ 2 := by
      unfold need
      rw [after_buf, h1]
      split <;> simp
    omega
  · intro _
    omega

theorem need_unbuf (st : St) : (if st.buf then b!"\n" else []).length + need { st with buf := false } ≤ need st := by
  unfold need
  cases st.buf <;> simp; omega

theorem need_unbuf' (st : St) (b : Bool) : need { st with buf := false, sect := b } ≤ need st := by
  unfold need
  simp

theorem dropWhile_blank {l : Bytes} (h : l.dropWhile blank = []) : Blank l := by
  rw [blank_iff]
  have := List.takeWhile_append_dropWhile (p := blank) (l := l)
  rw [h, List.append_nil] at this
  rw [← this]
  exact fun c hc => List.all_eq_true.1 List.all_takeWhile c hc

theorem line_spec {st : St} {l : Bytes} (hl : Line l) (hst : st.code = true → st.buf = false) :
    (∃ q st', (∀ nl, line st l nl = (q ++ eol nl, st')) ∧ Fine st l q st') ∨
    (∃ st', (∀ nl, line st l nl = ([], st')) ∧ One st.code l [] st'.code ∧ (st'.code = true → st'.buf = false) ∧ need st' ≤ need st + 1) := by
  have hcode : (info st l).code = if fence (l.dropWhile blank) then !st.code else st.code := rfl
  have hf := fence_iff l
  have hsp := List.takeWhile_append_dropWhile (p := blank) (l := l)
  have hbl : Blank (l.takeWhile blank) := (blank_iff _).2 fun c hc => List.all_eq_true.1 List.all_takeWhile c hc
  by_cases hc : (info st l).code = true
  · -- in code
    left
    have h1 : (info st l).bracket = false := by simp only [info] at hc ⊢; simp [hc]
    have h2 : (info st l).pandoc = false := by simp only [info] at hc ⊢; simp [hc]
    have h3 : (info st l).colon = false := by simp only [info] at hc ⊢; simp [hc]
    have h4 : (info st l).blank = false := by simp only [info] at hc ⊢; simp [hc]
    refine ⟨(if st.buf then b!"\n" else []) ++ l, after { st with buf := false } (info st l), ?_, ?_⟩
    · intro nl
      simp only [line, h1, h2, h3, h4, Bool.and_false, Bool.false_and, Bool.false_eq_true, if_false, Bool.not_false, Bool.and_true]
    · refine fine_keep hl ?_ (fun _ => rfl) (need_unbuf st)
      rw [after_code, hc]
      rw [hc] at hcode
      by_cases hfe : Fence l
      · rw [if_pos (hf.2 hfe)] at hcode
        have hsc : st.code = false := by simpa using hcode.symm
        rw [hsc]
        refine .fence (code := false) hfe ?_
        cases st.buf <;> simp
      · rw [if_neg fun h => hfe (hf.1 h)] at hcode
        rw [hst hcode.symm, ← hcode]
        exact .code hfe
  · have hc : (info st l).code = false := by simpa using hc
    have hif : Fence l ↔ st.code = true := by
      rw [← hf]
      rw [hc] at hcode
      split at hcode
      · rename_i h; simp [h, ← Bool.not_eq_false]
        simpa using hcode.symm
      · rename_i h; simp [h, ← hcode]
    -- a line that is kept
    have keep : ∀ k st1, (k = [] ∨ (k = b!"\n" ∧ st.code = false)) → k.length + need st1 ≤ need st → Fine st l (k ++ l) (after st1 (info st l)) := by
      intro k st1 hk hn
      refine fine_keep hl ?_ (fun h => by rw [hc] at h; cases h) hn
      rw [after_code, hc]
      by_cases hfe : Fence l
      · have := One.fence (code := st.code) (k := k) hfe hk
        rw [hif.1 hfe] at this ⊢
        exact this
      · have hsc : st.code = false := by
          rw [Bool.eq_false_iff]
          exact fun h => hfe (hif.2 h)
        rw [hsc]
        exact .text hfe (hk.imp_right And.left)
    have nofence : ∀ c, (l.dropWhile blank).head? = some c → c ≠ c!"`" → c ≠ c!"~" → st.code = false := by
      intro c hh h1 h2
      rw [Bool.eq_false_iff]
      intro h
      have := hf.2 (hif.2 h)
      cases hp : l.dropWhile blank with
      | nil => rw [hp] at hh; cases hh
      | cons x t =>
        rw [hp] at hh this
        simp at hh
        subst hh
        simp [fence, Ne.symm h1, Ne.symm h2] at this
    by_cases hb : (info st l).bracket = true
    · -- a bracket
      left
      have hh : (l.dropWhile blank).head? = some c!"[" := by
        simp only [info] at hb
        rw [Bool.and_eq_true] at hb
        simpa using hb.2
      have hsc := nofence _ hh (by decide) (by decide)
      have h2 : (info st l).pandoc = false := by simp only [info]; simp [hh]
      have h3 : (info st l).colon = false := by simp only [info]; simp [hh]
      have h4 : (info st l).blank = false := by
        simp only [info]
        have : l.dropWhile blank ≠ [] := by intro h; rw [h] at hh; cases hh
        simp [this]
      by_cases hr : st.row = true
      · refine ⟨b!"\n" ++ l, after st (info st l), ?_, ?_⟩
        · intro nl
          simp only [line, hr, hb, Bool.and_true, if_true]
        · have hfe : ¬ Fence l := fun h => by rw [hif.1 h] at hsc; cases hsc
          refine ⟨?_, fun h => (by rw [after_code, hc] at h; cases h), ?_, ?_, ?_⟩
          · rw [after_code, hc, hsc]
            exact .text hfe (Or.inr rfl)
          · have : need (after st (info st l)) ≤ need st := by
              unfold need
              rw [after_buf, hr]
              split <;> simp
            simp only [List.length_append, List.length_singleton]
            omega
          · intro _
            have : 2 ≤ need st := by simp [need, hr]
            simp only [List.length_append, List.length_singleton]
            omega
          · intro h
            rw [getLast_append h]
            exact line_last hl h
      · refine ⟨[] ++ l, after { st with buf := false } (info st l), ?_, keep _ _ (Or.inl rfl) ?_⟩
        · intro nl
          simp only [line, hr, hb, h2, h3, h4, Bool.and_false, Bool.false_and, Bool.false_eq_true, if_false, Bool.not_true]
        · have := need_unbuf st
          simp at this ⊢
          omega
    · have hb : (info st l).bracket = false := by simpa using hb
      by_cases hp : (info st l).pandoc = true
      · -- a marker
        left
        have hany : anywhere (l.dropWhile blank) = true := by
          simp only [info, Bool.and_eq_true, Bool.or_eq_true] at hp
          rcases hp.2 with h | h
          · exact anywhere_of_marked h
          · exact h.2
        obtain ⟨m, hm, he⟩ := split_spec hany
        by_cases hcap : pandoc (split l (l.dropWhile blank)).2 = []
        · refine ⟨[] ++ l, after st (info st l), ?_, keep [] st (Or.inl rfl) (by simp)⟩
          intro nl
          simp only [line, hb, hp, Bool.and_false, Bool.false_eq_true, if_false, if_true, ne_eq, hcap, not_true, List.nil_append]
        · refine ⟨pandocLine (split l (l.dropWhile blank)).1 (split l (l.dropWhile blank)).2, after { st with buf := false, sect := false } (info st l), ?_, ?_⟩
          · intro nl
            simp only [line, hb, hp, Bool.and_false, Bool.false_eq_true, if_false, if_true, ne_eq, hcap, not_false_eq_true]
          · refine fine_pandoc hl ?_ hif hc (need_unbuf' st false)
            have := pandoc_spec (before := (split l (l.dropWhile blank)).1) (s := (split l (l.dropWhile blank)).2) hm (by rw [← he]; exact hl) hcap
            rwa [← he] at this
      · have hp : (info st l).pandoc = false := by simpa using hp
        by_cases hk : (info st l).colon = true ∧ st.row = true
        · -- a colon
          left
          obtain ⟨hk, hr⟩ := hk
          have hh : colonHead (l.dropWhile blank) = true := by
            simp only [info, Bool.and_eq_true] at hk
            exact hk.2
          refine ⟨colonLine ((l.dropWhile blank).drop 2), after { st with buf := false, sect := true } (info st l), ?_, ?_⟩
          · intro nl
            simp only [line, hb, hp, hk, hr, Bool.and_false, Bool.false_eq_true, if_false, if_true, Bool.and_true]
          · refine fine_colon hl ?_ hif hc hr rfl
            match hd : l.dropWhile blank, hh with
            | x :: d :: t, hh =>
              simp only [colonHead, Bool.and_eq_true, beq_iff_eq] at hh
              obtain ⟨rfl, hdd⟩ := hh
              rw [hd] at hsp
              have := colon_spec (s := t) hbl hdd
              rwa [hsp] at this
            | [], hh => cases hh
            | [x], hh => cases hh
        · by_cases hbk : (info st l).blank = true ∧ (st.row || st.blank || st.sect) = true
          · -- a blank line
            right
            obtain ⟨hbk, hn⟩ := hbk
            have hbb : Blank l := by
              simp only [info, Bool.and_eq_true] at hbk
              exact dropWhile_blank (by simpa using hbk.2)
            refine ⟨{ st with code := false, blank := true, buf := true, sect := true }, ?_, ?_, fun h => (by cases h), ?_⟩
            · intro nl
              have h5 : (st.row && (info st l).colon) = false := by
                rw [Bool.eq_false_iff]
                intro h
                rw [Bool.and_eq_true] at h
                exact hk ⟨h.2, h.1⟩
              simp only [line, hb, hp, hbk, hn, h5, Bool.and_false, Bool.false_eq_true, if_false, if_true, Bool.and_true]
            · have hsc : st.code = false := by
                rw [Bool.eq_false_iff]
                intro h
                have := hf.2 (hif.2 h)
                simp only [info, Bool.and_eq_true] at hbk
                rw [show l.dropWhile blank = [] by simpa using hbk.2] at this
                exact absurd this (by decide)
              rw [hsc]
              exact .blank hbb
            · unfold need
              simp
          · -- another line
            left
            have h5 : (st.row && (info st l).colon) = false := by
              rw [Bool.eq_false_iff]
              intro h
              rw [Bool.and_eq_true] at h
              exact hk ⟨h.2, h.1⟩
            have h6 : ((info st l).blank && (st.row || st.blank || st.sect)) = false := by
              rw [Bool.eq_false_iff]
              intro h
              rw [Bool.and_eq_true] at h
              exact hbk h
            refine ⟨(if st.buf && !(info st l).colon then b!"\n" else []) ++ l, after { st with buf := false } (info st l), ?_, keep _ _ ?_ ?_⟩
            · intro nl
              simp only [line, hb, hp, h5, h6, Bool.and_false, Bool.false_eq_true, if_false, Bool.not_false, Bool.and_true]
            · split
              · rename_i h
                refine Or.inr ⟨rfl, ?_⟩
                rw [Bool.eq_false_iff]
                intro hcc
                rw [hst hcc] at h
                cases h
              · exact Or.inl rfl
            · have := need_unbuf st
              revert this
              cases st.buf <;> cases (info st l).colon <;> simp <;> omega

/-! ### Texts -/

theorem next_spec {s : Bytes} (hs : s ≠ []) : ∃ e, s.dropWhile inLine = e ++ next (s.dropWhile inLine) ∧
    Eol (s.takeWhile inLine) e (next (s.dropWhile inLine)) ∧ (e = [] ↔ s.dropWhile inLine = []) ∧ Line (s.takeWhile inLine) := by
  have hsp := List.takeWhile_append_dropWhile (p := inLine) (l := s)
  have hl : Line (s.takeWhile inLine) := by
    constructor <;>
    · intro h
      have := List.all_eq_true.1 List.all_takeWhile _ h
      revert this
      decide
  cases hd : s.dropWhile inLine with
  | nil =>
    rw [hd, List.append_nil] at hsp
    exact ⟨[], rfl, Or.inr (Or.inr (Or.inr ⟨rfl, rfl, by rw [hsp]; exact hs⟩)), by simp, hl⟩
  | cons c t =>
    have hc := FencedDivs.head_dropWhile (p := inLine) (s := s) (c := c) (by rw [hd]; rfl)
    have hc : c = c!"\n" ∨ c = c!"\r" := by
      simp only [inLine, Bool.and_eq_false_iff, bne_eq_false_iff_eq] at hc
      exact hc
    rcases hc with rfl | rfl
    · exact ⟨b!"\n", by simp [next], Or.inl rfl, by simp, hl⟩
    · cases t with
      | nil => exact ⟨b!"\r", by simp [next], Or.inr (Or.inr (Or.inl ⟨rfl, by simp [next]⟩)), by simp, hl⟩
      | cons d t =>
        by_cases hdd : d = c!"\n"
        · subst hdd
          exact ⟨b!"\r\n", by simp [next], Or.inr (Or.inl rfl), by simp, hl⟩
        · exact ⟨b!"\r", by simp [next, hdd], Or.inr (Or.inr (Or.inl ⟨rfl, by simp [next, hdd]⟩)), by simp, hl⟩

theorem close_line {cap : Nat} {out : Bytes} (h : out = [] ∨ out.getLast? = some c!"\n") (hc : out.length < cap) : close cap out = .val out := by
  unfold close
  rcases h with rfl | h
  · simp only [List.getLast?_nil]
    rw [finish_val hc]
  · rw [h]
    simp only [ne_eq, not_true, false_and, if_false]
    rw [finish_val hc]

theorem close_open {cap : Nat} {out : Bytes} {c : Byte} (h : out.getLast? = some c) (h1 : c ≠ c!"\n") (h2 : c ≠ c!"\r") (hc : out.length + 1 < cap) :
    close cap out = .val (out ++ b!"\n") := by
  unfold close
  rw [h]
  simp only
  rw [if_pos ⟨h1, h2⟩, put_val (by omega)]
  simp only [C.val_bind]
  rw [finish_val (by simpa using hc)]

theorem loop_lines (cap n : Nat) : ∀ (st : St) (out s : Bytes), s.length < n → (st.code = true → st.buf = false) → (out = [] ∨ out.getLast? = some c!"\n") →
    out.length + need st + 2 * s.length < cap → ∃ o, Lines st.code s o ∧ (loop cap n st out s >>= close cap) = .val (out ++ o) := by
  induction n with
  | zero => intro st out s h; omega
  | succ n ih =>
    intro st out s hn hst hout hcap
    rw [loop]
    by_cases hs : s = []
    · subst hs
      refine ⟨[], .nil, ?_⟩
      rw [if_pos rfl, C.val_bind, List.append_nil]
      exact close_line hout (by omega)
    · rw [if_neg hs]
      simp only
      obtain ⟨e, he, heol, hee, hl⟩ := next_spec hs
      have hsp := List.takeWhile_append_dropWhile (p := inLine) (l := s)
      generalize hgl : s.takeWhile inLine = l at *
      generalize hgd : s.dropWhile inLine = d at *
      generalize hgt : next d = t at *
      have hse : s = l ++ e ++ t := by rw [← hsp, he]; simp
      have hlen : s.length = l.length + e.length + t.length := by rw [hse]; simp [Nat.add_assoc]
      have hpos : 1 ≤ s.length := List.length_pos_iff.2 hs
      have hnext : t.length < s.length := by
        by_cases he0 : e = []
        · have hl0 : l ≠ [] := by
            intro h0
            have ht : t = [] := by rw [hee.1 he0, he0] at he; simpa using he.symm
            exact hs (by rw [hse, h0, he0, ht]; rfl)
          have := List.length_pos_iff.2 hl0
          omega
        · have := List.length_pos_iff.2 he0
          omega
      rcases line_spec hl hst with ⟨q, st', hq, hf⟩ | ⟨st', hq, h1, h2, h3⟩
      · rw [hq]
        simp only
        by_cases he0 : e = []
        · -- the last line
          have hd0 := hee.1 he0
          have ht0 : t = [] := by rw [hd0, he0] at he; simpa using he.symm
          have hl0 : l ≠ [] := by rintro rfl; rw [he0, ht0] at hse; exact hs (by simpa using hse)
          obtain ⟨c, hc1, hc2, hc3⟩ := hf.ends hl0
          have hlast := hf.last hl0
          subst ht0
          subst he0
          simp only [List.length_nil, Nat.add_zero] at hlen
          refine ⟨q ++ b!"\n", ?_, ?_⟩
          · rw [hse]
            have := Lines.cons hl heol hf.one (.nil)
            simpa using this
          · have hnl : eol (decide (d ≠ [])) = [] := by rw [hd0]; rfl
            rw [hnl, List.append_nil, puts_val (by omega)]
            simp only [C.val_bind]
            cases n with
            | zero => omega
            | succ n =>
              rw [loop, if_pos rfl, C.val_bind, close_open (c := c) (by rw [getLast_append]; exact hc1; rintro rfl; cases hc1) hc2 hc3 (by simp; omega)]
              simp
        · have hd0 : d ≠ [] := fun h => he0 (hee.2 h)
          have hnl : eol (decide (d ≠ [])) = b!"\n" := by simp [eol, hd0]
          have he1 := List.length_pos_iff.2 he0
          have hfull := hf.full
          obtain ⟨o, ho, hr⟩ := ih st' (out ++ (q ++ b!"\n")) t (by omega) hf.buf (Or.inr (by rw [← List.append_assoc, List.getLast?_concat])) (by simp; omega)
          refine ⟨(q ++ b!"\n") ++ o, ?_, ?_⟩
          · rw [hse]
            exact Lines.cons hl heol hf.one ho
          · rw [hnl, puts_val (by simp; omega)]
            simp only [C.val_bind]
            rw [hr]
            simp
      · rw [hq]
        simp only
        obtain ⟨o, ho, hr⟩ := ih st' out t (by omega) h2 hout (by omega)
        refine ⟨[] ++ o, ?_, ?_⟩
        · rw [hse]
          exact Lines.cons hl heol h1 ho
        · rw [puts_val (by simp; omega)]
          simp only [C.val_bind, List.append_nil, List.nil_append]
          exact hr

end Verif.TableCaptions
