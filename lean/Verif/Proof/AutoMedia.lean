/-
Helper lemmas for C180 and C181: images that look for their own variants.
-/
import Verif.Model.AutoMedia
import Verif.Spec.AutoMedia
import Verif.Proof.Media

namespace Verif.AutoMedia
open Spec (Body Inside Tag Opens Begins At Attr NoAttr Page Plain Closed)
open Embed (find)
open Media (lastDot lastDot_some)

/-! ### Tags -/

theorem tagEnd_plain {q c : Byte} (h : c ≠ c!"\\") (t : Bytes) :
    tagEnd (some q) (c :: t) = (tagEnd (if c = q then none else some q) t).map fun p => (c :: p.1, p.2) := by
  rw [tagEnd.eq_def]
  simp only [if_neg h]

theorem tagEnd_escaped (q d : Byte) (t : Bytes) : tagEnd (some q) (c!"\\" :: d :: t) = (tagEnd (some q) t).map fun p => (c!"\\" :: d :: p.1, p.2) := by
  rw [tagEnd.eq_def]
  simp only [if_true]

theorem tagEnd_last (q : Byte) : tagEnd (some q) [c!"\\"] = none := by
  rw [tagEnd.eq_def]
  simp only [if_true]

theorem toQuote_cons {q c : Byte} (h : c ≠ c!"\\") (t : Bytes) : toQuote q (c :: t) = if c = q then some [] else (toQuote q t).map (c :: ·) := by
  rw [toQuote.eq_def]
  simp only [if_neg h]

theorem toQuote_escaped {q : Byte} (h : q ≠ c!"\\") (d : Byte) (t : Bytes) : toQuote q (c!"\\" :: d :: t) = (toQuote q t).map fun x => c!"\\" :: d :: x := by
  rw [toQuote.eq_def]
  simp only [if_true, if_neg (Ne.symm h)]

theorem toQuote_last {q : Byte} (h : q ≠ c!"\\") : toQuote q [c!"\\"] = none := by
  rw [toQuote.eq_def]
  simp only [if_true, if_neg (Ne.symm h)]

theorem tagEnd_inside {a : Bytes} (h : Inside a) (r : Bytes) : tagEnd none (a ++ c!">" :: r) = some (a ++ b!">", r) := by
  have body : ∀ {q : Byte} {b : Bytes}, q ∈ b!"\"'" → Body q b → ∀ {s t r : Bytes}, tagEnd none s = some (t, r) → tagEnd (some q) (b ++ q :: s) = some (b ++ q :: t, r) := by
    intro q b hq hb
    have hq' : q ≠ c!"\\" := by rintro rfl; simp at hq
    induction hb with
    | nil => intro s t r h; rw [List.nil_append, tagEnd_plain hq', if_pos rfl, h]; rfl
    | plain h1 h2 _ ih => intro s t r h; rw [List.cons_append, tagEnd_plain h2, if_neg h1, ih h]; rfl
    | escaped _ ih => intro s t r h; rw [List.cons_append, List.cons_append, tagEnd_escaped, ih h]; rfl
  induction h with
  | nil => simp [tagEnd]
  | plain hc _ ih =>
    rename_i c s
    simp at hc
    simp [tagEnd, hc, ih]
  | @quoted q b s hq hb _ ih =>
    have := body hq hb ih
    have hq' : q = c!"\"" ∨ q = c!"'" := by simpa using hq
    have e : q :: b ++ q :: s ++ c!">" :: r = q :: (b ++ q :: (s ++ c!">" :: r)) := by simp
    rw [e, tagEnd, if_pos hq', this]
    simp

theorem tagEnd_some : ∀ (s : Bytes) (t r : Bytes), (tagEnd none s = some (t, r) → s = t ++ r ∧ Tag t) ∧
    ∀ q, q ∈ b!"\"'" → tagEnd (some q) s = some (t, r) → ∃ b a, t = b ++ q :: a ∧ Body q b ∧ s = t ++ r ∧ Tag a := by
  intro s
  induction hn : s.length using Nat.strongRecOn generalizing s with
  | ind n ih =>
    subst hn
    intro t r
    cases s with
    | nil => constructor <;> simp [tagEnd]
    | cons c s =>
      constructor
      · intro h
        rw [tagEnd] at h
        split at h
        · rename_i hc
          cases hs : tagEnd (some c) s with
          | none => rw [hs] at h; simp at h
          | some p =>
            obtain ⟨x, y⟩ := p
            rw [hs] at h
            simp only [Option.map_some, Option.some.injEq, Prod.mk.injEq] at h
            obtain ⟨rfl, rfl⟩ := h
            obtain ⟨b, a, rfl, hb, rfl, a', rfl, ha⟩ := (ih _ (by simp) s rfl x y).2 c (by simpa using hc) hs
            exact ⟨by simp, c :: b ++ c :: a', by simp, .quoted (by simpa using hc) hb ha⟩
        · split at h
          · rename_i hc
            simp only [Option.some.injEq, Prod.mk.injEq] at h
            obtain ⟨rfl, rfl⟩ := h
            exact ⟨by simp, [], by simp [hc], .nil⟩
          · rename_i h1 h2
            cases hs : tagEnd none s with
            | none => rw [hs] at h; simp at h
            | some p =>
              obtain ⟨x, y⟩ := p
              rw [hs] at h
              simp only [Option.map_some, Option.some.injEq, Prod.mk.injEq] at h
              obtain ⟨rfl, rfl⟩ := h
              obtain ⟨rfl, a, rfl, ha⟩ := (ih _ (by simp) s rfl x y).1 hs
              exact ⟨by simp, c :: a, by simp, .plain (by simp; simp at h1; exact ⟨h1.1, h1.2, h2⟩) ha⟩
      · intro q hq h
        by_cases hc : c = c!"\\"
        · subst hc
          cases s with
          | nil => rw [tagEnd_last] at h; simp at h
          | cons d s =>
            rw [tagEnd_escaped] at h
            cases hs : tagEnd (some q) s with
            | none => rw [hs] at h; simp at h
            | some p =>
              obtain ⟨x, y⟩ := p
              rw [hs] at h
              simp only [Option.map_some, Option.some.injEq, Prod.mk.injEq] at h
              obtain ⟨rfl, rfl⟩ := h
              obtain ⟨b, a, rfl, hb, rfl, ha⟩ := (ih _ (by simp; omega) s rfl x y).2 q hq hs
              exact ⟨c!"\\" :: d :: b, a, by simp, .escaped hb, by simp, ha⟩
        · rw [tagEnd_plain hc] at h
          by_cases hcq : c = q
          · rw [if_pos hcq] at h
            cases hs : tagEnd none s with
            | none => rw [hs] at h; simp at h
            | some p =>
              obtain ⟨x, y⟩ := p
              rw [hs] at h
              simp only [Option.map_some, Option.some.injEq, Prod.mk.injEq] at h
              obtain ⟨rfl, rfl⟩ := h
              obtain ⟨rfl, ha⟩ := (ih _ (by simp) s rfl x y).1 hs
              exact ⟨[], x, by simp [hcq], .nil, by simp, ha⟩
          · rw [if_neg hcq] at h
            cases hs : tagEnd (some q) s with
            | none => rw [hs] at h; simp at h
            | some p =>
              obtain ⟨x, y⟩ := p
              rw [hs] at h
              simp only [Option.map_some, Option.some.injEq, Prod.mk.injEq] at h
              obtain ⟨rfl, rfl⟩ := h
              obtain ⟨b, a, rfl, hb, rfl, ha⟩ := (ih _ (by simp) s rfl x y).2 q hq hs
              exact ⟨c :: b, a, by simp, .plain hcq hc hb, by simp, ha⟩

theorem tagEnd_iff {s t r : Bytes} : tagEnd none s = some (t, r) ↔ s = t ++ r ∧ Tag t := by
  constructor
  · exact (tagEnd_some s t r).1
  · rintro ⟨rfl, a, rfl, ha⟩
    have := tagEnd_inside ha r
    simpa using this

theorem tagEnd_none {s : Bytes} : tagEnd none s = none ↔ ∀ t r, s = t ++ r → ¬ Tag t := by
  constructor
  · intro h t r e ht
    have := tagEnd_iff.2 ⟨e, ht⟩
    rw [h] at this; simp at this
  · intro h
    cases hs : tagEnd none s with
    | none => rfl
    | some p => exact absurd (tagEnd_iff.1 hs).2 (h p.1 p.2 (tagEnd_iff.1 hs).1)

theorem opens_iff {s : Bytes} : opens s = true ↔ Opens s := by
  unfold opens
  simp only [Bool.and_eq_true, Bool.or_eq_true, beq_iff_eq]
  constructor
  · rintro ⟨h1, h2⟩
    have hl : 4 < s.length := by
      rcases h2 with ((h | h) | h) | h <;> exact (List.getElem?_eq_some_iff.1 h).1
    refine ⟨s.take 4, s[4], s.drop 5, ?_, h1, ?_⟩
    · rw [List.getElem_cons_drop, List.take_append_drop]
    · rw [List.getElem?_eq_getElem hl] at h2
      simpa [or_assoc] using h2
  · rintro ⟨n, c, t, rfl, h1, h2⟩
    have hl : n.length = 4 := by simpa using congrArg List.length h1
    have e : (n ++ c :: t).take 4 = n := by rw [← hl, List.take_left']; rfl
    have e2 : (n ++ c :: t)[4]? = some c := by rw [List.getElem?_append_right (by omega), hl]; rfl
    rw [e, e2]
    refine ⟨h1, ?_⟩
    simpa [or_assoc] using h2

theorem toQuote_iff {q : Byte} (hq : q ≠ c!"\\") : ∀ {s v : Bytes}, toQuote q s = some v ↔ ∃ b, s = v ++ q :: b ∧ Body q v := by
  intro s
  induction hn : s.length using Nat.strongRecOn generalizing s with
  | ind n ih =>
    subst hn
    intro v
    cases s with
    | nil => simp [toQuote]
    | cons c t =>
      by_cases hc : c = c!"\\"
      · subst hc
        cases t with
        | nil =>
          rw [toQuote_last hq]
          simp only [reduceCtorEq, false_iff]
          rintro ⟨b, e, hb⟩
          cases hb with
          | nil => simp only [List.nil_append, List.cons.injEq] at e; exact hq e.1.symm
          | plain _ h _ => simp only [List.cons_append, List.cons.injEq] at e; exact h e.1.symm
          | escaped _ => simp at e
        | cons d t =>
          rw [toQuote_escaped hq]
          constructor
          · intro h
            cases ht : toQuote q t with
            | none => rw [ht] at h; simp at h
            | some x =>
              rw [ht] at h
              simp only [Option.map_some, Option.some.injEq] at h
              obtain ⟨b, rfl, hb⟩ := (ih _ (by simp; omega) rfl).1 ht
              exact ⟨b, by simp [← h], by rw [← h]; exact .escaped hb⟩
          · rintro ⟨b, e, hb⟩
            cases hb with
            | nil => simp only [List.nil_append, List.cons.injEq] at e; exact absurd e.1.symm hq
            | plain _ h _ => simp only [List.cons_append, List.cons.injEq] at e; exact absurd e.1.symm h
            | escaped hb =>
              simp only [List.cons_append, List.cons.injEq, true_and] at e
              obtain ⟨rfl, rfl⟩ := e
              rw [(ih _ (by simp; omega) rfl).2 ⟨b, rfl, hb⟩]
              rfl
      · rw [toQuote_cons hc]
        by_cases h1 : c = q
        · rw [if_pos h1]
          constructor
          · intro h
            simp only [Option.some.injEq] at h
            exact ⟨t, by simp [← h, h1], by rw [← h]; exact .nil⟩
          · rintro ⟨b, e, hb⟩
            cases hb with
            | nil => rfl
            | plain h _ _ =>
              simp only [List.cons_append, List.cons.injEq] at e
              exact absurd (e.1.symm.trans h1) h
            | escaped _ =>
              simp only [List.cons_append, List.cons.injEq] at e
              exact absurd e.1 hc
        · rw [if_neg h1]
          constructor
          · intro h
            cases ht : toQuote q t with
            | none => rw [ht] at h; simp at h
            | some x =>
              rw [ht] at h
              simp only [Option.map_some, Option.some.injEq] at h
              obtain ⟨b, rfl, hb⟩ := (ih _ (by simp) rfl).1 ht
              exact ⟨b, by simp [← h], by rw [← h]; exact .plain h1 hc hb⟩
          · rintro ⟨b, e, hb⟩
            cases hb with
            | nil => simp only [List.nil_append, List.cons.injEq] at e; exact absurd e.1 h1
            | plain _ _ hb =>
              simp only [List.cons_append, List.cons.injEq] at e
              obtain ⟨rfl, rfl⟩ := e
              rw [(ih _ (by simp) rfl).2 ⟨b, rfl, hb⟩]
              rfl
            | escaped _ =>
              simp only [List.cons_append, List.cons.injEq] at e
              exact absurd e.1 hc

theorem quoted_iff {s v : Bytes} : quoted s = some v ↔ ∃ q b, s = q :: v ++ q :: b ∧ q ∈ b!"\"'" ∧ Body q v := by
  cases s with
  | nil => simp [quoted]
  | cons c t =>
    rw [quoted]
    split
    · rename_i hc
      have hq : c ≠ c!"\\" := by rcases hc with rfl | rfl <;> decide
      rw [toQuote_iff hq]
      constructor
      · rintro ⟨b, rfl, hb⟩; exact ⟨c, b, by simp, by simpa using hc, hb⟩
      · rintro ⟨q, b, e, _, hb⟩
        simp only [List.cons_append, List.cons.injEq] at e
        obtain ⟨rfl, rfl⟩ := e
        exact ⟨b, rfl, hb⟩
    · rename_i hc
      simp only [reduceCtorEq, false_iff]
      rintro ⟨q, b, e, hq, _⟩
      simp only [List.cons_append, List.cons.injEq] at e
      obtain ⟨rfl, _⟩ := e
      exact hc (by simpa using hq)

theorem named_iff {name s : Bytes} : named name s = true ↔ ∃ n b, s = n ++ b!"=" ++ b ∧ n.map toLower = name := by
  unfold named
  simp only [Bool.and_eq_true, beq_iff_eq]
  constructor
  · rintro ⟨h1, h2⟩
    have hl := (List.getElem?_eq_some_iff.1 h2).1
    have e := (List.getElem?_eq_some_iff.1 h2).2
    refine ⟨s.take name.length, s.drop (name.length + 1), ?_, h1⟩
    rw [List.append_assoc, List.singleton_append, ← e, List.getElem_cons_drop, List.take_append_drop]
  · rintro ⟨n, b, rfl, h⟩
    have hl : name.length = n.length := by rw [← h]; simp
    rw [hl, List.append_assoc, List.take_left', List.getElem?_append_right (by omega)]
    · simp [h]
    · rfl

/-- A name can begin behind this text; `start` tells it for no text. -/
def BeginsFrom (start : Bool) (a : Bytes) : Prop := (a = [] ∧ start = true) ∨ ∃ x c, a = x ++ [c] ∧ isSpace c = true

/-- `name=` stands behind `a`. -/
def AtFrom (start : Bool) (name s a b : Bytes) : Prop := ∃ n, s = a ++ n ++ b!"=" ++ b ∧ n.map toLower = name ∧ BeginsFrom start a

/-- The attribute, from a place on where a name can begin or not. -/
def AttrFrom (start : Bool) (name s v : Bytes) : Prop :=
  ∃ a q b, AtFrom start name s a (q :: v ++ q :: b) ∧ q ∈ b!"\"'" ∧ Body q v ∧ ∀ a' b', AtFrom start name s a' b' → a.length ≤ a'.length

theorem begins_cons {start : Bool} {c : Byte} {a : Bytes} : BeginsFrom start (c :: a) ↔ BeginsFrom (isSpace c) a := by
  unfold BeginsFrom
  simp only [reduceCtorEq, false_and, false_or]
  constructor
  · rintro ⟨x, d, e, hd⟩
    cases x with
    | nil =>
      simp only [List.nil_append, List.cons.injEq] at e
      exact .inl ⟨e.2, by rw [e.1]; exact hd⟩
    | cons y x =>
      simp only [List.cons_append, List.cons.injEq] at e
      exact .inr ⟨x, d, e.2, hd⟩
  · rintro (⟨rfl, h⟩ | ⟨x, d, rfl, hd⟩)
    · exact ⟨[], c, rfl, h⟩
    · exact ⟨c :: x, d, rfl, hd⟩

theorem at_cons {start : Bool} {name t b : Bytes} {c : Byte} {a : Bytes} : AtFrom start name (c :: t) (c :: a) b ↔ AtFrom (isSpace c) name t a b := by
  unfold AtFrom
  simp only [List.cons_append, List.cons.injEq, true_and, begins_cons]

theorem at_nil {start : Bool} {name s : Bytes} : (∃ b, AtFrom start name s [] b) ↔ start = true ∧ named name s = true := by
  rw [named_iff]
  constructor
  · rintro ⟨b, n, e, h, (⟨_, hs⟩ | ⟨x, c, e', _⟩)⟩
    · exact ⟨hs, n, b, by simpa using e, h⟩
    · simp at e'
  · rintro ⟨hs, n, b, e, h⟩
    exact ⟨b, n, by simpa using e, h, .inl ⟨rfl, hs⟩⟩

theorem attr_from {name : Bytes} : ∀ {s : Bytes} {start : Bool} {v : Bytes}, attr name start s = some v ↔ AttrFrom start name s v := by
  intro s
  induction s with
  | nil =>
    intro start v
    simp only [attr, reduceCtorEq, false_iff]
    rintro ⟨a, q, b, ⟨n, e, _⟩, _⟩
    simp at e
  | cons c t ih =>
    intro start v
    rw [attr]
    by_cases h : start = true ∧ named name (c :: t) = true
    · rw [if_pos (by simp [h])]
      obtain ⟨n, b, e, hn⟩ := named_iff.1 h.2
      have hl : n.length = name.length := by rw [← hn]; simp
      have hd : (c :: t).drop (name.length + 1) = b := by
        rw [e, ← hl, show n.length + 1 = (n ++ b!"=").length by simp, List.drop_left']
        rfl
      rw [hd, quoted_iff]
      constructor
      · rintro ⟨q, b', rfl, hq, hb⟩
        exact ⟨[], q, b', ⟨n, by simpa using e, hn, .inl ⟨rfl, h.1⟩⟩, hq, hb, by simp⟩
      · rintro ⟨a, q, b', ⟨n', e', hn', _⟩, hq, hb, hm⟩
        have : a = [] := by
          have := hm [] b ⟨n, by simpa using e, hn, .inl ⟨rfl, h.1⟩⟩
          simpa using this
        subst this
        have hl' : n'.length = n.length := by rw [hl, ← hn']; simp
        rw [e, List.nil_append, List.append_assoc, List.append_assoc] at e'
        have := List.append_inj e' hl'.symm
        simp only [List.cons_append, List.nil_append, List.cons.injEq, true_and] at this
        exact ⟨q, b', by simpa using this.2, hq, hb⟩
    · rw [if_neg (by simpa using h), ih]
      have key : ∀ a b, AtFrom start name (c :: t) a b → ∃ a', a = c :: a' ∧ AtFrom (isSpace c) name t a' b := by
        intro a b ha
        cases a with
        | nil => exact absurd (at_nil.1 ⟨b, ha⟩) h
        | cons d a =>
          have hd : d = c := by
            obtain ⟨n, e, _⟩ := ha
            simp only [List.cons_append, List.cons.injEq] at e
            exact e.1.symm
          subst hd
          exact ⟨a, rfl, at_cons.1 ha⟩
      constructor
      · rintro ⟨a, q, b, ha, hq, hb, hm⟩
        refine ⟨c :: a, q, b, at_cons.2 ha, hq, hb, fun a' b' h' => ?_⟩
        obtain ⟨a'', rfl, h''⟩ := key a' b' h'
        have := hm a'' b' h''
        simp; omega
      · rintro ⟨a, q, b, ha, hq, hb, hm⟩
        obtain ⟨a'', rfl, h''⟩ := key a _ ha
        refine ⟨a'', q, b, h'', hq, hb, fun a' b' h' => ?_⟩
        have := hm (c :: a') b' (at_cons.2 h')
        simp at this; omega

theorem at_true {name s a b : Bytes} : AtFrom true name s a b ↔ At name s a b := by
  unfold AtFrom At BeginsFrom Begins
  simp

theorem attr_iff {name tag v : Bytes} : attr name true tag = some v ↔ Attr name tag v := by
  rw [attr_from]
  unfold AttrFrom Attr
  simp only [at_true]

theorem attr_none {name tag : Bytes} (h : NoAttr name tag) : attr name true tag = none := by
  cases ha : attr name true tag with
  | none => rfl
  | some v =>
    obtain ⟨a, q, b, h1, _⟩ := attr_iff.1 ha
    exact absurd h1 (h _ _)

/-! ### Pages -/

/-- What becomes of the tag of an image. -/
def Becomes (ex : Bytes → Bool) (base tag rest new : Bytes) : Prop :=
  (¬ Spec.mark <:+: tag ++ rest ∧ new = tag) ∨
  (Spec.mark <:+: tag ++ rest ∧ (replace ex base tag = .val (some new) ∨ (replace ex base tag = .val none ∧ new = tag)))

theorem tag_ne {t : Bytes} (h : Tag t) : t ≠ [] := by
  obtain ⟨a, rfl, _⟩ := h
  simp

theorem find_mark (s : Bytes) : (find mark s).isNone = true ↔ ¬ Spec.mark <:+: s := by
  rw [← Embed.find_none (w := Spec.mark) (by decide)]
  simp only [Option.isNone_iff_eq_none]
  rfl

theorem go_sound (ex : Bytes → Bool) (base : Bytes) (len : Nat) : ∀ (n room : Nat) (s o : Bytes), go ex base len n room s = .val o → Page (Becomes ex base) s o := by
  intro n
  induction n with
  | zero =>
    intro room s o h
    cases s with
    | nil => simp [go] at h; subst h; exact .nil
    | cons c s => simp [go] at h
  | succ n ih =>
    intro room s o h
    cases s with
    | nil => simp [go] at h; subst h; exact .nil
    | cons c s =>
      rw [go] at h
      by_cases ho : opens (c :: s) = true
      · rw [if_pos ho] at h
        cases ht : tagEnd none (c :: s) with
        | none =>
          rw [ht] at h
          simp only [] at h
          split at h
          · simp at h
          · obtain ⟨x, h1, h2⟩ := Ial.bind_val h
            simp only [C.val.injEq] at h2
            subst h2
            exact .cut (opens_iff.1 ho) (tagEnd_none.1 ht) (ih _ _ _ h1)
        | some p =>
          obtain ⟨t, r⟩ := p
          rw [ht] at h
          simp only [] at h
          obtain ⟨e, htag⟩ := tagEnd_iff.1 ht
          have ho := opens_iff.1 ho
          rw [e] at ho h ⊢
          split at h
          · rename_i hf
            obtain ⟨x, h1, h2⟩ := Ial.bind_val h
            simp only [C.val.injEq] at h2
            subst h2
            exact .tag ho htag (.inl ⟨(find_mark _).1 hf, rfl⟩) (ih _ _ _ h1)
          · rename_i hf
            have hf : Spec.mark <:+: t ++ r := by
              rw [find_mark] at hf
              exact Classical.not_not.1 hf
            obtain ⟨y, h1, h2⟩ := Ial.bind_val h
            cases y with
            | none =>
              obtain ⟨x, h3, h4⟩ := Ial.bind_val h2
              simp only [C.val.injEq] at h4
              subst h4
              exact .tag ho htag (.inr ⟨hf, .inr ⟨h1, rfl⟩⟩) (ih _ _ _ h3)
            | some new =>
              obtain ⟨x, h3, h4⟩ := Ial.bind_val h2
              simp only [C.val.injEq] at h4
              subst h4
              exact .tag ho htag (.inr ⟨hf, .inl h1⟩) (ih _ _ _ h3)
      · rw [if_neg ho] at h
        obtain ⟨x, h1, h2⟩ := Ial.bind_val h
        simp only [C.val.injEq] at h2
        subst h2
        exact .text (fun h => ho (opens_iff.2 h)) (ih _ _ _ h1)

theorem closed_tail {a s : Bytes} (h : Closed (a ++ s)) : Closed s := by
  intro x y e ho
  exact h (a ++ x) y (by rw [e]; simp) ho

theorem go_complete (ex : Bytes → Bool) (base : Bytes) (len : Nat) {s o : Bytes} (h : Page (Becomes ex base) s o) :
    Closed s → ∀ (n room : Nat), s.length ≤ n → go ex base len n room s = .val o := by
  induction h with
  | nil => intro _ n room _; cases n <;> simp [go]
  | @text c s o hn _ ih =>
    intro hc n room hl
    obtain ⟨m, rfl⟩ : ∃ m, n = m + 1 := ⟨n - 1, by simp at hl; omega⟩
    rw [go, if_neg (fun h => hn (opens_iff.1 h)), ih (closed_tail (a := [c]) hc) m _ (by simpa using hl)]
    rfl
  | @cut c s o ho hn _ _ =>
    intro hc
    obtain ⟨t, r, e, ht⟩ := hc [] (c :: s) rfl ho
    exact absurd ht (hn t r e)
  | @tag t r new o ho ht hR _ ih =>
    intro hc n room hl
    obtain ⟨c, s, e⟩ := List.exists_cons_of_ne_nil (tag_ne ht)
    obtain ⟨m, rfl⟩ : ∃ m, n = m + 1 := ⟨n - 1, by rw [e] at hl; simp at hl; omega⟩
    have hlm : r.length ≤ m := by rw [e] at hl; simp at hl; omega
    have e2 : t ++ r = c :: (s ++ r) := by rw [e]; rfl
    have k := ih (closed_tail hc) m
    rw [e2, go, ← e2, if_pos (opens_iff.2 ho), tagEnd_iff.2 ⟨rfl, ht⟩]
    simp only []
    rcases hR with ⟨h1, rfl⟩ | ⟨h1, h2 | ⟨h2, rfl⟩⟩
    · rw [if_pos ((find_mark _).2 h1), k _ hlm]
      rfl
    · rw [if_neg (fun h => (find_mark _).1 h h1), h2]
      simp only [C.val_bind, k _ hlm]
    · rw [if_neg (fun h => (find_mark _).1 h h1), h2]
      simp only [C.val_bind, k _ hlm]

theorem opens_tail {c : Byte} {s : Bytes} (h : Opens (c :: s)) : ¬ Opens s := by
  obtain ⟨n, d, t, e, hn, _⟩ := h
  rintro ⟨n', d', t', e', hn', _⟩
  match n, hn with
  | [a, b, x, y], hn =>
    simp only [List.cons_append, List.cons.injEq] at e
    match n', hn' with
    | [a', b', x', y'], hn' =>
      rw [e'] at e
      simp only [List.cons_append, List.cons.injEq] at e
      simp only [List.map_cons, List.cons.injEq] at hn hn'
      have : toLower b = c!"<" := by rw [← e.2.1]; exact hn'.1
      rw [hn.2.1] at this
      exact absurd this (by decide)
    | [], hn' => simp at hn'
    | [_], hn' => simp at hn'
    | [_, _], hn' => simp at hn'
    | [_, _, _], hn' => simp at hn'
    | _ :: _ :: _ :: _ :: _ :: _, hn' => simp at hn'
  | [], hn => simp at hn
  | [_], hn => simp at hn
  | [_, _], hn => simp at hn
  | [_, _, _], hn => simp at hn
  | _ :: _ :: _ :: _ :: _ :: _, hn => simp at hn

/-- Without the mark nothing changes. -/
theorem go_unmarked (ex : Bytes → Bool) (base : Bytes) (len : Nat) : ∀ (n room : Nat) (s : Bytes), s.length ≤ n → (1 ≤ room ∨ ¬ Opens s) → ¬ Spec.mark <:+: s → go ex base len n room s = .val s := by
  intro n
  induction n with
  | zero =>
    intro room s hl _ _
    have : s = [] := List.eq_nil_of_length_eq_zero (by omega)
    subst this; simp [go]
  | succ n ih =>
    intro room s hl hr hm
    cases s with
    | nil => simp [go]
    | cons c s =>
      have hl' : s.length ≤ n := by simpa using hl
      have hm' : ¬ Spec.mark <:+: s := fun h => hm (h.trans ⟨[c], [], by simp⟩)
      rw [go]
      by_cases ho : opens (c :: s) = true
      · rw [if_pos ho]
        have ho := opens_iff.1 ho
        have hr : room ≠ 0 := by
          rcases hr with h | h
          · omega
          · exact absurd ho h
        cases ht : tagEnd none (c :: s) with
        | none =>
          simp only []
          rw [if_neg hr, ih _ _ hl' (.inr (opens_tail ho)) hm']
          rfl
        | some p =>
          obtain ⟨t, r⟩ := p
          obtain ⟨e, htag⟩ := tagEnd_iff.1 ht
          simp only []
          rw [if_pos ((find_mark _).2 hm)]
          have hle := congrArg List.length e
          have := List.length_pos_iff.2 (tag_ne htag)
          simp at hle
          rw [ih _ r (by omega) (.inl (by unfold grown; split <;> simp_all; omega)) (fun h => hm (by rw [e]; exact h.trans ⟨t, [], by simp⟩)), e]
          rfl
      · rw [if_neg ho, ih _ s hl' (.inl (by unfold grown; split <;> simp_all; omega)) hm']
        rfl

/-! ### Addresses -/

theorem path_plain {s : Bytes} (h1 : c!"?" ∉ s) (h2 : c!"#" ∉ s) : path s = s := by
  unfold path
  rw [if_neg h1]
  rcases Media.until_spec c!"#" s with ⟨x, y, rfl, _⟩ | ⟨_, _, h⟩
  · simp at h2
  · exact h

theorem plain_dot {src stem ext : Bytes} (h : Plain src stem ext) : path src = src ∧ lastDot src = some (stem, ext) :=
  ⟨path_plain h.2.2.2.1 h.2.2.2.2.1, lastDot_some.2 ⟨h.1, h.2.1⟩⟩

theorem withExt_plain {src stem ext : Bytes} (h : Plain src stem ext) (e : Bytes) : withExt src e = some (stem ++ b!"." ++ e) := by
  obtain ⟨h1, h2⟩ := plain_dot h
  unfold withExt
  rw [h2, h1]
  simp only []
  rw [if_pos (by rw [h.1]; simp), List.drop_length, List.append_nil]

theorem dense_plain {src stem ext : Bytes} (h : Plain src stem ext) (m : Bytes) : dense m src = some (stem ++ m ++ b!"." ++ ext) := by
  obtain ⟨h1, h2⟩ := plain_dot h
  unfold dense
  rw [h1, h2]
  simp only [Option.some.injEq]
  have e : (stem ++ b!"." ++ ext).drop stem.length = b!"." ++ ext := by rw [List.append_assoc, List.drop_left]
  rw [h.1, e]
  simp

theorem there_plain {src stem ext : Bytes} (h : Plain src stem ext) (ex : Bytes → Bool) (base : Bytes) : there ex base src = ex (base ++ b!"/" ++ src) := by
  unfold there resolve
  rw [if_neg]
  rintro (h0 | h0 | h0)
  · rw [h.1] at h0; simp at h0
  · exact h.2.2.2.2.2.1 h0
  · have := (Embed.find_none (w := b!"://") (s := src) (by decide)).2 h.2.2.2.2.2.2
    rw [this] at h0
    simp at h0

theorem plain_variant {src stem ext : Bytes} (h : Plain src stem ext) {m e : Bytes} (hm : ∀ c ∈ m, c ∉ b!":/.?#") (he : ∀ c ∈ e, c ∉ b!"/.?#") :
    Plain (stem ++ m ++ b!"." ++ e) (stem ++ m) e := by
  obtain ⟨rfl, h1, h2, h3, h4, h5, h6⟩ := h
  have no : ∀ {c : Byte} {s l : Bytes}, (∀ c ∈ s, c ∉ l) → c ∈ l → c ∉ s := fun h hc hs => h _ hs hc
  simp only [List.mem_append] at h3 h4
  refine ⟨rfl, no he (by decide), no he (by decide), ?_, ?_, ?_, ?_⟩
  · simp only [List.mem_append]
    rintro (((h | h) | h) | h)
    · exact h3 (.inl (.inl h))
    · exact hm _ h (by decide)
    · simp at h
    · exact he _ h (by decide)
  · simp only [List.mem_append]
    rintro (((h | h) | h) | h)
    · exact h4 (.inl (.inl h))
    · exact hm _ h (by decide)
    · simp at h
    · exact he _ h (by decide)
  · cases stem with
    | nil =>
      cases m with
      | nil => simp
      | cons c m =>
        simp only [List.nil_append, List.cons_append, List.head?_cons, ne_eq, Option.some.injEq]
        rintro rfl
        exact hm c!"/" (by simp) (by decide)
    | cons c stem => simpa using h5
  · intro hi
    have hi' : b!"://" <:+: stem ++ m ++ c!"." :: e := by simpa using hi
    have hs : ¬ b!"://" <:+: stem := fun h => h6 (h.trans ⟨[], b!"." ++ ext, by simp⟩)
    rcases Media.infix_apart (by decide) hi' with h | h
    · have := Media.infix_mark (x := stem) (m := m) (y := []) (w := b!"://") (fun c hc hw => hm c hc (by
        simp at hw ⊢; rcases hw with rfl | rfl <;> simp)) (by simpa using h)
      exact hs (by simpa using this)
    · obtain ⟨x, y, e'⟩ := h
      exact he c!"/" (by rw [← e']; simp) (by decide)

theorem plain_dense {src stem ext : Bytes} (h : Plain src stem ext) {m : Bytes} (hm : ∀ c ∈ m, c ∉ b!":/.?#") : Plain (stem ++ m ++ b!"." ++ ext) (stem ++ m) ext := by
  refine plain_variant h hm fun c hc hl => ?_
  obtain ⟨rfl, h1, h2, h3, h4, _⟩ := h
  simp only [List.mem_append] at h3 h4
  simp at hl
  rcases hl with rfl | rfl | rfl | rfl
  · exact h2 hc
  · exact h1 hc
  · exact h3 (.inr hc)
  · exact h4 (.inr hc)

theorem isVideo_plain {src stem ext : Bytes} (h : Plain src stem ext) : isVideo src = decide (ext.map toLower ∈ Media.videoExts) := by
  obtain ⟨h1, h2⟩ := plain_dot h
  unfold isVideo
  rw [h1, h2]

theorem mime_plain {src stem ext type : Bytes} (h : Plain src stem ext) (ht : (ext.map toLower, type) ∈ Spec.own) : mime src = type := by
  obtain ⟨_, h2⟩ := plain_dot h
  have hp : path ext = ext := path_plain (fun hc => h.2.2.2.1 (by rw [h.1]; simp [hc])) (fun hc => h.2.2.2.2.1 (by rw [h.1]; simp [hc]))
  have key : ∀ w, begins w ext = (((ext.map toLower).take w.length) == w) := fun w => by
    unfold begins
    rw [List.map_take]
  unfold mime
  rw [h2]
  simp only [hp, key]
  generalize ext.map toLower = e at ht ⊢
  unfold Spec.own at ht
  simp only [List.mem_cons, Prod.mk.injEq, List.not_mem_nil, or_false] at ht
  rcases ht with ⟨rfl, rfl⟩ | ⟨rfl, rfl⟩ | ⟨rfl, rfl⟩ | ⟨rfl, rfl⟩ | ⟨rfl, rfl⟩ | ⟨rfl, rfl⟩ <;> decide

/-! ### Replacements -/

theorem videoText_plain {src stem ext type : Bytes} (h : Plain src stem ext) (ht : (ext.map toLower, type) ∈ Spec.own) (ex : Bytes → Bool) (base alt : Bytes) :
    videoText ex base src alt = Spec.video (fun u => ex (base ++ b!"/" ++ u)) stem ext type alt := by
  have key : ∀ f ∈ Media.formats, there ex base (stem ++ b!"." ++ f) = ex (base ++ b!"/" ++ (stem ++ b!"." ++ f)) := by
    intro f hf
    have hfree : ∀ f ∈ Media.formats, ∀ c ∈ f, c ∉ b!"/.?#" := by decide
    have := plain_variant h (m := []) (e := f) (by simp) (hfree f hf)
    rw [List.append_nil] at this
    exact there_plain this ex base
  unfold videoText Spec.video
  rw [mime_plain h ht, h.1]
  rw [h.1] at h
  congr 3
  unfold Media.formats at key ⊢
  unfold Spec.types
  simp only [List.mem_cons, List.not_mem_nil, or_false, forall_eq_or_imp, forall_eq] at key
  obtain ⟨k1, k2, k3, k4, k5⟩ := key
  simp only [List.flatMap_cons, List.flatMap_nil, withExt_plain h, k1, k2, k3, k4, k5, List.filter_cons, List.filter_nil]
  generalize ex (base ++ b!"/" ++ (stem ++ b!"." ++ b!"webm")) = b1
  generalize ex (base ++ b!"/" ++ (stem ++ b!"." ++ b!"ogg")) = b2
  generalize ex (base ++ b!"/" ++ (stem ++ b!"." ++ b!"mp4")) = b3
  generalize ex (base ++ b!"/" ++ (stem ++ b!"." ++ b!"mov")) = b4
  generalize ex (base ++ b!"/" ++ (stem ++ b!"." ++ b!"m4v")) = b5
  cases b1 <;> cases b2 <;> cases b3 <;> cases b4 <;> cases b5 <;> rfl

theorem video_len (file : Bytes → Bool) {stem ext type alt : Bytes} (ht : (ext.map toLower, type) ∈ Spec.own) (ha : alt.length ≤ 270) :
    (Spec.video file stem ext type alt).length < 512 + (stem ++ b!"." ++ ext).length * 6 := by
  have h1 : 3 ≤ ext.length ∧ type.length ≤ 15 := by
    have : ∀ p ∈ Spec.own, 3 ≤ p.1.length ∧ p.2.length ≤ 15 := by decide
    simpa using this _ ht
  have h2 : (if alt = [] then ([] : Bytes) else b!" title=\"" ++ alt ++ b!"\"").length ≤ alt.length + 9 := by
    split
    · simp
    · simp only [List.length_append, List.length_cons, List.length_nil]; omega
  unfold Spec.video
  simp only [List.length_append, List.length_cons, List.length_nil]
  have h3 : ((Spec.types.filter fun t => file (stem ++ b!"." ++ t.1)).flatMap fun t => Spec.source (stem ++ b!"." ++ t.1) t.2).length ≤ 5 * stem.length + 188 := by
    have : ∀ l : List (Bytes × Bytes), ((l.filter fun t => file (stem ++ b!"." ++ t.1)).flatMap fun t => Spec.source (stem ++ b!"." ++ t.1) t.2).length ≤
        (l.flatMap fun t => Spec.source (stem ++ b!"." ++ t.1) t.2).length := by
      intro l
      induction l with
      | nil => simp
      | cons t l ih =>
        rw [List.filter_cons]
        split
        · simp only [List.flatMap_cons, List.length_append]; omega
        · simp only [List.flatMap_cons, List.length_append]; omega
    refine Nat.le_trans (this _) ?_
    unfold Spec.types
    simp only [List.flatMap_cons, List.flatMap_nil, Spec.source, List.length_append, List.length_cons, List.length_nil]
    omega
  simp only [Spec.source, List.length_append, List.length_cons, List.length_nil] at h3 ⊢
  omega

theorem more_fits {s t : Bytes} (h : s.length + t.length ≤ 511) : more s t = s ++ t := List.take_of_length_le (by simp; omega)

theorem free2 : ∀ c ∈ b!"@2x", c ∉ b!":/.?#" := by decide
theorem free3 : ∀ c ∈ b!"@3x", c ∉ b!":/.?#" := by decide

theorem there_variant {src stem ext : Bytes} (h : Plain src stem ext) (ex : Bytes → Bool) (base : Bytes) {m e : Bytes} (hm : ∀ c ∈ m, c ∉ b!":/.?#") (he : ∀ c ∈ e, c ∉ b!"/.?#") :
    there ex base (stem ++ m ++ b!"." ++ e) = ex (base ++ b!"/" ++ (stem ++ m ++ b!"." ++ e)) := there_plain (plain_variant h hm he) ex base

theorem offers_plain {src stem ext : Bytes} (h : Plain src stem ext) (ex : Bytes → Bool) (base : Bytes) {e : Bytes} (he : ∀ c ∈ e, c ∉ b!"/.?#") :
    offers ex base src e = Spec.offers (fun u => ex (base ++ b!"/" ++ u)) stem e := by
  have k1 := there_variant h ex base (m := []) (by simp) he
  have k2 := there_variant h ex base free2 he
  have k3 := there_variant h ex base free3 he
  rw [List.append_nil] at k1
  unfold offers Spec.offers some?
  simp only [withExt_plain h, dense_plain h, Option.bind_some, withExt_plain (plain_dense h free2), withExt_plain (plain_dense h free3), Option.isSome_some, Bool.true_and, k1, k2, k3]
  simp only [List.append_assoc, List.cons_append, List.nil_append, Bool.or_assoc]

theorem set_plain {src stem ext : Bytes} (h : Plain src stem ext) (hl : src.length ≤ 150) (ex : Bytes → Bool) (base : Bytes) {e : Bytes} (he : ∀ c ∈ e, c ∉ b!"/.?#") (hn : e.length ≤ 4) :
    set ex base src e = stem ++ b!"." ++ e ++ b!" 1x" ++ Spec.denser (fun u => ex (base ++ b!"/" ++ u)) stem e := by
  have k2 := there_variant h ex base free2 he
  have k3 := there_variant h ex base free3 he
  have hs : stem.length ≤ 149 := by
    rw [h.1] at hl
    simp only [List.length_append, List.length_cons, List.length_nil] at hl
    omega
  have t1 : (stem ++ b!"." ++ e ++ b!" 1x").take 511 = stem ++ b!"." ++ e ++ b!" 1x" :=
    List.take_of_length_le (by simp only [List.length_append, List.length_cons, List.length_nil]; omega)
  have nn : ∀ x y : Bytes, stem ++ b!"." ++ x ++ y ≠ [] := fun x y => by simp
  unfold set Spec.denser
  simp only [withExt_plain h, dense_plain h, Option.bind_some, withExt_plain (plain_dense h free2), withExt_plain (plain_dense h free3), Option.isSome_some, Bool.true_and, k2, k3, t1]
  have e2 : stem ++ b!"@2x." ++ e = stem ++ b!"@2x" ++ b!"." ++ e := by simp
  have e3 : stem ++ b!"@3x." ++ e = stem ++ b!"@3x" ++ b!"." ++ e := by simp
  rw [e2, e3]
  have m2 : more (stem ++ b!"." ++ e ++ b!" 1x") (b!", " ++ (stem ++ b!"@2x" ++ b!"." ++ e) ++ b!" 2x") = stem ++ b!"." ++ e ++ b!" 1x" ++ (b!", " ++ (stem ++ b!"@2x" ++ b!"." ++ e) ++ b!" 2x") :=
    more_fits (by simp only [List.length_append, List.length_cons, List.length_nil]; omega)
  have n1 : stem ++ b!"." ++ e ++ b!" 1x" ≠ [] := by simp
  have n2 : stem ++ b!"." ++ e ++ b!" 1x" ++ (b!", " ++ (stem ++ b!"@2x" ++ b!"." ++ e) ++ b!" 2x") ≠ [] := by simp
  rcases (Bool.eq_false_or_eq_true (ex (base ++ b!"/" ++ (stem ++ b!"@2x" ++ b!"." ++ e)))).symm with b2 | b2 <;>
    rcases (Bool.eq_false_or_eq_true (ex (base ++ b!"/" ++ (stem ++ b!"@3x" ++ b!"." ++ e)))).symm with b3 | b3 <;>
    simp only [b2, b3, Bool.false_eq_true, if_false, if_true, List.append_nil, List.nil_append, if_neg n1, m2, if_neg n2]
  · rw [more_fits (by simp only [List.length_append, List.length_cons, List.length_nil]; omega)]
  · rw [more_fits (by simp only [List.length_append, List.length_cons, List.length_nil]; omega)]
    simp only [List.append_assoc]

theorem pictureSource_plain {src stem ext : Bytes} (h : Plain src stem ext) (hl : src.length ≤ 150) (ex : Bytes → Bool) (base : Bytes) {e : Bytes} (he : ∀ c ∈ e, c ∉ b!"/.?#") (hn : e.length ≤ 4) :
    pictureSource ex base src e = Spec.other (fun u => ex (base ++ b!"/" ++ u)) stem e := by
  unfold pictureSource Spec.other
  rw [offers_plain h ex base he, set_plain h hl ex base he hn]
  have : stem ++ b!"." ++ e ++ b!" 1x" ++ Spec.denser (fun u => ex (base ++ b!"/" ++ u)) stem e ≠ [] := by simp
  rw [show (stem ++ b!"." ++ e ++ b!" 1x" ++ Spec.denser (fun u => ex (base ++ b!"/" ++ u)) stem e != []) = true from bne_iff_ne.2 this, Bool.and_true]
  split
  · simp only [List.append_assoc]
  · rfl

theorem srcset_plain {src stem ext : Bytes} (h : Plain src stem ext) (hl : src.length ≤ 150) (ex : Bytes → Bool) (base : Bytes) :
    srcset ex base src = .val (if ex (base ++ b!"/" ++ (stem ++ b!"@2x." ++ ext)) || ex (base ++ b!"/" ++ (stem ++ b!"@3x." ++ ext)) then
      b!" srcset=\"" ++ (stem ++ b!"." ++ ext) ++ b!" 1x" ++ Spec.denser (fun u => ex (base ++ b!"/" ++ u)) stem ext ++ b!"\"" else []) := by
  have k2 := there_plain (plain_dense h free2) ex base
  have k3 := there_plain (plain_dense h free3) ex base
  have hs : stem.length + 1 + ext.length ≤ 150 := by
    rw [h.1] at hl
    simp only [List.length_append, List.length_cons, List.length_nil] at hl
    omega
  unfold srcset Spec.denser some?
  simp only [dense_plain h, k2, k3]
  have e2 : stem ++ b!"@2x." ++ ext = stem ++ b!"@2x" ++ b!"." ++ ext := by simp
  have e3 : stem ++ b!"@3x." ++ ext = stem ++ b!"@3x" ++ b!"." ++ ext := by simp
  rw [e2, e3, h.1]
  have t1 : (b!" srcset=\"" ++ (stem ++ b!"." ++ ext) ++ b!" 1x").take 511 = b!" srcset=\"" ++ (stem ++ b!"." ++ ext) ++ b!" 1x" :=
    List.take_of_length_le (by simp only [List.length_append, List.length_cons, List.length_nil]; omega)
  have m2 : more (b!" srcset=\"" ++ (stem ++ b!"." ++ ext) ++ b!" 1x") (b!", " ++ (stem ++ b!"@2x" ++ b!"." ++ ext) ++ b!" 2x") =
      b!" srcset=\"" ++ (stem ++ b!"." ++ ext) ++ b!" 1x" ++ (b!", " ++ (stem ++ b!"@2x" ++ b!"." ++ ext) ++ b!" 2x") :=
    more_fits (by simp only [List.length_append, List.length_cons, List.length_nil]; omega)
  rw [t1]
  rcases (Bool.eq_false_or_eq_true (ex (base ++ b!"/" ++ (stem ++ b!"@2x" ++ b!"." ++ ext)))).symm with b2 | b2 <;>
    rcases (Bool.eq_false_or_eq_true (ex (base ++ b!"/" ++ (stem ++ b!"@3x" ++ b!"." ++ ext)))).symm with b3 | b3 <;>
    simp only [b2, b3, Bool.false_eq_true, if_false, if_true, List.append_nil, List.nil_append, Bool.or_self, Bool.or_true, Bool.true_or, Bool.or_false, m2]
  · rw [more_fits (by simp only [List.length_append, List.length_cons, List.length_nil]; omega), if_pos (by simp only [List.length_append, List.length_cons, List.length_nil]; omega)]
  · rw [if_pos (by simp only [List.length_append, List.length_cons, List.length_nil]; omega)]
  · rw [more_fits (by simp only [List.length_append, List.length_cons, List.length_nil]; omega), if_pos (by simp only [List.length_append, List.length_cons, List.length_nil]; omega)]
    simp only [List.append_assoc]

theorem denser_len (file : Bytes → Bool) (stem e : Bytes) : (Spec.denser file stem e).length ≤ 2 * (stem.length + e.length) + 18 := by
  unfold Spec.denser
  rw [List.length_append]
  split <;> split <;> simp only [List.length_append, List.length_cons, List.length_nil] <;> omega

theorem other_len (file : Bytes → Bool) (stem e : Bytes) : (Spec.other file stem e).length ≤ 3 * (stem.length + e.length) + 60 + e.length := by
  have := denser_len file stem e
  unfold Spec.other
  split
  · simp only [List.length_append, List.length_cons, List.length_nil]; omega
  · simp

theorem picture_plain {src stem ext : Bytes} (h : Plain src stem ext) (hl : src.length ≤ 150) (ex : Bytes → Bool) (base : Bytes) {alt title : Bytes} (ha : alt.length + title.length ≤ 400) :
    picture ex base src alt title = .val (Spec.picture (fun u => ex (base ++ b!"/" ++ u)) stem ext alt title) := by
  have hw : ∀ c ∈ b!"webp", c ∉ b!"/.?#" := by decide
  have hv : ∀ c ∈ b!"avif", c ∉ b!"/.?#" := by decide
  have k2 := there_plain (plain_dense h free2) ex base
  have k3 := there_plain (plain_dense h free3) ex base
  have e2 : stem ++ b!"@2x." ++ ext = stem ++ b!"@2x" ++ b!"." ++ ext := by simp
  have e3 : stem ++ b!"@3x." ++ ext = stem ++ b!"@3x" ++ b!"." ++ ext := by simp
  have hs : stem.length + 1 + ext.length = src.length := by
    rw [h.1]
    simp only [List.length_append, List.length_cons, List.length_nil]
  unfold picture Spec.picture
  simp only [offers_plain h ex base hw, offers_plain h ex base hv, srcset_plain h hl, pictureSource_plain h hl ex base hw (by decide), pictureSource_plain h hl ex base hv (by decide),
    C.val_bind, some?, dense_plain h, k2, k3, e2, e3]
  have l1 := other_len (fun u => ex (base ++ b!"/" ++ u)) stem b!"avif"
  have l2 := other_len (fun u => ex (base ++ b!"/" ++ u)) stem b!"webp"
  have l3 := denser_len (fun u => ex (base ++ b!"/" ++ u)) stem ext
  generalize Spec.other (fun u => ex (base ++ b!"/" ++ u)) stem b!"avif" = o1 at *
  generalize Spec.other (fun u => ex (base ++ b!"/" ++ u)) stem b!"webp" = o2 at *
  generalize Spec.denser (fun u => ex (base ++ b!"/" ++ u)) stem ext = d at *
  rw [Bool.or_comm (Spec.offers _ stem b!"webp")]
  generalize (Spec.offers (fun u => ex (base ++ b!"/" ++ u)) stem b!"avif" || Spec.offers (fun u => ex (base ++ b!"/" ++ u)) stem b!"webp") = need
  rw [Bool.or_assoc]
  generalize (ex (base ++ b!"/" ++ (stem ++ b!"@2x" ++ b!"." ++ ext)) || ex (base ++ b!"/" ++ (stem ++ b!"@3x" ++ b!"." ++ ext))) = dn
  have ht : (if title = [] then ([] : Bytes) else b!" title=\"" ++ title ++ b!"\"").length ≤ title.length + 9 := by
    split
    · simp
    · simp only [List.length_append, List.length_cons, List.length_nil]; omega
  generalize (if title = [] then ([] : Bytes) else b!" title=\"" ++ title ++ b!"\"") = tt at *
  split
  · unfold build
    rw [if_pos, C.val_bind, h.1]
    rw [← h.1]
    simp only [List.length_append, List.length_cons, List.length_nil] at l1 l2 ht ⊢
    have q1 : (if need = true then b!"<picture>" else []).length ≤ 9 := by split <;> simp
    have q2 : (if need = true then b!"</picture>" else []).length ≤ 10 := by split <;> simp
    have q3 : (if dn = true then b!" srcset=\"" ++ src ++ b!" 1x" ++ d ++ b!"\"" else []).length ≤ 14 + stem.length + ext.length + d.length := by
      split
      · simp only [List.length_append, List.length_cons, List.length_nil]; omega
      · simp
    omega
  · rfl

/-! ### Whole pages -/

theorem value_iff {name tag v : Bytes} (h : Spec.Value name tag v) : (attr name true tag).getD [] = v := by
  rcases h with h | ⟨rfl, h⟩
  · rw [attr_iff.2 h]; rfl
  · cases ha : attr name true tag with
    | none => rfl
    | some w => exact absurd (attr_iff.1 ha) (h w)

theorem star_plain {src stem ext : Bytes} (h : Plain src stem ext) : b!".*" <:+ src ↔ ext = b!"*" := by
  rw [h.1]
  constructor
  · rintro ⟨a, ha⟩
    have e : a ++ b!"." ++ b!"*" = stem ++ b!"." ++ ext := by rw [← ha]; simp
    have h1 := lastDot_some.2 ⟨e.symm, by decide⟩
    rw [lastDot_some.2 ⟨rfl, h.2.1⟩] at h1
    simp only [Option.some.injEq, Prod.mk.injEq] at h1
    exact h1.2
  · rintro rfl
    exact ⟨stem, by simp⟩

theorem find_tried (ex : Bytes → Bool) (base stem : Bytes) {src : Bytes} (h : Plain src stem b!"*") : ∀ l : List Bytes, (∀ e ∈ l, ∀ c ∈ e, c ∉ b!"/.?#") →
    ∀ ext x y, l = x ++ ext :: y → ex (base ++ b!"/" ++ (stem ++ b!"." ++ ext)) = true → (∀ e ∈ x, ex (base ++ b!"/" ++ (stem ++ b!"." ++ e)) = false) →
    (l.filterMap (withExt src)).find? (there ex base) = some (stem ++ b!"." ++ ext) := by
  intro l
  induction l with
  | nil => intro _ ext x y hl; simp at hl
  | cons e l ih =>
    intro hf ext x y hl h1 h2
    have k := there_variant h ex base (m := []) (by simp) (hf e (List.mem_cons_self ..))
    rw [List.append_nil] at k
    rw [List.filterMap_cons, withExt_plain h]
    simp only []
    cases x with
    | nil =>
      simp only [List.nil_append, List.cons.injEq] at hl
      obtain ⟨rfl, rfl⟩ := hl
      rw [List.find?_cons_of_pos (by rw [k]; exact h1)]
    | cons d x =>
      simp only [List.cons_append, List.cons.injEq] at hl
      obtain ⟨rfl, rfl⟩ := hl
      rw [List.find?_cons_of_neg (by rw [k, h2 _ (List.mem_cons_self ..)]; simp)]
      exact ih (fun e' he' => hf e' (List.mem_cons_of_mem _ he')) ext x y rfl h1 (fun e' he' => h2 e' (List.mem_cons_of_mem _ he'))

theorem source_used {ex : Bytes → Bool} {base src stem ext : Bytes} (h : Spec.Used (fun u => ex (base ++ b!"/" ++ u)) src stem ext) :
    ∃ s, source ex base src = some s ∧ Plain s stem ext ∧ s.length ≤ src.length + 3 := by
  rcases h with ⟨h, hn, hf⟩ | ⟨h, x, y, hl, hf, hx⟩
  · refine ⟨src, ?_, h, by omega⟩
    unfold source
    rw [if_neg (fun hs => hn ((star_plain h).1 hs)), if_pos]
    rw [there_plain h]
    exact hf
  · have free : ∀ e ∈ tried, ∀ c ∈ e, c ∉ b!"/.?#" := by decide
    have hm : ext ∈ tried := by
      have : ext ∈ Spec.tried := by rw [hl]; simp
      exact this
    have hp := plain_variant h (m := []) (by simp) (free ext hm)
    rw [List.append_nil] at hp
    refine ⟨stem ++ b!"." ++ ext, ?_, hp, ?_⟩
    · unfold source
      rw [if_pos ((star_plain h).2 rfl)]
      exact find_tried ex base stem h tried free ext x y hl hf hx
    · have : ∀ e ∈ tried, e.length ≤ 4 := by decide
      have := this ext hm
      rw [h.1]
      simp only [List.length_append, List.length_cons, List.length_nil]
      omega

theorem source_missing {ex : Bytes → Bool} {base src : Bytes} (h : Spec.Missing (fun u => ex (base ++ b!"/" ++ u)) src) : source ex base src = none := by
  obtain ⟨hn, h⟩ := h
  unfold source
  rw [if_neg hn, if_neg]
  unfold there resolve
  split <;> rename_i hr
  · simp
  · split at hr
    · simp at hr
    · rename_i hc
      simp only [Option.some.injEq] at hr
      subst hr
      rcases h with h | h | h | h
      · exact absurd (Or.inl h) hc
      · exact absurd (Or.inr (Or.inl h)) hc
      · refine absurd (Or.inr (Or.inr ?_)) hc
        cases hf : find b!"://" src with
        | none => exact absurd h ((Embed.find_none (by decide)).1 hf)
        | some p => rfl
      · simpa using h

theorem own_video {e : Bytes} : (∃ type, (e, type) ∈ Spec.own) ↔ e ∈ Media.videoExts := by
  constructor
  · rintro ⟨t, h⟩
    have : ∀ p ∈ Spec.own, p.1 ∈ Media.videoExts := by decide
    exact this _ h
  · intro h
    have : ∀ e ∈ Media.videoExts, ∃ p ∈ Spec.own, p.1 = e := by decide
    obtain ⟨p, hp, rfl⟩ := this e h
    exact ⟨p.2, hp⟩

theorem turned {ex : Bytes → Bool} {base tag rest new : Bytes} (h : Spec.Turned (fun u => ex (base ++ b!"/" ++ u)) tag rest new) : Becomes ex base tag rest new := by
  cases h with
  | unmarked h => exact Or.inl ⟨h, rfl⟩
  | missing hm hs hx =>
    refine Or.inr ⟨hm, Or.inr ⟨?_, rfl⟩⟩
    unfold replace
    simp only [value_iff hs, source_missing hx]
  | @video src alt stem ext type hm hs ha hu ht hl =>
    refine Or.inr ⟨hm, Or.inl ?_⟩
    obtain ⟨s, h1, h2, _⟩ := source_used hu
    unfold replace
    simp only [value_iff hs, value_iff ha, h1]
    rw [isVideo_plain h2, if_pos (by rw [decide_eq_true_iff]; exact own_video.1 ⟨type, ht⟩), videoText_plain h2 ht]
    unfold build
    rw [if_pos]
    · rfl
    · have := video_len (fun u => ex (base ++ b!"/" ++ u)) (stem := stem) ht hl
      rw [h2.1]
      exact this
  | @picture src alt title stem ext hm hs ha htl hu hn hl hlen =>
    refine Or.inr ⟨hm, ?_⟩
    obtain ⟨s, h1, h2, h3⟩ := source_used hu
    have : replace ex base tag = .val (Spec.picture (fun u => ex (base ++ b!"/" ++ u)) stem ext alt title) := by
      unfold replace
      simp only [value_iff hs, value_iff ha, value_iff htl, h1]
      rw [isVideo_plain h2, if_neg (by
        rw [decide_eq_true_iff]
        intro hv
        obtain ⟨t, ht⟩ := own_video.2 hv
        exact hn t ht)]
      exact picture_plain h2 (by omega) ex base hlen
    rw [this]
    cases Spec.picture (fun u => ex (base ++ b!"/" ++ u)) stem ext alt title with
    | none => exact Or.inr ⟨rfl, rfl⟩
    | some p => exact Or.inl rfl

theorem page_mono {R S : Bytes → Bytes → Bytes → Prop} (h : ∀ t r n, R t r n → S t r n) {s o : Bytes} (hp : Page R s o) : Page S s o := by
  induction hp with
  | nil => exact .nil
  | text h1 _ ih => exact .text h1 ih
  | cut h1 h2 _ ih => exact .cut h1 h2 ih
  | tag h1 h2 h3 _ ih => exact .tag h1 h2 (h _ _ _ h3) ih

theorem takeWhile_zero {o : Bytes} (h : (0 : Byte) ∉ o) : o.takeWhile (· != 0) = o := by
  induction o with
  | nil => rfl
  | cons c o ih =>
    simp only [List.mem_cons, not_or] at h
    rw [List.takeWhile_cons, if_pos (bne_iff_ne.2 (Ne.symm h.1)), ih h.2]

theorem expand_ub {ex : Bytes → Bool} {base tag rest : Bytes} (hb : base ≠ []) (ho : Opens (tag ++ rest)) (ht : Tag tag) (hm : Spec.mark <:+: tag ++ rest)
    (hr : replace ex base tag = .ub) : expand ex base (tag ++ rest) = .ub := by
  obtain ⟨c, s, e⟩ := List.exists_cons_of_ne_nil (tag_ne ht)
  unfold expand
  rw [if_neg hb]
  generalize (tag ++ rest).length * 2 + 2048 = room
  generalize hl : (tag ++ rest).length = len
  obtain ⟨m, rfl⟩ : ∃ m, len = m + 1 := ⟨len - 1, by rw [e] at hl; simp at hl; omega⟩
  have e2 : tag ++ rest = c :: (s ++ rest) := by rw [e]; rfl
  rw [e2, go, ← e2, if_pos (opens_iff.2 ho), tagEnd_iff.2 ⟨rfl, ht⟩]
  simp only []
  rw [if_neg (fun h => (find_mark _).1 h hm), hr]
  rfl

theorem build_ub {cap : Nat} {s : Bytes} (h : cap < s.length) : build cap s = .ub := by
  unfold build
  rw [if_neg (by omega), if_neg (by omega)]

theorem replace_video_ub {ex : Bytes → Bool} {base tag src alt stem ext type : Bytes} (hs : Spec.Value b!"src" tag src) (ha : Spec.Value b!"alt" tag alt)
    (hu : Spec.Used (fun u => ex (base ++ b!"/" ++ u)) src stem ext) (ht : (ext.map toLower, type) ∈ Spec.own) (hl : 512 + 6 * (stem ++ b!"." ++ ext).length ≤ alt.length) :
    replace ex base tag = .ub := by
  obtain ⟨s, h1, h2, _⟩ := source_used hu
  unfold replace
  simp only [value_iff hs, value_iff ha, h1]
  rw [isVideo_plain h2, if_pos (by rw [decide_eq_true_iff]; exact own_video.1 ⟨type, ht⟩), build_ub]
  · rfl
  · rw [h2.1]
    have : alt ≠ [] := by rintro rfl; simp at hl
    unfold videoText
    rw [if_neg this]
    simp only [List.length_append, List.length_cons, List.length_nil] at hl ⊢
    omega

theorem replace_picture_ub {ex : Bytes → Bool} {base tag src alt stem ext : Bytes} (hs : Spec.Value b!"src" tag src) (ha : Spec.Value b!"alt" tag alt)
    (hu : Spec.Used (fun u => ex (base ++ b!"/" ++ u)) src stem ext) (hn : ∀ type, (ext.map toLower, type) ∉ Spec.own)
    (hv : (Spec.offers (fun u => ex (base ++ b!"/" ++ u)) stem b!"avif" || Spec.offers (fun u => ex (base ++ b!"/" ++ u)) stem b!"webp" ||
      ex (base ++ b!"/" ++ (stem ++ b!"@2x." ++ ext)) || ex (base ++ b!"/" ++ (stem ++ b!"@3x." ++ ext))) = true)
    (hl : 1024 + 8 * (stem ++ b!"." ++ ext).length ≤ alt.length) : replace ex base tag = .ub := by
  obtain ⟨s, h1, h2, _⟩ := source_used hu
  have hw : ∀ c ∈ b!"webp", c ∉ b!"/.?#" := by decide
  have hav : ∀ c ∈ b!"avif", c ∉ b!"/.?#" := by decide
  have k2 := there_plain (plain_dense h2 free2) ex base
  have k3 := there_plain (plain_dense h2 free3) ex base
  have e2 : stem ++ b!"@2x." ++ ext = stem ++ b!"@2x" ++ b!"." ++ ext := by simp
  have e3 : stem ++ b!"@3x." ++ ext = stem ++ b!"@3x" ++ b!"." ++ ext := by simp
  unfold replace
  simp only [value_iff hs, value_iff ha, h1]
  rw [isVideo_plain h2, if_neg (by
    rw [decide_eq_true_iff]
    intro hv
    obtain ⟨t, ht⟩ := own_video.2 hv
    exact hn t ht)]
  unfold picture
  rw [if_pos]
  · cases srcset ex base s with
    | ub => rfl
    | val q =>
      rw [C.val_bind, build_ub]
      · rfl
      · rw [h2.1]
        simp only [List.length_append, List.length_cons, List.length_nil] at hl ⊢
        omega
  · rw [offers_plain h2 ex base hw, offers_plain h2 ex base hav]
    simp only [some?, dense_plain h2, k2, k3]
    rw [e2, e3] at hv
    rw [Bool.or_comm (Spec.offers _ stem b!"webp")]
    exact hv

theorem replace_srcset_ub {ex : Bytes → Bool} {base tag src stem ext : Bytes} (hs : Spec.Value b!"src" tag src)
    (hu : Spec.Used (fun u => ex (base ++ b!"/" ++ u)) src stem ext) (hn : ∀ type, (ext.map toLower, type) ∉ Spec.own)
    (h2x : ex (base ++ b!"/" ++ (stem ++ b!"@2x." ++ ext)) = true) (hl : 247 ≤ (stem ++ b!"." ++ ext).length) : replace ex base tag = .ub := by
  obtain ⟨s, h1, h2, _⟩ := source_used hu
  have k2 := there_plain (plain_dense h2 free2) ex base
  have k3 := there_plain (plain_dense h2 free3) ex base
  have e2 : stem ++ b!"@2x." ++ ext = stem ++ b!"@2x" ++ b!"." ++ ext := by simp
  rw [e2] at h2x
  unfold replace
  simp only [value_iff hs, h1]
  rw [isVideo_plain h2, if_neg (by
    rw [decide_eq_true_iff]
    intro hv
    obtain ⟨t, ht⟩ := own_video.2 hv
    exact hn t ht)]
  have hub : srcset ex base s = .ub := by
    unfold srcset some?
    simp only [dense_plain h2, k2, k3, h2x, Bool.true_or, if_true]
    rw [if_neg]
    have more_len : ∀ a b : Bytes, (more a b).length = min 511 (a.length + b.length) := fun a b => by unfold more; simp
    have big : (more ((b!" srcset=\"" ++ s ++ b!" 1x").take 511) (b!", " ++ (stem ++ b!"@2x" ++ b!"." ++ ext) ++ b!" 2x")).length = 511 := by
      rw [more_len, List.length_take, h2.1]
      simp only [List.length_append, List.length_cons, List.length_nil] at hl ⊢
      omega
    split
    · rw [more_len, big]; omega
    · omega
  unfold picture
  rw [if_pos]
  · rw [hub]; rfl
  · simp only [some?, dense_plain h2, k2, h2x, Bool.or_true, Bool.true_or]

end Verif.AutoMedia
