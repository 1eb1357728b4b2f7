import Verif.Model.Abbr
import Verif.Spec.Abbr
import Verif.Proof.IalUse
import Verif.Proof.MetaParse
import Verif.Proof.DropBuf

namespace Verif.Abbr
open Spec Transforms.Spec
open Ial.Spec (Free Gap)
open Ial (keepLines span_free)
open Text.Spec (ended)

theorem trim_of {v t : Bytes} (h : Trimmed v t) : trim v = t :=
  Transforms.trimmed_unique (Transforms.trimTok_spec v) h

theorem trim_spec (v : Bytes) : Trimmed v (trim v) := Transforms.trimTok_spec v

/-! ### Inline abbreviations -/

theorem inline_of {a sp e r : Bytes} (h : Inline a sp e) :
    inline (a ++ b!")" ++ sp ++ e ++ b!"]" ++ r) = some (a, e, r) := by
  have h1 := span_free (p := fun c => decide (c ≠ c!")")) (by simp) h.abbr (d := c!")")
    (r := sp ++ (e ++ c!"]" :: r)) (by simp)
  have h2 := span_free (p := fun c => decide (c ≠ c!"]")) (by simp) h.exp (d := c!"]") (r := r) (by simp)
  have e1 : a ++ b!")" ++ sp ++ e ++ b!"]" ++ r = a ++ c!")" :: (sp ++ (e ++ c!"]" :: r)) := by simp
  have e2 : (sp ++ (e ++ c!"]" :: r)).dropWhile (fun c => decide (c = c!" ")) = e ++ c!"]" :: r := by
    rw [List.dropWhile_append_of_pos (fun c hc => by simp [h.gap c hc])]
    have := h.start
    cases e with
    | nil => have := h.expSize; simp at this
    | cons c e =>
      have : c ≠ c!" " := this c (by simp)
      simp [this]
  unfold inline
  rw [e1, if_pos (by simp), h1.1, h1.2]
  simp only [List.drop_succ_cons, List.drop_zero]
  rw [e2, if_pos (by simp), h2.1, h2.2, if_pos ⟨h.abbrSize.1, h.abbrSize.2, h.expSize.1, h.expSize.2⟩]
  simp

theorem inline_some {t a e r : Bytes} (h : inline t = some (a, e, r)) :
    ∃ sp, Inline a sp e ∧ t = a ++ b!")" ++ sp ++ e ++ b!"]" ++ r := by
  unfold inline at h
  have cut : ∀ {d : Byte} {t : Bytes}, d ∈ t →
      t = t.takeWhile (fun c => decide (c ≠ d)) ++ d :: (t.dropWhile (fun c => decide (c ≠ d))).drop 1 := by
    intro d t hd
    induction t with
    | nil => simp at hd
    | cons c t ih =>
      by_cases hc : c = d
      · subst hc; simp
      · have : d ∈ t := by simpa [Ne.symm hc] using hd
        rw [List.takeWhile_cons, List.dropWhile_cons]
        simp only [decide_not, hc, decide_false, Bool.not_false, if_true]
        have := ih this
        simp only [decide_not] at this
        rw [List.cons_append, ← this]
  split at h
  · rename_i h1
    simp only [] at h
    split at h
    · rename_i h2
      split at h
      · rename_i h3
        simp only [Option.some.injEq, Prod.mk.injEq] at h
        obtain ⟨rfl, rfl, rfl⟩ := h
        refine ⟨((t.dropWhile (fun c => decide (c ≠ c!")"))).drop 1).takeWhile fun c => decide (c = c!" "), ⟨?_, ⟨h3.1, h3.2.1⟩, ?_, ?_, ?_, h3.2.2⟩, ?_⟩
        · intro c hc hm
          have := SupSub.mem_takeWhile hc
          simp at hm
          simp [hm] at this
        · intro c hc
          simpa using SupSub.mem_takeWhile hc
        · intro c hc
          have h5 : ∀ (p q : Byte → Bool) (x : Bytes), ∀ c ∈ ((x.dropWhile p).takeWhile q).head?, p c = false := by
            intro p q x
            induction x with
            | nil => simp
            | cons d x ih =>
              rw [List.dropWhile_cons]
              by_cases hd : p d = true
              · rw [if_pos hd]; exact ih
              · rw [if_neg hd, List.takeWhile_cons]
                by_cases hq : q d = true
                · rw [if_pos hq]; intro c hc; simp at hc; subst hc; simpa using hd
                · rw [if_neg hq]; simp
          simpa using h5 _ _ _ c hc
        · intro c hc hm
          have := SupSub.mem_takeWhile hc
          simp at hm
          simp [hm] at this
        · have e1 := cut h1
          have e2 := cut h2
          have e3 := (List.takeWhile_append_dropWhile (p := fun c => decide (c = c!" "))
            (l := (t.dropWhile (fun c => decide (c ≠ c!")"))).drop 1)).symm
          conv => lhs; rw [e1, e3, e2]
          simp
      · simp at h
    · simp at h
  · simp at h

theorem prefix_form {s : Bytes} (h : b!"[>(" <+: s) : s = b!"[>(" ++ s.drop 3 := by
  obtain ⟨r, rfl⟩ := h; simp

theorem trimEnd_ink {a : Bytes} (h : EndsInk a) : Ial.trimEnd a = a := by
  unfold Ial.trimEnd
  cases e : a.reverse with
  | nil => rw [List.reverse_eq_nil_iff] at e; subst e; rfl
  | cons c r =>
    have hl : a.getLast? = some c := by rw [← List.head?_reverse, e]; rfl
    have : isSpace c = false := by
      cases hs : isSpace c with
      | false => rfl
      | true => exact absurd ((Transforms.isSpace_iff c).1 hs) (h c (by rw [hl]; simp))
    rw [List.dropWhile_cons, if_neg (by simp [this]), ← e, List.reverse_reverse]

theorem trimInPlace_ink {a : Bytes} (h : EndsInk a ∨ Gap a) : trimInPlace a = a := by
  unfold trimInPlace
  split
  · rfl
  · rename_i hn
    rcases h with h | h
    · rw [trimEnd_ink h]; simp
    · exact absurd (by rw [← List.append_nil a, List.dropWhile_append_of_pos (Ial.isSpace_gap h)]; rfl) hn

theorem inlines_reads {text o : Bytes} {l : List Pair} (h : Reads (fun a => EndsInk a ∨ Gap a) text o l) :
    ∀ n l0, text.length ≤ n → inlines n l0 text = (o, l.reverse ++ l0) := by
  induction h with
  | nil => intro n l0 _; cases n <;> rfl
  | @byte c t o l hb _ ih =>
    intro n l0 hn
    cases n with
    | zero => simp at hn
    | succ n =>
      have e : (if b!"[>(" <+: c :: t then inline (t.drop 2) else none) = none := by
        split
        · rename_i hp
          cases hi : inline (t.drop 2) with
          | none => rfl
          | some x =>
            obtain ⟨a, e, r⟩ := x
            obtain ⟨sp, h1, h2⟩ := inline_some hi
            refine absurd ?_ (hb a sp e r h1)
            have := prefix_form hp
            rw [this]
            show _ ++ t.drop 2 = _
            rw [h2]; simp [inlineText]
        · rfl
      rw [inlines]
      simp only [e]
      rw [ih n l0 (by simp at hn; omega)]
  | @inline a sp e r o l a' e' hi hok ha he _ ih =>
    intro n l0 hn
    have e1 : inlineText a sp e ++ r = c!"[" :: (b!">(" ++ (a ++ b!")" ++ sp ++ e ++ b!"]" ++ r)) := by
      simp [inlineText]
    rw [e1] at hn ⊢
    cases n with
    | zero => simp at hn
    | succ n =>
      have e2 : (if b!"[>(" <+: c!"[" :: (b!">(" ++ (a ++ b!")" ++ sp ++ e ++ b!"]" ++ r)) then
          inline ((b!">(" ++ (a ++ b!")" ++ sp ++ e ++ b!"]" ++ r)).drop 2) else none) = some (a, e, r) := by
        rw [if_pos ⟨a ++ b!")" ++ sp ++ e ++ b!"]" ++ r, by simp⟩]
        have : (b!">(" ++ (a ++ b!")" ++ sp ++ e ++ b!"]" ++ r)).drop 2 = a ++ b!")" ++ sp ++ e ++ b!"]" ++ r := by simp
        rw [this, inline_of hi]
      rw [inlines]
      simp only [e2]
      rw [ih n _ (by simp at hn; omega), trim_of ha, trim_of he, trimInPlace_ink hok]
      simp

theorem reads_length {ok : Bytes → Prop} {text o : Bytes} {l : List Pair} (h : Reads ok text o l) :
    o.length ≤ text.length := by
  induction h with
  | nil => simp
  | byte _ _ ih => simp; omega
  | inline _ _ _ _ _ ih => simp [inlineText]; omega

theorem reads_mem {ok : Bytes → Prop} {text o : Bytes} {l : List Pair} (h : Reads ok text o l) :
    ∀ c ∈ o, c ∈ text := by
  induction h with
  | nil => simp
  | byte _ _ ih => intro c hc; simp at hc ⊢; rcases hc with h | h; exact .inl h; exact .inr (ih c h)
  | inline _ _ _ _ _ ih =>
    intro c hc; simp [inlineText] at hc ⊢
    rcases hc with h | h
    · grind
    · have := ih c h; grind

theorem processInline_reads {text o : Bytes} {l : List Pair} (h : Reads (fun a => EndsInk a ∨ Gap a) text o l)
    (hne : text ≠ []) (h0 : (0 : Byte) ∉ text) : processInline text = .val (o, l.reverse) := by
  have hl := reads_length h
  have hp : 0 < text.length := List.length_pos_iff.2 hne
  unfold processInline
  rw [inlines_reads h _ _ (Nat.le_refl _)]
  simp only []
  rw [finish_val (by omega)]
  simp only [C.val_bind, List.append_nil]
  have : Escape.cstr o = o := by
    unfold Escape.cstr
    have := Markers.takeWhile_all (p := fun x => x != 0) o [] (fun c hc => by
      have := reads_mem h c hc
      have : c ≠ 0 := by rintro rfl; exact h0 this
      simpa using this) (by simp)
    rwa [List.append_nil] at this
  rw [this]

/-- Every text reads in some way. -/
theorem reads_exists (text : Bytes) : ∃ o l, Reads (fun _ => True) text o l := by
  have : ∀ n (text : Bytes), text.length ≤ n → ∃ o l, Reads (fun _ => True) text o l := by
    intro n
    induction n with
    | zero => intro text h; have : text = [] := List.length_eq_zero_iff.1 (by omega); subst this; exact ⟨_, _, .nil⟩
    | succ n ih =>
      intro text h
      by_cases hx : ∃ a sp e r, Inline a sp e ∧ text = inlineText a sp e ++ r
      · obtain ⟨a, sp, e, r, hi, rfl⟩ := hx
        obtain ⟨o, l, hr⟩ := ih r (by simp [inlineText] at h; omega)
        exact ⟨_, _, .inline hi trivial (trim_spec a) (trim_spec e) hr⟩
      · cases text with
        | nil => exact ⟨_, _, .nil⟩
        | cons c t =>
          obtain ⟨o, l, hr⟩ := ih t (by simp at h; omega)
          exact ⟨_, _, .byte (fun a sp e r hi he => hx ⟨a, sp, e, r, hi, he⟩) hr⟩
  exact this _ _ (Nat.le_refl _)

/-! ### Definitions -/

theorem defLine_none {line : Bytes} (h : ∀ a e, ¬ Defines line a e) : defLine line = none := by
  unfold defLine
  split
  · rename_i hm
    have hs : ∃ mark : Bytes, (mark = b!"*[" ∨ mark = b!"[>") ∧ line = mark ++ line.drop 2 := by
      rcases hm with ⟨r, rfl⟩ | ⟨r, rfl⟩
      · exact ⟨_, .inl rfl, by simp⟩
      · exact ⟨_, .inr rfl, by simp⟩
    obtain ⟨mark, hm, e⟩ := hs
    simp only []
    split
    · rename_i x d r he
      split
      · rename_i hd
        subst hd
        exfalso
        have h1 := (List.takeWhile_append_dropWhile (p := fun c => decide (c ≠ c!"]")) (l := line.drop 2)).symm
        have hx : x = c!"]" := by
          have : ∀ (p : Byte → Bool) (l : Bytes) (x : Byte) (r : Bytes), l.dropWhile p = x :: r → p x = false := by
            intro p l x r h
            induction l with
            | nil => simp at h
            | cons d l ih =>
              rw [List.dropWhile_cons] at h
              by_cases hd : p d = true
              · rw [if_pos hd] at h; exact ih h
              · rw [if_neg hd] at h; cases h; simpa using hd
          simpa using this _ _ _ _ he
        rw [he, hx] at h1
        refine h ((line.drop 2).takeWhile fun c => decide (c ≠ c!"]")) r ⟨mark, hm, ?_, fun c hc hmem => ?_⟩
        · conv => lhs; rw [e, h1]
          simp
        · have := SupSub.mem_takeWhile hc
          simp at hmem; simp [hmem] at this
      · rfl
    · rfl
  · rfl

theorem defLine_of {line a e : Bytes} (h : Defines line a e) :
    defLine line = if trim a ≠ [] ∧ trim e ≠ [] then some [(trim a, trim e)] else some [] := by
  obtain ⟨mark, hm, rfl, hf⟩ := h
  have h1 := span_free (p := fun c => decide (c ≠ c!"]")) (by simp) hf (d := c!"]") (r := c!":" :: e) (by simp)
  have e1 : (mark ++ a ++ b!"]:" ++ e).drop 2 = a ++ c!"]" :: c!":" :: e := by
    rcases hm with rfl | rfl <;> simp
  unfold defLine
  rw [if_pos, e1]
  · simp only []
    rw [h1.1, h1.2]
    simp
  · rcases hm with rfl | rfl
    · exact .inl ⟨a ++ b!"]:" ++ e, by simp⟩
    · exact .inr ⟨a ++ b!"]:" ++ e, by simp⟩

/-- What the sorted lines give. -/
theorem defLine_sorted {l : Bytes} {kept : List Bytes} {defs : List Pair} {ls : List Bytes} (h : Sorted (l :: ls) kept defs) :
    (defLine l = none ∧ ∃ kept', kept = l :: kept' ∧ Sorted ls kept' defs) ∨
    (∃ d defs', defLine l = some d ∧ defs = d ++ defs' ∧ Sorted ls kept defs') := by
  cases h with
  | keep hk hr => exact .inl ⟨defLine_none hk, _, rfl, hr⟩
  | take hd ha he ha' he' hr =>
    refine .inr ⟨[_], _, ?_, rfl, hr⟩
    rw [defLine_of hd, trim_of ha, trim_of he, if_pos ⟨ha', he'⟩]
  | blank hd hb hr =>
    refine .inr ⟨[], _, ?_, rfl, hr⟩
    rw [defLine_of hd, if_neg]
    rintro ⟨h1, h2⟩
    rcases hb with hb | hb
    · exact h1 (trim_of hb)
    · exact h2 (trim_of hb)

theorem keep_sorted {last : Bytes} (hlast : c!"\n" ∉ last) (hll : last.length < 1024) {kl : List Bytes} {dl : List Pair}
    (hs' : Sorted (if last = [] then [] else [last]) kl dl) :
    ∀ (ls : List Bytes) {kept : List Bytes} {defs : List Pair}, Sorted ls kept defs → (∀ l ∈ ls, c!"\n" ∉ l) →
    (∀ l ∈ ls, l.length < 1024) → ∀ n, keepLines 1024 (fun _ line => .val (defLine line)) [] n (ended ls ++ last) =
      .val (ended kept ++ kl.flatten, defs ++ dl) := by
  intro ls
  induction ls with
  | nil =>
    intro kept defs h _ _ n
    cases h
    by_cases hl : last = []
    · subst hl
      rw [if_pos rfl] at hs'
      cases hs'; simp [ended, keepLines]
    · rw [if_neg hl] at hs'
      have e : ended ([] : List Bytes) = [] := rfl
      rw [e, List.nil_append, Ial.keepLines_last hlast hl, List.take_of_length_le (by omega)]
      rcases defLine_sorted hs' with ⟨h1, k, rfl, h2⟩ | ⟨d, d', h1, rfl, h2⟩
      · cases h2; simp [h1]
      · cases h2; simp [h1]
  | cons l ls ih =>
    intro kept defs h hn hl n
    have e : ended (l :: ls) ++ last = l ++ c!"\n" :: (ended ls ++ last) := by simp [ended]
    rw [e, Ial.keepLines_line (hn l (by simp)) (hl l (by simp))]
    rcases defLine_sorted h with ⟨h1, k, rfl, h2⟩ | ⟨d, d', h1, rfl, h2⟩
    · rw [ih h2 (fun l h => hn l (by simp [h])) (fun l h => hl l (by simp [h])) (n + 1)]
      simp [h1, ended]
    · rw [ih h2 (fun l h => hn l (by simp [h])) (fun l h => hl l (by simp [h])) (n + 1)]
      simp [h1]

/-! ### Marking -/

theorem word_iff (c : Byte) : isAlnum c = true ↔ Word c :=
  forall_byte (p := fun c => isAlnum c = true ↔ (48 ≤ c ∧ c ≤ 57) ∨ (65 ≤ c ∧ c ≤ 90) ∨ (97 ≤ c ∧ c ≤ 122))
    (by decide +kernel) c

theorem wordByte_iff (o : Option Byte) : wordByte o = false ↔ ∀ c ∈ o, ¬ Word c := by
  cases o with
  | none => simp [wordByte]
  | some c =>
    simp only [wordByte, Option.mem_def, Option.some.injEq, forall_eq', ← word_iff]
    simp

theorem stands_iff {a : Bytes} {prev : Option Byte} {s : Bytes} :
    (a.isPrefixOf s && !wordByte prev && !wordByte (s.drop a.length).head?) = true ↔ Stands a prev s := by
  simp only [Bool.and_eq_true, Bool.not_eq_true', wordByte_iff, List.isPrefixOf_iff_prefix, Stands]
  constructor
  · rintro ⟨⟨⟨r, rfl⟩, h1⟩, h2⟩
    exact ⟨r, rfl, h1, by simpa using h2⟩
  · rintro ⟨r, rfl, h1, h2⟩
    exact ⟨⟨⟨r, rfl⟩, h1⟩, by simpa using h2⟩

theorem find_first {l : List Pair} {f : Pair → Bool} {P : Pair → Prop} (hf : ∀ q, f q = true ↔ P q) {p : Pair} :
    l.find? f = some p ↔ First l P p := by
  rw [List.find?_eq_some_iff_append]
  constructor
  · rintro ⟨h1, u, v, rfl, h2⟩
    refine ⟨u, v, rfl, (hf p).1 h1, fun q hq hP => ?_⟩
    have := h2 q hq
    rw [(hf q).2 hP] at this; simp at this
  · rintro ⟨u, v, rfl, h1, h2⟩
    refine ⟨(hf p).2 h1, u, v, rfl, fun q hq => ?_⟩
    cases e : f q with
    | false => rfl
    | true => exact absurd ((hf q).1 e) (h2 q hq)

theorem here_some {l : List Pair} {prev : Option Byte} {s : Bytes} {p : Pair} :
    here l prev s = some p ↔ First l (fun q => Stands q.1 prev s) p :=
  find_first fun _ => stands_iff

theorem here_none {l : List Pair} {prev : Option Byte} {s : Bytes} :
    here l prev s = none ↔ ∀ q ∈ l, ¬ Stands q.1 prev s := by
  unfold here
  rw [List.find?_eq_none]
  constructor
  · intro h q hq hs; exact h q hq (stands_iff.2 hs)
  · intro h q hq hs; exact h q hq (stands_iff.1 hs)

theorem tag_element {p : Pair} (h : (element p).length < 2048) : tag p = element p := by
  unfold tag element at *
  rw [List.take_of_length_le (by omega)]

theorem body_span {x t : Bytes} (h : Body x) :
    (x ++ c!"]" :: t).takeWhile (fun c => decide (c ≠ c!"]" ∧ c ≠ c!"\n" ∧ c ≠ c!"<")) = x :=
  (span_free (p := fun c => decide (c ≠ c!"]" ∧ c ≠ c!"\n" ∧ c ≠ c!"<")) (by simp) h (d := c!"]") (r := t) (by simp)).1

theorem trimmed_length {v t : Bytes} (h : Trimmed v t) : t.length ≤ v.length := by
  obtain ⟨a, b, rfl, -⟩ := h; simp; omega

theorem marked_body {l : List Pair} {x t : Bytes} (hb : Body x) : marked l (bracket x ++ t) =
    if x.head? = some c!"(" then
      if c!")" ∈ x.drop 1 then
        if (x.drop 1).takeWhile (fun c => decide (c ≠ c!")")) ≠ [] ∧
            ((x.drop 1).dropWhile (fun c => decide (c ≠ c!")"))).drop 1 ≠ [] then
          if ((x.drop 1).takeWhile (fun c => decide (c ≠ c!")"))).length < 256 ∧
              (((x.drop 1).dropWhile (fun c => decide (c ≠ c!")"))).drop 1).length < 1024 then
            .val (some (tag (trim ((x.drop 1).takeWhile (fun c => decide (c ≠ c!")"))),
              trim (((x.drop 1).dropWhile (fun c => decide (c ≠ c!")"))).drop 1)), 5 + x.length + 1))
          else .ub
        else .val none
      else .val none
    else if 0 < x.length ∧ x.length < 256 then
      match l.find? fun i => i.1 = trim x with
      | some i => .val (some (tag i, 5 + x.length + 1))
      | none => .val none
    else .val none := by
  have e : bracket x ++ t = b!"[&gt;" ++ (x ++ c!"]" :: t) := by simp [bracket]
  have e1 : (bracket x ++ t).drop 5 = x ++ c!"]" :: t := by rw [e]; simp
  unfold marked
  rw [if_pos ⟨_, e.symm⟩]
  simp only []
  rw [e1, body_span hb]
  have e2 : ((x ++ c!"]" :: t).drop x.length).head? = some c!"]" := by simp
  rw [if_pos e2]
  rfl

theorem marked_refers {l : List Pair} {x t : Bytes} {p : Pair} (h : Refers l x p) :
    marked l (bracket x ++ t) = .val (some (tag p, (bracket x).length)) := by
  obtain ⟨hb, hh, h1, h2, n, hn, hf⟩ := h
  rw [marked_body hb, if_neg hh, if_pos ⟨h1, h2⟩]
  have : (l.find? fun i => i.1 = trim x) = some p := by
    rw [find_first (P := fun q => q.1 = n)]
    · exact hf
    · intro q; rw [trim_of hn]; simp
  rw [this]
  simp [bracket]
  omega

theorem marked_gives {l : List Pair} {x t : Bytes} {p : Pair} (h : Gives x p) (hl : x.length < 256) :
    marked l (bracket x ++ t) = .val (some (tag p, (bracket x).length)) := by
  obtain ⟨a, e, hx, hb, hf, ha, he, h1, h2⟩ := h
  have ed : x.drop 1 = a ++ c!")" :: e := by rw [hx]; simp
  have h3 := span_free (p := fun c => decide (c ≠ c!")")) (by simp) hf (d := c!")") (r := e) (by simp)
  have hlen : a.length + e.length + 2 = x.length := by rw [hx]; simp; omega
  rw [marked_body hb, if_pos (by rw [hx]; simp), ed, if_pos (by simp), h3.1, h3.2]
  simp only [List.drop_succ_cons, List.drop_zero]
  rw [if_pos ⟨ha, he⟩, if_pos (by omega), trim_of h1, trim_of h2]
  simp [bracket]
  omega

theorem marked_none {l : List Pair} {s : Bytes}
    (h : ∀ x q r, Refers l x q ∨ Gives x q → s ≠ bracket x ++ r) : marked l s = .val none := by
  by_cases hp : ∃ x t, Body x ∧ s = bracket x ++ t
  · obtain ⟨x, t, hb, rfl⟩ := hp
    rw [marked_body hb]
    split
    · rename_i hh
      split
      · rename_i hm
        split
        · rename_i hne
          exfalso
          refine h x (trim ((x.drop 1).takeWhile (fun c => decide (c ≠ c!")"))),
            trim (((x.drop 1).dropWhile (fun c => decide (c ≠ c!")"))).drop 1)) t (.inr ⟨_, _, ?_, hb, ?_, hne.1, hne.2,
              trim_spec _, trim_spec _⟩) rfl
          · have cut : ∀ {d : Byte} {t : Bytes}, d ∈ t →
                t = t.takeWhile (fun c => decide (c ≠ d)) ++ d :: (t.dropWhile (fun c => decide (c ≠ d))).drop 1 := by
              intro d t hd
              induction t with
              | nil => simp at hd
              | cons c t ih =>
                by_cases hc : c = d
                · subst hc; simp
                · have : d ∈ t := by simpa [Ne.symm hc] using hd
                  rw [List.takeWhile_cons, List.dropWhile_cons]
                  simp only [decide_not, hc, decide_false, Bool.not_false, if_true]
                  have := ih this
                  simp only [decide_not] at this
                  rw [List.cons_append, ← this]
            have e := cut hm
            cases x with
            | nil => simp at hh
            | cons c x =>
              simp only [List.head?_cons, Option.some.injEq] at hh
              subst hh
              simp only [List.drop_succ_cons, List.drop_zero] at e ⊢
              conv => lhs; rw [e]
              simp
          · intro c hc hm
            have := SupSub.mem_takeWhile hc
            simp at hm
            simp [hm] at this
        · rfl
      · rfl
    · rename_i hh
      split
      · rename_i hl
        split
        · rename_i p hf
          exfalso
          refine h x p t (.inl ⟨hb, hh, hl.1, hl.2, trim x, trim_spec x, ?_⟩) rfl
          rw [← find_first (f := fun i => decide (i.1 = trim x)) (by simp)]
          exact hf
        · rfl
      · rfl
  · unfold marked
    split
    · rename_i hpre
      obtain ⟨u, rfl⟩ := hpre
      simp only []
      have e1 : (b!"[&gt;" ++ u).drop 5 = u := by simp
      rw [e1]
      split
      · rename_i hc
        exfalso
        obtain ⟨v, hv⟩ := SupSub.takeWhile_stop (p := fun c => decide (c ≠ c!"]" ∧ c ≠ c!"\n" ∧ c ≠ c!"<")) u
        have e2 : u.drop (u.takeWhile (fun c => decide (c ≠ c!"]" ∧ c ≠ c!"\n" ∧ c ≠ c!"<"))).length = v := by
          conv => lhs; arg 2; rw [hv.1]
          simp
        rw [e2] at hc
        cases v with
        | nil => simp at hc
        | cons d v =>
          simp only [List.head?_cons, Option.some.injEq] at hc
          subst hc
          refine hp ⟨u.takeWhile (fun c => decide (c ≠ c!"]" ∧ c ≠ c!"\n" ∧ c ≠ c!"<")), v, fun c hc hm => ?_, ?_⟩
          · have := SupSub.mem_takeWhile hc
            simp only [decide_eq_true_eq] at this
            simp at hm
            rcases hm with h | h | h
            · exact this.1 h
            · exact this.2.1 h
            · exact this.2.2 h
          · conv => lhs; rw [hv.1]
            simp [bracket]
      · rfl
    · rfl

theorem last_append {x : Bytes} {c : Byte} {prev : Option Byte} (h : x.getLast? = some c) :
    x.getLast?.or prev = some c := by rw [h]; rfl

/-- The tokens written for HTML whose marking is known. -/
theorem toks_marks {l : List Pair} {prev : Option Byte} {s o : Bytes} (h : Marks l prev s o)
    (hl : ∀ p ∈ l, (element p).length < 2048) (hb : ∀ x, Body x → bracket x <:+: s → x.length < 256) :
    ∀ n, s.length ≤ n → ∃ ts, toks l n prev s = some (.val ts) ∧ (∀ t ∈ ts, ∀ a b, t ≠ .reserve a b) ∧
      ts.flatMap DropBuf.Tok.out = o := by
  induction h with
  | nil => intro n _; exact ⟨[], by cases n <;> rfl, by simp, rfl⟩
  | @bracket prev x p t o hx _ ih =>
    intro n hn
    have hbody : Body x := by rcases hx with h | h; exact h.1; obtain ⟨_, _, _, h, _⟩ := h; exact h
    have hlen : x.length < 256 := hb x hbody ⟨[], t, by simp⟩
    have hm : marked l (bracket x ++ t) = .val (some (element p, (bracket x).length)) := by
      rcases hx with h | h
      · rw [marked_refers h, tag_element (hl p ?_)]
        obtain ⟨_, _, _, _, _, _, u, v, rfl, _⟩ := h
        simp
      · rw [marked_gives h hlen, tag_element]
        obtain ⟨a, e, h0, _, _, _, _, h1, h2⟩ := h
        have := trimmed_length h1
        have := trimmed_length h2
        have : x.length = a.length + e.length + 2 := by rw [h0]; simp; omega
        simp [element]; omega
    have ec : bracket x ++ t = c!"[" :: (b!"&gt;" ++ x ++ b!"]" ++ t) := by simp [bracket]
    cases n with
    | zero => rw [ec] at hn; simp at hn
    | succ n =>
      obtain ⟨ts, h1, h2, h3⟩ := ih (fun y hy hi => hb y hy (List.IsInfix.trans hi ⟨bracket x, [], by simp⟩)) n
        (by simp [bracket] at hn; omega)
      refine ⟨.chunk (element p) :: ts, ?_, ?_, ?_⟩
      · rw [ec] at hm ⊢
        rw [toks]
        simp only [hm]
        rw [← ec]
        have e1 : (bracket x ++ t).take (bracket x).length = bracket x := by simp
        have e2 : (bracket x ++ t).drop (bracket x).length = t := by simp
        rw [e1, e2, last_append (x := bracket x) (c := c!"]") (by unfold bracket; rw [List.getLast?_append]; rfl), h1]
      · intro t ht; simp at ht; rcases ht with rfl | ht; simp; exact h2 t ht
      · simp [DropBuf.Tok.out, h3]
  | @word prev p t o hx hne hf _ ih =>
    intro n hn
    have hm := marked_none hx
    have hh := here_some.2 hf
    obtain ⟨c, r, ec⟩ : ∃ c r, p.1 = c :: r := by
      cases h : p.1 with
      | nil => exact absurd h hne
      | cons c r => exact ⟨c, r, rfl⟩
    have hpl : p ∈ l := by obtain ⟨u, v, rfl, _⟩ := hf; simp
    have es : p.1 ++ t = c :: (r ++ t) := by rw [ec]; rfl
    cases n with
    | zero => rw [es] at hn; simp at hn
    | succ n =>
      obtain ⟨ts, h1, h2, h3⟩ := ih (fun y hy hi => hb y hy (List.IsInfix.trans hi ⟨p.1, [], by simp⟩)) n
        (by rw [es] at hn; simp at hn; omega)
      refine ⟨.chunk (element p) :: ts, ?_, ?_, ?_⟩
      · rw [es] at hm hh ⊢
        rw [toks]
        simp only [hm, hh]
        rw [← es]
        have e1 : (p.1 ++ t).take p.1.length = p.1 := by simp
        have e2 : (p.1 ++ t).drop p.1.length = t := by simp
        rw [e1, e2]
        have e3 : p.1.getLast?.or prev = p.1.getLast? := by
          rw [ec]; simp [List.getLast?_cons]
        rw [e3, h1, tag_element (hl p hpl)]
      · intro t ht; simp at ht; rcases ht with rfl | ht; simp; exact h2 t ht
      · simp [DropBuf.Tok.out, h3]
  | @byte prev c t o hx hq _ ih =>
    intro n hn
    have hm := marked_none hx
    have hh := here_none.2 hq
    cases n with
    | zero => simp at hn
    | succ n =>
      obtain ⟨ts, h1, h2, h3⟩ := ih (fun y hy hi => hb y hy (List.IsInfix.trans hi ⟨[c], [], by simp⟩)) n
        (by simp at hn; omega)
      refine ⟨.byte c :: ts, ?_, ?_, ?_⟩
      · rw [toks]
        simp only [hm, hh]
        have e3 : (((c :: t).take 1).getLast?.or prev) = some c := by simp
        rw [e3, List.drop_succ_cons, List.drop_zero, h1]
      · intro t ht; simp at ht; rcases ht with rfl | ht; simp; exact h2 t ht
      · simp [DropBuf.Tok.out, h3]

/-- Without empty abbreviations there is a marking. -/
theorem marks_exists {l : List Pair} (hl : ∀ p ∈ l, p.1 ≠ []) (prev : Option Byte) (s : Bytes) : ∃ o, Marks l prev s o := by
  have : ∀ n (prev : Option Byte) (s : Bytes), s.length ≤ n → ∃ o, Marks l prev s o := by
    intro n
    induction n with
    | zero => intro prev s h; have : s = [] := List.length_eq_zero_iff.1 (by omega); subst this; exact ⟨_, .nil⟩
    | succ n ih =>
      intro prev s h
      by_cases hx : ∃ x q r, (Refers l x q ∨ Gives x q) ∧ s = bracket x ++ r
      · obtain ⟨x, q, r, h1, rfl⟩ := hx
        obtain ⟨o, ho⟩ := ih (some c!"]") r (by simp [bracket] at h; omega)
        exact ⟨_, .bracket h1 ho⟩
      · have hx' : ∀ x q r, Refers l x q ∨ Gives x q → s ≠ bracket x ++ r := fun x q r h1 h2 => hx ⟨x, q, r, h1, h2⟩
        cases hh : here l prev s with
        | some p =>
          have hf := here_some.1 hh
          obtain ⟨r, hr, -⟩ : ∃ r, s = p.1 ++ r ∧ True := by
            obtain ⟨u, v, _, ⟨r, hr, _⟩, _⟩ := hf
            exact ⟨r, hr, trivial⟩
          have hne : p.1 ≠ [] := hl p (by obtain ⟨u, v, rfl, _⟩ := hf; simp)
          have : 0 < p.1.length := List.length_pos_iff.2 hne
          subst hr
          obtain ⟨o, ho⟩ := ih p.1.getLast? r (by simp at h; omega)
          exact ⟨_, .word hx' hne hf ho⟩
        | none =>
          cases s with
          | nil => exact ⟨_, .nil⟩
          | cons c t =>
            obtain ⟨o, ho⟩ := ih (some c) t (by simp at h; omega)
            exact ⟨_, .byte hx' (here_none.1 hh) ho⟩
  exact this _ _ _ (Nat.le_refl _)

/-- Every turn reads something, if no abbreviation is empty. -/
theorem toks_some {l : List Pair} (hl : ∀ p ∈ l, p.1 ≠ []) :
    ∀ n (prev : Option Byte) (s : Bytes), s.length ≤ n → toks l n prev s ≠ none := by
  intro n
  induction n with
  | zero => intro prev s h; have : s = [] := List.length_eq_zero_iff.1 (by omega); subst this; simp [toks]
  | succ n ih =>
    intro prev s h
    cases s with
    | nil => simp [toks]
    | cons c t =>
      rw [toks]
      cases hm : marked l (c :: t) with
      | ub => simp
      | val m =>
        simp only []
        have step : ∀ (x : DropBuf.Tok) (k : Nat), 0 < k →
            (match toks l n (((c :: t).take k).getLast?.or prev) ((c :: t).drop k) with
              | some (.val r) => some (.val (x :: r))
              | r => r) ≠ none := by
          intro x k hk
          have := ih (((c :: t).take k).getLast?.or prev) ((c :: t).drop k) (by simp at h ⊢; omega)
          split
          · simp
          · exact this
        cases m with
        | some y =>
          obtain ⟨y, k⟩ := y
          refine step (.chunk y) k ?_
          unfold marked at hm
          grind
        | none =>
          cases hh : here l prev (c :: t) with
          | some p =>
            have hpl : p ∈ l := by obtain ⟨u, v, rfl, _⟩ := here_some.1 hh; simp
            exact step (.chunk (tag p)) p.1.length (List.length_pos_iff.2 (hl p hpl))
          | none => exact step (.byte c) 1 (by omega)

end Verif.Abbr

namespace Verif.Abbr
open Spec Transforms.Spec
open Ial.Spec (Free Gap)
open Ial (keepLines)

theorem keepLines_total (text : Bytes) : ∀ cur n, ∃ o l,
    keepLines 1024 (fun _ line => .val (defLine line)) cur n text = .val (o, l) := by
  induction text with
  | nil =>
    intro cur n
    rw [keepLines]
    split
    · exact ⟨_, _, rfl⟩
    · simp only [C.val_bind]
      cases defLine (cur.take (1024 - 1)) with
      | none => exact ⟨_, _, rfl⟩
      | some a => exact ⟨_, _, rfl⟩
  | cons c t ih =>
    intro cur n
    rw [keepLines]
    split
    · simp only [C.val_bind]
      obtain ⟨o, l, h⟩ := ih [] (n + 1)
      cases defLine (cur.take (1024 - 1)) with
      | none => exact ⟨_, _, by simp only [h, C.val_bind]; rfl⟩
      | some a => exact ⟨_, _, by simp only [h, C.val_bind]; rfl⟩
    · exact ih _ _

theorem inlines_plain {pre : Bytes} (h : Free b!"[" pre) : ∀ n l0 t, inlines (pre.length + n) l0 (pre ++ t) =
    (pre ++ (inlines n l0 t).1, (inlines n l0 t).2) := by
  induction pre with
  | nil => intro n l0 t; simp
  | cons c pre ih =>
    intro n l0 t
    have hc : c ≠ c!"[" := by have := h c (by simp); simpa using this
    have e : (c :: pre).length + n = (pre.length + n) + 1 := by simp; omega
    have e2 : (if b!"[>(" <+: c :: (pre ++ t) then inline ((pre ++ t).drop 2) else none) = none := by
      rw [if_neg]
      rintro ⟨r, hr⟩
      simp at hr
      exact hc hr.1.symm
    rw [e, List.cons_append, inlines]
    simp only [e2]
    rw [ih (fun c hc => h c (by simp [hc]))]
    rfl

theorem inlines_no_close : ∀ (n : Nat) (l0 : List Item) (a : Bytes), Free b!")" a → a.length ≤ n → inlines n l0 a = (a, l0) := by
  intro n
  induction n with
  | zero => intro l0 a _ h; have : a = [] := List.length_eq_zero_iff.1 (by omega); subst this; rfl
  | succ n ih =>
    intro l0 a ha h
    cases a with
    | nil => rfl
    | cons c t =>
      have e2 : (if b!"[>(" <+: c :: t then inline (t.drop 2) else none) = none := by
        split
        · unfold inline
          rw [if_neg]
          intro hm
          exact ha c!")" (by have := List.mem_of_mem_drop hm; simp [this]) (by simp)
        · rfl
      rw [inlines]
      simp only [e2]
      rw [ih l0 t (fun c hc => ha c (by simp [hc])) (by simp at h; omega)]

theorem cstr_free {x : Bytes} (h : (0 : Byte) ∉ x) (t : Bytes) (ht : ∀ c ∈ t.head?, c = 0) : Escape.cstr (x ++ t) = x := by
  unfold Escape.cstr
  refine Markers.takeWhile_all x t (fun c hc => ?_) (fun c hc => by simp [ht c hc])
  have : c ≠ 0 := by rintro rfl; exact h hc
  simpa using this

theorem trimEnd_gap' {a ws : Bytes} (ha : EndsInk a) (hw : Gap ws) : Ial.trimEnd (a ++ ws) = a := by
  have : Ial.trimEnd (a ++ ws) = Ial.trimEnd a := by
    unfold Ial.trimEnd
    rw [List.reverse_append, List.dropWhile_append_of_pos (fun c hc => Ial.isSpace_gap hw c (by simpa using hc))]
  rw [this, trimEnd_ink ha]

theorem processInline_lost {pre a ws sp e r : Bytes} (h0 : (0 : Byte) ∉ pre ++ a) (hp : Free b!"[" pre) (ha : EndsInk a)
    (hane : a ≠ []) (hw : Gap ws) (hwne : ws ≠ []) (hi : Inline (a ++ ws) sp e) :
    ∃ l, processInline (pre ++ (inlineText (a ++ ws) sp e ++ r)) = .val (pre ++ a, l) := by
  have e1 : inlineText (a ++ ws) sp e ++ r = c!"[" :: (b!">(" ++ ((a ++ ws) ++ b!")" ++ sp ++ e ++ b!"]" ++ r)) := by
    simp [inlineText]
  have e2 : (if b!"[>(" <+: c!"[" :: (b!">(" ++ ((a ++ ws) ++ b!")" ++ sp ++ e ++ b!"]" ++ r)) then
      inline ((b!">(" ++ ((a ++ ws) ++ b!")" ++ sp ++ e ++ b!"]" ++ r)).drop 2) else none) = some (a ++ ws, e, r) := by
    rw [if_pos ⟨(a ++ ws) ++ b!")" ++ sp ++ e ++ b!"]" ++ r, by simp⟩]
    have : (b!">(" ++ ((a ++ ws) ++ b!")" ++ sp ++ e ++ b!"]" ++ r)).drop 2 =
      (a ++ ws) ++ b!")" ++ sp ++ e ++ b!"]" ++ r := by simp
    rw [this, inline_of hi]
  have et : trimInPlace (a ++ ws) = a ++ List.replicate ws.length 0 := by
    unfold trimInPlace
    rw [if_neg, trimEnd_gap' ha hw]
    · simp
    · intro hd
      cases hl : a.getLast? with
      | none => exact hane (List.getLast?_eq_none_iff.1 hl)
      | some c =>
        have hns := ha c hl
        have : c ∈ a := List.mem_of_getLast? hl
        have hall : ∀ c ∈ a ++ ws, isSpace c = true := by
          have : ∀ x : Bytes, x.dropWhile isSpace = [] → ∀ c ∈ x, isSpace c = true := by
            intro x
            induction x with
            | nil => simp
            | cons d x ih =>
              intro h c hc
              rw [List.dropWhile_cons] at h
              by_cases hd : isSpace d = true
              · rw [if_pos hd] at h
                simp at hc; rcases hc with rfl | hc
                · exact hd
                · exact ih h c hc
              · rw [if_neg hd] at h; simp at h
          exact this _ hd
        exact hns ((Transforms.isSpace_iff c).1 (hall c (by simp [this])))
  obtain ⟨m, hm⟩ : ∃ m, (inlineText (a ++ ws) sp e ++ r).length = m + 1 := by rw [e1]; exact ⟨_, rfl⟩
  have hbig : ∀ n l0 (t : Bytes), (inlines n l0 t).1.length ≤ t.length := by
    intro n
    induction n with
    | zero => intro l0 t; simp [inlines]
    | succ n ih =>
      intro l0 t
      cases t with
      | nil => simp [inlines]
      | cons c t =>
        rw [inlines]
        split
        · rename_i a e r hx
          have : inline (t.drop 2) = some (a, e, r) := by
            split at hx
            · exact hx
            · simp at hx
          obtain ⟨sp, -, h2⟩ := inline_some this
          have h3 := ih ((trim a, trim e) :: l0) r
          have h4 := congrArg List.length h2
          have h5 : (trimInPlace a).length = a.length := by
            unfold trimInPlace
            split
            · rfl
            · have : (Ial.trimEnd a).length ≤ a.length := by
                unfold Ial.trimEnd
                have := (List.dropWhile_suffix (p := isSpace) (l := a.reverse)).length_le
                simpa using this
              simp; omega
          simp at h4 ⊢
          omega
        · have := ih l0 t
          simp; omega
  have hl := hbig (pre ++ (inlineText (a ++ ws) sp e ++ r)).length [] (pre ++ (inlineText (a ++ ws) sp e ++ r))
  have hpos : 0 < (pre ++ (inlineText (a ++ ws) sp e ++ r)).length := by rw [List.length_append, hm]; omega
  suffices h : Escape.cstr (inlines (pre ++ (inlineText (a ++ ws) sp e ++ r)).length []
      (pre ++ (inlineText (a ++ ws) sp e ++ r))).1 = pre ++ a by
    refine ⟨(inlines (pre ++ (inlineText (a ++ ws) sp e ++ r)).length []
      (pre ++ (inlineText (a ++ ws) sp e ++ r))).2, ?_⟩
    unfold processInline
    simp only []
    rw [finish_val (by omega)]
    simp only [C.val_bind, h]
  rw [List.length_append, hm, inlines_plain hp, e1, inlines]
  simp only [e2]
  rw [et, ← List.append_assoc, ← List.append_assoc, List.append_assoc (pre ++ a), cstr_free h0]
  intro c hc
  cases ws with
  | nil => exact absurd rfl hwne
  | cons d ws => simp [List.replicate_succ] at hc; exact hc.symm

theorem processInline_plain {pre a : Bytes} (h0 : (0 : Byte) ∉ pre ++ a) (hp : Free b!"[" pre) (ha : Free b!")" a)
    (hne : a ≠ []) : processInline (pre ++ a) = .val (pre ++ a, []) := by
  have : 0 < a.length := List.length_pos_iff.2 hne
  unfold processInline
  rw [List.length_append, inlines_plain hp, inlines_no_close _ _ _ ha (Nat.le_refl _)]
  simp only []
  rw [finish_val (by simp; omega)]
  have := cstr_free h0 [] (by simp)
  rw [List.append_nil] at this
  simp [this]

end Verif.Abbr
