/-
Lemmas about attribute lists.
-/
import Verif.Spec.Ial
import Verif.Proof.Text
import Verif.Proof.Transforms

namespace Verif.Ial
open Spec Transforms.Spec

theorem scan_stop {stop : Byte → Bool} : ∀ {x : Bytes} {d : Byte} {r : Bytes}, (∀ c ∈ x, stop c = false) →
    stop d = true → scan stop (x ++ d :: r) = .val (x, d :: r)
  | [], d, r, _, hd => by simp [scan, hd]
  | c :: x, d, r, h, hd => by
    simp only [List.cons_append, scan, h c (by simp), Bool.false_eq_true, if_false]
    rw [scan_stop (fun c hc => h c (by simp [hc])) hd]; rfl

theorem isSpace_gap {s : Bytes} (h : Gap s) : ∀ c ∈ s, isSpace c = true := fun c hc =>
  (Transforms.isSpace_iff c).2 (h c hc)

theorem not_blank {c : Byte} {bad : Bytes} (h : c ∉ blanks ++ bad) : c ≠ 0 ∧ isSpace c = false ∧ c ∉ bad := by
  rw [List.mem_append, not_or] at h
  have := forall_byte (p := fun c => c ∉ blanks → c ≠ 0 ∧ isSpace c = false) (by decide +kernel) c h.1
  exact ⟨this.1, this.2, h.2⟩

/-- What follows an entry ends it. -/
def Stops : Item → Bytes → Prop
  | .id _, r => ∃ c r', r = c :: r' ∧ idStop c = true
  | .cls _, r => ∃ c r', r = c :: r' ∧ classStop c = true
  | .attr _ _ .none, r => ∃ c r', r = c :: r' ∧ (c == 0 || isSpace c || c == c!"}") = true
  | .attr _ _ _, _ => True
  | .word _, r => ∃ c r', r = c :: r' ∧ keyStop c = true ∧ c ≠ c!"="

/-- What an entry adds. -/
def apply (a : Attrs) : Item → Attrs
  | .id x => { a with id := some x }
  | .cls x => addClass a x
  | .attr k v _ => addAttr a k v
  | .word w => match words.lookup w with | some m => addAttr a m b!"1" | none => a

theorem curly_no {c : Byte} (h : c ≠ 0xE2) (s : Bytes) : curly (c :: s) = .val false := by
  rw [curly.eq_def]; simp [h]

theorem curly_in {v : Bytes} (h1 : ¬ b!"“" <:+: v) (h2 : ¬ b!"”" <:+: v) (hv : v ≠ []) (r : Bytes) :
    curly (v ++ b!"”" ++ r) = .val false := by
  match v, hv with
  | [c], _ =>
    by_cases hc : c = 0xE2
    · subst hc; rw [curly.eq_def]; simp
    · simp [curly_no hc]
  | [c, d], _ =>
    by_cases hc : c = 0xE2
    · subst hc; rw [curly.eq_def]; simp only [List.cons_append, List.nil_append]
      by_cases hd : d = 0x80
      · subst hd; simp
      · simp [hd]
    · simp [curly_no hc]
  | c :: d :: e :: v, _ =>
    by_cases hc : c = 0xE2
    · subst hc; rw [curly.eq_def]; simp only [List.cons_append]
      by_cases hd : d = 0x80
      · subst hd
        have e1 : e ≠ 0x9C := fun e' => h1 ⟨[], v, by simp [e']⟩
        have e2 : e ≠ 0x9D := fun e' => h2 ⟨[], v, by simp [e']⟩
        simp [e1, e2]
      · simp [hd]
    · simp [curly_no hc]

theorem toCurly_in : ∀ {v : Bytes} (_ : ¬ b!"“" <:+: v) (_ : ¬ b!"”" <:+: v) (_ : 0 ∉ v) (r : Bytes),
    toCurly (v ++ b!"”" ++ r) = .val (v, b!"”" ++ r)
  | [], _, _, _, r => by
    simp [toCurly, curly]
  | c :: v, h1, h2, h0, r => by
    have := curly_in h1 h2 (by simp) r
    have i1 : ¬ b!"“" <:+: v := fun h => h1 (h.trans (List.suffix_cons c v).isInfix)
    have i2 : ¬ b!"”" <:+: v := fun h => h2 (h.trans (List.suffix_cons c v).isInfix)
    have ih := toCurly_in i1 i2 (fun h => h0 (by simp [h])) r
    have hc : c ≠ 0 := fun e => h0 (by simp [e])
    simp only [List.cons_append] at this ⊢
    simp only [toCurly, hc, if_false, this, C.val_bind, Bool.false_eq_true]
    rw [ih]; rfl

theorem toQuote_in {q : Byte} (hq : q ≠ 0) : ∀ {v : Bytes} (_ : ∀ c ∈ v, c ≠ q ∧ c ≠ c!"\\" ∧ c ≠ 0) (r : Bytes),
    toQuote q (v ++ q :: r) = .val (v, q :: r)
  | [], _, [] => by simp [toQuote]
  | [], _, d :: r => by simp [toQuote]
  | c :: v, h, r => by
    have hc := h c (by simp)
    have ih := toQuote_in hq (v := v) (fun c hc => h c (by simp [hc])) r
    obtain ⟨d, s, e⟩ : ∃ d s, v ++ q :: r = d :: s := by
      cases v with
      | nil => exact ⟨q, r, rfl⟩
      | cons d v => exact ⟨d, v ++ q :: r, rfl⟩
    rw [List.cons_append, e, toQuote, if_neg (by simp [hc.1, hc.2.2]), if_neg (by simp [hc.2.1]), ← e, ih]; rfl

theorem marker_eq {w : Bytes} : marker w = words.lookup w := by
  unfold marker words
  simp only [List.lookup]
  repeat' split
  all_goals first | rfl | (simp_all; done) | (rename_i h; simp at h; simp [h])

theorem lookup_mem {w m : Bytes} (h : (w, m) ∈ words) : words.lookup w = some m := by
  unfold words at h
  simp only [List.mem_cons, Prod.mk.injEq, List.not_mem_nil, or_false] at h
  rcases h with ⟨rfl, rfl⟩ | ⟨rfl, rfl⟩ | ⟨rfl, rfl⟩ | ⟨rfl, rfl⟩ | ⟨rfl, rfl⟩ | ⟨rfl, rfl⟩ | ⟨rfl, rfl⟩ | ⟨rfl, rfl⟩ |
    ⟨rfl, rfl⟩ | ⟨rfl, rfl⟩ <;> decide +kernel

theorem word_key {w m : Bytes} (h : (w, m) ∈ words) :
    (∀ c ∈ w, keyStop c = false) ∧ ∃ c t, w = c :: t ∧ c ≠ c!"#" ∧ c ≠ c!"." ∧ c ≠ 0 ∧ isSpace c = false := by
  have : ∀ p ∈ words, (∀ c ∈ p.1, keyStop c = false) ∧
      (p.1.head?.all fun c => c ≠ c!"#" ∧ c ≠ c!"." ∧ c ≠ 0 ∧ isSpace c = false) = true ∧ p.1 ≠ [] := by decide +kernel
  obtain ⟨h1, h2, h3⟩ := this _ h
  cases w with
  | nil => exact absurd rfl h3
  | cons c t => simp at h2; exact ⟨h1, c, t, rfl, h2⟩

theorem value_ok {q : Quote} {v : Bytes} (h : q.Ok v) {r : Bytes} {k : Bytes} (hs : Stops (.attr k v q) r) :
    value (q.wrap v ++ r) = .val (v, r) := by
  cases q with
  | double =>
    have hv : ∀ c ∈ v, c ≠ c!"\"" ∧ c ≠ c!"\\" ∧ c ≠ 0 := fun c hc => by
      have := h.1 c hc
      simp at this
      exact ⟨this.1, this.2, fun e => h.2 (e ▸ hc)⟩
    have := toQuote_in (q := c!"\"") (by decide) hv r
    simp only [Quote.wrap, value, List.append_assoc, List.cons_append, List.nil_append,
      curly_no (c := 34) (by decide), C.val_bind, Bool.false_eq_true, if_false, true_or, if_true] at this ⊢
    rw [this]; simp
  | single =>
    have hv : ∀ c ∈ v, c ≠ c!"'" ∧ c ≠ c!"\\" ∧ c ≠ 0 := fun c hc => by
      have := h.1 c hc
      simp at this
      exact ⟨this.1, this.2, fun e => h.2 (e ▸ hc)⟩
    have := toQuote_in (q := c!"'") (by decide) hv r
    simp only [Quote.wrap, value, List.append_assoc, List.cons_append, List.nil_append,
      curly_no (c := 39) (by decide), C.val_bind, Bool.false_eq_true, if_false, or_true, if_true] at this ⊢
    rw [this]; simp
  | curled =>
    have := toCurly_in h.1 h.2.1 h.2.2 r
    have c1 : curly (b!"“" ++ v ++ b!"”" ++ r) = .val true := by simp [curly]
    simp only [Quote.wrap, value, c1, C.val_bind, if_true]
    have e : (b!"“" ++ v ++ b!"”" ++ r).drop 3 = v ++ b!"”" ++ r := by simp
    rw [e, this]; simp
  | none =>
    obtain ⟨d, r', rfl, hd⟩ := hs
    have hv : ∀ c ∈ v, (c == 0 || isSpace c || c == c!"}") = false := fun c hc => by
      have := not_blank (h.1 c hc)
      simp at this; simp [this]
    have s := scan_stop (r := r') hv hd
    have hne : ∃ c t, v ++ d :: r' = c :: t ∧ c ≠ 0xE2 ∧ ¬ (c = c!"\"" ∨ c = c!"'") := by
      cases v with
      | nil =>
        refine ⟨d, r', rfl, ?_⟩
        exact forall_byte (p := fun d => (d == 0 || isSpace d || d == c!"}") = true → d ≠ 0xE2 ∧ ¬ (d = c!"\"" ∨ d = c!"'"))
          (by decide +kernel) d hd
      | cons c v =>
        have := h.2 c (by simp)
        exact ⟨c, v ++ d :: r', rfl, this.2.2, by simp [this.1, this.2.1]⟩
    obtain ⟨c, t, e, h1, h2⟩ := hne
    simp only [Quote.wrap]
    unfold value
    rw [e] at s ⊢
    rw [curly_no h1]
    simp only [C.val_bind, Bool.false_eq_true, if_false, if_neg h2]
    exact s

theorem key_free {k : Bytes} (h : Free (blanks ++ b!"=}") k) : ∀ c ∈ k, keyStop c = false := fun c hc => by
  have := h c hc
  exact forall_byte (p := fun c => c ∉ blanks ++ b!"=}" → keyStop c = false) (by decide +kernel) c this

theorem item_ok {i : Item} (h : i.Ok) {r : Bytes} (hs : Stops i r) (a : Attrs) :
    item a (i.text ++ r) = .val (apply a i, r) := by
  cases i with
  | id x =>
    obtain ⟨d, r', rfl, hd⟩ := hs
    have hv : ∀ c ∈ x, idStop c = false := fun c hc =>
      forall_byte (p := fun c => c ∉ blanks ++ b!".}" → idStop c = false) (by decide +kernel) c (h.2 c hc)
    have s := scan_stop (r := r') hv hd
    simp [Item.text, item, s, h.1, apply]
  | cls x =>
    obtain ⟨d, r', rfl, hd⟩ := hs
    have hv : ∀ c ∈ x, classStop c = false := fun c hc =>
      forall_byte (p := fun c => c ∉ blanks ++ b!".#}" → classStop c = false) (by decide +kernel) c (h.2 c hc)
    have s := scan_stop (r := r') hv hd
    simp [Item.text, item, s, h.1, apply]
  | attr k v q =>
    obtain ⟨hk, hf, hh, hq⟩ := h
    have s := scan_stop (d := c!"=") (r := q.wrap v ++ r) (key_free hf) (by decide)
    cases k with
    | nil => exact absurd rfl hk
    | cons c k =>
      have hc := hh c (by simp)
      have e : (Item.attr (c :: k) v q).text ++ r = c :: k ++ c!"=" :: (q.wrap v ++ r) := by simp [Item.text]
      rw [e]
      simp only [List.cons_append] at s ⊢
      simp only [item, if_neg hc.1, if_neg hc.2, s, C.val_bind, if_true, value_ok hq hs]
      rfl
  | word w =>
    obtain ⟨m, hm⟩ := h
    obtain ⟨d, r', rfl, hd, hd'⟩ := hs
    obtain ⟨hk, c, t, rfl, h1, h2, _⟩ := word_key hm
    have s := scan_stop (r := r') hk hd
    simp only [Item.text, List.cons_append] at s ⊢
    simp only [item, if_neg h1, if_neg h2, s, C.val_bind, if_neg hd', marker_eq, lookup_mem hm, apply]

theorem item_head {i : Item} (h : i.Ok) : ∃ c t, i.text = c :: t ∧ c ≠ 0 ∧ isSpace c = false := by
  cases i with
  | id x => exact ⟨_, x, rfl, by decide, by decide⟩
  | cls x => exact ⟨_, x, rfl, by decide, by decide⟩
  | attr k v q =>
    obtain ⟨hk, hf, hh, hq⟩ := h
    cases k with
    | nil => exact absurd rfl hk
    | cons c k =>
      have := not_blank (hf c (by simp))
      exact ⟨c, k ++ b!"=" ++ q.wrap v, by simp [Item.text], this.1, this.2.1⟩
  | word w =>
    obtain ⟨m, hm⟩ := h
    obtain ⟨hk, c, t, rfl, h1, h2, h3⟩ := word_key hm
    exact ⟨c, t, rfl, h3⟩

theorem run_gap {n : Nat} {a : Attrs} {sep s : Bytes} (h : Gap sep) : run n a (sep ++ s) = run n a s := by
  cases n with
  | zero => rfl
  | succ n =>
    have : ∀ sep : Bytes, (∀ c ∈ sep, isSpace c = true) → (do
        let (_, r) ← scan (fun c => !isSpace c) (sep ++ s)
        (C.val r : C Bytes)) = (do
        let (_, r) ← scan (fun c => !isSpace c) s
        C.val r) := by
      intro sep
      induction sep with
      | nil => intro _; rfl
      | cons c sep ih =>
        intro hh
        have ih := ih fun c hc => hh c (by simp [hc])
        rw [← ih]
        simp only [List.cons_append, scan, hh c (by simp), Bool.not_true, Bool.false_eq_true, if_false]
        cases scan (fun c => !isSpace c) (sep ++ s) <;> rfl
    have e := this sep (isSpace_gap h)
    rw [run, run]
    cases h1 : scan (fun c => !isSpace c) (sep ++ s) with
    | ub =>
      cases h2 : scan (fun c => !isSpace c) s with
      | ub => rfl
      | val y => rw [h1, h2] at e; simp at e
    | val x =>
      cases h2 : scan (fun c => !isSpace c) s with
      | ub => rw [h1, h2] at e; simp at e
      | val y =>
        rw [h1, h2] at e
        obtain ⟨x1, x2⟩ := x
        obtain ⟨y1, y2⟩ := y
        simp only [C.val_bind, C.val.injEq] at e
        subst e; rfl

theorem run_item {n : Nat} {a : Attrs} {i : Item} {r : Bytes} (h : i.Ok) (hs : Stops i r) :
    run (n + 1) a (i.text ++ r) = run n (apply a i) r := by
  obtain ⟨c, t, e, h0, h1⟩ := item_head h
  have := item_ok h hs a
  rw [e, List.cons_append] at this ⊢
  rw [run]
  have s := scan_stop (stop := fun c => !isSpace c) (x := []) (d := c) (r := t ++ r) (by simp) (by simp [h1])
  simp only [List.nil_append] at s
  simp only [s, C.val_bind, if_neg h0, this]

theorem run_end {n : Nat} {a : Attrs} {sep after : Bytes} (h : Gap sep) :
    run (n + 1) a (sep ++ 0 :: after) = .val a := by
  rw [run_gap h]
  have : isSpace 0 = false := by decide
  simp [run, scan, this]

theorem gap_stops {sep : Bytes} (h : Gap sep) {i : Item} (hi : ∀ w, i ≠ .word w) {r : Bytes} {after : Bytes}
    (hr : r = sep ++ 0 :: after ∨ sep ≠ [] ∧ ∃ t, r = sep ++ t) : Stops i r := by
  have : ∃ c r', r = c :: r' ∧ (c = 0 ∨ isSpace c = true) := by
    cases sep with
    | nil =>
      rcases hr with rfl | ⟨h, _⟩
      · exact ⟨0, after, rfl, .inl rfl⟩
      · exact absurd rfl h
    | cons c s =>
      have := isSpace_gap h c (by simp)
      rcases hr with rfl | ⟨_, t, rfl⟩
      · exact ⟨c, _, rfl, .inr this⟩
      · exact ⟨c, _, rfl, .inr this⟩
  obtain ⟨c, r', rfl, hc⟩ := this
  cases i with
  | id x => exact ⟨c, r', rfl, by rcases hc with h | h <;> simp [idStop, h]⟩
  | cls x => exact ⟨c, r', rfl, by rcases hc with h | h <;> simp [classStop, h]⟩
  | attr k v q =>
    cases q <;> try exact trivial
    exact ⟨c, r', rfl, by rcases hc with h | h <;> simp [h]⟩
  | word w => exact absurd rfl (hi w)

theorem apart_stops {i j : Item} {sep rest : Bytes} (h : Apart i sep j) (hj : j.Ok) :
    Gap sep ∧ Stops i (sep ++ (j.text ++ rest)) := by
  have sp : ∀ {sep : Bytes}, Gap sep → sep ≠ [] → (∀ w, i ≠ .word w) → Stops i (sep ++ (j.text ++ rest)) :=
    fun hg hne hw => gap_stops (after := []) hg hw (.inr ⟨hne, _, rfl⟩)
  cases i with
  | word w =>
    obtain ⟨hg, c, hc, hc'⟩ := h
    refine ⟨hg, ?_⟩
    cases sep with
    | nil => simp at hc
    | cons d s =>
      simp at hc; subst hc
      refine ⟨_, _, rfl, ?_, ?_⟩ <;> rcases hc' with rfl | rfl <;> decide
  | attr k v q =>
    cases q with
    | none =>
      have h : Gap sep ∧ sep ≠ [] := by cases j <;> exact h
      exact ⟨h.1, sp h.1 h.2 (by simp)⟩
    | double => exact ⟨by cases j <;> exact h, trivial⟩
    | single => exact ⟨by cases j <;> exact h, trivial⟩
    | curled => exact ⟨by cases j <;> exact h, trivial⟩
  | id x =>
    cases j with
    | cls y =>
      refine ⟨h, ?_⟩
      by_cases hs : sep = []
      · subst hs; exact ⟨_, _, rfl, by decide⟩
      · exact sp h hs (by simp)
    | _ => exact ⟨h.1, sp h.1 h.2 (by simp)⟩
  | cls x =>
    cases j with
    | cls y =>
      refine ⟨h, ?_⟩
      by_cases hs : sep = []
      · subst hs; exact ⟨_, _, rfl, by decide⟩
      · exact sp h hs (by simp)
    | id y =>
      refine ⟨h, ?_⟩
      by_cases hs : sep = []
      · subst hs; exact ⟨_, _, rfl, by decide⟩
      · exact sp h hs (by simp)
    | _ => exact ⟨h.1, sp h.1 h.2 (by simp)⟩

theorem written_ok {text : Bytes} {i : Item} {items : List Item} (h : Written text (i :: items)) : i.Ok := by
  cases h <;> assumption

theorem run_written {text : Bytes} {items : List Item} (h : Written text items) : ∀ (n : Nat) (a : Attrs) (after : Bytes),
    items.length < n → run n a (text ++ 0 :: after) = .val (items.foldl apply a) := by
  induction h with
  | nil hg =>
    intro n a after hn
    obtain ⟨n, rfl⟩ : ∃ m, n = m + 1 := ⟨n - 1, by simp at hn; omega⟩
    exact run_end hg
  | @one i sep fin hg hi hf hw =>
    intro n a after hn
    obtain ⟨n, rfl⟩ : ∃ m, n = m + 2 := ⟨n - 2, by simp at hn; omega⟩
    rw [List.append_assoc, List.append_assoc, run_gap hg, run_item hi, run_end hf]
    · rfl
    · by_cases h : ∃ w, i = .word w
      · obtain ⟨w, rfl⟩ := h
        have := hw ⟨w, rfl⟩
        cases fin with
        | nil => exact ⟨0, after, rfl, by decide, by decide⟩
        | cons c f =>
          have := this c (by simp)
          refine ⟨c, f ++ 0 :: after, rfl, ?_, ?_⟩ <;> rcases this with rfl | rfl <;> decide
      · exact gap_stops (after := after) hf (fun w e => h ⟨w, e⟩) (.inl rfl)
  | @cons i j js sep sep' rest hg hi ha hw ih =>
    intro n a after hn
    obtain ⟨n, rfl⟩ : ∃ m, n = m + 1 := ⟨n - 1, by simp at hn; omega⟩
    have hs := apart_stops (rest := rest ++ 0 :: after) ha (written_ok hw)
    have e : sep ++ i.text ++ (sep' ++ (j.text ++ rest)) ++ 0 :: after =
      sep ++ (i.text ++ (sep' ++ (j.text ++ (rest ++ 0 :: after)))) := by simp
    rw [e, run_gap hg, run_item hi hs.2, run_gap hs.1]
    have := ih n (apply a i) after (by simp at hn ⊢; omega)
    simp only [List.append_assoc] at this
    rw [this]; rfl

theorem written_length {text : Bytes} {items : List Item} (h : Written text items) : items.length ≤ text.length := by
  induction h with
  | nil => simp
  | one hg hi hf hw =>
    obtain ⟨c, t, e, _⟩ := item_head hi
    simp [e]; omega
  | cons hg hi ha hw ih =>
    obtain ⟨c, t, e, _⟩ := item_head hi
    simp [e] at ih ⊢; omega

theorem foldl_id (items : List Item) (a : Attrs) :
    (items.foldl apply a).id = match lastId items with | some x => some x | none => a.id := by
  induction items generalizing a with
  | nil => rfl
  | cons i items ih =>
    rw [List.foldl_cons, ih]
    unfold lastId
    cases i with
    | id x =>
      simp only [List.filterMap_cons, apply]
      cases h : (items.filterMap fun | .id x => some x | _ => none) with
      | nil => rfl
      | cons y l => simp [List.getLast?_cons]
    | cls x => rfl
    | attr k v q => rfl
    | word w => simp only [List.filterMap_cons, apply]; cases words.lookup w <;> rfl

theorem foldl_classes (items : List Item) (a : Attrs) :
    (items.foldl apply a).classes = a.classes ++ classesOf items := by
  induction items generalizing a with
  | nil => simp [classesOf]
  | cons i items ih =>
    rw [List.foldl_cons, ih]
    unfold classesOf
    cases i with
    | cls x => simp [apply, addClass]
    | word w => simp only [List.filterMap_cons, apply]; split <;> rfl
    | _ => rfl

theorem foldl_attrs (items : List Item) (a : Attrs) :
    (items.foldl apply a).attrs = a.attrs ++ attrsOf items := by
  induction items generalizing a with
  | nil => simp [attrsOf]
  | cons i items ih =>
    rw [List.foldl_cons, ih]
    unfold attrsOf
    cases i with
    | attr k v q => simp [apply, addAttr]
    | word w => simp only [List.filterMap_cons, apply]; cases words.lookup w <;> simp [addAttr]
    | _ => rfl

/-- A written list is parsed as what it means. -/
theorem parse_written {text : Bytes} {items : List Item} (h : Written text items) (hl : text.length < 2048)
    (after : Bytes) : parse text after = .val
      { id := lastId items, classes := classesOf items, attrs := attrsOf items } := by
  unfold parse
  rw [List.take_of_length_le (by omega)]
  have := written_length h
  rw [run_written h _ _ _ (by simp; omega)]
  congr 1
  have h1 := foldl_id items empty
  have h2 := foldl_classes items empty
  have h3 := foldl_attrs items empty
  generalize items.foldl apply empty = z at *
  cases z
  simp only [empty, List.nil_append] at h1 h2 h3
  subst h2 h3
  rw [show _ = _ from h1]
  congr 1
  cases lastId items <;> rfl

/-! ### Every turn moves forward -/

theorem bind_val {α β : Type} {x : C α} {f : α → C β} {b : β} (h : (x >>= f) = .val b) : ∃ a, x = .val a ∧ f a = .val b := by
  cases x with
  | val a => exact ⟨a, rfl, h⟩
  | ub => simp at h

theorem scan_len {stop : Byte → Bool} : ∀ {s x r : Bytes}, scan stop s = .val (x, r) → s = x ++ r
  | [], _, _, h => by simp [scan] at h
  | c :: s, x, r, h => by
    rw [scan] at h
    split at h
    · simp at h; obtain ⟨rfl, rfl⟩ := h; rfl
    · obtain ⟨⟨y, r'⟩, h1, h2⟩ := bind_val h
      simp at h2; obtain ⟨rfl, rfl⟩ := h2
      simp [scan_len h1]

theorem toCurly_len : ∀ {s x r : Bytes}, toCurly s = .val (x, r) → s = x ++ r
  | [], _, _, h => by simp [toCurly] at h
  | c :: s, x, r, h => by
    rw [toCurly] at h
    split at h
    · simp at h; obtain ⟨rfl, rfl⟩ := h; rfl
    · obtain ⟨b, _, h⟩ := bind_val h
      split at h
      · simp at h; obtain ⟨rfl, rfl⟩ := h; rfl
      · obtain ⟨⟨y, r'⟩, h1, h2⟩ := bind_val h
        simp at h2; obtain ⟨rfl, rfl⟩ := h2
        simp [toCurly_len h1]

theorem toQuote_len {q : Byte} {s x r : Bytes} (h : toQuote q s = .val (x, r)) : s = x ++ r := by
  induction s using toQuote.induct q generalizing x r with
  | case1 => simp [toQuote] at h
  | case2 c hc => rw [toQuote, if_pos hc] at h; simp at h; obtain ⟨rfl, rfl⟩ := h; rfl
  | case3 c hc => rw [toQuote, if_neg hc] at h; simp at h
  | case4 c d s hc => rw [toQuote, if_pos hc] at h; simp at h; obtain ⟨rfl, rfl⟩ := h; rfl
  | case5 c d s hc hd ih =>
    rw [toQuote, if_neg hc, if_pos hd] at h
    obtain ⟨⟨y, r'⟩, h1, h2⟩ := bind_val h
    simp at h2; obtain ⟨rfl, rfl⟩ := h2
    simp [ih h1]
  | case6 c d s hc hd ih =>
    rw [toQuote, if_neg hc, if_neg hd] at h
    obtain ⟨⟨y, r'⟩, h1, h2⟩ := bind_val h
    simp at h2; obtain ⟨rfl, rfl⟩ := h2
    simp [ih h1]

theorem value_len {s x r : Bytes} (h : value s = .val (x, r)) : r.length ≤ s.length := by
  unfold value at h
  obtain ⟨b, _, h⟩ := bind_val h
  split at h
  · obtain ⟨⟨y, r'⟩, h1, h2⟩ := bind_val h
    have := congrArg List.length (toCurly_len h1)
    simp at this
    cases r' with
    | nil => simp at h2
    | cons c r' =>
      simp only at h2
      split at h2
      · simp at h2; obtain ⟨rfl, rfl⟩ := h2; simp at this ⊢; omega
      · simp at h2; obtain ⟨rfl, rfl⟩ := h2; simp
  · cases s with
    | nil => simp at h
    | cons q t =>
      simp only at h
      split at h
      · obtain ⟨⟨y, r'⟩, h1, h2⟩ := bind_val h
        have := congrArg List.length (toQuote_len h1)
        simp at this
        cases r' with
        | nil => simp at h2
        | cons c r' =>
          simp only at h2
          split at h2
          · simp at h2; obtain ⟨rfl, rfl⟩ := h2; simp at this ⊢; omega
          · simp at h2; obtain ⟨rfl, rfl⟩ := h2; simp at this ⊢; omega
      · have := congrArg List.length (scan_len h)
        simp at this ⊢; omega

theorem marker_ne {k m : Bytes} (h : marker k = some m) : k ≠ [] := by
  rintro rfl; simp [marker] at h

theorem item_len {a a' : Attrs} {s r : Bytes} (h : item a s = .val (a', r)) : r.length < s.length := by
  unfold item at h
  cases s with
  | nil => simp at h
  | cons c t =>
    simp only at h
    split at h
    · obtain ⟨⟨y, r'⟩, h1, h2⟩ := bind_val h
      have := congrArg List.length (scan_len h1)
      simp at h2 this; obtain ⟨rfl, rfl⟩ := h2; simp; omega
    · split at h
      · obtain ⟨⟨y, r'⟩, h1, h2⟩ := bind_val h
        have := congrArg List.length (scan_len h1)
        simp at h2 this; obtain ⟨rfl, rfl⟩ := h2; simp; omega
      · obtain ⟨⟨y, r'⟩, h1, h2⟩ := bind_val h
        have := congrArg List.length (scan_len h1)
        cases r' with
        | nil => simp at h2
        | cons d r' =>
          simp only at h2
          simp at this
          split at h2
          · obtain ⟨⟨v, r2⟩, h3, h4⟩ := bind_val h2
            have := value_len h3
            simp at h4; obtain ⟨rfl, rfl⟩ := h4; simp; omega
          · split at h2
            · rename_i m hm
              have := List.length_pos_iff.2 (marker_ne hm)
              simp at h2; obtain ⟨rfl, rfl⟩ := h2; simp; omega
            · simp at h2; obtain ⟨rfl, rfl⟩ := h2; simp; omega

/-- The number of turns does not matter once it exceeds the number of bytes. -/
theorem run_fuel : ∀ (n m : Nat) (a : Attrs) (s : Bytes), s.length < n → s.length < m → run n a s = run m a s
  | 0, _, _, _, h, _ => by omega
  | _, 0, _, _, _, h => by omega
  | n + 1, m + 1, a, s, hn, hm => by
    rw [run, run]
    cases h1 : scan (fun c => !isSpace c) s with
    | ub => rfl
    | val y =>
      obtain ⟨x, r⟩ := y
      have := congrArg List.length (scan_len h1)
      simp only [C.val_bind]
      cases r with
      | nil => rfl
      | cons c r =>
        simp only
        split
        · rfl
        · cases h2 : item a (c :: r) with
          | ub => rfl
          | val y =>
            obtain ⟨a', r'⟩ := y
            have := item_len h2
            simp only [C.val_bind]
            simp at *
            exact run_fuel n m a' r' (by omega) (by omega)

/-! ### What is read -/

/-- The result on `x`, terminated, does not depend on what follows the terminator, and stops before it. -/
def Local (f : Bytes → C (Bytes × Bytes)) (x : Bytes) : Prop :=
  ∃ u v, v <:+ x ∧ ∀ after, f (x ++ 0 :: after) = .val (u, v ++ 0 :: after)

theorem scan_local {stop : Byte → Bool} (h0 : stop 0 = true) : ∀ x, ∃ u v, x = u ++ v ∧ (∀ c ∈ u, stop c = false) ∧
    (∀ c ∈ v.head?, stop c = true) ∧ ∀ after, scan stop (x ++ 0 :: after) = .val (u, v ++ 0 :: after)
  | [] => ⟨[], [], by simp, by simp, by simp, fun after => by simp [scan, h0]⟩
  | c :: x => by
    by_cases hc : stop c = true
    · exact ⟨[], c :: x, by simp, by simp, by simp [hc], fun after => by simp [scan, hc]⟩
    · obtain ⟨u, v, e, hu, hv, h⟩ := scan_local h0 x
      refine ⟨c :: u, v, by simp [e], ?_, hv, fun after => ?_⟩
      · intro d hd
        rcases List.mem_cons.1 hd with rfl | hd
        · simpa using hc
        · exact hu d hd
      · simp only [List.cons_append, scan, hc, Bool.false_eq_true, if_false, h after]; rfl

theorem curly_local (x : Bytes) : ∃ b, (b = true → 3 ≤ x.length) ∧ ∀ after, curly (x ++ 0 :: after) = .val b := by
  match x with
  | [] => exact ⟨false, by simp, fun after => curly_no (by decide) _⟩
  | [c] =>
    refine ⟨false, by simp, fun after => ?_⟩
    by_cases hc : c = 0xE2
    · subst hc; simp [curly]
    · exact curly_no hc _
  | [c, d] =>
    refine ⟨false, by simp, fun after => ?_⟩
    by_cases hc : c = 0xE2
    · subst hc
      by_cases hd : d = 0x80
      · subst hd; simp [curly]
      · simp [curly, hd]
    · exact curly_no hc _
  | c :: d :: e :: x =>
    refine ⟨c == 0xE2 && d == 0x80 && (e == 0x9C || e == 0x9D), by simp, fun after => ?_⟩
    by_cases hc : c = 0xE2
    · subst hc
      by_cases hd : d = 0x80
      · subst hd; simp [curly]
      · simp [curly, hd]
    · rw [List.cons_append, curly_no hc]; simp [hc]

theorem toCurly_local : ∀ x, Local toCurly x
  | [] => ⟨[], [], by simp, fun after => by simp [toCurly]⟩
  | c :: x => by
    by_cases hc : c = 0
    · exact ⟨[], c :: x, List.suffix_refl _, fun after => by simp [toCurly, hc]⟩
    · obtain ⟨b, _, hb⟩ := curly_local (c :: x)
      cases b with
      | true => exact ⟨[], c :: x, List.suffix_refl _, fun after => by
          have := hb after
          simp only [List.cons_append] at this ⊢
          simp [toCurly, hc, this]⟩
      | false =>
        obtain ⟨u, v, hs, h⟩ := toCurly_local x
        refine ⟨c :: u, v, hs.trans (List.suffix_cons c x), fun after => ?_⟩
        have := hb after
        simp only [List.cons_append] at this ⊢
        simp [toCurly, hc, this, h after]

theorem toQuote_local {q : Byte} (x : Bytes) : Local (toQuote q) x := by
  induction x using toQuote.induct q with
  | case1 => exact ⟨[], [], by simp, fun after => by cases after <;> simp [toQuote]⟩
  | case2 c hc => exact ⟨[], [c], List.suffix_refl _, fun after => by simp [toQuote, hc]⟩
  | case3 c hc =>
    refine ⟨[c], [], by simp, fun after => ?_⟩
    rw [List.cons_append, List.nil_append, toQuote, if_neg hc, if_neg (by simp)]
    cases after <;> simp [toQuote]
  | case4 c d s hc => exact ⟨[], c :: d :: s, List.suffix_refl _, fun after => by simp [toQuote, hc]⟩
  | case5 c d s hc hd ih =>
    obtain ⟨u, v, hs, h⟩ := ih
    refine ⟨c :: d :: u, v, hs.trans ⟨[c, d], rfl⟩, fun after => ?_⟩
    rw [List.cons_append, List.cons_append, toQuote, if_neg hc, if_pos hd, h after]; rfl
  | case6 c d s hc hd ih =>
    obtain ⟨u, v, hs, h⟩ := ih
    refine ⟨c :: u, v, hs.trans ⟨[c], rfl⟩, fun after => ?_⟩
    have := h after
    rw [List.cons_append] at this
    rw [List.cons_append, List.cons_append, toQuote, if_neg hc, if_neg hd, this]; rfl

theorem value_local (x : Bytes) : Local value x := by
  obtain ⟨b, hb3, hb⟩ := curly_local x
  cases b with
  | true =>
    have h3 := hb3 rfl
    obtain ⟨u, v, hs, h⟩ := toCurly_local (x.drop 3)
    have e : ∀ after, (x ++ 0 :: after).drop 3 = x.drop 3 ++ 0 :: after := fun after => by
      rw [List.drop_append_of_le_length h3]
    have hd : x.drop 3 <:+ x := List.drop_suffix 3 x
    cases v with
    | nil =>
      refine ⟨[], x.drop 3, hd, fun after => ?_⟩
      simp only [value, hb after, C.val_bind, if_true, e after, h after]
      simp
    | cons c v =>
      by_cases hc : c = 0xE2
      · -- the closing quote has three bytes before the terminator
        by_cases hl : 2 ≤ v.length
        · refine ⟨u, v.drop 2, (List.drop_suffix 2 v).trans ((List.suffix_cons c v).trans (hs.trans hd)), fun after => ?_⟩
          simp only [value, hb after, C.val_bind, if_true, e after, h after]
          simp only [List.cons_append, hc, if_true, List.drop_succ_cons]
          rw [List.drop_append_of_le_length hl]
        · exfalso
          -- `toCurly` stops at NUL or at a whole quote
          have key : ∀ (y u : Bytes) (c : Byte) (v : Bytes), c ≠ 0 →
              toCurly (y ++ 0 :: []) = .val (u, c :: v ++ 0 :: []) → 2 ≤ v.length := by
            intro y
            induction y with
            | nil => intro u c v h0 h; simp [toCurly] at h
            | cons d y ih =>
              intro u c v h0 h
              by_cases hd0 : d = 0
              · simp [toCurly, hd0] at h; exact absurd h.2.1.symm h0
              · obtain ⟨b, hb3, hb⟩ := curly_local (d :: y)
                have hb := hb []
                simp only [List.cons_append] at hb h
                cases b with
                | true =>
                  simp [toCurly, hd0, hb] at h
                  obtain ⟨-, rfl, rfl⟩ := h
                  have := hb3 rfl
                  simp at this; omega
                | false =>
                  simp only [toCurly, hd0, if_false, hb, C.val_bind, Bool.false_eq_true] at h
                  obtain ⟨⟨y1, r'⟩, h1, h2⟩ := bind_val h
                  simp at h2
                  obtain ⟨-, h2⟩ := h2
                  subst h2
                  exact ih y1 c v h0 (by simpa using h1)
          exact hl (key _ u c v (by subst hc; decide) (h []))
      · refine ⟨[], x.drop 3, hd, fun after => ?_⟩
        simp only [value, hb after, C.val_bind, if_true, e after, h after]
        simp [hc]
  | false =>
    cases x with
    | nil =>
      refine ⟨[], [], by simp, fun after => ?_⟩
      have := hb after
      simp only [List.nil_append] at this ⊢
      simp [value, this, scan]
    | cons q t =>
      by_cases hq : q = c!"\"" ∨ q = c!"'"
      · obtain ⟨u, v, hs, h⟩ := toQuote_local (q := q) t
        have hs' := hs.trans (List.suffix_cons q t)
        cases v with
        | nil =>
          refine ⟨[], [], by simp, fun after => ?_⟩
          have := hb after
          simp only [List.cons_append] at this ⊢
          simp only [value, this, C.val_bind, if_pos hq, h after]
          have : (0 : Byte) ≠ q := by rcases hq with rfl | rfl <;> decide
          simp [this]
        | cons c v =>
          by_cases hc : c = q
          · refine ⟨u, v, (List.suffix_cons c v).trans hs', fun after => ?_⟩
            have := hb after
            simp only [List.cons_append] at this ⊢
            simp only [value, this, C.val_bind, if_pos hq, h after]
            simp [hc]
          · refine ⟨[], c :: v, hs', fun after => ?_⟩
            have := hb after
            simp only [List.cons_append] at this ⊢
            simp only [value, this, C.val_bind, if_pos hq, h after]
            simp [hc]
      · obtain ⟨u, v, e, hu, hv, h⟩ := scan_local (stop := fun c => c == 0 || isSpace c || c == c!"}") (by simp) (q :: t)
        refine ⟨u, v, ⟨u, e.symm⟩, fun after => ?_⟩
        have := hb after
        have h := h after
        simp only [List.cons_append] at this h ⊢
        simp only [value, this, C.val_bind, if_neg hq]
        exact h

/-- One item stays before the terminator, unless it is a word that runs up to it. -/
theorem item_local (a : Attrs) {x : Bytes} (hx : x ≠ []) :
    (∃ a' v, v.length < x.length ∧ v <:+ x ∧ ∀ after, item a (x ++ 0 :: after) = .val (a', v ++ 0 :: after)) ∨
    ((∀ c ∈ x, keyStop c = false) ∧ ∀ after, item a (x ++ 0 :: after) = .val (a, after)) := by
  cases x with
  | nil => exact absurd rfl hx
  | cons c t =>
    by_cases h1 : c = c!"#"
    · left
      obtain ⟨u, v, e, -, -, h⟩ := scan_local (stop := idStop) (by decide) t
      refine ⟨if u = [] then a else { a with id := some u }, v, by simp [e]; omega,
        List.IsSuffix.trans (l₂ := t) ⟨u, e.symm⟩ (List.suffix_cons c t), fun after => ?_⟩
      simp only [List.cons_append, item, if_pos h1, h after]; rfl
    · by_cases h2 : c = c!"."
      · left
        obtain ⟨u, v, e, -, -, h⟩ := scan_local (stop := classStop) (by decide) t
        refine ⟨if u = [] then a else addClass a u, v, by simp [e]; omega,
          List.IsSuffix.trans (l₂ := t) ⟨u, e.symm⟩ (List.suffix_cons c t), fun after => ?_⟩
        simp only [List.cons_append, item, if_neg h1, if_pos h2, h after]; rfl
      · obtain ⟨u, v, e, hu, hv, h⟩ := scan_local (stop := keyStop) (by decide) (c :: t)
        simp only [List.cons_append] at h
        cases v with
        | nil =>
          simp at e
          cases hm : marker u with
          | some m =>
            left
            refine ⟨addAttr a m b!"1", [], by simp, by simp, fun after => ?_⟩
            simp only [List.cons_append, item, if_neg h1, if_neg h2, h after, C.val_bind, List.nil_append]
            rw [if_neg (by decide)]; simp [hm]
          | none =>
            right
            refine ⟨e ▸ hu, fun after => ?_⟩
            simp only [List.cons_append, item, if_neg h1, if_neg h2, h after, C.val_bind, List.nil_append]
            rw [if_neg (by decide)]; simp [hm]
        | cons d v =>
          left
          have el := congrArg List.length e
          simp at el
          have hsuf : d :: v <:+ c :: t := ⟨u, e.symm⟩
          by_cases hd : d = c!"="
          · obtain ⟨w, z, hz, hv⟩ := value_local v
            refine ⟨addAttr a u w, z, ?_, (hz.trans (List.suffix_cons d v)).trans hsuf, fun after => ?_⟩
            · have := hz.length_le; simp; omega
            · simp only [List.cons_append, item, if_neg h1, if_neg h2, h after, C.val_bind, if_pos hd, hv after]
          · cases hm : marker u with
            | some m =>
              have := List.length_pos_iff.2 (marker_ne hm)
              refine ⟨addAttr a m b!"1", d :: v, by simp; omega, hsuf, fun after => ?_⟩
              simp [item, if_neg h1, if_neg h2, h after, hm, hd]
            | none =>
              refine ⟨a, v, by simp; omega, (List.suffix_cons d v).trans hsuf, fun after => ?_⟩
              simp [item, if_neg h1, if_neg h2, h after, hm, hd]

/-- Either the result is the same whatever follows the terminator, or the content ends in a word and parsing goes
on behind the terminator. -/
theorem run_local : ∀ (k : Nat) (a : Attrs) (x : Bytes), x.length ≤ k →
    (∃ a', ∀ n after, x.length < n → run n a (x ++ 0 :: after) = .val a') ∨
    ((∃ w, w ≠ [] ∧ w <:+ x ∧ ∀ c ∈ w, keyStop c = false) ∧
      ∃ a' j, j ≤ x.length ∧ ∀ n after, x.length < n → run n a (x ++ 0 :: after) = run (n - j) a' after) := by
  intro k
  induction k with
  | zero =>
    intro a x hk
    have : x = [] := List.eq_nil_of_length_eq_zero (by omega)
    subst this
    refine .inl ⟨a, fun n after hn => ?_⟩
    obtain ⟨m, rfl⟩ : ∃ m, n = m + 1 := ⟨n - 1, by simp at hn; omega⟩
    exact run_end (sep := []) (by intro c h; simp at h)
  | succ k ih =>
    intro a x hk
    obtain ⟨u, v, e, hu, hv, h⟩ := scan_local (stop := fun c => !isSpace c) (by decide) x
    have el := congrArg List.length e
    simp at el
    cases v with
    | nil => exact .inl ⟨a, fun n after hn => by
        obtain ⟨m, rfl⟩ : ∃ m, n = m + 1 := ⟨n - 1, by omega⟩
        simp [run, h after]⟩
    | cons c v =>
      by_cases hc : c = 0
      · exact .inl ⟨a, fun n after hn => by
          obtain ⟨m, rfl⟩ : ∃ m, n = m + 1 := ⟨n - 1, by omega⟩
          simp [run, h after, hc]⟩
      · have step : ∀ n after, run (n + 1) a (x ++ 0 :: after) = (do
            let (a, r) ← item a (c :: v ++ 0 :: after)
            run n a r) := fun n after => by
          simp [run, h after, hc]
        rcases item_local a (x := c :: v) (by simp) with ⟨a', v', hl, hs, hi⟩ | ⟨hw, hi⟩
        · simp at hl el
          have hsx : v' <:+ x := hs.trans ⟨u, e.symm⟩
          rcases ih a' v' (by omega) with ⟨b, hb⟩ | ⟨⟨w, hw1, hw2, hw3⟩, b, j, hj, hb⟩
          · refine .inl ⟨b, fun n after hn => ?_⟩
            obtain ⟨m, rfl⟩ : ∃ m, n = m + 1 := ⟨n - 1, by omega⟩
            rw [step, hi]; exact hb m after (by omega)
          · refine .inr ⟨⟨w, hw1, hw2.trans hsx, hw3⟩, b, j + 1, by omega, fun n after hn => ?_⟩
            obtain ⟨m, rfl⟩ : ∃ m, n = m + 1 := ⟨n - 1, by omega⟩
            rw [step, hi, show m + 1 - (j + 1) = m - j by omega]; exact hb m after (by omega)
        · refine .inr ⟨⟨c :: v, by simp, ⟨u, e.symm⟩, hw⟩, a, 1, by simp at el; omega, fun n after hn => ?_⟩
          obtain ⟨m, rfl⟩ : ∃ m, n = m + 1 := ⟨n - 1, by omega⟩
          rw [step, hi]; rfl

/-- Parsing behind the terminator, as the loop goes on there. -/
theorem parse_local {content : Bytes} (hl : content.length < 2048) :
    (∃ a, ∀ after, parse content after = .val a) ∨
    ((∃ w, w ≠ [] ∧ w <:+ content ∧ ∀ c ∈ w, keyStop c = false) ∧
      ∃ a, ∀ after, parse content after = run (after.length + 1) a after) := by
  unfold parse
  simp only [List.take_of_length_le (show content.length ≤ 2047 by omega)]
  rcases run_local content.length empty content (by omega) with ⟨a, ha⟩ | ⟨hw, a, j, hj, ha⟩
  · exact .inl ⟨a, fun after => ha _ _ (by simp; omega)⟩
  · refine .inr ⟨hw, a, fun after => ?_⟩
    rw [ha _ _ (by simp; omega)]
    exact run_fuel _ _ _ _ (by simp; omega) (by omega)

end Verif.Ial
