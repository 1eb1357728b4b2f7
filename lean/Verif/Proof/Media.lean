/-
Helper lemmas for C176–C179: addresses and attributes of images.
-/
import Verif.Model.Media
import Verif.Spec.Media
import Verif.Proof.Ial
import Verif.Proof.Embed
import Verif.Proof.Index

namespace Verif.Media
open Spec (Start Query InPath Dot Video Item Written)
open Embed (find)
open Index (span_stop span_all span_split)
open Ial (Attrs addAttr empty scan toQuote marker toHtml)
open Ial.Spec (Gap Free blanks words)

/-! ### Addresses -/

theorem until_spec (d : Byte) (s : Bytes) : (∃ x y, s = x ++ d :: y ∧ d ∉ x ∧ s.takeWhile (· != d) = x ∧ s.dropWhile (· != d) = d :: y) ∨
    (d ∉ s ∧ s.dropWhile (· != d) = [] ∧ s.takeWhile (· != d) = s) := by
  obtain ⟨a, r, e, ha, hr, h1, h2⟩ := span_split (· != d) s
  have hn : d ∉ a := fun h => by simpa using ha _ h
  rcases hr with rfl | ⟨c, b, rfl, hc⟩
  · right
    rw [List.append_nil] at e
    exact ⟨by rw [e]; exact hn, h2, by rw [h1, ← e]⟩
  · left
    have : c = d := by simpa using hc
    subst this
    exact ⟨a, b, e, hn, h1, h2⟩

theorem until_eq {d : Byte} {x : Bytes} (h : d ∉ x) (y : Bytes) : (x ++ d :: y).takeWhile (· != d) = x ∧ (x ++ d :: y).dropWhile (· != d) = d :: y :=
  span_stop (fun c hc => by simp; rintro rfl; exact h hc) (by simp)

/-- The first `://`. -/
theorem find_first {s : Bytes} (h : ¬ b!"://" <:+: s ++ b!":/") (r : Bytes) : find b!"://" (s ++ b!"://" ++ r) = some (s, r) := by
  induction s with
  | nil => simp [find]
  | cons c s ih =>
    have hs : ¬ b!"://" <:+: s ++ b!":/" := fun hi => h (hi.trans ⟨[c], [], by simp⟩)
    have := ih hs
    rw [List.cons_append, List.cons_append, find, if_neg, this]
    · rfl
    · rintro ⟨z, e⟩
      match s, e with
      | [], e => simp at e
      | [a], e => simp at e
      | a :: b :: s, e =>
        simp only [List.cons_append, List.nil_append, List.cons.injEq] at e
        obtain ⟨rfl, rfl, rfl, _⟩ := e
        exact h ⟨[], s ++ b!":/", by simp⟩

theorem find_pre {url a r : Bytes} (h : find b!"://" url = some (a, r)) : url = a ++ b!"://" ++ r ∧ ¬ b!"://" <:+: a ++ b!":/" := by
  refine ⟨Embed.find_some h, ?_⟩
  induction url generalizing a with
  | nil => simp [find] at h
  | cons c t ih =>
    rw [find] at h
    split at h
    · simp only [Option.some.injEq, Prod.mk.injEq] at h
      rw [← h.1]
      decide
    · rename_i hn
      cases hf : find b!"://" t with
      | none => rw [hf] at h; simp at h
      | some x =>
        obtain ⟨b, q⟩ := x
        rw [hf] at h
        simp only [Option.map_some, Option.some.injEq, Prod.mk.injEq] at h
        obtain ⟨rfl, rfl⟩ := h
        have hi := ih hf
        have e := Embed.find_some hf
        rintro ⟨x, y, hxy⟩
        cases x with
        | cons d x =>
          simp only [List.cons_append, List.cons.injEq] at hxy
          exact hi ⟨x, y, hxy.2⟩
        | nil =>
          refine hn ?_
          rw [e]
          refine List.IsPrefix.trans (l₂ := c :: (b ++ b!":/")) ⟨y, by simpa using hxy⟩ ⟨b!"/" ++ q, by simp⟩

theorem start_spec (url : Bytes) : Start url (start url).1 (start url).2 := by
  unfold start
  cases h : find b!"://" url with
  | some x =>
    obtain ⟨a, r⟩ := x
    obtain ⟨rfl, hn⟩ := find_pre h
    simp only []
    rcases until_spec c!"/" r with ⟨x, y, rfl, hx, h1, h2⟩ | ⟨hx, _⟩
    · rw [if_pos (by simp), h1, h2]
      have := Start.host (s := a) (h := x) (r := y) hn hx
      simpa using this
    · rw [if_neg hx]
      exact .bare hn hx
  | none =>
    have hn := (Embed.find_none (w := b!"://") (by decide)).1 h
    simp only []
    rcases until_spec c!"/" url with ⟨x, y, rfl, hx, h1, h2⟩ | ⟨hx, _⟩
    · rw [if_pos (by simp), h1, h2]
      have := Start.dir (h := x) (r := y) hx (by simpa using hn)
      simpa using this
    · rw [if_neg hx]
      exact .name hx

theorem start_unique {url pre rest : Bytes} (h : Start url pre rest) : start url = (pre, rest) := by
  unfold start
  cases h with
  | @host s h r hn hh =>
    have e := find_first hn (h ++ b!"/" ++ r)
    rw [← List.append_assoc, ← List.append_assoc] at e
    rw [e]
    simp only []
    rw [if_pos (by simp), show h ++ b!"/" ++ r = h ++ c!"/" :: r by simp, (until_eq hh r).1, (until_eq hh r).2]
    simp
  | @bare s h hn hh =>
    rw [find_first hn h]
    simp only []
    rw [if_neg hh]
  | @dir _ r hh hn =>
    rw [(Embed.find_none (by decide)).2 hn]
    simp only []
    rw [if_pos (by simp), show ∀ x : Bytes, x ++ b!"/" ++ r = x ++ c!"/" :: r by simp, (until_eq hh r).1, (until_eq hh r).2]
    simp
  | name hh =>
    have : ¬ b!"://" <:+: url := by
      rintro ⟨x, y, rfl⟩
      exact hh (by simp)
    rw [(Embed.find_none (by decide)).2 this]
    simp only []
    rw [if_neg hh]

theorem lastDot_some {s a e : Bytes} : lastDot s = some (a, e) ↔ s = a ++ b!"." ++ e ∧ c!"." ∉ e := by
  unfold lastDot
  constructor
  · intro h
    split at h
    · rename_i hm
      rcases until_spec c!"." s.reverse with ⟨x, y, he, hx, h1, h2⟩ | ⟨hx, _⟩
      · rw [h1, h2] at h
        simp only [List.tail_cons, Option.some.injEq, Prod.mk.injEq] at h
        obtain ⟨rfl, rfl⟩ := h
        have := congrArg List.reverse he
        simp only [List.reverse_reverse, List.reverse_append, List.reverse_cons] at this
        exact ⟨this, by simpa using hx⟩
      · exact absurd (List.mem_reverse.2 hm) hx
    · simp at h
  · rintro ⟨rfl, he⟩
    rw [if_pos (by simp)]
    have : (a ++ b!"." ++ e).reverse = e.reverse ++ c!"." :: a.reverse := by simp
    rw [this, (until_eq (by simpa using he) _).1, (until_eq (by simpa using he) _).2]
    simp

theorem lastDot_none {s : Bytes} : lastDot s = none ↔ c!"." ∉ s := by
  unfold lastDot
  split <;> simp [*]

theorem inPath_iff (s : Bytes) : (∀ c ∈ s, inPath c = true) ↔ InPath s := by
  constructor
  · intro h
    exact ⟨fun hm => absurd (h _ hm) (by decide), fun hm => absurd (h _ hm) (by decide)⟩
  · rintro ⟨h1, h2⟩ c hc
    simp only [inPath, Bool.and_eq_true, bne_iff_ne, ne_eq]
    exact ⟨fun e => h1 (e ▸ hc), fun e => h2 (e ▸ hc)⟩

theorem path_spec (s : Bytes) : InPath (s.takeWhile inPath) ∧ Query (s.dropWhile inPath) ∧ s = s.takeWhile inPath ++ s.dropWhile inPath := by
  obtain ⟨a, r, e, ha, hr, h1, h2⟩ := span_split inPath s
  rw [h1, h2]
  refine ⟨(inPath_iff a).1 ha, ?_, e⟩
  rcases hr with rfl | ⟨c, b, rfl, hc⟩
  · exact .inl rfl
  · right
    simp only [inPath, Bool.and_eq_false_iff, bne_eq_false_iff_eq] at hc
    simpa using hc

theorem path_unique {p t : Bytes} (hp : InPath p) (ht : Query t) : (p ++ t).takeWhile inPath = p ∧ (p ++ t).dropWhile inPath = t := by
  have h := (inPath_iff p).2 hp
  rcases ht with rfl | ht
  · rw [List.append_nil]; exact span_all h
  · cases t with
    | nil => simp at ht
    | cons c t =>
      simp only [List.head?_cons, Option.some.injEq] at ht
      exact span_stop h (by rcases ht with rfl | rfl <;> decide)

theorem inPath_append {a b : Bytes} : InPath (a ++ b) ↔ InPath a ∧ InPath b := by
  simp [InPath]
  constructor
  · rintro ⟨⟨h1, h2⟩, h3, h4⟩; exact ⟨⟨h1, h3⟩, h2, h4⟩
  · rintro ⟨⟨h1, h3⟩, h2, h4⟩; exact ⟨⟨h1, h2⟩, h3, h4⟩

theorem dot_split {url front ext tail : Bytes} : Dot url front ext tail ↔
    ∃ a, lastDot ((start url).2.takeWhile inPath) = some (a, ext) ∧ front = (start url).1 ++ a ∧ tail = (start url).2.dropWhile inPath := by
  constructor
  · rintro ⟨pre, rest, x, hs, rfl, hx, he, hd, ht, rfl⟩
    rw [start_unique hs]
    have hp : InPath (x ++ b!"." ++ ext) := inPath_append.2 ⟨inPath_append.2 ⟨hx, by decide, by decide⟩, he⟩
    obtain ⟨h1, h2⟩ := path_unique hp ht
    simp only []
    rw [h1, h2]
    exact ⟨x, lastDot_some.2 ⟨rfl, hd⟩, rfl, rfl⟩
  · rintro ⟨a, h, rfl, rfl⟩
    obtain ⟨h1, h2⟩ := lastDot_some.1 h
    obtain ⟨k1, k2, k3⟩ := path_spec (start url).2
    rw [h1] at k1
    obtain ⟨k4, k5⟩ := inPath_append.1 k1
    refine ⟨_, _, a, start_spec url, ?_, (inPath_append.1 k4).1, k5, h2, k2, rfl⟩
    rw [← h1]
    exact k3

theorem dense_iff {mark url r : Bytes} : dense mark url = some r ↔ ∃ front ext tail, Dot url front ext tail ∧ r = front ++ mark ++ b!"." ++ ext ++ tail := by
  unfold dense
  obtain ⟨pre, rest⟩ : ∃ p, p = start url := ⟨_, rfl⟩
  simp only []
  constructor
  · intro h
    cases hl : lastDot ((start url).2.takeWhile inPath) with
    | none => rw [hl] at h; simp at h
    | some x =>
      obtain ⟨a, e⟩ := x
      rw [hl] at h
      simp only [Option.some.injEq] at h
      exact ⟨_, e, _, dot_split.2 ⟨a, hl, rfl, rfl⟩, h.symm⟩
  · rintro ⟨front, ext, tail, h, rfl⟩
    obtain ⟨a, h1, rfl, rfl⟩ := dot_split.1 h
    rw [h1]

theorem withExt_iff {url new r : Bytes} : withExt url new = some r ↔ ∃ front ext tail, Dot url front ext tail ∧ r = front ++ b!"." ++ new ++ tail := by
  unfold withExt
  simp only []
  constructor
  · intro h
    cases hl : lastDot ((start url).2.takeWhile inPath) with
    | none => rw [hl] at h; simp at h
    | some x =>
      obtain ⟨a, e⟩ := x
      rw [hl] at h
      simp only [Option.some.injEq] at h
      exact ⟨_, e, _, dot_split.2 ⟨a, hl, rfl, rfl⟩, h.symm⟩
  · rintro ⟨front, ext, tail, h, rfl⟩
    obtain ⟨a, h1, rfl, rfl⟩ := dot_split.1 h
    rw [h1]

theorem videoExts_plain : ∀ e ∈ videoExts, ∀ c ∈ e, c ≠ c!"." := by decide

theorem video_dot {e : Bytes} (h : e.map toLower ∈ videoExts) : c!"." ∉ e := by
  intro hm
  have := videoExts_plain _ h (toLower c!".") (List.mem_map_of_mem hm)
  exact this (by decide)

theorem isVideo_path {path : Bytes} : isVideoPath path = true ↔
    ∃ a e, path = a ++ b!"." ++ e ∧ a ≠ [] ∧ e.map toLower ∈ videoExts := by
  unfold isVideoPath
  constructor
  · intro h
    cases hl : lastDot path with
    | none => rw [hl] at h; simp at h
    | some x =>
      obtain ⟨a, e⟩ := x
      rw [hl] at h
      simp only [Bool.and_eq_true, bne_iff_ne, ne_eq, decide_eq_true_eq] at h
      exact ⟨a, e, (lastDot_some.1 hl).1, h.1, h.2⟩
  · rintro ⟨a, e, rfl, ha, he⟩
    rw [lastDot_some.2 ⟨rfl, video_dot he⟩]
    simp [ha, he]

theorem isVideo_iff {url : Bytes} (h : ∀ a b, url = a ++ b!"?" ++ b → c!"#" ∉ a) : isVideo url = true ↔ Video url := by
  have key : (if c!"?" ∈ url then url.takeWhile (· != c!"?") else url.takeWhile (· != c!"#")) = url.takeWhile inPath := by
    split
    · rcases until_spec c!"?" url with ⟨x, y, e, hx, h1, _⟩ | ⟨hx, _⟩
      · rw [h1]
        have hp : InPath x := ⟨hx, h x y (by rw [e]; simp)⟩
        rw [e]
        exact (path_unique hp (.inr (.inl rfl))).1.symm
      · exact absurd ‹_› hx
    · rename_i hq
      rcases until_spec c!"#" url with ⟨x, y, e, hx, h1, _⟩ | ⟨hx, _, h1⟩
      · rw [h1]
        have hp : InPath x := ⟨fun hm => hq (by rw [e]; simp [hm]), hx⟩
        rw [e]
        exact (path_unique hp (.inr (.inr rfl))).1.symm
      · rw [h1]
        have := (path_unique (p := url) (t := []) ⟨hq, hx⟩ (.inl rfl)).1
        rw [List.append_nil] at this
        exact this.symm
  unfold isVideo
  simp only [key]
  rw [isVideo_path]
  obtain ⟨k1, k2, k3⟩ := path_spec url
  constructor
  · rintro ⟨a, e, h1, ha, he⟩
    rw [h1] at k1
    obtain ⟨k4, k5⟩ := inPath_append.1 k1
    exact ⟨a, e, _, by rw [← h1]; exact k3, ha, (inPath_append.1 k4).1, k5, k2, he⟩
  · rintro ⟨a, e, t, rfl, ha, h1, h2, h3, he⟩
    have hp : InPath (a ++ b!"." ++ e) := inPath_append.2 ⟨inPath_append.2 ⟨h1, by decide, by decide⟩, h2⟩
    rw [(path_unique hp h3).1]
    exact ⟨a, e, rfl, ha, he⟩


/-! ### Attributes -/

/-- What follows an attribute. -/
def Stops (r : Bytes) : Prop := ∃ c r', r = c :: r' ∧ (c == 0 || isSpace c) = true

/-- What an attribute adds. -/
def apply (a : Attrs) (i : Item) : Attrs := { a with attrs := a.attrs ++ i.pair }

theorem value_ok {q : Ial.Spec.Quote} {v : Bytes} (h : Spec.Ok q v) {r : Bytes} (hs : Stops r) : value (q.wrap v ++ r) = .val (some v, r) := by
  cases q with
  | double =>
    have hv : ∀ c ∈ v, c ≠ c!"\"" ∧ c ≠ c!"\\" ∧ c ≠ 0 := fun c hc => by
      have := h.1 c hc
      simp at this
      exact ⟨this.1, this.2, fun e => h.2 (e ▸ hc)⟩
    have := Ial.toQuote_in (q := c!"\"") (by decide) hv r
    simp only [Ial.Spec.Quote.wrap, value, List.append_assoc, List.cons_append, List.nil_append, true_or, if_true] at this ⊢
    rw [this]; simp
  | single =>
    have hv : ∀ c ∈ v, c ≠ c!"'" ∧ c ≠ c!"\\" ∧ c ≠ 0 := fun c hc => by
      have := h.1 c hc
      simp at this
      exact ⟨this.1, this.2, fun e => h.2 (e ▸ hc)⟩
    have := Ial.toQuote_in (q := c!"'") (by decide) hv r
    simp only [Ial.Spec.Quote.wrap, value, List.append_assoc, List.cons_append, List.nil_append, or_true, if_true] at this ⊢
    rw [this]; simp
  | curled => exact h.elim
  | none =>
    obtain ⟨d, r', rfl, hd⟩ := hs
    have hv : ∀ c ∈ v, (c == 0 || isSpace c) = false := fun c hc => by
      have := Ial.not_blank (bad := []) (by simpa using h.1 c hc)
      simp [this.1, this.2.1]
    have s := Ial.scan_stop (r := r') hv hd
    have hne : ∃ c t, v ++ d :: r' = c :: t ∧ ¬ (c = c!"\"" ∨ c = c!"'") := by
      cases v with
      | nil =>
        refine ⟨d, r', rfl, ?_⟩
        exact forall_byte (p := fun d => (d == 0 || isSpace d) = true → ¬ (d = c!"\"" ∨ d = c!"'")) (by decide +kernel) d hd
      | cons c v =>
        have := h.2 c (by simp)
        exact ⟨c, v ++ d :: r', rfl, by simp [this.1, this.2]⟩
    obtain ⟨c, t, e, h2⟩ := hne
    simp only [Ial.Spec.Quote.wrap]
    unfold value
    rw [e] at s ⊢
    simp only [if_neg h2, s, C.val_bind]

theorem key_free {k : Bytes} (h : Free (blanks ++ b!"=") k) : ∀ c ∈ k, keyStop c = false := fun c hc =>
  forall_byte (p := fun c => c ∉ blanks ++ b!"=" → keyStop c = false) (by decide +kernel) c (h c hc)

theorem word_key {w m : Bytes} (h : (w, m) ∈ words) :
    (∀ c ∈ w, keyStop c = false) ∧ ∃ c t, w = c :: t ∧ ¬ (c = c!"\"" ∨ c = c!"'") ∧ c ≠ 0 ∧ isSpace c = false := by
  have : ∀ p ∈ words, (∀ c ∈ p.1, keyStop c = false) ∧
      (p.1.head?.all fun c => ¬ (c = c!"\"" ∨ c = c!"'") ∧ c ≠ 0 ∧ isSpace c = false) = true ∧ p.1 ≠ [] := by decide +kernel
  obtain ⟨h1, h2, h3⟩ := this _ h
  cases w with
  | nil => exact absurd rfl h3
  | cons c t =>
    simp only [List.head?_cons, Option.all_some, decide_eq_true_eq] at h2
    exact ⟨h1, c, t, rfl, h2⟩

theorem item_ok {i : Item} (h : i.Ok) {r : Bytes} (hs : Stops r) (a : Attrs) : item a (i.text ++ r) = .val (apply a i, r) := by
  cases i with
  | attr k v q =>
    obtain ⟨hk, hf, hh, hq⟩ := h
    have s := Ial.scan_stop (d := c!"=") (r := q.wrap v ++ r) (key_free hf) (by decide)
    cases k with
    | nil => exact absurd rfl hk
    | cons c k =>
      have hc := hh c (by simp)
      have e : (Item.attr (c :: k) v q).text ++ r = c :: k ++ c!"=" :: (q.wrap v ++ r) := by simp [Item.text]
      rw [e]
      simp only [List.cons_append] at s ⊢
      rw [item, if_neg (by simp [hc.1, hc.2]), s]
      simp only [C.val_bind, if_true, value_ok hq hs]
      rfl
  | word w =>
    obtain ⟨m, hm⟩ := h
    obtain ⟨d, r', rfl, hd⟩ := hs
    obtain ⟨hk, c, t, rfl, h1, _⟩ := word_key hm
    have hd1 : keyStop d = true ∧ d ≠ c!"=" := forall_byte (p := fun d => (d == 0 || isSpace d) = true → keyStop d = true ∧ d ≠ c!"=") (by decide +kernel) d hd
    have s := Ial.scan_stop (r := r') hk hd1.1
    simp only [Item.text, List.cons_append] at s ⊢
    rw [item, if_neg h1, s]
    simp only [C.val_bind, if_neg hd1.2, Ial.marker_eq, Ial.lookup_mem hm, apply, Item.pair, addAttr]
  | title v q =>
    obtain ⟨hn, hq⟩ := h
    cases q with
    | double =>
      have hv : ∀ c ∈ v, c ≠ c!"\"" ∧ c ≠ c!"\\" ∧ c ≠ 0 := fun c hc => by
        have := hq.1 c hc
        simp at this
        exact ⟨this.1, this.2, fun e => hq.2 (e ▸ hc)⟩
      have := Ial.toQuote_in (q := c!"\"") (by decide) hv r
      simp only [Item.text, Ial.Spec.Quote.wrap, item, List.append_assoc, List.cons_append, List.nil_append, true_or, if_true] at this ⊢
      rw [this]; simp [apply, Item.pair, addAttr]
    | single =>
      have hv : ∀ c ∈ v, c ≠ c!"'" ∧ c ≠ c!"\\" ∧ c ≠ 0 := fun c hc => by
        have := hq.1 c hc
        simp at this
        exact ⟨this.1, this.2, fun e => hq.2 (e ▸ hc)⟩
      have := Ial.toQuote_in (q := c!"'") (by decide) hv r
      simp only [Item.text, Ial.Spec.Quote.wrap, item, List.append_assoc, List.cons_append, List.nil_append, or_true, if_true] at this ⊢
      rw [this]; simp [apply, Item.pair, addAttr]
    | curled => exact hq.elim
    | none => exact absurd rfl hn

theorem item_head {i : Item} (h : i.Ok) : ∃ c t, i.text = c :: t ∧ c ≠ 0 ∧ isSpace c = false := by
  cases i with
  | attr k v q =>
    obtain ⟨hk, hf, hh, hq⟩ := h
    cases k with
    | nil => exact absurd rfl hk
    | cons c k =>
      have := Ial.not_blank (hf c (by simp))
      exact ⟨c, k ++ b!"=" ++ q.wrap v, by simp [Item.text], this.1, this.2.1⟩
  | word w =>
    obtain ⟨m, hm⟩ := h
    obtain ⟨hk, c, t, rfl, h1, h3⟩ := word_key hm
    exact ⟨c, t, rfl, h3⟩
  | title v q =>
    obtain ⟨hn, hq⟩ := h
    cases q with
    | double => exact ⟨_, _, rfl, by decide, by decide⟩
    | single => exact ⟨_, _, rfl, by decide, by decide⟩
    | curled => exact hq.elim
    | none => exact absurd rfl hn

theorem run_gap {n : Nat} {a : Attrs} {sep s : Bytes} (h : Gap sep) : run n a (sep ++ s) = run n a s := by
  cases n with
  | zero => rfl
  | succ n =>
    have : ∀ sep : Bytes, (∀ c ∈ sep, isSpace c = true) → (do
        let (_, r) ← scan (fun c => !isSpace c) (sep ++ s)
        (C.val r : C Bytes)) = (do
        let (_, r) ← scan (fun c => !isSpace c) s
        C.val r) := by
      intro sep
      induction sep with
      | nil => intro _; rfl
      | cons c sep ih =>
        intro hh
        have ih := ih fun c hc => hh c (by simp [hc])
        rw [← ih]
        simp only [List.cons_append, scan, hh c (by simp), Bool.not_true, Bool.false_eq_true, if_false]
        cases scan (fun c => !isSpace c) (sep ++ s) <;> rfl
    have e := this sep (Ial.isSpace_gap h)
    rw [run, run]
    cases h1 : scan (fun c => !isSpace c) (sep ++ s) with
    | ub =>
      cases h2 : scan (fun c => !isSpace c) s with
      | ub => rfl
      | val y => rw [h1, h2] at e; simp at e
    | val x =>
      cases h2 : scan (fun c => !isSpace c) s with
      | ub => rw [h1, h2] at e; simp at e
      | val y =>
        rw [h1, h2] at e
        obtain ⟨x1, x2⟩ := x
        obtain ⟨y1, y2⟩ := y
        simp only [C.val_bind, C.val.injEq] at e
        subst e; rfl

theorem run_item {n : Nat} {a : Attrs} {i : Item} {r : Bytes} (h : i.Ok) (hs : Stops r) : run (n + 1) a (i.text ++ r) = run n (apply a i) r := by
  obtain ⟨c, t, e, h0, h1⟩ := item_head h
  have := item_ok h hs a
  rw [e, List.cons_append] at this ⊢
  rw [run]
  have s := Ial.scan_stop (stop := fun c => !isSpace c) (x := []) (d := c) (r := t ++ r) (by simp) (by simp [h1])
  simp only [List.nil_append] at s
  simp only [s, C.val_bind, if_neg h0, this]

theorem run_end {n : Nat} {a : Attrs} {sep after : Bytes} (h : Gap sep) : run (n + 1) a (sep ++ 0 :: after) = .val a := by
  rw [run_gap h]
  have : isSpace 0 = false := by decide
  simp [run, scan, this]

theorem apply_foldl (is : List Item) (a : Attrs) : is.foldl apply a = { a with attrs := a.attrs ++ is.flatMap Item.pair } := by
  induction is generalizing a with
  | nil => simp
  | cons i is ih => rw [List.foldl_cons, ih]; simp [apply]

theorem run_written {text : Bytes} {is : List Item} (h : Written text is) (a : Attrs) (after : Bytes) {n : Nat} (hn : text.length < n) :
    run n a (text ++ 0 :: after) = .val (is.foldl apply a) := by
  induction h generalizing a n with
  | nil hg =>
    obtain ⟨m, rfl⟩ : ∃ m, n = m + 1 := ⟨n - 1, by omega⟩
    exact run_end hg
  | @one sep i hg hi =>
    obtain ⟨c, t, e, _⟩ := item_head hi
    obtain ⟨m, rfl⟩ : ∃ m, n = m + 1 + 1 := ⟨n - 2, by simp [e] at hn; omega⟩
    rw [List.append_assoc, run_gap hg, run_item hi ⟨0, after, rfl, rfl⟩]
    exact run_end (sep := []) (by intro c hc; simp at hc)
  | @cons sep i c rest is hg hi hc hw ih =>
    obtain ⟨m, rfl⟩ : ∃ m, n = m + 1 := ⟨n - 1, by omega⟩
    have hsp := Ial.isSpace_gap hc c (by simp)
    have e : sep ++ i.text ++ c :: rest ++ 0 :: after = sep ++ (i.text ++ ([c] ++ (rest ++ 0 :: after))) := by simp
    rw [e, run_gap hg, run_item (r := [c] ++ (rest ++ 0 :: after)) hi ⟨c, rest ++ 0 :: after, rfl, by simp [hsp]⟩, run_gap hc, List.foldl_cons]
    exact ih _ (by simp at hn; omega)

theorem parse_written {text : Bytes} {is : List Item} (h : Written text is) (hl : text.length < 2048) (after : Bytes) :
    parse text after = .val ⟨none, [], is.flatMap Item.pair⟩ := by
  unfold parse
  rw [List.take_of_length_le (by omega), run_written h empty after (by simp; omega), apply_foldl]
  simp [empty]

/-! ### What is read -/

theorem value_len {s r : Bytes} {x : Option Bytes} (h : value s = .val (x, r)) : r.length ≤ s.length := by
  unfold value at h
  cases s with
  | nil => simp at h
  | cons q t =>
    simp only at h
    split at h
    · obtain ⟨⟨y, r'⟩, h1, h2⟩ := Ial.bind_val h
      have := congrArg List.length (Ial.toQuote_len h1)
      simp at this
      cases r' with
      | nil => simp at h2
      | cons c r' =>
        simp only at h2
        split at h2
        · simp at h2; obtain ⟨rfl, rfl⟩ := h2; simp at this ⊢; omega
        · simp at h2; obtain ⟨rfl, rfl⟩ := h2; simp at this ⊢; omega
    · obtain ⟨⟨y, r'⟩, h1, h2⟩ := Ial.bind_val h
      have := congrArg List.length (Ial.scan_len h1)
      simp at h2
      obtain ⟨rfl, rfl⟩ := h2
      simp at this ⊢; omega

theorem item_len {a a' : Attrs} {s r : Bytes} (h : item a s = .val (a', r)) : r.length < s.length := by
  unfold item at h
  cases s with
  | nil => simp at h
  | cons q t =>
    simp only at h
    split at h
    · obtain ⟨⟨y, r'⟩, h1, h2⟩ := Ial.bind_val h
      have := congrArg List.length (Ial.toQuote_len h1)
      simp at this
      cases r' with
      | nil => simp at h2
      | cons c r' =>
        simp only at h2
        split at h2
        · simp at h2; obtain ⟨rfl, rfl⟩ := h2; simp at this ⊢; omega
        · simp at h2; obtain ⟨rfl, rfl⟩ := h2; simp at this ⊢; omega
    · obtain ⟨⟨y, r'⟩, h1, h2⟩ := Ial.bind_val h
      have := congrArg List.length (Ial.scan_len h1)
      cases r' with
      | nil => simp at h2
      | cons d r' =>
        simp only at h2
        simp at this
        split at h2
        · obtain ⟨⟨v, r2⟩, h3, h4⟩ := Ial.bind_val h2
          have := value_len h3
          cases v with
          | none => simp at h4; obtain ⟨rfl, rfl⟩ := h4; simp; omega
          | some v => simp at h4; obtain ⟨rfl, rfl⟩ := h4; simp; omega
        · split at h2
          · rename_i m hm
            have := List.length_pos_iff.2 (Ial.marker_ne hm)
            simp at h2; obtain ⟨rfl, rfl⟩ := h2; simp; omega
          · simp at h2; obtain ⟨rfl, rfl⟩ := h2; simp; omega

/-- The number of turns does not matter once it exceeds the number of bytes. -/
theorem run_fuel : ∀ (n m : Nat) (a : Attrs) (s : Bytes), s.length < n → s.length < m → run n a s = run m a s
  | 0, _, _, _, h, _ => by omega
  | _, 0, _, _, _, h => by omega
  | n + 1, m + 1, a, s, hn, hm => by
    rw [run, run]
    cases h1 : scan (fun c => !isSpace c) s with
    | ub => rfl
    | val y =>
      obtain ⟨x, r⟩ := y
      have := congrArg List.length (Ial.scan_len h1)
      simp only [C.val_bind]
      cases r with
      | nil => rfl
      | cons c r =>
        simp only
        split
        · rfl
        · cases h2 : item a (c :: r) with
          | ub => rfl
          | val y =>
            obtain ⟨a', r'⟩ := y
            have := item_len h2
            simp only [C.val_bind]
            simp at *
            exact run_fuel n m a' r' (by omega) (by omega)

theorem value_local (x : Bytes) : ∃ u v, v <:+ x ∧ ∀ after, value (x ++ 0 :: after) = .val (u, v ++ 0 :: after) := by
  cases x with
  | nil => exact ⟨some [], [], by simp, fun after => by simp [value, scan]⟩
  | cons q t =>
    by_cases hq : q = c!"\"" ∨ q = c!"'"
    · obtain ⟨u, v, hs, h⟩ := Ial.toQuote_local (q := q) t
      have hs' := hs.trans (List.suffix_cons q t)
      cases v with
      | nil =>
        refine ⟨none, [], by simp, fun after => ?_⟩
        simp only [List.cons_append, value, if_pos hq, h after, C.val_bind]
        have : (0 : Byte) ≠ q := by rcases hq with rfl | rfl <;> decide
        simp [this]
      | cons c v =>
        by_cases hc : c = q
        · refine ⟨some u, v, (List.suffix_cons c v).trans hs', fun after => ?_⟩
          simp only [List.cons_append, value, if_pos hq, h after, C.val_bind]
          simp [hc]
        · refine ⟨none, c :: v, hs', fun after => ?_⟩
          simp only [List.cons_append, value, if_pos hq, h after, C.val_bind]
          simp [hc]
    · obtain ⟨u, v, e, hu, hv, h⟩ := Ial.scan_local (stop := fun c => c == 0 || isSpace c) (by simp) (q :: t)
      refine ⟨some u, v, ⟨u, e.symm⟩, fun after => ?_⟩
      have h := h after
      simp only [List.cons_append] at h ⊢
      simp only [value, if_neg hq, h, C.val_bind]

/-- One item stays before the terminator, unless it is a word without a meaning that runs up to it. -/
theorem item_local (a : Attrs) {x : Bytes} (hx : x ≠ []) :
    (∃ a' v, v.length < x.length ∧ v <:+ x ∧ ∀ after, item a (x ++ 0 :: after) = .val (a', v ++ 0 :: after)) ∨
    (((∀ c ∈ x, keyStop c = false) ∧ marker x = none) ∧ ∀ after, item a (x ++ 0 :: after) = .val (a, after)) := by
  cases x with
  | nil => exact absurd rfl hx
  | cons q t =>
    by_cases hq : q = c!"\"" ∨ q = c!"'"
    · left
      obtain ⟨u, v, hs, h⟩ := Ial.toQuote_local (q := q) t
      have hs' := hs.trans (List.suffix_cons q t)
      have hl := hs.length_le
      cases v with
      | nil =>
        refine ⟨a, [], by simp, by simp, fun after => ?_⟩
        simp only [List.cons_append, item, if_pos hq, h after, C.val_bind]
        have : (0 : Byte) ≠ q := by rcases hq with rfl | rfl <;> decide
        simp [this]
      | cons c v =>
        simp at hl
        by_cases hc : c = q
        · refine ⟨addAttr a b!"title" u, v, by simp; omega, (List.suffix_cons c v).trans hs', fun after => ?_⟩
          simp only [List.cons_append, item, if_pos hq, h after, C.val_bind]
          simp [hc]
        · refine ⟨a, c :: v, by simp; omega, hs', fun after => ?_⟩
          simp only [List.cons_append, item, if_pos hq, h after, C.val_bind]
          simp [hc]
    · obtain ⟨u, v, e, hu, hv, h⟩ := Ial.scan_local (stop := keyStop) (by decide) (q :: t)
      simp only [List.cons_append] at h
      cases v with
      | nil =>
        simp at e
        cases hm : marker u with
        | some m =>
          left
          refine ⟨addAttr a m b!"1", [], by simp, by simp, fun after => ?_⟩
          simp only [List.cons_append, item, if_neg hq, h after, C.val_bind, List.nil_append]
          rw [if_neg (by decide)]; simp [hm]
        | none =>
          right
          refine ⟨⟨e ▸ hu, e ▸ hm⟩, fun after => ?_⟩
          simp only [List.cons_append, item, if_neg hq, h after, C.val_bind, List.nil_append]
          rw [if_neg (by decide)]; simp [hm]
      | cons d v =>
        left
        have el := congrArg List.length e
        simp at el
        have hsuf : d :: v <:+ q :: t := ⟨u, e.symm⟩
        by_cases hd : d = c!"="
        · obtain ⟨w, z, hz, hv⟩ := value_local v
          have := hz.length_le
          cases w with
          | some w =>
            refine ⟨addAttr a u w, z, by simp; omega, (hz.trans (List.suffix_cons d v)).trans hsuf, fun after => ?_⟩
            simp only [List.cons_append, item, if_neg hq, h after, C.val_bind, if_pos hd, hv after]
          | none =>
            refine ⟨a, z, by simp; omega, (hz.trans (List.suffix_cons d v)).trans hsuf, fun after => ?_⟩
            simp only [List.cons_append, item, if_neg hq, h after, C.val_bind, if_pos hd, hv after]
        · cases hm : marker u with
          | some m =>
            have := List.length_pos_iff.2 (Ial.marker_ne hm)
            refine ⟨addAttr a m b!"1", d :: v, by simp; omega, hsuf, fun after => ?_⟩
            simp [item, if_neg hq, h after, hm, hd]
          | none =>
            refine ⟨a, v, by simp; omega, (List.suffix_cons d v).trans hsuf, fun after => ?_⟩
            simp [item, if_neg hq, h after, hm, hd]

/-- Either the result is the same whatever follows the terminator, or the content ends in a word and parsing goes on behind the terminator. -/
theorem run_local : ∀ (k : Nat) (a : Attrs) (x : Bytes), x.length ≤ k →
    (∃ a', ∀ n after, x.length < n → run n a (x ++ 0 :: after) = .val a') ∨
    ((∃ w, w ≠ [] ∧ w <:+ x ∧ (∀ c ∈ w, keyStop c = false) ∧ marker w = none) ∧
      ∃ a' j, j ≤ x.length ∧ ∀ n after, x.length < n → run n a (x ++ 0 :: after) = run (n - j) a' after) := by
  intro k
  induction k with
  | zero =>
    intro a x hk
    have : x = [] := List.eq_nil_of_length_eq_zero (by omega)
    subst this
    refine .inl ⟨a, fun n after hn => ?_⟩
    obtain ⟨m, rfl⟩ : ∃ m, n = m + 1 := ⟨n - 1, by simp at hn; omega⟩
    exact run_end (sep := []) (by intro c h; simp at h)
  | succ k ih =>
    intro a x hk
    obtain ⟨u, v, e, hu, hv, h⟩ := Ial.scan_local (stop := fun c => !isSpace c) (by decide) x
    have el := congrArg List.length e
    simp at el
    cases v with
    | nil => exact .inl ⟨a, fun n after hn => by
        obtain ⟨m, rfl⟩ : ∃ m, n = m + 1 := ⟨n - 1, by omega⟩
        simp [run, h after]⟩
    | cons c v =>
      by_cases hc : c = 0
      · exact .inl ⟨a, fun n after hn => by
          obtain ⟨m, rfl⟩ : ∃ m, n = m + 1 := ⟨n - 1, by omega⟩
          simp [run, h after, hc]⟩
      · have step : ∀ n after, run (n + 1) a (x ++ 0 :: after) = (do
            let (a, r) ← item a (c :: v ++ 0 :: after)
            run n a r) := fun n after => by
          simp [run, h after, hc]
        rcases item_local a (x := c :: v) (by simp) with ⟨a', v', hl, hs, hi⟩ | ⟨hw, hi⟩
        · simp at hl el
          have hsx : v' <:+ x := hs.trans ⟨u, e.symm⟩
          rcases ih a' v' (by omega) with ⟨b, hb⟩ | ⟨⟨w, hw1, hw2, hw3⟩, b, j, hj, hb⟩
          · refine .inl ⟨b, fun n after hn => ?_⟩
            obtain ⟨m, rfl⟩ : ∃ m, n = m + 1 := ⟨n - 1, by omega⟩
            rw [step, hi]; exact hb m after (by omega)
          · refine .inr ⟨⟨w, hw1, hw2.trans hsx, hw3⟩, b, j + 1, by omega, fun n after hn => ?_⟩
            obtain ⟨m, rfl⟩ : ∃ m, n = m + 1 := ⟨n - 1, by omega⟩
            rw [step, hi, show m + 1 - (j + 1) = m - j by omega]; exact hb m after (by omega)
        · refine .inr ⟨⟨c :: v, by simp, ⟨u, e.symm⟩, hw⟩, a, 1, by simp at el; omega, fun n after hn => ?_⟩
          obtain ⟨m, rfl⟩ : ∃ m, n = m + 1 := ⟨n - 1, by omega⟩
          rw [step, hi]; rfl

theorem parse_local {content : Bytes} (hl : content.length < 2048) :
    (∃ a, ∀ after, parse content after = .val a) ∨
    ((∃ w, w ≠ [] ∧ w <:+ content ∧ (∀ c ∈ w, keyStop c = false) ∧ marker w = none) ∧
      ∃ a, ∀ after, parse content after = run (after.length + 1) a after) := by
  unfold parse
  simp only [List.take_of_length_le (show content.length ≤ 2047 by omega)]
  rcases run_local content.length empty content (by omega) with ⟨a, ha⟩ | ⟨hw, a, j, hj, ha⟩
  · exact .inl ⟨a, fun after => ha _ _ (by simp; omega)⟩
  · refine .inr ⟨hw, a, fun after => ?_⟩
    rw [ha _ _ (by simp; omega)]
    exact run_fuel _ _ _ _ (by simp; omega) (by omega)

/-! ### Attributes written -/

theorem has_iff {a : Attrs} {k : Bytes} : has a k = true ↔ ∃ v, (k, v) ∈ a.attrs := by
  unfold has
  simp only [List.any_eq_true, decide_eq_true_eq]
  constructor
  · rintro ⟨⟨x, v⟩, h, rfl⟩; exact ⟨v, h⟩
  · rintro ⟨v, h⟩; exact ⟨(k, v), h, rfl⟩

theorem clip_fits {n : Nat} {s : Bytes} (h : s.length < n) : clip n s = s := List.take_of_length_le (by omega)


theorem infix_apart {w x y : Bytes} {c : Byte} (hc : c ∉ w) (h : w <:+: x ++ c :: y) : w <:+: x ∨ w <:+: y := by
  obtain ⟨p, q, e⟩ := h
  rw [List.append_assoc] at e
  rcases List.append_eq_append_iff.1 e with ⟨a, rfl, h2⟩ | ⟨a, rfl, h2⟩
  · -- `p` ends in `x`
    rcases List.append_eq_append_iff.1 h2 with ⟨b, rfl, h3⟩ | ⟨b, rfl, h3⟩
    · exact .inl ⟨p, b, by simp⟩
    · cases b with
      | nil => exact .inl ⟨p, [], by simp⟩
      | cons d b =>
        simp only [List.cons_append, List.cons.injEq] at h3
        exact absurd (by simp [h3.1]) hc
  · cases a with
    | nil =>
      cases w with
      | nil => exact .inl ⟨[], x, by simp⟩
      | cons d w =>
        simp only [List.nil_append, List.cons_append, List.cons.injEq] at h2
        exact absurd (by simp [h2.1]) hc
    | cons d a =>
      simp only [List.cons_append, List.cons.injEq] at h2
      exact .inr ⟨a, q, by rw [h2.2]; simp⟩

theorem infix_mark {w x m y : Bytes} (hm : ∀ c ∈ m, c ∉ w) (h : w <:+: x ++ m ++ y) : w <:+: x ++ y := by
  induction m generalizing x with
  | nil => simpa using h
  | cons c m ih =>
    have hc := hm c (by simp)
    rw [List.append_assoc, List.cons_append] at h
    rcases infix_apart hc h with h | h
    · exact h.trans ⟨[], y, by simp⟩
    · cases m with
      | nil => exact h.trans ⟨x, [], by simp⟩
      | cons d m =>
        refine ih (fun c hc => hm c (by simp [hc])) (h.trans ⟨x, [], by simp⟩)

/-- A mark for dense screens: none of the signs an address is read by. -/
def Mark (m : Bytes) : Prop := ∀ c ∈ m, c ∉ b!":/.?#"

theorem dot_mark {url front ext tail m : Bytes} (hm : Mark m) (h : Dot url front ext tail) : Dot (front ++ m ++ b!"." ++ ext ++ tail) (front ++ m) ext tail := by
  obtain ⟨pre, rest, x, hs, e, hx, he, hd, ht, rfl⟩ := h
  have hmp : InPath m := ⟨fun h => hm _ h (by decide), fun h => hm _ h (by decide)⟩
  have hms : c!"/" ∉ m := fun h => hm _ h (by decide)
  have hmw : ∀ c ∈ m, c ∉ b!"://" := fun c hc hw => hm c hc (by
    simp at hw ⊢; rcases hw with rfl | rfl <;> simp)
  have slash : ∀ r, b!"/" ++ r = x ++ b!"." ++ ext ++ tail → ∃ x', x = c!"/" :: x' ∧ r = x' ++ b!"." ++ ext ++ tail := by
    intro r e
    cases x with
    | nil => simp at e
    | cons c x =>
      simp only [List.cons_append, List.nil_append, List.cons.injEq] at e
      exact ⟨x, by rw [e.1], e.2⟩
  cases hs with
  | @host s h r hn hh =>
    obtain ⟨x', rfl, rfl⟩ := slash r e
    refine ⟨s ++ b!"://" ++ h, b!"/" ++ (x' ++ m ++ b!"." ++ ext ++ tail), c!"/" :: x' ++ m, ?_, by simp, inPath_append.2 ⟨hx, hmp⟩, he, hd, ht, by simp⟩
    have := Start.host (s := s) (h := h) (r := x' ++ m ++ b!"." ++ ext ++ tail) hn hh
    simpa using this
  | @bare s h hn hh =>
    refine ⟨[], x ++ m ++ b!"." ++ ext ++ tail, x ++ m, ?_, rfl, inPath_append.2 ⟨hx, hmp⟩, he, hd, ht, by simp⟩
    have e' : x ++ (b!"." ++ ext ++ tail) = s ++ (b!"://" ++ h) := by simpa using e.symm
    rcases List.append_eq_append_iff.1 e' with ⟨a, rfl, h2⟩ | ⟨a, rfl, h2⟩
    · cases a with
      | nil => simp at h2
      | cons d a =>
        have k : ¬ b!"://" <:+: x ++ m ++ d :: a ++ b!":/" := fun h => hn (by
          have := infix_mark (x := x) (m := m) (y := d :: a ++ b!":/") hmw (by simpa using h)
          simpa using this)
        have := Start.bare k hh
        have e2 : x ++ m ++ b!"." ++ ext ++ tail = x ++ m ++ d :: a ++ b!"://" ++ h := by
          have := congrArg (x ++ m ++ ·) h2
          simpa using this
        rw [List.nil_append, e2]
        exact this
    · obtain ⟨a', rfl, e3⟩ : ∃ a', a = b!"://" ++ a' ∧ h = a' ++ (b!"." ++ ext ++ tail) := by
        match a, h2 with
        | [], h2 => simp at h2
        | [_], h2 => simp at h2
        | [_, _], h2 => simp at h2
        | _ :: _ :: _ :: a', h2 =>
          simp only [List.cons_append, List.nil_append, List.cons.injEq] at h2
          obtain ⟨rfl, rfl, rfl, h2⟩ := h2
          exact ⟨a', rfl, by simpa using h2⟩
      have := Start.bare (h := a' ++ m ++ (b!"." ++ ext ++ tail)) hn (by
        rw [e3] at hh
        simp only [List.mem_append] at hh ⊢
        intro h
        rcases h with (h | h) | h
        · exact hh (.inl h)
        · exact hms h
        · exact hh (.inr h))
      have e2 : s ++ (b!"://" ++ a') ++ m ++ b!"." ++ ext ++ tail = s ++ b!"://" ++ (a' ++ m ++ (b!"." ++ ext ++ tail)) := by simp
      rw [List.nil_append, e2]
      exact this
  | @dir _ r hh hn =>
    obtain ⟨x', rfl, rfl⟩ := slash r e
    refine ⟨pre, b!"/" ++ (x' ++ m ++ b!"." ++ ext ++ tail), c!"/" :: x' ++ m, ?_, by simp, inPath_append.2 ⟨hx, hmp⟩, he, hd, ht, by simp⟩
    have := Start.dir (h := pre) (r := x' ++ m ++ b!"." ++ ext ++ tail) hh (fun h => hn (by
      have := infix_mark (x := pre ++ b!"/" ++ x') (m := m) (y := b!"." ++ ext ++ tail) hmw (by simpa using h)
      simpa using this))
    simpa using this
  | name hh =>
    refine ⟨[], x ++ m ++ b!"." ++ ext ++ tail, x ++ m, ?_, rfl, inPath_append.2 ⟨hx, hmp⟩, he, hd, ht, by simp⟩
    rw [List.nil_append]
    refine Start.name ?_
    rw [e] at hh
    simp only [List.mem_append] at hh ⊢
    intro h
    rcases h with (((h | h) | h) | h) | h
    · exact hh (.inl (.inl (.inl h)))
    · exact hms h
    · exact hh (.inl (.inl (.inr h)))
    · exact hh (.inl (.inr h))
    · exact hh (.inr h)

theorem dot_unique {url f e t f' e' t' : Bytes} (h : Dot url f e t) (h' : Dot url f' e' t') : f = f' ∧ e = e' ∧ t = t' := by
  obtain ⟨a, h1, rfl, rfl⟩ := dot_split.1 h
  obtain ⟨a', h2, rfl, rfl⟩ := dot_split.1 h'
  rw [h1] at h2
  simp only [Option.some.injEq, Prod.mk.injEq] at h2
  obtain ⟨rfl, rfl⟩ := h2
  exact ⟨rfl, rfl, rfl⟩

theorem mark2 : Mark b!"@2x" := by unfold Mark; decide
theorem mark3 : Mark b!"@3x" := by unfold Mark; decide

theorem pictureSet_some {url front ext tail : Bytes} (h : Dot url front ext tail) (new : Bytes) (two three : Bool) :
    pictureSet url new two three = some (Spec.pictures front new tail two three) := by
  have h1 := (withExt_iff (new := new)).2 ⟨front, ext, tail, h, rfl⟩
  have h2 := (dense_iff (mark := b!"@2x")).2 ⟨front, ext, tail, h, rfl⟩
  have h3 := (dense_iff (mark := b!"@3x")).2 ⟨front, ext, tail, h, rfl⟩
  have k2 := (withExt_iff (new := new)).2 ⟨_, ext, tail, dot_mark mark2 h, rfl⟩
  have k3 := (withExt_iff (new := new)).2 ⟨_, ext, tail, dot_mark mark3 h, rfl⟩
  unfold pictureSet
  rw [h1, h2, h3]
  simp only [Option.bind_some, k2, k3, Option.some.injEq, Spec.pictures]
  cases two <;> cases three <;> simp only [if_true, if_false, Bool.false_eq_true, room, List.append_nil] <;>
    (rw [clip_fits (by simp only [List.length_append, List.length_cons, List.length_nil]; omega)])

theorem pictureSet_none {url : Bytes} (h : ∀ f e t, ¬ Dot url f e t) (new : Bytes) (two three : Bool) : pictureSet url new two three = none := by
  have : withExt url new = none := by
    cases hw : withExt url new with
    | none => rfl
    | some r =>
      obtain ⟨f, e, t, hd, _⟩ := withExt_iff.1 hw
      exact absurd hd (h f e t)
  unfold pictureSet
  rw [this]

theorem has_marked {a : Attrs} {k : Bytes} : has a k = true ↔ Spec.Marked a k := by
  unfold has Spec.Marked
  simp only [List.any_eq_true, decide_eq_true_eq, List.mem_map]

theorem has_not {a : Attrs} {k : Bytes} (h : ¬ Spec.Marked a k) : has a k = false := by
  cases hh : has a k with
  | false => rfl
  | true => exact absurd (has_marked.1 hh) h

theorem marks_eq (a : Attrs) : videoMarks a = b!" data-apex-replace-video=1" ++ (Spec.formats.filter fun f => Spec.Marked a (b!"data-video-" ++ f)).flatMap fun f => b!" data-apex-video-" ++ f ++ b!"=1" := by
  unfold videoMarks formats Spec.formats
  congr 1
  have : ∀ l : List Bytes, (l.flatMap fun f => if has a (b!"data-video-" ++ f) then b!" data-apex-video-" ++ f ++ b!"=1" else []) =
      (l.filter fun f => Spec.Marked a (b!"data-video-" ++ f)).flatMap fun f => b!" data-apex-video-" ++ f ++ b!"=1" := by
    intro l
    induction l with
    | nil => rfl
    | cons f l ih =>
      rw [List.flatMap_cons, ih, List.filter_cons]
      by_cases h : Spec.Marked a (b!"data-video-" ++ f)
      · rw [if_pos (has_marked.2 h), if_pos (by simpa using h), List.flatMap_cons]
      · rw [has_not h, if_neg (by simp), if_neg (by simpa using h), List.nil_append]
  exact this _

theorem marks_len (a : Attrs) : (videoMarks a).length < 128 ↔ ∃ f ∈ Spec.formats, ¬ Spec.Marked a (b!"data-video-" ++ f) := by
  have key : ∀ p : Bytes → Bool, (b!" data-apex-replace-video=1" ++ (Spec.formats.filter p).flatMap fun f => b!" data-apex-video-" ++ f ++ b!"=1").length < 128 ↔ ∃ f ∈ Spec.formats, p f = false := by
    intro p
    unfold Spec.formats
    simp only [List.filter_cons, List.filter_nil]
    cases h1 : p b!"webm" <;> cases h2 : p b!"ogg" <;> cases h3 : p b!"mp4" <;> cases h4 : p b!"mov" <;> cases h5 : p b!"m4v" <;>
      simp [h1, h2, h3, h4, h5]
  rw [marks_eq, key]
  simp

end Verif.Media
