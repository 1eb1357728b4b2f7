import Verif.Spec.Liquid
import Verif.Proof.Embed
import Verif.Proof.ToMarkdown
import Verif.Proof.FencedDivs

namespace Verif.Liquid

open Spec
open FencedDivs (Buf Buf.write Buf.store)

/-! ### Writes -/

theorem write_room (b : Buf) (s : Bytes) (cap : Nat) (h : b.out.length + s.length < cap) :
    ∃ c, b.write s.length cap s = .val ⟨b.out ++ s, c⟩ ∧ (b.out ++ s).length < c := by
  unfold Buf.write
  by_cases hc : b.cap - b.out.length ≤ s.length
  · refine ⟨cap, ?_, by rw [List.length_append]; exact h⟩
    rw [if_pos hc]
    simp only
    rw [Buf.store, if_pos (by simp only; omega)]
  · refine ⟨b.cap, ?_, by rw [List.length_append]; omega⟩
    rw [if_neg hc]
    rw [Buf.store, if_pos (by omega)]

/-! ### Finding -/

/-- A word without a border is found at its place. -/
theorem find_free {w : Bytes} (hw : w ≠ []) (hb : ∀ k < w.length, 0 < k → ¬ w.drop k <+: w) (a b : Bytes) (h : ¬ w <:+: a) :
    Embed.find w (a ++ w ++ b) = some (a, b) := by
  induction a with
  | nil =>
    cases w with
    | nil => exact absurd rfl hw
    | cons c w =>
      simp only [List.nil_append, List.cons_append]
      rw [Embed.find, if_pos ⟨b, rfl⟩]
      simp
  | cons c a ih =>
    simp only [List.cons_append]
    rw [Embed.find, if_neg]
    · rw [ih fun hi => h (hi.trans (List.suffix_cons c a).isInfix)]
      rfl
    · intro hp
      rcases List.prefix_or_prefix_of_prefix (l₂ := c :: a) hp ⟨w ++ b, by simp⟩ with h1 | h1
      · exact h h1.isInfix
      · obtain ⟨u, hu⟩ := h1
        have hu1 : u <+: w ++ b := by
          obtain ⟨v, hv⟩ := hp
          rw [← hu] at hv
          refine ⟨v, ?_⟩
          have : (c :: a) ++ (u ++ v) = (c :: a) ++ (w ++ b) := by rw [← hu]; simpa using hv
          exact List.append_cancel_left this
        have hl : u.length < w.length := by rw [← hu]; simp only [List.length_append, List.length_cons]; omega
        have hd : w.drop (c :: a).length = u := by rw [← hu, List.drop_left]
        by_cases hz : u = []
        · subst hz
          rw [List.append_nil] at hu
          exact h (by rw [hu]; exact List.infix_refl _)
        · refine hb (c :: a).length ?_ (by simp) ?_
          · rw [← hu, List.length_append]
            have := List.length_pos_iff.2 hz
            omega
          · rw [hd]
            rcases List.prefix_or_prefix_of_prefix hu1 (List.prefix_append w b) with h2 | h2
            · exact h2
            · exact absurd h2.length_le (by omega)

theorem find_mark (a b : Bytes) (h : ¬ mark <:+: a) : Embed.find mark (a ++ mark ++ b) = some (a, b) :=
  find_free (by decide) (by decide) a b h

theorem find_open (a b : Bytes) (h : ¬ b!"{%" <:+: a) : Embed.find b!"{%" (a ++ b!"{%" ++ b) = some (a, b) :=
  find_free (by decide) (by decide) a b h

theorem find_close (a b : Bytes) (h : ¬ b!"%}" <:+: a) : Embed.find b!"%}" (a ++ b!"%}" ++ b) = some (a, b) :=
  find_free (by decide) (by decide) a b h

theorem find_first {w s a b : Bytes} (h : Embed.find w s = some (a, b)) (hw : w ≠ []) : ¬ w <:+: a := by
  induction s generalizing a with
  | nil => simp [Embed.find] at h
  | cons c t ih =>
    rw [Embed.find] at h
    split at h
    · simp only [Option.some.injEq, Prod.mk.injEq] at h
      rw [← h.1]
      intro hi
      exact hw (List.infix_nil.1 hi)
    · rename_i hp
      cases hf : Embed.find w t with
      | none => rw [hf] at h; simp at h
      | some r =>
        rw [hf] at h
        simp only [Option.map_some, Option.some.injEq, Prod.mk.injEq] at h
        obtain ⟨rfl, rfl⟩ := h
        intro hi
        obtain ⟨u, v, huv⟩ := hi
        have hs := Embed.find_some hf
        cases u with
        | nil =>
          apply hp
          refine ⟨v ++ w ++ r.2, ?_⟩
          rw [hs]
          have : w ++ v = c :: r.1 := by simpa using huv
          rw [show c :: (r.1 ++ w ++ r.2) = (c :: r.1) ++ (w ++ r.2) by simp, ← this]
          simp
        | cons d u =>
          simp only [List.cons_append, List.cons.injEq] at huv
          exact ih (a := r.1) hf ⟨u, v, huv.2⟩

/-! ### Every text is a document -/

theorem exists_doc (text : Bytes) : ∃ d : Doc, d.Ok ∧ text = d.source := by
  suffices h : ∀ n (text : Bytes), text.length ≤ n → ∃ d : Doc, d.Ok ∧ text = d.source from h _ _ (Nat.le_refl _)
  intro n
  induction n with
  | zero =>
    intro text h
    have : text = [] := List.length_eq_zero_iff.1 (by omega)
    exact ⟨⟨[], []⟩, ⟨by simp, Or.inl (by decide)⟩, by rw [this]; rfl⟩
  | succ n ih =>
    intro text h
    cases h1 : Embed.find b!"{%" text with
    | none => exact ⟨⟨[], text⟩, ⟨by simp, Or.inl ((Embed.find_none (by decide)).1 h1)⟩, rfl⟩
    | some r =>
      obtain ⟨a, r⟩ := r
      have e1 := Embed.find_some h1
      have f1 := find_first h1 (by decide)
      cases h2 : Embed.find b!"%}" r with
      | none =>
        exact ⟨⟨[], text⟩, ⟨by simp, Or.inr ⟨a, r, e1, f1, (Embed.find_none (by decide)).1 h2⟩⟩, rfl⟩
      | some q =>
        obtain ⟨i, q⟩ := q
        have e2 := Embed.find_some h2
        have f2 := find_first h2 (by decide)
        obtain ⟨d, hd, hq⟩ := ih q (by
          rw [e1, e2] at h
          simp only [List.length_append, List.length_cons, List.length_nil] at h
          omega)
        refine ⟨⟨(a, i) :: d.tags, d.rest⟩, ⟨?_, hd.2⟩, ?_⟩
        · intro t ht
          rcases List.mem_cons.1 ht with rfl | ht
          · exact ⟨f1, f2⟩
          · exact hd.1 t ht
        · rw [e1, e2, hq]
          simp [Doc.source, tagText]

/-! ### Placeholders for tags -/

theorem protect_loop (d : Doc) (h : d.Ok) (n k : Nat) (b : Buf) (hb : b.out.length < b.cap) (hn : d.tags.length < n) :
    ∃ c, protectLoop n k b d.source = .val (⟨b.out ++ marked k d.tags d.rest, c⟩, d.tagTexts) ∧
      (b.out ++ marked k d.tags d.rest).length < c := by
  obtain ⟨ts, rest⟩ := d
  obtain ⟨h1, h2⟩ := h
  simp only at h1 h2 hn
  induction ts generalizing n k b with
  | nil =>
    obtain ⟨n, rfl⟩ : ∃ m, n = m + 1 := ⟨n - 1, by simp at hn; omega⟩
    simp only [Doc.source, List.flatMap_nil, List.nil_append, marked, Doc.tagTexts, List.map_nil]
    rw [protectLoop]
    by_cases hr : rest = []
    · rw [if_pos hr, hr]
      exact ⟨b.cap, by simp, by simpa using hb⟩
    · rw [if_neg hr]
      rcases h2 with h2 | ⟨x, y, e, hx, hy⟩
      · rw [(Embed.find_none (by decide)).2 h2]
        obtain ⟨c, w1, w2⟩ := write_room b rest (b.out.length + rest.length + 1) (by omega)
        simp only [w1]
        exact ⟨c, rfl, w2⟩
      · have hf := find_open x y hx
        rw [← e] at hf
        rw [hf]
        simp only
        obtain ⟨c, w1, w2⟩ := write_room b x (b.out.length + x.length + 64) (by omega)
        rw [w1]
        simp only
        rw [(Embed.find_none (by decide)).2 hy]
        simp only
        obtain ⟨c', w3, w4⟩ := write_room ⟨b.out ++ x, c⟩ (b!"{%" ++ y) ((b.out ++ x).length + (b!"{%" ++ y).length + 1) (by simp)
        have e2 : (b!"{%" ++ y).length = y.length + 2 := by simp
        rw [e2] at w3
        rw [w3]
        simp only
        refine ⟨c', ?_, ?_⟩
        · rw [e]; simp
        · rw [e]; simpa using w4
  | cons t ts ih =>
    obtain ⟨n, rfl⟩ : ∃ m, n = m + 1 := ⟨n - 1, by simp at hn; omega⟩
    obtain ⟨a, i⟩ := t
    obtain ⟨ha, hi⟩ := h1 (a, i) (by simp)
    simp only at ha hi
    have e : (Doc.mk ((a, i) :: ts) rest).source = a ++ b!"{%" ++ (i ++ b!"%}" ++ (Doc.mk ts rest).source) := by
      simp [Doc.source, tagText]
    rw [e, protectLoop, if_neg (by simp), find_open _ _ ha]
    simp only
    obtain ⟨c, w1, w2⟩ := write_room b a (b.out.length + a.length + 64) (by omega)
    rw [w1]
    simp only
    rw [find_close _ _ hi]
    simp only
    obtain ⟨c', w3, w4⟩ := write_room ⟨b.out ++ a, c⟩ (placeholder k) ((b.out ++ a).length + (placeholder k).length + 64) (by simp only; omega)
    rw [w3]
    simp only
    obtain ⟨c'', w5, w6⟩ := ih n (k + 1) ⟨b.out ++ a ++ placeholder k, c'⟩ w4 (by simp at hn; omega) (fun t ht => h1 t (by simp [ht]))
    rw [w5]
    refine ⟨c'', ?_, ?_⟩
    · simp [marked, Doc.tagTexts, tagText]
    · simpa [marked] using w6

theorem decimal_clean (k : Nat) : 0 ∉ Man.decimal k := fun h => absurd ((ToMarkdown.decimal_digits k).1 0 h) (by decide)

theorem marked_clean (k : Nat) (ts : List (Bytes × Bytes)) (rest : Bytes) (h : ∀ t ∈ ts, 0 ∉ t.1) (hr : 0 ∉ rest) : 0 ∉ marked k ts rest := by
  induction ts generalizing k with
  | nil => exact hr
  | cons t ts ih =>
    simp only [marked, placeholder, List.mem_append, not_or]
    exact ⟨⟨h t (by simp), by decide, decimal_clean k⟩, ih (k + 1) fun x hx => h x (by simp [hx])⟩

theorem source_clean (d : Doc) (h0 : 0 ∉ d.source) : (∀ t ∈ d.tags, 0 ∉ t.1 ∧ 0 ∉ tagText t.2) ∧ 0 ∉ d.rest := by
  unfold Doc.source at h0
  simp only [List.mem_append, not_or, List.mem_flatMap, not_exists, not_and] at h0
  exact ⟨fun t ht => h0.1 t ht, h0.2⟩

theorem tags_le (d : Doc) : d.tags.length ≤ d.source.length := by
  obtain ⟨ts, rest⟩ := d
  induction ts with
  | nil => simp
  | cons t ts ih =>
    simp only [Doc.source, List.flatMap_cons, List.length_append, List.length_cons, tagText] at ih ⊢
    omega

theorem protect_doc (d : Doc) (h : d.Ok) (h0 : 0 ∉ d.source) :
    protect d.source = .val (if d.tags = [] then none else some (marked 0 d.tags d.rest, d.tagTexts)) := by
  obtain ⟨c, w1, w2⟩ := protect_loop d h (d.source.length + 1) 0 ⟨[], d.source.length + 64⟩ (by simp) (by have := tags_le d; omega)
  obtain ⟨g1, g2⟩ := source_clean d h0
  have g3 := marked_clean 0 d.tags d.rest (fun t ht => (g1 t ht).1) g2
  unfold protect
  rw [w1]
  simp only [List.nil_append] at w2 ⊢
  rw [Buf.store, if_pos (by simp only [List.length_cons, List.length_nil]; omega)]
  simp only
  have e : (d.tagTexts = []) ↔ d.tags = [] := by simp [Doc.tagTexts]
  by_cases hd : d.tags = []
  · rw [if_pos (e.2 hd), if_pos hd]
  · rw [if_neg (fun h => hd (e.1 h)), if_neg hd,
      List.takeWhile_append_of_pos (by intro c hm; simp; intro e; exact g3 (e ▸ hm))]
    simp

/-! ### The tags are put back -/

/-- What the loop writes. -/
def filledLoop (tags : List Bytes) (n : Nat) (read : Bytes) : Bytes :=
  match n with
  | 0 => []
  | n + 1 =>
    match Embed.find mark read with
    | none => read
    | some (pre, rest) =>
      pre ++ (if rest.takeWhile isDigit = [] then mark.take 1 ++ filledLoop tags n (mark.drop 1 ++ rest)
        else (replacement tags (rest.takeWhile isDigit)) ++ filledLoop tags n (rest.drop (rest.takeWhile isDigit).length))

theorem restore_loop (tags : List Bytes) (n : Nat) (b : Buf) (read : Bytes) (hn : read.length < n) (hb : b.out.length < b.cap ∨ read ≠ []) :
    ∃ c, restoreLoop tags n b read = .val ⟨b.out ++ filledLoop tags n read, c⟩ ∧ (b.out ++ filledLoop tags n read).length < c := by
  induction n generalizing b read with
  | zero => omega
  | succ n ih =>
    rw [restoreLoop, filledLoop]
    by_cases hr : read = []
    · subst hr
      rw [if_pos rfl]
      refine ⟨b.cap, by simp [Embed.find], ?_⟩
      rcases hb with hb | hb
      · simpa [Embed.find] using hb
      · exact absurd rfl hb
    rw [if_neg hr]
    cases hf : Embed.find mark read with
    | none => exact write_room b read _ (by omega)
    | some r =>
      obtain ⟨pre, rest⟩ := r
      have es := Embed.find_some hf
      rw [es] at hn
      simp only [List.length_append] at hn
      have hm : mark.length = 16 := rfl
      simp only
      obtain ⟨c, w1, w2⟩ := write_room b pre (b.out.length + pre.length + 64) (by omega)
      rw [w1]
      simp only
      by_cases hd : rest.takeWhile isDigit = []
      · rw [if_pos hd, if_pos hd, if_pos (by omega), Buf.store, if_pos (by
          have : (mark.take 1).length = 1 := rfl
          simp only; omega)]
        simp only
        obtain ⟨c', w3, w4⟩ := ih ⟨b.out ++ pre ++ mark.take 1, c⟩ (mark.drop 1 ++ rest) (by
          have : (mark.drop 1).length = 15 := rfl
          simp only [List.length_append]; omega) (Or.inr (by simp [mark]))
        rw [w3]
        exact ⟨c', by simp, by simpa using w4⟩
      · rw [if_neg hd, if_neg hd]
        have hdl := List.length_pos_iff.2 hd
        have hdl2 : (rest.takeWhile isDigit).length ≤ rest.length := (List.takeWhile_sublist _).length_le
        generalize replacement tags (rest.takeWhile isDigit) = new
        obtain ⟨c', w3, w4⟩ := write_room ⟨b.out ++ pre, c⟩ new ((b.out ++ pre).length + new.length + 64) (by simp only; omega)
        rw [w3]
        simp only
        obtain ⟨c'', w5, w6⟩ := ih ⟨b.out ++ pre ++ new, c'⟩ (rest.drop (rest.takeWhile isDigit).length)
          (by rw [List.length_drop]; omega) (Or.inl w4)
        rw [w5]
        exact ⟨c'', by simp, by simpa using w6⟩

theorem restore_eq (html : Bytes) (tags : List Bytes) :
    restore html tags = .val ((filledLoop tags (html.length + 1) html).takeWhile (· != 0)) := by
  obtain ⟨c, w1, w2⟩ := restore_loop tags (html.length + 1) ⟨[], max (html.length + tags.length * 64) (html.length + 1)⟩ html (by omega)
    (Or.inl (by simp only [List.length_nil]; omega))
  unfold restore
  rw [w1]
  simp only [List.nil_append] at w2 ⊢
  rw [Buf.store, if_pos (by simp only [List.length_cons, List.length_nil]; omega)]
  simp only
  rw [List.takeWhile_append]
  split
  · rename_i hl
    rw [List.IsPrefix.eq_of_length (List.takeWhile_prefix _) hl]
    simp
  · rfl

theorem index_eq (ds : Bytes) (a : Nat) : ds.foldl (fun i c => (i * 10 + (c.toNat - 48)) % 2 ^ 64) (a % 2 ^ 64) =
    ds.foldl (fun i c => i * 10 + (c.toNat - 48)) a % 2 ^ 64 := by
  induction ds generalizing a with
  | nil => rfl
  | cons c ds ih =>
    rw [List.foldl_cons, List.foldl_cons, ← ih]
    congr 1
    omega

theorem index_decimal (k : Nat) (hk : k < 2 ^ 64) : index (Man.decimal k) = k := by
  have h := index_eq (Man.decimal k) 0
  rw [Nat.zero_mod] at h
  unfold index
  rw [h]
  have := (ToMarkdown.decimal_digits k).2.2
  rw [show (Man.decimal k).foldl (fun i c => i * 10 + (c.toNat - 48)) 0 = k from this]
  exact Nat.mod_eq_of_lt hk

theorem filled_page (p : Page) (tags : List Bytes) (h : p.Ok tags) (ht : tags.length ≤ 2 ^ 64) (n : Nat) (hn : p.items.length < n) :
    filledLoop tags n p.html = p.filled tags := by
  obtain ⟨is, rest⟩ := p
  obtain ⟨h1, h2, h3, h4⟩ := h
  simp only at h1 h2 h3 h4 hn
  induction is generalizing n with
  | nil =>
    obtain ⟨n, rfl⟩ : ∃ m, n = m + 1 := ⟨n - 1, by simp at hn; omega⟩
    simp only [Page.html, Page.filled, List.flatMap_nil, List.nil_append]
    rw [filledLoop, (Embed.find_none (by decide)).2 h2]
  | cons i is ih =>
    obtain ⟨n, rfl⟩ : ∃ m, n = m + 1 := ⟨n - 1, by simp at hn; omega⟩
    obtain ⟨a, k⟩ := i
    obtain ⟨ha, hk⟩ := h1 (a, k) (by simp)
    simp only at ha hk
    have hnd : NoDigit (Page.mk is rest).html := by
      cases is with
      | nil => simpa [Page.html] using h4 (by simp)
      | cons j js =>
        have := h3 j (by simp)
        intro c hc
        simp only [Page.html, List.flatMap_cons, List.append_assoc] at hc
        cases hj : j.1 with
        | nil =>
          rw [hj] at hc
          simp [placeholder, mark] at hc
          subst hc
          decide
        | cons d t =>
          rw [hj] at hc
          simp at hc
          subst hc
          exact this d (by rw [hj]; rfl)
    obtain ⟨d1, d2, -⟩ := ToMarkdown.decimal_digits k
    have e : (Page.mk ((a, k) :: is) rest).html = a ++ mark ++ (Man.decimal k ++ (Page.mk is rest).html) := by
      simp [Page.html, placeholder]
    have et : (Man.decimal k ++ (Page.mk is rest).html).takeWhile isDigit = Man.decimal k := by
      rw [List.takeWhile_append_of_pos d1, FencedDivs.takeWhile_head hnd, List.append_nil]
    rw [e, filledLoop, find_mark _ _ ha]
    simp only
    rw [et, if_neg d2, List.drop_left, replacement, index_decimal k (by omega), List.getElem?_eq_getElem hk,
      ih n (by simp at hn; omega) (fun x hx => h1 x (by simp [hx])) (fun x hx => h3 x (List.mem_of_mem_tail hx)) (fun _ => h4 (by simp))]
    simp [Page.filled, List.getD_eq_getElem?_getD, List.getElem?_eq_getElem hk]

theorem items_le (p : Page) : p.items.length ≤ p.html.length := by
  obtain ⟨ts, rest⟩ := p
  induction ts with
  | nil => simp
  | cons t ts ih =>
    have : mark.length = 16 := rfl
    simp only [Page.html, List.flatMap_cons, List.length_append, List.length_cons, placeholder] at ih ⊢
    omega

theorem restore_page (p : Page) (tags : List Bytes) (h : p.Ok tags) (ht : tags.length ≤ 2 ^ 64) (h0 : 0 ∉ p.filled tags) :
    restore p.html tags = .val (p.filled tags) := by
  rw [restore_eq, filled_page p tags h ht _ (by have := items_le p; omega)]
  congr 1
  have := List.takeWhile_append_of_pos (p := (· != 0)) (l₁ := p.filled tags) (l₂ := [])
    (by intro c hm; simp; intro e; exact h0 (e ▸ hm))
  simpa using this

/-! ### There and back -/

/-- The items of the marked text. -/
def itemsOf (k : Nat) : List (Bytes × Bytes) → List (Bytes × Nat)
  | [] => []
  | t :: ts => (t.1, k) :: itemsOf (k + 1) ts

theorem marked_html (k : Nat) (ts : List (Bytes × Bytes)) (rest : Bytes) : marked k ts rest = (Page.mk (itemsOf k ts) rest).html := by
  induction ts generalizing k with
  | nil => simp [marked, itemsOf, Page.html]
  | cons t ts ih =>
    rw [marked, ih]
    simp [itemsOf, Page.html]

theorem itemsOf_filled (k : Nat) (ts : List (Bytes × Bytes)) (rest : Bytes) (tags : List Bytes)
    (h : ∀ j t, ts[j]? = some t → tags.getD (k + j) [] = tagText t.2) :
    (Page.mk (itemsOf k ts) rest).filled tags = (Doc.mk ts rest).source := by
  induction ts generalizing k with
  | nil => simp [itemsOf, Page.filled, Doc.source]
  | cons t ts ih =>
    have h1 := h 0 t rfl
    have h2 := ih (k + 1) fun j t ht => by rw [← h (j + 1) t (by simpa using ht)]; congr 1; omega
    simp only [Page.filled, Doc.source, itemsOf, List.flatMap_cons, Nat.add_zero] at h1 h2 ⊢
    rw [h1, List.append_assoc, List.append_assoc, h2]
    simp

theorem itemsOf_mem (k : Nat) (ts : List (Bytes × Bytes)) : ∀ i ∈ itemsOf k ts, (∃ t ∈ ts, i.1 = t.1) ∧ i.2 < k + ts.length := by
  induction ts generalizing k with
  | nil => simp [itemsOf]
  | cons t ts ih =>
    intro i hi
    simp only [itemsOf, List.mem_cons] at hi
    rcases hi with rfl | hi
    · exact ⟨⟨t, by simp, rfl⟩, by simp⟩
    · obtain ⟨⟨x, hx, e⟩, h2⟩ := ih (k + 1) i hi
      exact ⟨⟨x, by simp [hx], e⟩, by simp only [List.length_cons]; omega⟩

/-- A digit directly behind the end of a tag. -/
theorem nodigit_of (ts : List (Bytes × Bytes)) (rest : Bytes)
    (hd : ∀ c, isDigit c = true → ¬ b!"%}" ++ [c] <:+: (Doc.mk ts rest).source) (k : Nat) :
    (∀ i ∈ (itemsOf k ts).tail, NoDigit i.1) ∧ (ts ≠ [] → NoDigit rest) := by
  induction ts generalizing k with
  | nil => simp [itemsOf]
  | cons t ts ih =>
    have hsub : (Doc.mk ts rest).source <:+: (Doc.mk (t :: ts) rest).source :=
      ⟨t.1 ++ tagText t.2, [], by simp [Doc.source]⟩
    obtain ⟨i1, i2⟩ := ih (fun c hc hi => hd c hc (hi.trans hsub)) (k + 1)
    have hstep : NoDigit (Doc.mk ts rest).source := by
      intro c hc
      cases hdg : isDigit c with
      | false => rfl
      | true =>
        exfalso
        cases hs : (Doc.mk ts rest).source with
        | nil => rw [hs] at hc; simp at hc
        | cons d u =>
          rw [hs] at hc
          simp at hc
          subst hc
          apply hd d hdg
          refine ⟨t.1 ++ b!"{%" ++ t.2, u, ?_⟩
          have : (Doc.mk (t :: ts) rest).source = t.1 ++ tagText t.2 ++ (Doc.mk ts rest).source := by simp [Doc.source]
          rw [this, hs]
          simp [tagText]
    cases ts with
    | nil =>
      refine ⟨by simp [itemsOf], fun _ => ?_⟩
      simpa [Doc.source] using hstep
    | cons s ss =>
      refine ⟨?_, fun _ => i2 (by simp)⟩
      intro i hi
      simp only [itemsOf, List.tail_cons, List.mem_cons] at hi i1
      rcases hi with rfl | hi
      · intro c hc
        apply hstep
        simp only [Doc.source, List.flatMap_cons, List.append_assoc]
        cases hs : s.1 with
        | nil => rw [hs] at hc; simp at hc
        | cons d u => rw [hs] at hc; simpa using hc
      · exact i1 i hi

theorem round_trip (text : Bytes) (h0 : 0 ∉ text) (hl : text.length < 2 ^ 64) (hm : ¬ mark <:+: text)
    (hd : ∀ c, isDigit c = true → ¬ b!"%}" ++ [c] <:+: text) (t : Bytes) (tags : List Bytes)
    (hp : protect text = .val (some (t, tags))) : restore t tags = .val text := by
  obtain ⟨d, hok, rfl⟩ := exists_doc text
  rw [protect_doc d hok h0] at hp
  split at hp
  · simp at hp
  rename_i hne
  simp only [C.val.injEq, Option.some.injEq, Prod.mk.injEq] at hp
  obtain ⟨rfl, rfl⟩ := hp
  have hlen : d.tagTexts.length = d.tags.length := by simp [Doc.tagTexts]
  have hf : (Page.mk (itemsOf 0 d.tags) d.rest).filled d.tagTexts = d.source :=
    itemsOf_filled 0 d.tags d.rest d.tagTexts fun j t ht => by
      simp [Doc.tagTexts, ht, List.getD_eq_getElem?_getD]
  obtain ⟨n1, n2⟩ := nodigit_of d.tags d.rest hd 0
  rw [marked_html, restore_page _ _ ⟨?_, ?_, n1, ?_⟩ (by rw [hlen]; have := tags_le d; omega) (by rw [hf]; exact h0), hf]
  · intro i hi
    obtain ⟨⟨x, hx, e⟩, h2⟩ := itemsOf_mem 0 d.tags i hi
    refine ⟨fun hmi => hm ?_, by rw [hlen]; simpa using h2⟩
    rw [e] at hmi
    refine hmi.trans ?_
    obtain ⟨u, v, huv⟩ := List.append_of_mem hx
    exact ⟨u.flatMap (fun t => t.1 ++ tagText t.2), tagText x.2 ++ v.flatMap (fun t => t.1 ++ tagText t.2) ++ d.rest, by simp [Doc.source, huv]⟩
  · exact fun hmi => hm (hmi.trans ⟨d.tags.flatMap (fun t => t.1 ++ tagText t.2), [], by simp [Doc.source]⟩)
  · intro hi
    exact n2 hne

end Verif.Liquid
