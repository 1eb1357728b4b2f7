/- Proofs about the captions of tables. -/
import Verif.Spec.TableCaps
import Verif.Proof.TableSpans
import Verif.Proof.Images

namespace Verif.TableCaps
open ElemAttrs (has has_iff has_not)
open ImgCaptions (trim)
open TableSpans (Inl Cell Row gone cut)
open Spec

/-! ### Reading captions -/

theorem bracket_at {c : Bytes} (h : c!"]" ∉ c) : bracket (b!"[" ++ c ++ b!"]") = some c := by
  have hs := Images.span_at (p := fun x : Byte => decide (x ≠ c!"]")) (s := c) (c := c!"]") (t := []) (by
    intro x hx
    simpa using fun e : x = c!"]" => h (e ▸ hx)) (by decide)
  rw [show b!"[" ++ c ++ b!"]" = c!"[" :: (c ++ c!"]" :: []) from by simp]
  unfold bracket
  simp only [hs.1, hs.2]
  rw [if_pos (by simp)]
  rfl

theorem bracket_none {t : Bytes} (h : t.head? ≠ some c!"[") : bracket t = none := by
  cases t with
  | nil => rfl
  | cons c r =>
    have hc : c ≠ c!"[" := by rintro rfl; exact h rfl
    show (if (decide (c = c!"[") && decide (c!"]" ∈ r)) = true then _ else _) = _
    rw [if_neg (by simp [hc])]

theorem colon_none {n : Nat} {t : Bytes} (h1 : t.head? ≠ some c!":") (h2 : t.head? ≠ some c!" ") : colon n t = none := by
  unfold colon
  cases t with
  | nil => simp
  | cons c r =>
    have hc : c ≠ c!":" := by rintro rfl; exact h1 rfl
    have hs : c ≠ c!" " := by rintro rfl; exact h2 rfl
    simp only [List.takeWhile_cons, hs, decide_false, Bool.false_eq_true, if_false, List.length_nil, Nat.min_zero, List.drop_zero]
    cases r with
    | nil => rfl
    | cons d r =>
      simp only []
      rw [if_neg (by simp [hc])]

theorem beforeAttrs_none {r : Bytes} (h : c!"{" ∉ r) : beforeAttrs r = none := by
  induction r with
  | nil => rfl
  | cons c r ih =>
    have h2 : c!"{" ∉ r := fun hm => h (List.mem_cons_of_mem _ hm)
    unfold beforeAttrs
    rw [if_neg (by simp [h2])]
    exact ih h2

theorem trim_eq {v : Bytes} (h1 : ∃ c t, v = c :: t ∧ isSpace c = false) (h2 : ∃ t c, v = t ++ [c] ∧ isSpace c = false) : trim v = v := by
  obtain ⟨c, t, rfl, hc⟩ := h1
  rw [trim, List.dropWhile_cons_of_neg (by simp [hc])]
  obtain ⟨t', d, e, hd⟩ := h2
  rw [e]
  simp [hd]

theorem colon_at {n : Nat} {c : Bytes} (h : c!"{" ∉ c) (h1 : ∃ x t, c = x :: t ∧ isSpace x = false) (h2 : ∃ t x, c = t ++ [x] ∧ isSpace x = false) : colon n (b!": " ++ c) = some c := by
  have hne : c ≠ [] := by
    obtain ⟨x, t, rfl, _⟩ := h1
    simp
  have hb := beforeAttrs_none (r := c.reverse) (by simpa using h)
  have e : (b!": " ++ c).drop (min n ((b!": " ++ c).takeWhile fun x => decide (x = c!" ")).length) = c!":" :: c!" " :: c := by
    simp
  unfold colon
  simp only [e, hb, Option.getD_none, trim_eq h1 h2]
  rw [if_pos (by decide), if_pos hne]

theorem head_write (c : Caption) : c.write.head? = some (if c.bracket then c!"[" else c!":") := by
  unfold Caption.write
  cases c.bracket <;> rfl

theorem format_caption {c : Caption} (h : c.Ok) : format [.text c.write] = some c.text ∧ formatAfter [.text c.write] = some c.text := by
  obtain ⟨h0, h1, h2⟩ := h
  have e : texts [Inl.text c.write] = c.write := by simp [texts]
  unfold format formatAfter format
  rw [e]
  cases hb : c.bracket with
  | true =>
    have : bracket c.write = some c.text := by
      unfold Caption.write
      rw [hb]
      exact bracket_at fun hm => (h0 _ hm).1 rfl
    rw [this]
    exact ⟨rfl, rfl⟩
  | false =>
    have hn : bracket c.write = none := bracket_none (by rw [head_write, hb]; decide)
    have hc : ∀ n, colon n c.write = some c.text := by
      intro n
      unfold Caption.write
      rw [hb]
      exact colon_at (fun hm => (h0 _ hm).2.1 rfl) h1 h2
    rw [hn, hc, hc]
    exact ⟨rfl, rfl⟩

theorem lastOpen_none {s : Bytes} (h : c!"{" ∉ s) : lastOpen s = none := by
  induction s with
  | nil => rfl
  | cons c s ih =>
    have hc : c ≠ c!"{" := by rintro rfl; exact h (by simp)
    unfold lastOpen
    rw [ih fun hm => h (List.mem_cons_of_mem _ hm)]
    simp only [hc, if_false]

theorem attrs_none {s : Bytes} (h : c!"{" ∉ s) : attrsIn s = .val none := by
  unfold attrsIn
  rw [lastOpen_none h]

theorem write_brace {c : Caption} (h : c.Ok) : c!"{" ∉ c.write := by
  have h0 : c!"{" ∉ c.text := fun hm => (h.1 _ hm).2.1 rfl
  unfold Caption.write
  split <;> simp [h0]

theorem add_new {c : Caption} (h : c.Ok) : add none c.text c.write = .val (some (b!" data-caption=\"" ++ c.text ++ b!"\"")) := by
  unfold add
  rw [attrs_none (write_brace h)]
  simp only [C.val_bind]
  rw [if_neg (by rw [has_not (by decide) (by decide)]; simp)]
  simp

theorem add_old {c : Caption} {t : Bytes} (cap : Bytes) (h : c!"{" ∉ t) : add (some (b!" data-caption=\"" ++ c.text ++ b!"\"")) cap t = .val (some (b!" data-caption=\"" ++ c.text ++ b!"\"")) := by
  unfold add
  rw [attrs_none h]
  simp only [C.val_bind]
  rw [if_pos ((has_iff (by decide)).2 ⟨b!" ", b!"\"" ++ c.text ++ b!"\"", by simp⟩)]

/-! ### Blocks that are left alone -/

theorem format_quiet {ks : List Inl} {d : Option Bytes} (h : Quiet (.para ks d)) : format ks = none ∧ formatAfter ks = none := by
  obtain ⟨h1, h2, h3⟩ := h
  unfold format formatAfter format
  rw [bracket_none (t := texts ks) h1, colon_none (t := texts ks) h2 h3, colon_none (t := texts ks) h2 h3]
  exact ⟨rfl, rfl⟩

/-- A block that no table below it changes. -/
def Settled : Block → Prop
  | .para ks d => used d = true ∨ format ks = none
  | _ => True

theorem settled_quiet {b : Block} (h : Quiet b) : Settled b := by
  cases b with
  | para ks d => exact .inr (format_quiet h).1
  | table rows d => exact trivial
  | heading s => exact trivial
  | other s => exact trivial

theorem above_settled {l : List Block} (h : ∀ b ∈ l, Settled b) (d : Option Bytes) : above d l = .val (l, d) := by
  induction l with
  | nil => rfl
  | cons b l ih =>
    have ih := ih fun x hx => h x (List.mem_cons_of_mem _ hx)
    cases b with
    | para ks pd =>
      have hb := h _ (List.mem_cons_self ..)
      unfold above
      simp only [ih, C.val_bind]
      split
      · rfl
      · rename_i hn
        rcases hb with hu | hf
        · simp [hu] at hn
        · rw [hf]
    | table rows d => rfl
    | heading s =>
      unfold above
      rw [ih]
      rfl
    | other s => rfl

theorem blank_caption {c : Caption} : blank [.text c.write] = false ∧ might [.text c.write] = true := by
  have h := head_write c
  cases hw : c.write with
  | nil => rw [hw] at h; cases h
  | cons x t =>
    rw [hw] at h
    have hx : x = if c.bracket then c!"[" else c!":" := by simpa using h
    subst hx
    cases c.bracket
    · exact ⟨by simp [blank, isSpace], by simp [might]⟩
    · exact ⟨by simp [blank, isSpace], by simp [might]⟩

theorem used_none : used none = false := by decide

theorem above_caption {c : Caption} (h : c.Ok) (l : List Block) : above none (c.para :: l) = .val (c.taken :: l, some (b!" data-caption=\"" ++ c.text ++ b!"\"")) := by
  unfold Caption.para above
  have e : texts [Inl.text c.write] = c.write := by simp [texts]
  simp only [blank_caption.1, blank_caption.2, used_none, (format_caption h).1, e, add_new h]
  rfl

theorem below_quiet {b : Block} (h : Quiet b) (d : Option Bytes) (l : List Block) : below d (b :: l) = .val (b :: l, d) := by
  cases b with
  | para ks pd =>
    unfold below
    simp only [(format_quiet h).2]
    split <;> rfl
  | table rows d => exact h.elim
  | heading s => rfl
  | other s => rfl

theorem below_caption {c : Caption} (h : c.Ok) (l : List Block) : below none (c.para :: l) = .val (c.taken :: l, some (b!" data-caption=\"" ++ c.text ++ b!"\"")) := by
  unfold Caption.para below
  have e : texts [Inl.text c.write] = c.write := by simp [texts]
  simp only [used_none, (format_caption h).2, e, add_new h]
  rfl

theorem below_second {c c' : Caption} (h : c.Ok) (l : List Block) :
    below (some (b!" data-caption=\"" ++ c'.text ++ b!"\"")) (c.para :: l) = .val (c.taken :: l, some (b!" data-caption=\"" ++ c'.text ++ b!"\"")) := by
  unfold Caption.para below
  have e : texts [Inl.text c.write] = c.write := by simp [texts]
  simp only [used_none, (format_caption h).2, e, add_old c.text (write_brace h)]
  rfl

theorem capCell_looks {c : Cell} (h : capCell c = true) : ∃ s ks, c.kids = .text s :: ks ∧ s.head? = some c!"[" := by
  unfold capCell at h
  split at h
  · rename_i x r hx
    simp only [Bool.and_eq_true, decide_eq_true_eq] at h
    unfold cellText at hx
    split at hx
    · rename_i s ks hk
      cases hx
      exact ⟨x :: r, ks, hk, by rw [h.1.1]; rfl⟩
    · cases hx
  · cases h

theorem capRow_bare {r : Row} (h : Bare r) : capRow r = false := by
  unfold capRow
  have : r.cells.any capCell = false := by
    rw [List.any_eq_false]
    intro c hc hcc
    obtain ⟨s, ks, e, hs⟩ := capCell_looks hcc
    exact h c hc s ks e hs
  rw [this]
  rfl

theorem inRows_bare {rows : List Row} (h : ∀ r ∈ rows, Bare r) (d : Option Bytes) : inRows d rows = .val (rows, d) := by
  induction rows with
  | nil => rfl
  | cons r rows ih =>
    unfold inRows
    rw [capRow_bare (h r (by simp)), ih fun x hx => h x (List.mem_cons_of_mem _ hx)]
    rfl

/-! ### The walk -/

theorem below_length {d : Option Bytes} {l : List Block} {x : List Block × Option Bytes} (h : below d l = .val x) : x.1.length = l.length := by
  unfold below at h
  split at h
  · split at h
    · cases h; rfl
    · split at h
      · cases ha : add d _ _ with
        | ub => rw [ha] at h; cases h
        | val d' => rw [ha] at h; cases h; rfl
      · cases h; rfl
  · cases h; rfl

/-- The walk with as many steps as there are blocks. -/
def run (done post : List Block) : C (List Block) := walk post.length done post

theorem run_nil (done : List Block) : run done [] = .val done := rfl

theorem run_skip {b : Block} (h : ∀ rows d, b ≠ .table rows d) (done post : List Block) : run done (b :: post) = run (b :: done) post := by
  cases b with
  | table rows d => exact absurd rfl (h rows d)
  | para ks d => rfl
  | heading s => rfl
  | other s => rfl

theorem run_table (rows : List Row) (d : Option Bytes) (done post : List Block) :
    run done (.table rows d :: post) = (above d done).bind fun x => (below x.2 post).bind fun y => (inRows y.2 rows).bind fun z => run (.table z.1 z.2 :: x.1) y.1 := by
  show (above d done).bind _ = _
  cases above d done with
  | ub => rfl
  | val x =>
    show (below x.2 post).bind _ = (below x.2 post).bind _
    cases hb : below x.2 post with
    | ub => rfl
    | val y =>
      show (inRows y.2 rows).bind _ = (inRows y.2 rows).bind _
      cases inRows y.2 rows with
      | ub => rfl
      | val z =>
        show walk post.length _ _ = walk y.1.length _ _
        rw [below_length hb]

theorem quiet_not_table {b : Block} (h : Quiet b) : ∀ rows d, b ≠ .table rows d := by
  rintro rows d rfl
  exact h

theorem run_quiet {l : List Block} (h : ∀ b ∈ l, Quiet b) (done post : List Block) : run done (l ++ post) = run (l.reverse ++ done) post := by
  induction l generalizing done with
  | nil => rfl
  | cons b l ih =>
    rw [List.cons_append, run_skip (quiet_not_table (h b (by simp))), ih fun x hx => h x (List.mem_cons_of_mem _ hx)]
    simp

/-! ### Documents -/

theorem settled_taken (c : Caption) : Settled c.taken := .inl (by decide)

theorem settled_table (rows : List Row) (d : Option Bytes) : Settled (.table rows d) := trivial

theorem caption_not_table (c : Caption) : ∀ rows d, c.para ≠ .table rows d := by
  intro rows d h
  cases h

theorem taken_not_table (c : Caption) : ∀ rows d, c.taken ≠ .table rows d := by
  intro rows d h
  cases h

theorem bind_val {α β : Type} (a : α) (f : α → C β) : (C.val a).bind f = f a := rfl

theorem run_part {p : Part} (h : p.Ok) {done : List Block} (hd : ∀ b ∈ done, Settled b) (post : List Block) :
    run done (p.write ++ post) = run (p.means.reverse ++ done) post ∧ ∀ b ∈ p.means.reverse ++ done, Settled b := by
  obtain ⟨place, rows, rest⟩ := p
  obtain ⟨hq, hr, hp⟩ := h
  simp only at hq hr hp
  have hset : ∀ l : List Block, (∀ b ∈ l, Settled b) → ∀ b ∈ (l ++ rest).reverse ++ done, Settled b := by
    intro l hl b hb
    simp only [List.mem_append, List.mem_reverse] at hb
    rcases hb with (hb | hb) | hb
    · exact hl b hb
    · exact settled_quiet (hq b hb)
    · exact hd b hb
  cases place with
  | bare =>
    cases rest with
    | nil => exact absurd rfl hp
    | cons b rest =>
      refine ⟨?_, hset [.table rows none] (by intro x hx; simp only [List.mem_singleton] at hx; subst hx; trivial)⟩
      show run done (.table rows none :: b :: (rest ++ post)) = _
      rw [run_table, above_settled hd, bind_val, below_quiet (hq b (by simp)), bind_val, inRows_bare hr, bind_val, show b :: (rest ++ post) = (b :: rest) ++ post from rfl, run_quiet hq]
      simp [Part.means]
  | above c =>
    obtain ⟨hc, hne⟩ := hp
    cases rest with
    | nil => exact absurd rfl hne
    | cons b rest =>
      refine ⟨?_, hset [c.taken, c.table rows] (by
        intro x hx
        simp only [List.mem_cons, List.not_mem_nil, or_false] at hx
        rcases hx with rfl | rfl
        · exact settled_taken c
        · exact trivial)⟩
      show run done (c.para :: .table rows none :: b :: (rest ++ post)) = _
      rw [run_skip (caption_not_table c), run_table, above_caption hc, bind_val, below_quiet (hq b (by simp)), bind_val, inRows_bare hr, bind_val,
        show b :: (rest ++ post) = (b :: rest) ++ post from rfl, run_quiet hq]
      simp [Part.means, Caption.table]
  | below c =>
    refine ⟨?_, hset [c.table rows, c.taken] (by
        intro x hx
        simp only [List.mem_cons, List.not_mem_nil, or_false] at hx
        rcases hx with rfl | rfl
        · exact trivial
        · exact settled_taken c)⟩
    show run done (.table rows none :: (c.para :: (rest ++ post))) = _
    rw [run_table, above_settled hd, bind_val, below_caption hp, bind_val, inRows_bare hr, bind_val, run_skip (taken_not_table c), run_quiet hq]
    simp [Part.means, Caption.table]

theorem run_parts {l : List Part} (h : ∀ p ∈ l, p.Ok) {done : List Block} (hd : ∀ b ∈ done, Settled b) :
    run done (l.flatMap Part.write) = .val ((l.flatMap Part.means).reverse ++ done) := by
  induction l generalizing done with
  | nil => rfl
  | cons p l ih =>
    obtain ⟨h1, h2⟩ := run_part (h p (by simp)) hd (l.flatMap Part.write)
    rw [List.flatMap_cons, h1, ih (fun x hx => h x (List.mem_cons_of_mem _ hx)) h2]
    simp

theorem process_eq {doc out : List Block} (h : run [] doc = .val out) : process doc = .val out.reverse := by
  show (run [] doc).bind _ = _
  rw [h]
  rfl

/-! ### Captions above tables that follow each other -/

/-- The captions that the tables get, when each is written above its table. -/
def shifted : List Row → List (Caption × List Row) → List Block
  | rows, [] => [.table rows none]
  | rows, (c, rows') :: l => c.table rows :: c.taken :: shifted rows' l

theorem run_shifted {l : List (Caption × List Row)} (h : ∀ p ∈ l, p.1.Ok ∧ ∀ r ∈ p.2, Bare r) {rows : List Row} (hr : ∀ r ∈ rows, Bare r) {done : List Block} (hd : ∀ b ∈ done, Settled b) :
    run done (.table rows none :: l.flatMap fun p => [p.1.para, .table p.2 none]) = .val ((shifted rows l).reverse ++ done) := by
  induction l generalizing rows done with
  | nil =>
    rw [run_table, above_settled hd, bind_val]
    show (C.val ([], none)).bind _ = _
    rw [bind_val, inRows_bare hr]
    rfl
  | cons p l ih =>
    obtain ⟨hc, hr'⟩ := h p (by simp)
    show run done (.table rows none :: p.1.para :: .table p.2 none :: l.flatMap fun p => [p.1.para, .table p.2 none]) = _
    rw [run_table, above_settled hd, bind_val, below_caption hc, bind_val, inRows_bare hr, bind_val, run_skip (taken_not_table p.1), ih (fun x hx => h x (List.mem_cons_of_mem _ hx)) hr' (by
      intro b hb
      simp only [List.mem_cons] at hb
      rcases hb with rfl | rfl | hb
      · exact settled_taken p.1
      · trivial
      · exact hd b hb)]
    simp [shifted, Caption.table]

/-! ### Captions far away -/

/-- Paragraphs that are no captions, and headings. -/
def Passed : Block → Prop
  | .para ks d => Quiet (.para ks d)
  | .heading _ => True
  | _ => False

theorem above_passed {l : List Block} (h : ∀ b ∈ l, Passed b) (d : Option Bytes) (m : List Block) :
    above d (l ++ m) = (above d m).bind fun x => .val (l ++ x.1, x.2) := by
  induction l with
  | nil =>
    rw [List.nil_append]
    cases above d m <;> rfl
  | cons b l ih =>
    have ih := ih fun x hx => h x (List.mem_cons_of_mem _ hx)
    have hb := h b (List.mem_cons_self ..)
    generalize above d m = z at ih ⊢
    cases b with
    | para ks pd =>
      rw [List.cons_append]
      unfold above
      have hf := (format_quiet (d := pd) hb).1
      simp only [ih, hf]
      cases z <;> (split <;> rfl)
    | heading s =>
      rw [List.cons_append]
      unfold above
      rw [ih]
      cases z <;> rfl
    | table rows d => exact hb.elim
    | other s => exact hb.elim

/-! ### What is kept -/

theorem each_refl {α : Type} {R : α → α → Prop} (h : ∀ a, R a a) : ∀ l : List α, Each R l l
  | [] => .nil
  | a :: l => .cons (h a) (each_refl h l)

theorem each_append {α β : Type} {R : α → β → Prop} {a : List α} {a' : List β} {b : List α} {b' : List β} (h1 : Each R a a') (h2 : Each R b b') : Each R (a ++ b) (a' ++ b') := by
  induction h1 with
  | nil => exact h2
  | cons h _ ih => exact .cons h ih

theorem each_reverse {α β : Type} {R : α → β → Prop} {a : List α} {a' : List β} (h : Each R a a') : Each R a.reverse a'.reverse := by
  induction h with
  | nil => exact .nil
  | cons h _ ih =>
    rw [List.reverse_cons, List.reverse_cons]
    exact each_append ih (.cons h .nil)

theorem each_trans {α : Type} {R S : α → α → Prop} (hRS : ∀ a b c, R a b → S b c → R a c) {a b c : List α} (h1 : Each R a b) (h2 : Each S b c) : Each R a c := by
  induction h1 generalizing c with
  | nil => cases h2; exact .nil
  | cons h _ ih =>
    cases h2 with
    | cons k ks => exact .cons (hRS _ _ _ h k) (ih ks)

theorem each_imp {α β : Type} {R S : α → β → Prop} (hRS : ∀ a b, R a b → S a b) {a : List α} {b : List β} (h : Each R a b) : Each S a b := by
  induction h with
  | nil => exact .nil
  | cons h _ ih => exact .cons (hRS _ _ h) ih

/-- A paragraph may be taken out, everything else stays. -/
def Taken (b b' : Block) : Prop := b' = b ∨ ∃ ks d, b = .para ks d ∧ Looks ks ∧ b' = .para ks (some gone)

theorem taken_refl (b : Block) : Taken b b := .inl rfl

theorem taken_trans (a b c : Block) (h1 : Taken a b) (h2 : Taken b c) : Taken a c := by
  rcases h1 with rfl | ⟨ks, d, rfl, hl, rfl⟩
  · exact h2
  · rcases h2 with rfl | ⟨ks', d', e, hl', rfl⟩
    · exact .inr ⟨ks, d, rfl, hl, rfl⟩
    · cases e
      exact .inr ⟨ks, d, rfl, hl, rfl⟩

theorem keptRow_refl (r : Row) : KeptRow r r := .inl rfl

theorem kept_of_taken (a b : Block) (h : Taken a b) : Kept a b := by
  rcases h with rfl | ⟨ks, d, rfl, hl, rfl⟩
  · cases b with
    | para ks d => exact .inl rfl
    | table rows d => exact ⟨rows, d, rfl, each_refl keptRow_refl rows, .inl rfl⟩
    | heading s => exact rfl
    | other s => exact rfl
  · exact .inr ⟨hl, rfl⟩

theorem kept_taken (a b c : Block) (h1 : Kept a b) (h2 : Taken b c) : Kept a c := by
  cases a with
  | para ks d =>
    have : Taken (.para ks d) b := by
      rcases h1 with h | ⟨hl, h⟩
      · exact .inl h
      · exact .inr ⟨ks, d, rfl, hl, h⟩
    exact kept_of_taken _ _ (taken_trans _ _ _ this h2)
  | table rows d =>
    obtain ⟨rows', d', rfl, hr, hd⟩ := h1
    rcases h2 with rfl | ⟨ks, d2, e, _⟩
    · exact ⟨rows', d', rfl, hr, hd⟩
    · cases e
  | heading s =>
    cases h1
    rcases h2 with rfl | ⟨ks, d2, e, _⟩
    · rfl
    · cases e
  | other s =>
    cases h1
    rcases h2 with rfl | ⟨ks, d2, e, _⟩
    · rfl
    · cases e

theorem bracket_looks {t : Bytes} {c : Bytes} (h : bracket t = some c) : t.head? = some c!"[" := by
  apply Classical.byContradiction
  intro hn
  rw [bracket_none hn] at h
  cases h

theorem colon_looks {n : Nat} {t c : Bytes} (h : colon n t = some c) : (t.dropWhile (· = c!" ")).head? = some c!":" := by
  unfold colon at h
  simp only at h
  split at h
  · rename_i x d r hx
    split at h
    · rename_i hc
      simp only [Bool.and_eq_true, decide_eq_true_eq] at hc
      obtain ⟨rfl, _⟩ := hc
      have gen : ∀ (t : Bytes) (m : Nat) (r : Bytes), t.drop (min m (t.takeWhile fun x => decide (x = c!" ")).length) = c!":" :: r → (t.dropWhile fun x => decide (x = c!" ")).head? = some c!":" := by
        intro t
        induction t with
        | nil => intro m r h; simp at h
        | cons y t ih =>
          intro m r h
          by_cases hy : y = c!" "
          · subst hy
            simp only [List.takeWhile_cons, decide_true, if_true, List.length_cons] at h
            cases m with
            | zero => simp at h
            | succ m =>
              rw [Nat.succ_min_succ, List.drop_succ_cons] at h
              simp only [List.dropWhile_cons, decide_true, if_true]
              exact ih m r h
          · simp only [List.takeWhile_cons, hy, decide_false, Bool.false_eq_true, if_false, List.length_nil, Nat.min_zero, List.drop_zero] at h
            simp only [List.dropWhile_cons, hy, decide_false, Bool.false_eq_true, if_false]
            rw [h]
            rfl
      exact gen t n _ hx
    · cases h
  · cases h

theorem format_looks {ks : List Inl} {c : Bytes} (h : format ks = some c) : Looks ks := by
  unfold format at h
  cases hb : bracket (texts ks) with
  | some x => exact .inl (bracket_looks hb)
  | none =>
    rw [hb] at h
    exact .inr (colon_looks h)

theorem formatAfter_looks {ks : List Inl} {c : Bytes} (h : formatAfter ks = some c) : Looks ks := by
  unfold formatAfter at h
  cases hb : bracket (texts ks) with
  | some x => exact .inl (bracket_looks hb)
  | none =>
    rw [hb] at h
    cases hc : colon 3 (texts ks) with
    | some x => exact .inr (colon_looks hc)
    | none =>
      rw [hc] at h
      exact format_looks h

/-- The mark of a table may get a caption. -/
def Marked (d d' : Option Bytes) : Prop := d' = d ∨ ∃ cap, d' = some (d.getD [] ++ b!" data-caption=\"" ++ cap)

theorem add_marked {d d' : Option Bytes} {cap t : Bytes} (h : add d cap t = .val d') : Marked d d' ∧ has b!"data-caption=" (d'.getD []) = true := by
  unfold add at h
  cases ha : attrsIn t with
  | ub => rw [ha] at h; cases h
  | val a =>
    rw [ha] at h
    simp only [C.val_bind] at h
    split at h
    · rename_i hh
      cases h
      exact ⟨.inl rfl, hh⟩
    · cases h
      refine ⟨.inr ⟨cap ++ b!"\"" ++ (a.map html).getD [], by simp⟩, ?_⟩
      rw [Option.getD_some]
      exact (has_iff (by decide)).2 ⟨d.getD [] ++ b!" ", b!"\"" ++ cap ++ b!"\"" ++ (a.map html).getD [], by simp⟩

theorem add_same {d d' : Option Bytes} {cap t : Bytes} (hd : has b!"data-caption=" (d.getD []) = true) (h : add d cap t = .val d') : d' = d := by
  unfold add at h
  cases ha : attrsIn t with
  | ub => rw [ha] at h; cases h
  | val a =>
    rw [ha] at h
    simp only [C.val_bind] at h
    rw [if_pos hd] at h
    cases h
    rfl

/-- A step for the mark of a table: nothing, or a caption if there is none. -/
def Step (d d' : Option Bytes) : Prop := d' = d ∨ (Marked d d' ∧ has b!"data-caption=" (d'.getD []) = true ∧ has b!"data-caption=" (d.getD []) = false)

theorem add_step {d d' : Option Bytes} {cap t : Bytes} (h : add d cap t = .val d') : Step d d' := by
  cases hd : has b!"data-caption=" (d.getD []) with
  | true => exact .inl (add_same hd h)
  | false => exact .inr ⟨(add_marked h).1, (add_marked h).2, hd⟩

theorem step_trans {a b c : Option Bytes} (h1 : Step a b) (h2 : Step b c) : Step a c := by
  rcases h1 with rfl | ⟨m, hb, ha⟩
  · exact h2
  · rcases h2 with rfl | ⟨_, _, hb2⟩
    · exact .inr ⟨m, hb, ha⟩
    · rw [hb] at hb2; cases hb2

theorem step_marked {a b : Option Bytes} (h : Step a b) : Marked a b := by
  rcases h with rfl | h
  · exact .inl rfl
  · exact h.1

theorem above_kept {l : List Block} {d : Option Bytes} {x : List Block × Option Bytes} (h : above d l = .val x) : Each Taken l x.1 ∧ Step d x.2 := by
  induction l generalizing x with
  | nil => cases h; exact ⟨.nil, .inl rfl⟩
  | cons b l ih =>
    cases b with
    | para ks pd =>
      have on : ∀ x, (above d l).bind (fun y => C.val (Block.para ks pd :: y.1, y.2)) = .val x → Each Taken (.para ks pd :: l) x.1 ∧ Step d x.2 := by
        intro x hx
        cases ha : above d l with
        | ub => rw [ha] at hx; cases hx
        | val y =>
          rw [ha] at hx
          cases hx
          obtain ⟨h1, h2⟩ := ih ha
          exact ⟨.cons (.inl rfl) h1, h2⟩
      unfold above at h
      simp only at h
      split at h
      · exact on x h
      · split at h
        · rename_i cap hf
          cases ha : add d cap (texts ks) with
          | ub => rw [ha] at h; cases h
          | val d' =>
            rw [ha] at h
            cases h
            exact ⟨.cons (.inr ⟨ks, pd, rfl, format_looks hf, rfl⟩) (each_refl taken_refl l), add_step ha⟩
        · exact on x h
    | heading s =>
      unfold above at h
      cases ha : above d l with
      | ub => rw [ha] at h; cases h
      | val y =>
        rw [ha] at h
        cases h
        obtain ⟨h1, h2⟩ := ih ha
        exact ⟨.cons (.inl rfl) h1, h2⟩
    | table rows td => cases h; exact ⟨each_refl taken_refl _, .inl rfl⟩
    | other s => cases h; exact ⟨each_refl taken_refl _, .inl rfl⟩

theorem below_kept {l : List Block} {d : Option Bytes} {x : List Block × Option Bytes} (h : below d l = .val x) : Each Taken l x.1 ∧ Step d x.2 := by
  unfold below at h
  split at h
  · rename_i ks pd r
    split at h
    · cases h; exact ⟨each_refl taken_refl _, .inl rfl⟩
    · split at h
      · rename_i cap hf
        cases ha : add d cap (texts ks) with
        | ub => rw [ha] at h; cases h
        | val d' =>
          rw [ha] at h
          cases h
          exact ⟨.cons (.inr ⟨ks, pd, rfl, formatAfter_looks hf, rfl⟩) (each_refl taken_refl r), add_step ha⟩
      · cases h; exact ⟨each_refl taken_refl _, .inl rfl⟩
  · cases h; exact ⟨each_refl taken_refl _, .inl rfl⟩

theorem capText_looks {l : List Cell} {t : Bytes} (h : capText l = some t) : ∃ c ∈ l, ∃ s ks, c.kids = .text s :: ks ∧ s.head? = some c!"[" := by
  induction l with
  | nil => cases h
  | cons c l ih =>
    have rest : capText l = some t → ∃ c' ∈ c :: l, ∃ s ks, c'.kids = .text s :: ks ∧ s.head? = some c!"[" := by
      intro h
      obtain ⟨c', h1, h2⟩ := ih h
      exact ⟨c', List.mem_cons_of_mem _ h1, h2⟩
    unfold capText at h
    split at h
    · rename_i x r hx
      split at h
      · rename_i hb
        simp only [Bool.and_eq_true, decide_eq_true_eq] at hb
        unfold cellText at hx
        split at hx
        · rename_i s ks hk
          cases hx
          exact ⟨c, by simp, x :: r, ks, hk, by rw [hb.1]; rfl⟩
        · cases hx
      · exact rest h
    · exact rest h

theorem inRows_kept {rows : List Row} {d : Option Bytes} {x : List Row × Option Bytes} (h : inRows d rows = .val x) : Each KeptRow rows x.1 ∧ Step d x.2 := by
  induction rows generalizing x with
  | nil => cases h; exact ⟨.nil, .inl rfl⟩
  | cons r rows ih =>
    unfold inRows at h
    split at h
    · split at h
      · rename_i t ht
        cases ha : add d ((t.drop 1).takeWhile (· ≠ c!"]")) t with
        | ub => rw [ha] at h; cases h
        | val d' =>
          rw [ha] at h
          cases h
          exact ⟨.cons (.inr ⟨capText_looks ht, rfl⟩) (each_refl keptRow_refl rows), add_step ha⟩
      · cases h; exact ⟨each_refl keptRow_refl _, .inl rfl⟩
    · cases ha : inRows d rows with
      | ub => rw [ha] at h; cases h
      | val y =>
        rw [ha] at h
        cases h
        obtain ⟨h1, h2⟩ := ih ha
        exact ⟨.cons (.inl rfl) h1, h2⟩

theorem run_kept : ∀ (n : Nat) (done post done0 post0 out : List Block), post.length ≤ n → Each Kept done0 done → Each Taken post0 post → run done post = .val out →
    Each Kept (post0.reverse ++ done0) out
  | n, done, [], done0, post0, out, _, hd, hp, h => by
    cases hp
    cases h
    exact hd
  | 0, _, _ :: _, _, _, _, hl, _, _, _ => by simp at hl
  | n + 1, done, b :: post, done0, post0, out, hl, hd, hp, h => by
    simp only [List.length_cons] at hl
    cases hp with
    | cons hb hp =>
      rename_i b0 post0
      have skip : (∀ rows d, b ≠ .table rows d) → Each Kept ((b0 :: post0).reverse ++ done0) out := by
        intro ht
        rw [run_skip ht] at h
        have := run_kept n (b :: done) post (b0 :: done0) post0 out (by omega) (.cons (kept_of_taken _ _ hb) hd) hp h
        simpa using this
      cases b with
      | table rows d =>
        have hb0 : b0 = .table rows d := by
          rcases hb with h | ⟨_, _, _, _, h⟩
          · exact h.symm
          · cases h
        subst hb0
        rw [run_table] at h
        cases ha : above d done with
        | ub => rw [ha] at h; cases h
        | val x =>
          rw [ha, bind_val] at h
          cases hbl : below x.2 post with
          | ub => rw [hbl] at h; cases h
          | val y =>
            rw [hbl, bind_val] at h
            cases hz : inRows y.2 rows with
            | ub => rw [hz] at h; cases h
            | val z =>
              rw [hz, bind_val] at h
              obtain ⟨a1, a2⟩ := above_kept ha
              obtain ⟨b1, b2⟩ := below_kept hbl
              obtain ⟨c1, c2⟩ := inRows_kept hz
              have := run_kept n (.table z.1 z.2 :: x.1) y.1 (.table rows d :: done0) post0 out (by rw [below_length hbl]; omega)
                (.cons ⟨z.1, z.2, rfl, c1, step_marked (step_trans (step_trans a2 b2) c2)⟩ (each_trans kept_taken hd a1)) (each_trans taken_trans hp b1) h
              simpa using this
      | para ks d => exact skip (by intro _ _ h; cases h)
      | heading s => exact skip (by intro _ _ h; cases h)
      | other s => exact skip (by intro _ _ h; cases h)

/-! ### Attributes -/

theorem parse_nil (n : Nat) (a : Attrs) : parse n a [] = .val a := by
  cases n <;> rfl

theorem parse_blank (n : Nat) (a : Attrs) (r : Bytes) : parse n a (c!" " :: r) = parse n a r := by
  cases n with
  | zero => rfl
  | succ n =>
    unfold parse
    rw [List.dropWhile_cons_of_pos (by decide)]

theorem name_byte : ∀ {c : Byte}, (isAlnum c = true ∨ c = c!"-" ∨ c = c!"_") →
    isSpace c = false ∧ c ≠ c!"." ∧ c ≠ c!"#" ∧ c ≠ c!"}" ∧ c ≠ c!"=" ∧ c ≠ c!" " ∧ c ≠ c!"\t" ∧ c ≠ c!"{" :=
  fun {c} => forall_byte (p := fun c => (isAlnum c = true ∨ c = c!"-" ∨ c = c!"_") →
    isSpace c = false ∧ c ≠ c!"." ∧ c ≠ c!"#" ∧ c ≠ c!"}" ∧ c ≠ c!"=" ∧ c ≠ c!" " ∧ c ≠ c!"\t" ∧ c ≠ c!"{") (by decide +kernel) c

/-- What may be behind a word. -/
def Next (r : Bytes) : Prop := r = [] ∨ r.head? = some c!" "

theorem span_next {p : Byte → Bool} {w r : Bytes} (hw : ∀ c ∈ w, p c = true) (hp : p c!" " = false) (hr : Next r) : (w ++ r).takeWhile p = w ∧ (w ++ r).dropWhile p = r := by
  rcases hr with rfl | hr
  · rw [List.append_nil]
    constructor
    · induction w with
      | nil => rfl
      | cons c w ih => rw [List.takeWhile_cons_of_pos (hw c (by simp)), ih fun x hx => hw x (List.mem_cons_of_mem _ hx)]
    · induction w with
      | nil => rfl
      | cons c w ih => rw [List.dropWhile_cons_of_pos (hw c (by simp)), ih fun x hx => hw x (List.mem_cons_of_mem _ hx)]
  · cases r with
    | nil => cases hr
    | cons c r =>
      simp only [List.head?_cons, Option.some.injEq] at hr
      subst hr
      exact Images.span_at (p := p) hw (by simp [hp])

theorem parse_id {i r : Bytes} (hi : Name i) (hr : Next r) (n : Nat) (a : Attrs) : parse (n + 1) a (c!"#" :: (i ++ r)) = parse n { a with id := some i } r := by
  have hs := span_next (p := fun c => !isSpace c && decide (c ≠ c!".") && decide (c ≠ c!"}")) (w := i) (by
    intro c hc
    obtain ⟨h1, h2, _, h4, _⟩ := name_byte (hi.2 c hc)
    simp [h1, h2, h4]) (by decide) hr
  generalize hz : parse n { a with id := some i } r = z
  unfold parse
  rw [List.dropWhile_cons_of_neg (by decide)]
  simp only [hs.1, hs.2, if_true, hi.1, if_false]
  exact hz

theorem parse_class {i r : Bytes} (hi : Name i) (hr : Next r) (n : Nat) (a : Attrs) : parse (n + 1) a (c!"." :: (i ++ r)) = parse n { a with classes := a.classes ++ [i] } r := by
  have hs := span_next (p := fun c => !isSpace c && decide (c ≠ c!".") && decide (c ≠ c!"#") && decide (c ≠ c!"}")) (w := i) (by
    intro c hc
    obtain ⟨h1, h2, h3, h4, _⟩ := name_byte (hi.2 c hc)
    simp [h1, h2, h3, h4]) (by decide) hr
  generalize hz : parse n { a with classes := a.classes ++ [i] } r = z
  unfold parse
  rw [List.dropWhile_cons_of_neg (by decide)]
  simp only [hs.1, hs.2, if_true, hi.1, if_false, show (c!"." = c!"#") = False from by decide]
  exact hz

theorem quoted_at {v r : Bytes} (h : ∀ c ∈ v, c ≠ c!"\"" ∧ c ≠ c!"\\") : quoted c!"\"" (v ++ c!"\"" :: r) = some (v, r) := by
  induction v with
  | nil => cases r <;> rfl
  | cons c v ih =>
    obtain ⟨h1, h2⟩ := h c (by simp)
    have ih := ih fun x hx => h x (List.mem_cons_of_mem _ hx)
    cases hv : v ++ c!"\"" :: r with
    | nil => simp at hv
    | cons d s =>
      rw [hv] at ih
      rw [List.cons_append, hv]
      show (if c = c!"\"" then _ else if c = c!"\\" then _ else (quoted c!"\"" (d :: s)).map _) = _
      rw [if_neg h1, if_neg h2, ih]
      rfl

theorem parse_key {k v r : Bytes} (hk : Name k) (hv : ∀ c ∈ v, c ≠ c!"\"" ∧ c ≠ c!"\\") (n : Nat) (a : Attrs) :
    parse (n + 1) a (k ++ c!"=" :: c!"\"" :: (v ++ c!"\"" :: r)) = parse n { a with keys := a.keys ++ [(k, v)] } r := by
  have hs := Images.span_at (p := fun c : Byte => decide (c ≠ c!"=") && decide (c ≠ c!" ") && decide (c ≠ c!"\t") && decide (c ≠ c!"}")) (s := k) (c := c!"=")
    (t := c!"\"" :: (v ++ c!"\"" :: r)) (by
      intro c hc
      obtain ⟨_, _, _, h4, h5, h6, h7, _⟩ := name_byte (hk.2 c hc)
      simp [h4, h5, h6, h7]) (by decide)
  have hval : value (c!"\"" :: (v ++ c!"\"" :: r)) = (v, r) := by
    unfold value
    simp only
    rw [if_pos (by decide), quoted_at hv]
    rfl
  obtain ⟨hne, hk⟩ := hk
  cases k with
  | nil => exact absurd rfl hne
  | cons c k =>
    obtain ⟨h1, h2, h3, _⟩ := name_byte (hk c (by simp))
    rw [List.cons_append] at hs ⊢
    generalize hz : parse n { a with keys := a.keys ++ [(c :: k, v)] } r = z
    unfold parse
    rw [List.dropWhile_cons_of_neg (by simp [h1])]
    simp only [h2, h3, if_false]
    rw [hs.2]
    simp only [if_true, hs.1, hval]
    exact hz

theorem next_flat {α : Type} (f : α → Bytes) (l : List α) {r : Bytes} (hr : Next r) : Next (l.flatMap (fun x => b!" " ++ f x) ++ r) := by
  cases l with
  | nil => exact hr
  | cons x l => exact .inr rfl

theorem parse_classes {l : List Bytes} (h : ∀ c ∈ l, Name c) {r : Bytes} (hr : Next r) (n : Nat) (a : Attrs) :
    parse (l.length + n) a (l.flatMap (fun c => b!" ." ++ c) ++ r) = parse n { a with classes := a.classes ++ l } r := by
  induction l generalizing a with
  | nil => simp
  | cons c l ih =>
    have hn : Next (l.flatMap (fun c => b!" ." ++ c) ++ r) := by
      cases l with
      | nil => exact hr
      | cons x l => exact .inr rfl
    have e : (c :: l).flatMap (fun c => b!" ." ++ c) ++ r = c!" " :: c!"." :: (c ++ (l.flatMap (fun c => b!" ." ++ c) ++ r)) := by simp
    rw [e, parse_blank, List.length_cons, Nat.add_right_comm, parse_class (h c (by simp)) hn, ih fun x hx => h x (List.mem_cons_of_mem _ hx)]
    simp

theorem parse_keys {l : List (Bytes × Bytes)} (h : ∀ k ∈ l, Name k.1 ∧ ∀ c ∈ k.2, c ≠ c!"\"" ∧ c ≠ c!"\\") (n : Nat) (a : Attrs) (r : Bytes) :
    parse (l.length + n) a ((l.flatMap fun k => b!" " ++ k.1 ++ b!"=\"" ++ k.2 ++ b!"\"") ++ r) = parse n { a with keys := a.keys ++ l } r := by
  induction l generalizing a with
  | nil => simp
  | cons k l ih =>
    obtain ⟨h1, h2⟩ := h k (by simp)
    have e : (k :: l).flatMap (fun k => b!" " ++ k.1 ++ b!"=\"" ++ k.2 ++ b!"\"") ++ r = c!" " :: (k.1 ++ c!"=" :: c!"\"" :: (k.2 ++ c!"\"" :: ((l.flatMap fun k => b!" " ++ k.1 ++ b!"=\"" ++ k.2 ++ b!"\"") ++ r))) := by simp
    rw [e, parse_blank, List.length_cons, Nat.add_right_comm, parse_key h1 h2, ih fun x hx => h x (List.mem_cons_of_mem _ hx)]
    simp

/-- The attributes that are read. -/
def toAttrs (l : Marks) : Attrs := ⟨l.id, l.classes, l.keys⟩

theorem parse_marks {l : Marks} (h : l.Ok) (n : Nat) {r : Bytes} (hr : Next r) :
    ∃ m, n ≤ m ∧ parse (1 + (l.classes.length + (l.keys.length + n))) {} (l.write ++ r) = parse m (toAttrs l) r := by
  obtain ⟨h1, h2, h3, _⟩ := h
  have hk := parse_keys (l := l.keys) (fun k hk => ⟨(h3 k hk).1, fun c hc => ⟨((h3 k hk).2.1 c hc).1, ((h3 k hk).2.1 c hc).2.1⟩⟩)
  have hn : Next ((l.keys.flatMap fun k => b!" " ++ k.1 ++ b!"=\"" ++ k.2 ++ b!"\"") ++ r) := by
    cases l.keys with
    | nil => exact hr
    | cons x l => exact .inr rfl
  have hc := fun (a : Attrs) (n : Nat) => parse_classes (l := l.classes) h2 hn n a
  unfold Marks.write
  simp only [List.append_assoc] at hk hc hn ⊢
  cases hi : l.id with
  | none =>
    simp only [Option.map_none, Option.getD_none, List.nil_append]
    refine ⟨1 + n, by omega, ?_⟩
    rw [Nat.add_left_comm, hc, Nat.add_left_comm, hk]
    simp [toAttrs, hi]
  | some i =>
    have hn2 : Next (l.classes.flatMap (fun c => b!" ." ++ c) ++ ((l.keys.flatMap fun k => b!" " ++ (k.1 ++ (b!"=\"" ++ (k.2 ++ b!"\"")))) ++ r)) := by
      cases l.classes with
      | nil => exact hn
      | cons x l => exact .inr rfl
    refine ⟨n, by omega, ?_⟩
    simp only [Option.map_some, Option.getD_some, List.append_assoc]
    show parse _ _ (c!" " :: c!"#" :: (i ++ _)) = _
    rw [parse_blank, Nat.add_comm 1, parse_id (h1 i hi) hn2, hc, hk]
    simp [toAttrs, hi]

theorem lastOpen_at {a r : Bytes} (ha : c!"{" ∉ a) (hr : c!"{" ∉ r) : lastOpen (a ++ c!"{" :: c!":" :: r) = some r := by
  induction a with
  | nil =>
    rw [List.nil_append]
    unfold lastOpen
    rw [lastOpen_none (s := c!":" :: r) (by simp [hr])]
    rfl
  | cons c a ih =>
    rw [List.cons_append]
    unfold lastOpen
    rw [ih fun hm => ha (List.mem_cons_of_mem _ hm)]

theorem attrs_at {a w : Bytes} (ha : c!"{" ∉ a) (hw : c!"{" ∉ w) (hw2 : c!"}" ∉ w) (hne : w ≠ []) (hl : w.length < 2048) :
    attrsIn (a ++ b!"{:" ++ w ++ b!"}") = (parse (w.length + 1) {} w).bind fun x => .val (some x) := by
  have e : a ++ b!"{:" ++ w ++ b!"}" = a ++ c!"{" :: c!":" :: (w ++ c!"}" :: []) := by simp
  have hs := Images.span_at (p := fun x : Byte => decide (x ≠ c!"}")) (s := w) (c := c!"}") (t := []) (by
    intro x hx
    simpa using fun e : x = c!"}" => hw2 (e ▸ hx)) (by decide)
  unfold attrsIn
  rw [e, lastOpen_at ha (by simp [hw])]
  simp only [hs.1]
  rw [if_pos (by simp), List.take_of_length_le (by omega), if_neg hne]
  rfl

theorem name_mem {w : Bytes} (h : Name w) : c!"{" ∉ w ∧ c!"}" ∉ w := by
  constructor
  · intro hm
    exact (name_byte (h.2 _ hm)).2.2.2.2.2.2.2 rfl
  · intro hm
    exact (name_byte (h.2 _ hm)).2.2.2.1 rfl

theorem write_braces {l : Marks} (h : l.Ok) : c!"{" ∉ l.write ∧ c!"}" ∉ l.write := by
  obtain ⟨h1, h2, h3, _⟩ := h
  unfold Marks.write
  constructor
  · simp only [List.mem_append, List.mem_flatMap, not_or, not_exists, not_and]
    refine ⟨?_, fun c hc => ⟨by decide, (name_mem (h2 c hc)).1⟩, fun k hk => ⟨⟨⟨⟨by decide, (name_mem (h3 k hk).1).1⟩, by decide⟩, fun hm => ((h3 k hk).2.1 _ hm).2.2.2 rfl⟩, by decide⟩⟩
    cases hi : l.id with
    | none => simp
    | some i => simp [(name_mem (h1 i hi)).1]
  · simp only [List.mem_append, List.mem_flatMap, not_or, not_exists, not_and]
    refine ⟨?_, fun c hc => ⟨by decide, (name_mem (h2 c hc)).2⟩, fun k hk => ⟨⟨⟨⟨by decide, (name_mem (h3 k hk).1).2⟩, by decide⟩, fun hm => ((h3 k hk).2.1 _ hm).2.2.1 rfl⟩, by decide⟩⟩
    cases hi : l.id with
    | none => simp
    | some i => simp [(name_mem (h1 i hi)).2]

/-- The attributes are written as HTML. -/
theorem append_fit {b s : Bytes} (h : b.length + s.length < 4096) : append b s = b ++ s := by
  unfold append
  rw [if_pos h]

theorem classList_fit {l : List Bytes} {b : Bytes} (h : b.length + (List.intersperse b!" " l).flatten.length < 4096) : classList b l = b ++ (List.intersperse b!" " l).flatten := by
  induction l generalizing b with
  | nil => simp [classList]
  | cons c l ih =>
    cases l with
    | nil =>
      simp only [List.intersperse_singleton, List.flatten_cons, List.flatten_nil, List.append_nil] at h ⊢
      exact append_fit h
    | cons d l =>
      have e : (List.intersperse b!" " (c :: d :: l)).flatten = c ++ (b!" " ++ (List.intersperse b!" " (d :: l)).flatten) := by simp [List.intersperse_cons_cons]
      rw [e] at h ⊢
      simp only [List.length_append, List.length_cons, List.length_nil] at h
      show classList (append (append b c) b!" ") (d :: l) = _
      rw [append_fit (s := c) (by omega), append_fit (by simp only [List.length_append, List.length_cons, List.length_nil]; omega), ih (by
        simp only [List.length_append, List.length_cons, List.length_nil]
        omega)]
      simp

theorem cut_fit {n : Nat} {s : Bytes} (h : s.length < n) : cut n s = s := List.take_of_length_le (by omega)

theorem keyList_fit {l : List (Bytes × Bytes)} (hl : ∀ k ∈ l, k.1.length + k.2.length < 1000) {b : Bytes}
    (h : b.length + (l.flatMap fun k => b!" " ++ k.1 ++ b!"=\"" ++ k.2 ++ b!"\"").length < 4096) :
    keyList false b l = b ++ l.flatMap fun k => b!" " ++ k.1 ++ b!"=\"" ++ k.2 ++ b!"\"" := by
  induction l generalizing b with
  | nil => simp [keyList]
  | cons k l ih =>
    have hk := hl k (by simp)
    rw [List.flatMap_cons] at h ⊢
    rw [List.length_append] at h
    have hlen : (b!" " ++ k.1 ++ b!"=\"" ++ k.2 ++ b!"\"").length = k.1.length + k.2.length + 4 := by
      simp only [List.length_append, List.length_cons, List.length_nil]
      omega
    show keyList false (append b (cut 1024 (b!" " ++ k.1 ++ b!"=\"" ++ k.2 ++ b!"\""))) l = _
    rw [cut_fit (by omega), append_fit (by omega), ih (fun x hx => hl x (List.mem_cons_of_mem _ hx)) (by rw [List.length_append]; omega)]
    simp

theorem flat_len (l : List Bytes) : (List.intersperse b!" " l).flatten.length ≤ (l.flatMap fun c => b!" ." ++ c).length := by
  induction l with
  | nil => simp
  | cons c l ih =>
    cases l with
    | nil =>
      simp only [List.intersperse_singleton, List.flatten_cons, List.flatten_nil, List.append_nil, List.flatMap_cons, List.flatMap_nil, List.length_append, List.length_cons, List.length_nil]
      omega
    | cons d l =>
      have e : (List.intersperse b!" " (c :: d :: l)).flatten = c ++ (b!" " ++ (List.intersperse b!" " (d :: l)).flatten) := by simp [List.intersperse_cons_cons]
      rw [e, List.flatMap_cons]
      generalize (List.intersperse b!" " (d :: l)).flatten = x at ih ⊢
      generalize (d :: l).flatMap (fun c => b!" ." ++ c) = y at ih ⊢
      simp only [List.length_append, List.length_cons, List.length_nil]
      omega

/-- What is written for keys when there is nothing in front of them. -/
def bareKeys : List (Bytes × Bytes) → Bytes
  | [] => []
  | k :: l => k.1 ++ b!"=\"" ++ k.2 ++ b!"\"" ++ l.flatMap fun k => b!" " ++ k.1 ++ b!"=\"" ++ k.2 ++ b!"\""

theorem html_marks {l : Marks} (h : l.Ok) : html (toAttrs l) = if l.id = none ∧ l.classes = [] then bareKeys l.keys else l.html := by
  obtain ⟨_, _, h3, h4⟩ := h
  have hk : ∀ k ∈ l.keys, k.1.length + k.2.length < 1000 := fun k hk => (h3 k hk).2.2
  obtain ⟨id, classes, keys⟩ := l
  simp only at hk
  have hf := flat_len classes
  unfold Marks.write at h4
  simp only [List.length_append] at h4
  unfold html toAttrs Marks.html
  simp only
  generalize hK : (keys.flatMap fun k => b!" " ++ k.1 ++ b!"=\"" ++ k.2 ++ b!"\"") = K at h4 ⊢
  generalize hC : (classes.flatMap fun c => b!" ." ++ c) = W at h4 hf
  generalize hI : (List.intersperse b!" " classes).flatten = I at hf ⊢
  have keysFit : ∀ b : Bytes, b.length + K.length < 4096 → keyList false b keys = b ++ K := by
    intro b hb
    rw [← hK] at hb ⊢
    exact keyList_fit hk hb
  have classFit : ∀ b : Bytes, b.length + I.length < 4096 → classList b classes = b ++ I := by
    intro b hb
    rw [← hI] at hb ⊢
    exact classList_fit hb
  cases id with
  | none =>
    simp only [Option.map_none, Option.getD_none, List.length_nil, List.nil_append] at h4 ⊢
    by_cases hc : classes = []
    · subst hc
      simp only [and_self, if_true, decide_true, Bool.and_self]
      cases keys with
      | nil => rfl
      | cons k ks =>
        have hk1 := hk k (by simp)
        have hlen : (k.1 ++ b!"=\"" ++ k.2 ++ b!"\"").length = k.1.length + k.2.length + 3 := by
          simp only [List.length_append, List.length_cons, List.length_nil]
          omega
        have hK2 := congrArg List.length hK
        rw [List.flatMap_cons, List.length_append] at hK2
        show keyList false (append [] (cut 1024 ([] ++ k.1 ++ b!"=\"" ++ k.2 ++ b!"\""))) ks = _
        rw [List.nil_append, cut_fit (by omega), append_fit (by simp only [List.length_nil]; omega), List.nil_append, keyList_fit (fun x hx => hk x (List.mem_cons_of_mem _ hx)) (by omega)]
        rfl
    · simp only [hc, and_false, if_false, decide_false, Bool.and_false]
      rw [append_fit (b := []) (by decide), List.nil_append, classFit _ (by simp only [List.length_cons, List.length_nil]; omega),
        append_fit (by simp only [List.length_append, List.length_cons, List.length_nil]; omega), keysFit _ (by simp only [List.length_append, List.length_cons, List.length_nil]; omega)]
  | some i =>
    have hi : (b!" #" ++ i).length = i.length + 2 := by simp
    simp only [Option.map_some, Option.getD_some, hi] at h4
    simp only [Option.map_some, Option.getD_some, reduceCtorEq, false_and, if_false, decide_false, Bool.false_and]
    rw [append_fit (b := []) (by decide), List.nil_append, append_fit (s := i) (by simp only [List.length_cons, List.length_nil]; omega),
      append_fit (s := b!"\"") (by simp only [List.length_append, List.length_cons, List.length_nil]; omega)]
    by_cases hc : classes = []
    · simp only [hc, if_true, List.append_nil]
      rw [keysFit _ (by simp only [List.length_append, List.length_cons, List.length_nil]; omega)]
    · simp only [hc, if_false]
      rw [append_fit (s := b!" class=\"") (by simp only [List.length_append, List.length_cons, List.length_nil]; omega),
        classFit _ (by simp only [List.length_append, List.length_cons, List.length_nil]; omega),
        append_fit (by simp only [List.length_append, List.length_cons, List.length_nil]; omega), keysFit _ (by simp only [List.length_append, List.length_cons, List.length_nil]; omega)]
      simp

theorem bracket_marked {c w : Bytes} (h : c!"]" ∉ c) : bracket (b!"[" ++ c ++ b!"] {:" ++ w ++ b!"}") = some c := by
  have hs := Images.span_at (p := fun x : Byte => decide (x ≠ c!"]")) (s := c) (c := c!"]") (t := b!" {:" ++ w ++ b!"}") (by
    intro x hx
    simpa using fun e : x = c!"]" => h (e ▸ hx)) (by decide)
  rw [show b!"[" ++ c ++ b!"] {:" ++ w ++ b!"}" = c!"[" :: (c ++ c!"]" :: (b!" {:" ++ w ++ b!"}")) from by simp]
  unfold bracket
  simp only [hs.1, hs.2]
  rw [if_pos (by simp), if_pos (by
    have e : (List.drop 1 (c!"]" :: (b!" {:" ++ w ++ b!"}"))).dropWhile isSpace = c!"{" :: c!":" :: (w ++ b!"}") := by
      simp [List.dropWhile, isSpace]
    rw [e]
    simp [opens])]

/-- What is taken as the caption, and what the table is marked with. -/
theorem caption_text {c w t : Bytes} {d : Option Bytes} (hc : c!"]" ∉ c) (ht : t = b!"[" ++ c ++ b!"] {:" ++ w ++ b!"}") (l : List Block) :
    (above none (.para [.text t] d :: l) = if used d then above none (.para [.text t] d :: l) else (add none c t).bind fun d' => .val (.para [.text t] (some gone) :: l, d')) ∧
      (below none (.para [.text t] d :: l) = if used d then .val (.para [.text t] d :: l, none) else (add none c t).bind fun d' => .val (.para [.text t] (some gone) :: l, d')) := by
  have e : texts [Inl.text t] = t := by simp [texts]
  have hb : bracket t = some c := by rw [ht]; exact bracket_marked hc
  have h0 : t = c!"[" :: (c ++ b!"] {:" ++ w ++ b!"}") := by rw [ht]; simp
  have hbl : blank [Inl.text t] = false := by rw [h0]; simp [blank, isSpace]
  have hm : might [Inl.text t] = true := by rw [h0]; simp [might]
  have hf : format [Inl.text t] = some c := by unfold format; rw [e, hb]; rfl
  have hf2 : formatAfter [Inl.text t] = some c := by unfold formatAfter; rw [e, hb]; rfl
  constructor
  · split
    · rfl
    · rename_i hu
      unfold above
      simp only [hbl, hm, hf, e]
      rw [if_neg (by simp [hu])]
      rfl
  · unfold below
    simp only [hf2, e]
    rfl

theorem write_ne {l : Marks} (h : l.id ≠ none ∨ l.classes ≠ [] ∨ l.keys ≠ []) : l.write ≠ [] := by
  obtain ⟨id, classes, keys⟩ := l
  unfold Marks.write
  cases id with
  | some i => simp
  | none =>
    cases classes with
    | cons c l => simp
    | nil =>
      cases keys with
      | cons k l => simp
      | nil => simp at h

theorem write_count (l : Marks) : 1 + (l.classes.length + l.keys.length) ≤ l.write.length + 1 := by
  have h1 : ∀ l : List Bytes, l.length ≤ (l.flatMap fun c => b!" ." ++ c).length := by
    intro l
    induction l with
    | nil => simp
    | cons c l ih =>
      rw [List.flatMap_cons, List.length_append, List.length_cons, List.length_append]
      simp only [List.length_cons, List.length_nil]
      omega
  have h2 : ∀ l : List (Bytes × Bytes), l.length ≤ (l.flatMap fun k => b!" " ++ k.1 ++ b!"=\"" ++ k.2 ++ b!"\"").length := by
    intro l
    induction l with
    | nil => simp
    | cons c l ih =>
      rw [List.flatMap_cons, List.length_append, List.length_cons]
      have : 1 ≤ (b!" " ++ c.1 ++ b!"=\"" ++ c.2 ++ b!"\"").length := by
        simp only [List.length_append, List.length_cons, List.length_nil]
        omega
      omega
  have h1 := h1 l.classes
  have h2 := h2 l.keys
  unfold Marks.write
  rw [List.length_append, List.length_append]
  omega

theorem add_marked_text {c : Bytes} {l : Marks} (hc : c!"{" ∉ c) (h : l.Ok) (hne : l.id ≠ none ∨ l.classes ≠ [] ∨ l.keys ≠ []) :
    add none c (b!"[" ++ c ++ b!"] {:" ++ l.write ++ b!"}") = .val (some (b!" data-caption=\"" ++ c ++ b!"\"" ++ html (toAttrs l))) := by
  have hb := write_braces h
  have ha := attrs_at (a := b!"[" ++ c ++ b!"] ") (w := l.write) (by simp [hc]) hb.1 hb.2 (write_ne hne) (by have := h.2.2.2; omega)
  obtain ⟨m, _, hp⟩ := parse_marks h (l.write.length - (l.classes.length + l.keys.length)) (.inl rfl)
  have hcount := write_count l
  rw [show 1 + (l.classes.length + (l.keys.length + (l.write.length - (l.classes.length + l.keys.length)))) = l.write.length + 1 from by omega, List.append_nil, parse_nil] at hp
  rw [hp] at ha
  rw [show b!"[" ++ c ++ b!"] {:" ++ l.write ++ b!"}" = b!"[" ++ c ++ b!"] " ++ b!"{:" ++ l.write ++ b!"}" from by simp]
  unfold add
  rw [ha]
  rfl

/-! ### Safety -/

/-- Nothing, or a blank at the end. -/
def Tail (s : Bytes) : Prop := s = [] ∨ s.getLast? = some c!" "

theorem tail_suffix {s t : Bytes} (h : Tail s) (ht : t <:+ s) : Tail t := by
  obtain ⟨a, rfl⟩ := ht
  rcases h with h | h
  · exact .inl (List.append_eq_nil_iff.mp h).2
  · by_cases ht : t = []
    · exact .inl ht
    · right
      rw [List.getLast?_append] at h
      cases hl : t.getLast? with
      | none => exact absurd (List.getLast?_eq_none_iff.mp hl) ht
      | some x =>
        rw [hl] at h
        simpa using h

theorem quoted_suffix {q : Byte} (s : Bytes) {p : Bytes × Bytes} (h : quoted q s = some p) : p.2 <:+ s := by
  induction s using quoted.induct q generalizing p with
  | case1 => cases h
  | case2 =>
    unfold quoted at h
    rw [if_pos rfl] at h
    cases h
    exact List.nil_suffix
  | case3 c hc =>
    unfold quoted at h
    rw [if_neg hc] at h
    cases h
  | case4 d s =>
    unfold quoted at h
    rw [if_pos rfl] at h
    cases h
    exact List.suffix_cons _ _
  | case5 d s hq ih =>
    unfold quoted at h
    rw [if_neg hq, if_pos rfl] at h
    obtain ⟨p', h1, h2⟩ := Option.map_eq_some_iff.mp h
    subst h2
    exact (ih h1).trans ((List.suffix_cons _ _).trans (List.suffix_cons _ _))
  | case6 c d s hq hc ih =>
    unfold quoted at h
    rw [if_neg hq, if_neg hc] at h
    obtain ⟨p', h1, h2⟩ := Option.map_eq_some_iff.mp h
    subst h2
    exact (ih h1).trans (List.suffix_cons _ _)

theorem value_suffix (s : Bytes) : (value s).2 <:+ s := by
  unfold value
  split
  · exact List.nil_suffix
  · rename_i c r
    split
    · cases h : quoted c r with
      | none => exact List.nil_suffix
      | some p => exact (quoted_suffix r h).trans (List.suffix_cons _ _)
    · exact List.dropWhile_suffix _

theorem parse_safe : ∀ (n : Nat) (a : Attrs) (s : Bytes), Tail s → parse n a s ≠ .ub
  | 0, a, s, _ => by intro h; cases h
  | n + 1, a, s, hs => by
    unfold parse
    have h1 := tail_suffix hs (List.dropWhile_suffix isSpace)
    split
    · intro h; cases h
    · rename_i c r he
      rw [he] at h1
      have h2 := tail_suffix h1 (List.suffix_cons c r)
      split
      · exact parse_safe n _ _ (tail_suffix h2 (List.dropWhile_suffix _))
      · split
        · exact parse_safe n _ _ (tail_suffix h2 (List.dropWhile_suffix _))
        · split
          · rename_i hd
            exfalso
            rcases h1 with h1 | h1
            · cases h1
            · have hm : c!" " ∈ c :: r := List.mem_of_getLast? h1
              have hw := List.all_takeWhile (l := c :: r) (p := fun c : Byte => decide (c ≠ c!"=") && decide (c ≠ c!" ") && decide (c ≠ c!"\t") && decide (c ≠ c!"}"))
              have hsplit := List.takeWhile_append_dropWhile (l := c :: r) (p := fun c : Byte => decide (c ≠ c!"=") && decide (c ≠ c!" ") && decide (c ≠ c!"\t") && decide (c ≠ c!"}"))
              rw [hd, List.append_nil] at hsplit
              rw [hsplit] at hw
              have := List.all_eq_true.mp hw _ hm
              simp at this
          · rename_i d t hd
            have h3 : Tail (d :: t) := hd ▸ tail_suffix h1 (List.dropWhile_suffix _)
            have h4 := tail_suffix h3 (List.suffix_cons d t)
            split
            · exact parse_safe n _ _ (tail_suffix h4 (value_suffix t))
            · exact parse_safe n _ _ h4

theorem lastOpen_suffix {s r : Bytes} (h : lastOpen s = some r) : r <:+ s := by
  induction s generalizing r with
  | nil => cases h
  | cons c s ih =>
    unfold lastOpen at h
    split at h
    · rename_i x hx
      cases h
      exact (ih hx).trans (List.suffix_cons _ _)
    · split at h
      · split at h
        · cases h
          exact (List.drop_suffix 1 s).trans (List.suffix_cons _ _)
        · split at h
          · cases h
            exact List.suffix_cons _ _
          · cases h
      · cases h

theorem attrs_safe {t : Bytes} (h : Loose t) : attrsIn t ≠ .ub := by
  unfold attrsIn
  split
  · intro h; cases h
  · rename_i s hs
    obtain ⟨x, hx⟩ := lastOpen_suffix hs
    split
    · rename_i hm
      simp only
      split
      · intro h; cases h
      · have hsplit := List.takeWhile_append_dropWhile (p := fun c : Byte => decide (c ≠ c!"}")) (l := s)
        have hlen : (s.takeWhile fun c : Byte => decide (c ≠ c!"}")).length ≤ 2047 := by
          have h1 := (List.takeWhile_prefix (l := s) (fun c : Byte => decide (c ≠ c!"}"))).length_le
          have h2 : s.length ≤ t.length := by rw [← hx]; simp
          have := h.1
          omega
        rw [List.take_of_length_le hlen]
        have htail : Tail (s.takeWhile fun c : Byte => decide (c ≠ c!"}")) := by
          generalize s.takeWhile (fun c : Byte => decide (c ≠ c!"}")) = w at hsplit ⊢
          cases hd : s.dropWhile (fun c : Byte => decide (c ≠ c!"}")) with
          | nil =>
            exfalso
            rw [hd, List.append_nil] at hsplit
            have hw := List.all_takeWhile (l := s) (p := fun c : Byte => decide (c ≠ c!"}"))
            have hs2 := List.takeWhile_append_dropWhile (l := s) (p := fun c : Byte => decide (c ≠ c!"}"))
            rw [hd, List.append_nil] at hs2
            rw [hs2] at hw
            have := List.all_eq_true.mp hw _ hm
            simp at this
          | cons d r =>
            have hd1 : d = c!"}" := by
              have := List.head?_dropWhile_not (fun c : Byte => decide (c ≠ c!"}")) s
              rw [hd] at this
              simpa using this
            subst hd1
            have := h.2 (x ++ w) r (by rw [← hx, ← hsplit, hd]; simp)
            exact tail_suffix (.inr this) (List.suffix_append x w)
        have := parse_safe ((s.takeWhile fun c : Byte => decide (c ≠ c!"}")).length + 1) {} _ htail
        cases hp : parse ((s.takeWhile fun c : Byte => decide (c ≠ c!"}")).length + 1) {} (s.takeWhile fun c : Byte => decide (c ≠ c!"}")) with
        | ub => exact absurd hp this
        | val a => intro h; cases h
    · intro h; cases h

theorem add_safe {t : Bytes} (h : Loose t) (d : Option Bytes) (cap : Bytes) : add d cap t ≠ .ub := by
  unfold add
  cases ha : attrsIn t with
  | ub => exact absurd ha (attrs_safe h)
  | val a =>
    rw [C.val_bind]
    split <;> (intro h; cases h)

/-- Only paragraphs matter above a table. -/
def LoosePara : Block → Prop
  | .para ks _ => Loose (text ks)
  | _ => True

theorem loose_taken {a b : Block} (h : Taken a b) (ha : LooseBlock a) : LooseBlock b := by
  rcases h with rfl | ⟨ks, d, rfl, _, rfl⟩
  · exact ha
  · exact ha

theorem loosePara_taken {a b : Block} (h : Taken a b) (ha : LoosePara a) : LoosePara b := by
  rcases h with rfl | ⟨ks, d, rfl, _, rfl⟩
  · exact ha
  · exact ha

theorem each_all {P : Block → Prop} {l m : List Block} (hP : ∀ a b, Taken a b → P a → P b) (h : Each Taken l m) (hl : ∀ b ∈ l, P b) : ∀ b ∈ m, P b := by
  induction h with
  | nil => intro b hb; cases hb
  | cons h1 _ ih =>
    intro b hb
    rcases List.mem_cons.mp hb with rfl | hb
    · exact hP _ _ h1 (hl _ (by simp))
    · exact ih (fun x hx => hl x (List.mem_cons_of_mem _ hx)) b hb

theorem above_safe {l : List Block} (h : ∀ b ∈ l, LoosePara b) (d : Option Bytes) : above d l ≠ .ub := by
  induction l with
  | nil => intro h; cases h
  | cons b l ih =>
    have ih := ih fun x hx => h x (List.mem_cons_of_mem _ hx)
    have hb := h b (by simp)
    cases ha : above d l with
    | ub => exact absurd ha ih
    | val y =>
      cases b with
      | para ks pd =>
        unfold above
        simp only [ha]
        split
        · intro h; cases h
        · split
          · rename_i cap _
            cases hadd : add d cap (texts ks) with
            | ub => exact absurd hadd (add_safe hb d cap)
            | val d' => intro h; cases h
          · intro h; cases h
      | heading s =>
        unfold above
        rw [ha]
        intro h; cases h
      | table rows td => intro h; cases h
      | other s => intro h; cases h

theorem below_safe {l : List Block} (h : ∀ b ∈ l, LooseBlock b) (d : Option Bytes) : below d l ≠ .ub := by
  unfold below
  split
  · rename_i ks pd r
    split
    · intro h; cases h
    · split
      · rename_i cap _
        cases hadd : add d cap (texts ks) with
        | ub => exact absurd hadd (add_safe (h (.para ks pd) (by simp)) d cap)
        | val d' => intro h; cases h
      · intro h; cases h
  · intro h; cases h

theorem capText_mem {l : List Cell} {t : Bytes} (h : capText l = some t) : ∃ c ∈ l, ∃ ks, c.kids = .text t :: ks := by
  induction l with
  | nil => cases h
  | cons c l ih =>
    have next : capText l = some t → ∃ c' ∈ c :: l, ∃ ks, c'.kids = .text t :: ks := by
      intro h
      obtain ⟨c', h1, h2⟩ := ih h
      exact ⟨c', List.mem_cons_of_mem _ h1, h2⟩
    unfold capText at h
    split at h
    · rename_i x t' hc
      split at h
      · cases h
        unfold cellText at hc
        split at hc
        · rename_i s ks hk
          cases hc
          exact ⟨c, by simp, ks, hk⟩
        · cases hc
      · exact next h
    · exact next h

theorem inRows_safe {rows : List Row} (h : ∀ r ∈ rows, ∀ c ∈ r.cells, ∀ s ks, c.kids = .text s :: ks → Loose s) (d : Option Bytes) : inRows d rows ≠ .ub := by
  induction rows with
  | nil => intro h; cases h
  | cons r rs ih =>
    have ih := ih fun x hx => h x (List.mem_cons_of_mem _ hx)
    unfold inRows
    split
    · split
      · rename_i t ht
        obtain ⟨c, hc, ks, hk⟩ := capText_mem ht
        cases hadd : add d ((t.drop 1).takeWhile (· ≠ c!"]")) t with
        | ub => exact absurd hadd (add_safe (h r (by simp) c hc t ks hk) d _)
        | val d' => intro h; cases h
      · intro h; cases h
    · cases ha : inRows d rs with
      | ub => exact absurd ha ih
      | val y => intro h; cases h

theorem run_safe : ∀ (n : Nat) (done post : List Block), post.length ≤ n → (∀ b ∈ done, LoosePara b) → (∀ b ∈ post, LooseBlock b) → run done post ≠ .ub
  | _, done, [], _, _, _ => by intro h; cases h
  | 0, _, _ :: _, hl, _, _ => by simp at hl
  | n + 1, done, b :: post, hl, hd, hp => by
    simp only [List.length_cons] at hl
    have hp' : ∀ x ∈ post, LooseBlock x := fun x hx => hp x (List.mem_cons_of_mem _ hx)
    have hb := hp b (by simp)
    have skip : (∀ rows d, b ≠ .table rows d) → LoosePara b → run done (b :: post) ≠ .ub := by
      intro ht hb
      rw [run_skip ht]
      refine run_safe n _ _ (by omega) ?_ hp'
      intro x hx
      rcases List.mem_cons.mp hx with rfl | hx
      · exact hb
      · exact hd x hx
    cases b with
    | table rows d =>
      rw [run_table]
      cases ha : above d done with
      | ub => exact absurd ha (above_safe hd d)
      | val x =>
        rw [bind_val]
        cases hbl : below x.2 post with
        | ub => exact absurd hbl (below_safe hp' x.2)
        | val y =>
          rw [bind_val]
          cases hz : inRows y.2 rows with
          | ub => exact absurd hz (inRows_safe hb y.2)
          | val z =>
            rw [bind_val]
            refine run_safe n _ _ (by rw [below_length hbl]; omega) ?_ (each_all (fun _ _ => loose_taken) (below_kept hbl).1 hp')
            intro w hw
            rcases List.mem_cons.mp hw with rfl | hw
            · trivial
            · exact each_all (fun _ _ => loosePara_taken) (above_kept ha).1 hd w hw
    | para ks d => exact skip (by intro _ _ h; cases h) hb
    | heading s => exact skip (by intro _ _ h; cases h) trivial
    | other s => exact skip (by intro _ _ h; cases h) trivial

/-- A word alone at the end of the content. -/
theorem parse_word {w : Bytes} (h : Name w) (n : Nat) (a : Attrs) : parse (n + 1) a w = .ub := by
  have hs := (span_next (p := fun c : Byte => decide (c ≠ c!"=") && decide (c ≠ c!" ") && decide (c ≠ c!"\t") && decide (c ≠ c!"}")) (w := w) (r := []) (by
      intro c hc
      obtain ⟨_, _, _, h4, h5, h6, h7, _⟩ := name_byte (h.2 c hc)
      simp [h4, h5, h6, h7]) (by decide) (.inl rfl)).2
  rw [List.append_nil] at hs
  obtain ⟨hne, hk⟩ := h
  cases w with
  | nil => exact absurd rfl hne
  | cons c k =>
    obtain ⟨h1, h2, h3, _⟩ := name_byte (hk c (by simp))
    unfold parse
    rw [List.dropWhile_cons_of_neg (by simp [h1])]
    simp only [h2, h3, if_false]
    rw [hs]

theorem parse_append {l : Marks} (h : l.Ok) {w : Bytes} (hw : Name w) : parse ((l.write ++ b!" " ++ w).length + 1) {} (l.write ++ b!" " ++ w) = .ub := by
  have hcount := write_count l
  obtain ⟨m, hm, hp⟩ := parse_marks h ((l.write ++ b!" " ++ w).length - (l.classes.length + l.keys.length)) (r := b!" " ++ w) (.inr rfl)
  have hlen : (l.write ++ b!" " ++ w).length = l.write.length + 1 + w.length := by simp only [List.length_append, List.length_cons, List.length_nil]
  rw [show 1 + (l.classes.length + (l.keys.length + ((l.write ++ b!" " ++ w).length - (l.classes.length + l.keys.length)))) = (l.write ++ b!" " ++ w).length + 1 from by omega, ← List.append_assoc] at hp
  rw [hp]
  show parse m _ (c!" " :: w) = _
  rw [parse_blank]
  cases m with
  | zero => omega
  | succ m => exact parse_word hw m _

theorem add_word {c w : Bytes} {l : Marks} (hc : c!"{" ∉ c) (h : l.Ok) (hw : Name w) (hl : w.length < 40) (d : Option Bytes) :
    add d c (b!"[" ++ c ++ b!"] {:" ++ (l.write ++ b!" " ++ w) ++ b!"}") = .ub := by
  have hb := write_braces h
  have hwb := name_mem hw
  have ha := attrs_at (a := b!"[" ++ c ++ b!"] ") (w := l.write ++ b!" " ++ w) (by simp [hc]) (by simp [hb.1, hwb.1]) (by simp [hb.2, hwb.2]) (by simp) (by
    have := h.2.2.2
    simp only [List.length_append, List.length_cons, List.length_nil]
    omega)
  rw [parse_append h hw] at ha
  rw [show b!"[" ++ c ++ b!"] {:" ++ (l.write ++ b!" " ++ w) ++ b!"}" = b!"[" ++ c ++ b!"] " ++ b!"{:" ++ (l.write ++ b!" " ++ w) ++ b!"}" from by simp]
  unfold add
  rw [ha]
  rfl

end Verif.TableCaps
