import Verif.Spec.Colspans
import Verif.Proof.FencedDivs

namespace Verif.Colspans

open Spec
open FencedDivs (Buf Buf.store inLine)

/-! ### Writes -/

theorem room_store (b : Buf) (h : b.out.length ≤ b.cap) (needed size : Nat) (s : Bytes) (hs : s.length ≤ needed) (hz : b.out.length + needed ≤ size) :
    ∃ c, (room b needed size).store s = .val ⟨b.out ++ s, c⟩ ∧ b.out.length + needed ≤ c := by
  unfold room
  by_cases hn : b.cap - b.out.length < needed
  · refine ⟨size, ?_, hz⟩
    rw [if_pos hn, Buf.store, if_pos (by simp only; omega)]
  · refine ⟨b.cap, ?_, by omega⟩
    rw [if_neg hn, Buf.store, if_pos (by omega)]

theorem marks_ok (left : Nat) (hl : 1 ≤ left) (k : Nat) (b : Buf) (h : b.out.length ≤ b.cap) :
    ∃ c, marks left k b = .val ⟨b.out ++ (List.replicate k b!" << |").flatten, c⟩ ∧ (b.out ++ (List.replicate k b!" << |").flatten).length ≤ c := by
  induction k generalizing b with
  | zero => exact ⟨b.cap, by simp [marks], by simpa using h⟩
  | succ k ih =>
    obtain ⟨c, w1, w2⟩ := room_store b h 5 ((b.out.length + left * 2 + 1) * 2) b!" << |" (by decide) (by omega)
    rw [marks, w1]
    simp only
    obtain ⟨c', i1, i2⟩ := ih ⟨b.out ++ b!" << |", c⟩ (by simpa using w2)
    refine ⟨c', ?_, ?_⟩
    · rw [i1]; simp [List.replicate_succ]
    · simpa [List.replicate_succ] using i2

/-! ### Rows -/

/-- The rest of a row gives the bytes. -/
def Gives (n : Nat) (cur o : Bytes) : Prop :=
  ∀ b : Buf, b.out.length ≤ b.cap → ∃ c, row n b cur = .val ⟨b.out ++ o, c⟩ ∧ (b.out ++ o).length ≤ c

theorem gives_nil (n : Nat) : Gives (n + 1) [] [] := fun b h => ⟨b.cap, by simp [row], by simpa using h⟩

theorem gives_char {n : Nat} {c : Byte} {t o : Bytes} (hc : ((c :: t).takeWhile (· == c!"|")).length < 2) (h : Gives n t o) : Gives (n + 1) (c :: t) (c :: o) := by
  intro b hb
  obtain ⟨c1, w1, w2⟩ := room_store b hb 1 ((b.out.length + (c :: t).length + 1) * 2) [c] (by simp) (by omega)
  rw [row]
  rw [if_neg (by omega), w1]
  simp only
  obtain ⟨c2, i1, i2⟩ := h ⟨b.out ++ [c], c1⟩ (by simpa using w2)
  exact ⟨c2, by rw [i1]; simp, by simpa using i2⟩

theorem pipes_run (k : Nat) (rest : Bytes) (h : rest.head? ≠ some c!"|") :
    (List.replicate k c!"|" ++ rest).takeWhile (· == c!"|") = List.replicate k c!"|" := by
  rw [List.takeWhile_append_of_pos (by intro c hc; rw [List.eq_of_mem_replicate hc]; decide)]
  cases rest with
  | nil => simp
  | cons d r =>
    have : d ≠ c!"|" := fun e => h (by rw [e]; rfl)
    rw [List.takeWhile_cons_of_neg (by simpa using this), List.append_nil]

theorem gives_pipes {n k : Nat} {rest o : Bytes} (hk : 1 ≤ k) (hr : rest.head? ≠ some c!"|") (h : Gives n rest o) :
    Gives (n + 1) (List.replicate k c!"|" ++ rest) (c!"|" :: (List.replicate (k - 1) b!" << |").flatten ++ o) := by
  obtain ⟨j, rfl⟩ : ∃ j, k = j + 1 := ⟨k - 1, by omega⟩
  cases j with
  | zero =>
    have := gives_char (c := c!"|") (t := rest) (by
      have := pipes_run 1 rest hr
      simp only [List.replicate_succ, List.replicate_zero, List.cons_append, List.nil_append] at this
      rw [this]; decide) h
    simpa using this
  | succ j =>
    intro b hb
    have e : List.replicate (j + 1 + 1) c!"|" ++ rest = c!"|" :: (List.replicate (j + 1) c!"|" ++ rest) := by simp [List.replicate_succ]
    have ep := pipes_run (j + 1 + 1) rest hr
    have ed : (List.replicate (j + 1 + 1) c!"|" ++ rest).drop (j + 1 + 1) = rest := by
      have := List.drop_left (l₁ := List.replicate (j + 1 + 1) c!"|") (l₂ := rest)
      rwa [List.length_replicate] at this
    rw [e] at ep ed ⊢
    rw [row]
    rw [ep, List.length_replicate, if_pos (by omega)]
    have hlen : 1 ≤ (c!"|" :: (List.replicate (j + 1) c!"|" ++ rest)).length := by simp
    obtain ⟨c1, w1, w2⟩ := room_store b hb 5 ((b.out.length + (c!"|" :: (List.replicate (j + 1) c!"|" ++ rest)).length * 2 + 1) * 2) b!"|" (by decide) (by omega)
    rw [w1]
    simp only
    obtain ⟨c2, m1, m2⟩ := marks_ok _ hlen (j + 1 + 1 - 1) ⟨b.out ++ b!"|", c1⟩ (by simp only [List.length_append, List.length_cons, List.length_nil]; omega)
    rw [m1]
    simp only
    rw [ed]
    obtain ⟨c3, i1, i2⟩ := h ⟨_, c2⟩ m2
    exact ⟨c3, by rw [i1]; simp, by simpa using i2⟩

theorem gives_text (text : Bytes) (h : c!"|" ∉ text) {n : Nat} {rest o : Bytes} (g : Gives n rest o) : Gives (text.length + n) (text ++ rest) (text ++ o) := by
  induction text with
  | nil => simpa using g
  | cons c t ih =>
    have hc : c ≠ c!"|" := fun e => h (by simp [e])
    have := gives_char (c := c) (by rw [List.takeWhile_cons_of_neg (by simpa using hc)]; decide) (ih fun hm => h (by simp [hm]))
    rwa [show (c :: t).length + n = t.length + n + 1 by simp only [List.length_cons]; omega]

theorem gives_row (r : Row) (h : r.Ok) (n : Nat) (hn : r.line.length < n) : Gives n r.line r.out := by
  obtain ⟨cells, rest⟩ := r
  obtain ⟨h1, h2, h3⟩ := h
  simp only at h1 h2 h3
  induction cells generalizing n with
  | nil =>
    simp only [Row.line, Row.out, List.flatMap_nil, List.nil_append] at hn ⊢
    have := gives_text rest h3 (gives_nil (n - rest.length - 1))
    rw [List.append_nil] at this
    rwa [show rest.length + (n - rest.length - 1 + 1) = n by omega] at this
  | cons c cells ih =>
    obtain ⟨a, k⟩ := c
    obtain ⟨c1, c2⟩ := h1 (a, k) (by simp)
    simp only at c1 c2
    have e : (Row.mk ((a, k) :: cells) rest).line = a ++ (List.replicate k c!"|" ++ (Row.mk cells rest).line) := by simp [Row.line]
    have e2 : (Row.mk ((a, k) :: cells) rest).out = a ++ (c!"|" :: (List.replicate (k - 1) b!" << |").flatten ++ (Row.mk cells rest).out) := by simp [Row.out]
    rw [e] at hn ⊢
    rw [e2]
    simp only [List.length_append, List.length_replicate] at hn
    have hd : (Row.mk cells rest).line.head? ≠ some c!"|" := by
      intro hh
      have hmem : c!"|" ∉ rest := h3
      cases cells with
      | nil =>
        simp only [Row.line, List.flatMap_nil, List.nil_append] at hh
        exact h3 (List.mem_of_head? hh)
      | cons d cells =>
        obtain ⟨d1, d2⟩ := h1 d (by simp)
        have d3 := h2 d (by simp)
        obtain ⟨x, t, hx⟩ := List.exists_cons_of_ne_nil d3
        simp only [Row.line, List.flatMap_cons, hx, List.cons_append, List.head?_cons, Option.some.injEq] at hh
        exact d1 (by rw [hx, hh]; simp)
    have g := ih (n - a.length - 1) (by omega) (fun x hx => h1 x (by simp [hx])) (fun x hx => h2 x (List.mem_of_mem_tail hx))
    have := gives_text a c1 (gives_pipes c2 hd g)
    rwa [show a.length + (n - a.length - 1 + 1) = n by omega] at this

/-- Every line is a row. -/
theorem exists_row (s : Bytes) : ∃ r : Row, r.Ok ∧ s = r.line := by
  induction s with
  | nil => exact ⟨⟨[], []⟩, ⟨by simp, by simp, by simp⟩, rfl⟩
  | cons c t ih =>
    obtain ⟨⟨cells, rest⟩, ⟨h1, h2, h3⟩, rfl⟩ := ih
    simp only at h1 h2 h3
    by_cases hc : c = c!"|"
    · subst hc
      cases cells with
      | nil => exact ⟨⟨[([], 1)], rest⟩, ⟨by simp, by simp, h3⟩, by simp [Row.line]⟩
      | cons d cells =>
        obtain ⟨a, k⟩ := d
        by_cases ha : a = []
        · subst ha
          refine ⟨⟨([], k + 1) :: cells, rest⟩, ⟨?_, h2, h3⟩, by simp [Row.line, List.replicate_succ]⟩
          intro x hx
          rcases List.mem_cons.1 hx with rfl | hx
          · exact ⟨by simp, by simp⟩
          · exact h1 x (by simp [hx])
        · refine ⟨⟨([], 1) :: (a, k) :: cells, rest⟩, ⟨?_, ?_, h3⟩, by simp [Row.line]⟩
          · intro x hx
            rcases List.mem_cons.1 hx with rfl | hx
            · exact ⟨by simp, by simp⟩
            · exact h1 x hx
          · intro x hx
            simp only [List.tail_cons, List.mem_cons] at hx
            rcases hx with rfl | hx
            · exact ha
            · exact h2 x hx
    · cases cells with
      | nil => exact ⟨⟨[], c :: rest⟩, ⟨by simp, by simp, by simp only [List.mem_cons, not_or]; exact ⟨fun e => hc e.symm, h3⟩⟩, by simp [Row.line]⟩
      | cons d cells =>
        obtain ⟨a, k⟩ := d
        refine ⟨⟨(c :: a, k) :: cells, rest⟩, ⟨?_, h2, h3⟩, by simp [Row.line]⟩
        intro x hx
        rcases List.mem_cons.1 hx with rfl | hx
        · obtain ⟨d1, d2⟩ := h1 (a, k) (by simp)
          exact ⟨by simp only [List.mem_cons, not_or]; exact ⟨fun e => hc e.symm, d1⟩, d2⟩
        · exact h1 x (by simp [hx])

theorem row_plain (r : Row) (h : r.Ok) (hp : c!"|" ∉ r.line) : r.out = r.line := by
  obtain ⟨cells, rest⟩ := r
  cases cells with
  | nil => rfl
  | cons c cells =>
    obtain ⟨-, d2⟩ := h.1 c (by simp)
    exfalso
    apply hp
    simp only [Row.line, List.flatMap_cons, List.mem_append]
    exact Or.inl (Or.inl (Or.inr (List.mem_replicate.2 ⟨by omega, rfl⟩)))

/-! ### Lines -/

theorem fence_iff (s : Bytes) : fence s = true ↔ Fence s := by
  unfold fence Fence
  simp only [Bool.or_eq_true, List.isPrefixOf_iff_prefix]
  constructor
  · intro h
    have hs := List.takeWhile_append_dropWhile (p := fun c : Byte => c == 32 || c == 9) (l := s)
    refine ⟨s.takeWhile fun c => c == 32 || c == 9, ?_⟩
    have hb : ∀ c ∈ s.takeWhile (fun c : Byte => c == 32 || c == 9), c = 32 ∨ c = 9 := by
      intro c hc
      simpa using List.all_eq_true.1 List.all_takeWhile c hc
    rcases h with ⟨r, h⟩ | ⟨r, h⟩
    · exact ⟨r, hb, Or.inl (by rw [List.append_assoc, h, hs])⟩
    · exact ⟨r, hb, Or.inr (by rw [List.append_assoc, h, hs])⟩
  · rintro ⟨a, r, ha, h⟩
    have hp : ∀ c ∈ a, (c == 32 || c == 9) = true := by intro c hc; simpa using ha c hc
    rcases h with rfl | rfl
    · left
      rw [List.append_assoc, List.dropWhile_append_of_pos hp]
      rw [show b!"```" ++ r = c!"`" :: (b!"``" ++ r) from rfl, List.dropWhile_cons_of_neg (by decide)]
      exact ⟨r, rfl⟩
    · right
      rw [List.append_assoc, List.dropWhile_append_of_pos hp]
      rw [show b!"~~~" ++ r = c!"~" :: (b!"~~" ++ r) from rfl, List.dropWhile_cons_of_neg (by decide)]
      exact ⟨r, rfl⟩

theorem line_split (l e rest : Bytes) (h10 : 10 ∉ l) (h13 : 13 ∉ l) (he : Eol e) :
    (l ++ e ++ rest).takeWhile inLine = l ∧ (l ++ e ++ rest).dropWhile inLine = e ++ rest := by
  have hp : ∀ c ∈ l, inLine c = true := by
    intro c hc
    unfold inLine
    simp
    exact ⟨fun e => h10 (e ▸ hc), fun e => h13 (e ▸ hc)⟩
  rw [List.append_assoc, List.takeWhile_append_of_pos hp, List.dropWhile_append_of_pos hp]
  rcases he with rfl | rfl | rfl
  · constructor
    · rw [List.cons_append, List.takeWhile_cons_of_neg (by decide), List.append_nil]
    · rw [List.cons_append, List.dropWhile_cons_of_neg (by decide)]
  · constructor
    · rw [List.cons_append, List.takeWhile_cons_of_neg (by decide), List.append_nil]
    · rw [List.cons_append, List.dropWhile_cons_of_neg (by decide)]
  · constructor
    · rw [List.cons_append, List.takeWhile_cons_of_neg (by decide), List.append_nil]
    · rw [List.cons_append, List.dropWhile_cons_of_neg (by decide)]

theorem eol_of (e rest : Bytes) (he : Eol e) (h : e = [13] → rest.head? ≠ some 10) : eol (e ++ rest) = (e, rest) := by
  rcases he with rfl | rfl | rfl
  · simp [eol]
  · cases rest with
    | nil => simp [eol]
    | cons d r =>
      have : d ≠ 10 := fun e => h rfl (by rw [e]; rfl)
      simp [eol, this]
  · simp [eol]

theorem apart_head {l : Row × Bytes} {ls : List (Row × Bytes)} (h : Apart (l :: ls)) (hne : ∀ x ∈ ls, x.2 ≠ []) : l.2 = [13] → (source ls).head? ≠ some 10 := by
  intro hl
  cases ls with
  | nil => simp [source]
  | cons b r =>
    have := h.1 hl
    simp only [source, List.flatMap_cons]
    have hb := hne b (by simp)
    intro hh
    apply this
    cases hx : b.1.line ++ b.2 with
    | nil => simp at hx; exact absurd hx.2 hb
    | cons y t =>
      rw [hx] at hh
      simpa using hh

theorem Apart_tail {l : Row × Bytes} {ls : List (Row × Bytes)} (h : Apart (l :: ls)) : Apart ls := by
  cases ls with
  | nil => trivial
  | cons b r => exact h.2

theorem loop_lines (ls : List (Row × Bytes)) (h : Ok ls) (n : Nat) (hn : (source ls).length < n) (code : Bool) (b : Buf)
    (hb : b.out.length < b.cap) : ∃ c, loop n code b (source ls) = .val ⟨b.out ++ result code ls, c⟩ ∧ (b.out ++ result code ls).length < c := by
  classical
  induction ls generalizing n code b with
  | nil =>
    obtain ⟨n, rfl⟩ : ∃ m, n = m + 1 := ⟨n - 1, by omega⟩
    exact ⟨b.cap, by simp [loop, source, result], by simpa [result] using hb⟩
  | cons l ls ih =>
    obtain ⟨n, rfl⟩ : ∃ m, n = m + 1 := ⟨n - 1, by omega⟩
    obtain ⟨l, e⟩ := l
    obtain ⟨g1, g2⟩ := h
    obtain ⟨k1, k2, k3, k4⟩ := g1 (l, e) (by simp)
    simp only at k1 k2 k3 k4
    have es : source ((l, e) :: ls) = l.line ++ e ++ source ls := by simp [source]
    have elen : 1 ≤ e.length := by rcases k4 with rfl | rfl | rfl <;> simp
    have hne : ∀ x ∈ ls, x.2 ≠ [] := by
      intro x hx hz
      have := (g1 x (by simp [hx])).2.2.2
      rw [hz] at this
      rcases this with h | h | h <;> simp at h
    obtain ⟨s1, s2⟩ := line_split l.line e (source ls) k2 k3 k4
    rw [es] at hn ⊢
    simp only [List.length_append] at hn
    rw [loop, if_neg (by
      intro hz
      have := congrArg List.length hz
      simp only [List.length_append, List.length_nil] at this
      omega)]
    simp only [s1, s2, eol_of e (source ls) k4 (apart_head g2 hne)]
    have hcode : (if fence l.line then !code else code) = (if Fence l.line then !code else code) := by
      by_cases hf : Fence l.line
      · rw [if_pos hf, if_pos ((fence_iff _).2 hf)]
      · rw [if_neg hf, if_neg fun hh => hf ((fence_iff _).1 hh)]
    have er : result code ((l, e) :: ls) = (if (if Fence l.line then !code else code) then l.line else l.out) ++ e ++
        result (if Fence l.line then !code else code) ls := rfl
    rw [er, hcode]
    generalize (if Fence l.line then !code else code) = code'
    have step : ∃ c, (if !code' && l.line.contains c!"|" then row (l.line.length + 1) b l.line
        else (room b l.line.length ((b.out.length + l.line.length + 1) * 2)).store l.line) =
          .val ⟨b.out ++ (if code' then l.line else l.out), c⟩ ∧ (b.out ++ (if code' then l.line else l.out)).length ≤ c := by
      obtain ⟨c1, w1, w2⟩ := room_store b (by omega) l.line.length ((b.out.length + l.line.length + 1) * 2) l.line (Nat.le_refl _) (by omega)
      cases code' with
      | true => exact ⟨c1, by simpa using w1, by simpa using w2⟩
      | false =>
        by_cases hp : c!"|" ∈ l.line
        · rw [if_pos (by simpa using hp)]
          exact gives_row l k1 _ (by omega) b (by omega)
        · rw [if_neg (by simpa using hp)]
          simp only [Bool.false_eq_true, if_false]
          rw [row_plain l k1 hp]
          exact ⟨c1, w1, by simpa using w2⟩
    obtain ⟨c1, t1, t2⟩ := step
    rw [t1]
    simp only
    rw [if_neg (by intro hz; rw [hz] at elen; simp at elen)]
    obtain ⟨c2, v1, v2⟩ := room_store ⟨b.out ++ (if code' then l.line else l.out), c1⟩ t2 3
      (((b.out ++ (if code' then l.line else l.out)).length + 10) * 2) e (by rcases k4 with rfl | rfl | rfl <;> decide) (by simp only; omega)
    rw [v1]
    simp only
    obtain ⟨c3, i1, i2⟩ := ih ⟨fun x hx => g1 x (by simp [hx]), Apart_tail g2⟩ n (by omega) code'
      ⟨b.out ++ (if code' then l.line else l.out) ++ e, c2⟩ (by
        simp only [List.length_append] at v2 ⊢
        rcases k4 with rfl | rfl | rfl <;> simp only [List.length_cons, List.length_nil] <;> omega)
    exact ⟨c3, by rw [i1]; simp, by simpa using i2⟩

theorem process_lines (ls : List (Row × Bytes)) (h : Ok ls) (h0 : 0 ∉ result false ls) : process (source ls) = .val (result false ls) := by
  obtain ⟨c, w1, w2⟩ := loop_lines ls h ((source ls).length + 1) (by omega) false ⟨[], (source ls).length * 2 + 1⟩ (by simp)
  unfold process
  rw [w1]
  simp only [List.nil_append] at w2 ⊢
  rw [Buf.store, if_pos (by simp only [List.length_cons, List.length_nil]; omega)]
  simp only
  rw [List.takeWhile_append_of_pos (by intro c hm; simp; intro e; exact h0 (e ▸ hm))]
  simp

theorem row_out_mem (r : Row) (c : Byte) (h : c ∈ r.out) : c ∈ r.line ∨ c ∈ b!"| <" := by
  obtain ⟨cells, rest⟩ := r
  simp only [Row.out, Row.line, List.mem_append, List.mem_flatMap, List.mem_cons, List.mem_flatten] at h ⊢
  rcases h with ⟨x, hx, h | h | ⟨m, hm, h⟩⟩ | h
  · exact Or.inl (Or.inl ⟨x, hx, Or.inl h⟩)
  · subst h; right; simp
  · right
    rw [List.eq_of_mem_replicate hm] at h
    revert h
    simp
    rintro (rfl | rfl | rfl | rfl) <;> simp
  · exact Or.inl (Or.inr h)

theorem result_clean (ls : List (Row × Bytes)) (h0 : 0 ∉ source ls) (code : Bool) : 0 ∉ result code ls := by
  classical
  induction ls generalizing code with
  | nil => simp [result]
  | cons l ls ih =>
    simp only [source, List.flatMap_cons, List.mem_append, not_or] at h0
    simp only [result, List.mem_append, not_or]
    refine ⟨⟨?_, h0.1.2⟩, ih h0.2 _⟩
    generalize (if Fence l.1.line then !code else code) = c
    cases c with
    | true => simpa using h0.1.1
    | false =>
      simp only [Bool.false_eq_true, if_false]
      intro hm
      rcases row_out_mem l.1 0 hm with h | h
      · exact h0.1.1 h
      · exact absurd h (by decide)

/-! ### Every text has lines -/

theorem exists_lines (s : Bytes) (h : s = [] ∨ s.getLast? = some 10 ∨ s.getLast? = some 13) : ∃ ls, Ok ls ∧ s = source ls := by
  suffices hh : ∀ n (s : Bytes), s.length ≤ n → (s = [] ∨ s.getLast? = some 10 ∨ s.getLast? = some 13) → ∃ ls, Ok ls ∧ s = source ls from
    hh _ s (Nat.le_refl _) h
  intro n
  induction n with
  | zero =>
    intro s hs _
    have : s = [] := List.length_eq_zero_iff.1 (by omega)
    exact ⟨[], ⟨by simp, trivial⟩, by rw [this]; rfl⟩
  | succ n ih =>
    intro s hs hl
    have hsp := List.takeWhile_append_dropWhile (p := inLine) (l := s)
    have hin : ∀ c ∈ s.takeWhile inLine, c ≠ 10 ∧ c ≠ 13 := by
      intro c hc
      have := List.all_eq_true.1 (List.all_takeWhile (p := inLine) (l := s)) c hc
      simpa [inLine] using this
    cases hd : s.dropWhile inLine with
    | nil =>
      rw [hd, List.append_nil] at hsp
      rcases hl with rfl | hl | hl
      · exact ⟨[], ⟨by simp, trivial⟩, rfl⟩
      · have := hin 10 (by rw [hsp]; exact List.mem_of_getLast? hl)
        exact absurd rfl this.1
      · have := hin 13 (by rw [hsp]; exact List.mem_of_getLast? hl)
        exact absurd rfl this.2
    | cons c t =>
      rw [hd] at hsp
      have hc := FencedDivs.head_dropWhile (p := inLine) (s := s) (c := c) (by rw [hd]; rfl)
      generalize s.takeWhile inLine = l at hsp hin
      obtain ⟨r, r1, r2⟩ := exists_row l
      have k10 : 10 ∉ r.line := fun hm => (hin 10 (r2 ▸ hm)).1 rfl
      have k13 : 13 ∉ r.line := fun hm => (hin 13 (r2 ▸ hm)).2 rfl
      have key : ∀ e rest, c :: t = e ++ rest → Eol e → (e = [13] → rest.head? ≠ some 10) → ∃ ls, Ok ls ∧ s = source ls := by
        intro e rest he1 he2 he3
        have hlast : rest = [] ∨ rest.getLast? = some 10 ∨ rest.getLast? = some 13 := by
          cases rest with
          | nil => exact Or.inl rfl
          | cons x y =>
            right
            have : s.getLast? = (x :: y).getLast? := by
              rw [← hsp, he1, ← List.append_assoc, List.getLast?_append, List.getLast?_cons]; rfl
            rw [← this]
            rcases hl with hl | hl
            · rw [hl] at hsp; simp at hsp
            · exact hl
        have hlen : rest.length ≤ n := by
          rw [← hsp, he1] at hs
          simp only [List.length_append] at hs
          have : 1 ≤ e.length := by rcases he2 with rfl | rfl | rfl <;> simp
          omega
        obtain ⟨ls, o1, o2⟩ := ih rest hlen hlast
        refine ⟨(r, e) :: ls, ⟨?_, ?_⟩, ?_⟩
        · intro x hx
          rcases List.mem_cons.1 hx with rfl | hx
          · exact ⟨r1, k10, k13, he2⟩
          · exact o1.1 x hx
        · cases ls with
          | nil => trivial
          | cons b ls =>
            refine ⟨fun h13 hh => he3 h13 ?_, o1.2⟩
            rw [o2]
            simp only [source, List.flatMap_cons]
            cases hx : b.1.line ++ b.2 with
            | nil => rw [hx] at hh; simp at hh
            | cons y z => rw [hx] at hh; simpa using hh
        · rw [← hsp, he1, o2, r2]
          simp [source]
      have hcc : c = 10 ∨ c = 13 := by
        unfold inLine at hc
        simp at hc
        by_cases h : c = 10
        · exact Or.inl h
        · exact Or.inr (hc h)
      rcases hcc with rfl | rfl
      · exact key [10] t rfl (Or.inl rfl) (by simp)
      · cases t with
        | nil => exact key [13] [] rfl (Or.inr (Or.inl rfl)) (by simp)
        | cons d t =>
          by_cases h10 : d = 10
          · subst h10
            exact key [13, 10] t rfl (Or.inr (Or.inr rfl)) (by simp)
          · exact key [13] (d :: t) rfl (Or.inr (Or.inl rfl)) (by simpa using h10)

end Verif.Colspans
