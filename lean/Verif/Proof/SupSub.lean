import Verif.Spec.SupSub
import Verif.Proof.Highlight

namespace Verif.SupSub

open Spec Highlight

theorem at0_zero_of_ne {t : Bytes} {d : Byte} (h : at0 t 0 = d) (h0 : d ≠ 0) : ∃ u, t = d :: u := by
  cases t with
  | nil => exact absurd h.symm (by simpa [at0] using h0)
  | cons e u => exact ⟨u, by simpa [at0] using h⟩

theorem supStop_iff (c : Byte) : supStop c = true ↔ EndsWord c ∨ c = c!"^" := by
  simp [supStop, terminator, EndsWord]
  grind

theorem subStop_iff (c : Byte) : subStop c = true ↔ EndsWord c ∨ c = c!"~" := by
  simp [subStop, terminator, EndsWord]
  grind

theorem alnum_not_stop (c : Byte) : isAlnum c = true → subStop c = false :=
  forall_byte (p := fun c => isAlnum c = true → subStop c = false) (by decide +kernel) c

theorem mem_takeWhile {α} {p : α → Bool} {c : α} : ∀ {t : List α}, c ∈ t.takeWhile p → p c = true
  | [], h => by simp at h
  | d :: t, h => by
    rw [List.takeWhile_cons] at h
    by_cases hd : p d = true
    · rw [if_pos hd] at h
      rcases List.mem_cons.1 h with h | h
      · rw [h]; exact hd
      · exact mem_takeWhile h
    · rw [if_neg hd] at h; simp at h

/-- After the longest run of `p`, the first byte is not in `p`. -/
theorem takeWhile_stop {p : Byte → Bool} : ∀ (t : Bytes),
    ∃ u, t = t.takeWhile p ++ u ∧ at0 t (t.takeWhile p).length = at0 u 0 ∧ (u = [] ∨ ∃ d v, u = d :: v ∧ p d = false)
  | [] => ⟨[], by simp [at0]⟩
  | c :: t => by
    by_cases h : p c = true
    · obtain ⟨u, h1, h2, h3⟩ := takeWhile_stop (p := p) t
      refine ⟨u, ?_, ?_, h3⟩
      · rw [List.takeWhile_cons, if_pos h, List.cons_append, ← h1]
      · rw [List.takeWhile_cons, if_pos h, ← h2]; simp [at0]
    · refine ⟨c :: t, ?_, ?_, .inr ⟨c, t, rfl, by simpa using h⟩⟩
      · rw [List.takeWhile_cons, if_neg h]; rfl
      · rw [List.takeWhile_cons, if_neg h]; rfl

/-- What the scan for a closing tilde finds. -/
theorem scanTilde_some {before : Option Byte} : ∀ {done s : Bytes} {n : Nat} {under : Bool},
    scanTilde before done s = some (n, under) →
    ∃ x u, done ++ s = x ++ c!"~" :: u ∧ x.length = n ∧ done.length ≤ n ∧ (∀ c, x.getLast? = some c → isSpace c = false) ∧
      (c!"\n" ∉ done → c!"\n" ∉ x) ∧ (under = false → ∀ c ∈ x, isAlnum c = true) := by
  intro done s
  induction done, s using scanTilde.induct with
  | case1 done => intro n under h; simp [scanTilde] at h
  | case2 done t => intro n under h; rw [scanTilde.eq_def] at h; simp at h
  | case3 done u h0 ih =>
    intro n under h
    rw [scanTilde.eq_def] at h
    simp at h
    obtain ⟨x, v, h1, h2, h3, h4, h5, h6⟩ := ih h
    refine ⟨x, v, by rw [← h1]; simp, h2, by simp at h3; omega, h4, fun hn => h5 (by simpa using hn), h6⟩
  | case4 done d u h0 h1' h2' ih =>
    intro n under h
    rw [scanTilde.eq_def] at h
    simp only [h0, h1', h2', if_false, if_true] at h
    obtain ⟨x, v, h1, h2, h3, h4, h5, h6⟩ := ih h
    refine ⟨x, v, by rw [← h1]; simp, h2, by simp at h3; omega, h4, fun hn => h5 (by simpa using hn), h6⟩
  | case5 done d u h0 h1' h2' =>
    intro n under h
    rw [scanTilde.eq_def] at h
    simp only [h2', if_true, if_false] at h
    rw [if_neg h0, if_neg h1'] at h
    simp only [Option.some.injEq, Prod.mk.injEq] at h
    obtain ⟨rfl, rfl⟩ := h
    refine ⟨done, d :: u, rfl, rfl, Nat.le_refl _, ?_, id, ?_⟩
    · intro c hc; rw [hc] at h1'; simpa using h1'
    · intro hu c hc; simp at hu; exact hu.1.2 c hc
  | case6 done h0 h2' ih =>
    intro n under h
    rw [scanTilde.eq_def] at h
    simp only [h2', h0, if_true, if_false] at h
    simp [scanTilde] at h
  | case7 done h0 h2' =>
    intro n under h
    rw [scanTilde.eq_def] at h
    simp only [h2', if_true, if_false] at h
    rw [if_neg h0] at h
    simp only [Option.some.injEq, Prod.mk.injEq] at h
    obtain ⟨rfl, rfl⟩ := h
    refine ⟨done, [], rfl, rfl, Nat.le_refl _, ?_, id, ?_⟩
    · intro c hc; rw [hc] at h0; simpa using h0
    · intro hu c hc; simp at hu; exact hu.2 c hc
  | case8 done c t h0 h1' ih =>
    intro n under h
    rw [scanTilde.eq_def] at h
    simp only [] at h
    rw [if_neg h0, if_neg h1'] at h
    obtain ⟨x, v, h1, h2, h3, h4, h5, h6⟩ := ih h
    refine ⟨x, v, by rw [← h1]; simp, h2, by simp at h3; omega, h4, fun hn => h5 (by simp [hn, Ne.symm h0]), h6⟩

/-- What a `~` starts: its content, and what follows. -/
theorem tildeContent_spec (before : Option Byte) (t : Bytes) :
    (∃ x u, t = x ++ c!"~" :: u ∧ tildeContent before t = (x.length, true) ∧ c!"\n" ∉ x ∧
      ∀ c, x.getLast? = some c → isSpace c = false) ∨
    (∃ x u, t = x ++ u ∧ tildeContent before t = (x.length, false) ∧ (∀ c ∈ x, subStop c = false) ∧
      (u = [] ∨ ∃ d v, u = d :: v ∧ subStop d = true)) := by
  unfold tildeContent
  by_cases hl : likelySub t = true
  · right
    rw [if_pos hl]
    obtain ⟨u, h1, _, h3⟩ := takeWhile_stop (p := fun c => !subStop c) t
    refine ⟨_, u, h1, rfl, fun c hc => by simpa using mem_takeWhile hc, ?_⟩
    rcases h3 with h | ⟨d, v, h, h'⟩
    · exact .inl h
    · exact .inr ⟨d, v, h, by simpa using h'⟩
  · rw [if_neg hl]
    cases hs : scanTilde before [] t with
    | none =>
      right
      obtain ⟨u, h1, _, h3⟩ := takeWhile_stop (p := fun c => !subStop c) t
      refine ⟨_, u, h1, rfl, fun c hc => by simpa using mem_takeWhile hc, ?_⟩
      rcases h3 with h | ⟨d, v, h, h'⟩
      · exact .inl h
      · exact .inr ⟨d, v, h, by simpa using h'⟩
    | some r =>
      obtain ⟨n, under⟩ := r
      obtain ⟨x, u, h1, h2, _, h4, h5, h6⟩ := scanTilde_some hs
      cases under with
      | true => exact .inl ⟨x, u, by simpa using h1, by simp [h2], h5 (by simp), h4⟩
      | false =>
        exact .inr ⟨x, c!"~" :: u, by simpa using h1, by simp [h2], fun c hc => alnum_not_stop c (h6 rfl c hc),
          .inr ⟨_, u, rfl, by decide⟩⟩

/-- Bytes after which raised or lowered text may stop without a closing marker. -/
def Inert (c : Byte) : Prop := EndsWord c

/-- The shape of a round. -/
inductive Shape (b : Buf) (c : Byte) (t : Bytes) : Buf → Nat → Prop where
  | one : Shape b c t (b.copy1 c) 1
  | two (d : Byte) (u : Bytes) (h : t = d :: u) : Shape b c t (b.copy2 c d) 2
  | mark (s : Seg) (u : Bytes) (h : c :: t = s.source ++ u) (ok : s.Ok) (plain : ∀ c, s ≠ .plain c)
      (room : s.html.length ≤ b.remaining)
      (next : (∃ x, s = .sup x false ∨ s = .sub x false) → u = [] ∨ ∃ d v, u = d :: v ∧ EndsWord d) :
      Shape b c t { b with out := b.out ++ s.html } s.source.length

theorem mathPart_shape {b : Buf} {f : Flags} {c : Byte} {t : Bytes} {r : Round} (h : mathPart b f c t = some r) :
    Shape b c t r.buf r.len := by
  unfold mathPart at h
  split at h
  · split at h
    · rename_i h1
      obtain ⟨u, hu⟩ := at0_zero_of_ne h1.2 (by decide)
      cases h
      exact .two _ u hu
    · split at h
      · split at h
        · cases h; exact .one
        · split at h
          · cases h; exact .one
          · cases h
      · cases h
  · cases h

theorem html_sup (x : Bytes) (cl : Bool) : element b!"sup" x = (Seg.sup x cl).html := by simp [element, Seg.html]
theorem html_sub (x : Bytes) (cl : Bool) : element b!"sub" x = (Seg.sub x cl).html := by simp [element, Seg.html]
theorem html_under (x : Bytes) : element b!"u" x = (Seg.under x).html := by simp [element, Seg.html]

theorem superscript_shape {b : Buf} {f : Flags} {prev : Option Byte} {c : Byte} {t : Bytes} {r : Round}
    (h : superscript b f prev c t = some r) : Shape b c t r.buf r.len := by
  unfold superscript at h
  split at h
  · rename_i h1
    obtain ⟨rfl, h1⟩ := h1
    split at h
    · cases h; exact .one
    · simp only [] at h
      split at h
      · rename_i hc
        obtain ⟨u, h2, h3, h4⟩ := takeWhile_stop (p := fun c => !supStop c) t
        have hne : (t.takeWhile fun c => !supStop c) ≠ [] := by intro hn; rw [hn] at hc; simp at hc
        have hok : ∀ c ∈ (t.takeWhile fun c => !supStop c), ¬ EndsWord c ∧ c ≠ c!"^" := by
          intro c hc
          have := mem_takeWhile hc
          have h5 : ¬ supStop c = true := by simpa using this
          rw [supStop_iff] at h5
          exact ⟨fun h => h5 (.inl h), fun h => h5 (.inr h)⟩
        rw [h3] at h
        cases h
        generalize hx : (t.takeWhile fun c => !supStop c) = x at *
        rcases h4 with rfl | ⟨d, v, rfl, hd⟩
        · have := Shape.mark (b := b) (c := c!"^") (t := t) (.sup x false) [] (by rw [h2]; simp [Seg.source]) ⟨hne, hok⟩
            (by simp) (by simp [Seg.html]; omega) (fun _ => .inl rfl)
          have e : 1 + x.length + (if at0 [] 0 = c!"^" ∨ at0 [] 0 = c!"~" then 1 else 0) =
            (Seg.sup x false).source.length := by simp [Seg.source, at0]; omega
          simp only []; rw [e, html_sup x false]; exact this
        · have hd : EndsWord d ∨ d = c!"^" := by rw [← supStop_iff]; simpa using hd
          by_cases hd' : d = c!"^"
          · subst hd'
            have := Shape.mark (b := b) (c := c!"^") (t := t) (.sup x true) v (by rw [h2]; simp [Seg.source]) ⟨hne, hok⟩
              (by simp) (by simp [Seg.html]; omega) (by simp)
            have e : 1 + x.length + (if at0 (c!"^" :: v) 0 = c!"^" ∨ at0 (c!"^" :: v) 0 = c!"~" then 1 else 0) =
              (Seg.sup x true).source.length := by simp [Seg.source, at0]; omega
            simp only []; rw [e, html_sup x true]; exact this
          · have hw := hd.resolve_right hd'
            have := Shape.mark (b := b) (c := c!"^") (t := t) (.sup x false) (d :: v) (by rw [h2]; simp [Seg.source]) ⟨hne, hok⟩
              (by simp) (by simp [Seg.html]; omega) (fun _ => .inr ⟨d, v, rfl, hw⟩)
            have hd2 : d ≠ c!"~" := by rintro rfl; exact absurd hw (by simp [EndsWord])
            have e : 1 + x.length + (if at0 (d :: v) 0 = c!"^" ∨ at0 (d :: v) 0 = c!"~" then 1 else 0) =
              (Seg.sup x false).source.length := by simp [Seg.source, at0, hd', hd2]; omega
            simp only []; rw [e, html_sup x false]; exact this
      · cases h
  · cases h

theorem tilde_shape {b : Buf} {f : Flags} {prev : Option Byte} {c : Byte} {t : Bytes} {r : Round}
    (h : tilde b f prev c t = some r) : Shape b c t r.buf r.len := by
  unfold tilde at h
  split at h
  · rename_i h1
    subst h1
    split at h
    · cases h; exact .one
    split at h
    · cases h; exact .one
    split at h
    · simp only [] at h
      rcases tildeContent_spec prev t with ⟨x, u, h1, h2, h3, h4⟩ | ⟨x, u, h1, h2, h3, h4⟩
      · have ht : t.take x.length = x := by rw [h1]; simp
        simp only [h2, ht, if_true] at h
        split at h
        · rename_i hc
          cases h
          have hne : x ≠ [] := by rintro rfl; simp at hc
          have := Shape.mark (b := b) (c := c!"~") (t := t) (.under x) u (by rw [h1]; simp [Seg.source]) ⟨hne, h3, h4⟩
            (by simp) (by simp [Seg.html] at hc ⊢; omega) (by simp)
          have e : 1 + x.length + 1 = (Seg.under x).source.length := by simp [Seg.source]; omega
          simp only []
          rw [e, html_under]; exact this
        · cases h
      · have ht : t.take x.length = x := by rw [h1]; simp
        have hat : at0 t x.length = at0 u 0 := by
          rw [h1]; simp only [at0, List.getD_eq_getElem?_getD]; rw [List.getElem?_append_right (Nat.le_refl _), Nat.sub_self]
        simp only [h2, ht, hat, Bool.false_eq_true, if_false] at h
        split at h
        · rename_i hc
          cases h
          have hne : x ≠ [] := by rintro rfl; simp at hc
          have hok : ∀ c ∈ x, ¬ EndsWord c ∧ c ≠ c!"~" := by
            intro c hc
            have h5 : ¬ subStop c = true := by rw [h3 c hc]; simp
            rw [subStop_iff] at h5
            exact ⟨fun h => h5 (.inl h), fun h => h5 (.inr h)⟩
          have hroom : ∀ cl, (Seg.sub x cl).html.length ≤ b.remaining := by
            intro cl; simp [Seg.html] at hc ⊢; omega
          rcases h4 with rfl | ⟨d, v, rfl, hd⟩
          · have := Shape.mark (b := b) (c := c!"~") (t := t) (.sub x false) [] (by rw [h1]; simp [Seg.source]) ⟨hne, hok⟩
              (by simp) (hroom _) (fun _ => .inl rfl)
            have e : 1 + x.length + (if at0 [] 0 = c!"~" then 1 else 0) =
              (Seg.sub x false).source.length := by simp [Seg.source, at0]; omega
            simp only []
            rw [e, html_sub x false]; exact this
          · rw [subStop_iff] at hd
            by_cases hd' : d = c!"~"
            · subst hd'
              have := Shape.mark (b := b) (c := c!"~") (t := t) (.sub x true) v (by rw [h1]; simp [Seg.source]) ⟨hne, hok⟩
                (by simp) (hroom _) (by simp)
              have e : 1 + x.length + (if at0 (c!"~" :: v) 0 = c!"~" then 1 else 0) =
                (Seg.sub x true).source.length := by simp [Seg.source, at0]; omega
              simp only []
              rw [e, html_sub x true]; exact this
            · have hw := hd.resolve_right hd'
              have := Shape.mark (b := b) (c := c!"~") (t := t) (.sub x false) (d :: v) (by rw [h1]; simp [Seg.source]) ⟨hne, hok⟩
                (by simp) (hroom _) (fun _ => .inr ⟨d, v, rfl, hw⟩)
              have e : 1 + x.length + (if at0 (d :: v) 0 = c!"~" then 1 else 0) =
                (Seg.sub x false).source.length := by simp [Seg.source, at0, hd']; omega
              simp only []
              rw [e, html_sub x false]; exact this
        · cases h
    · cases h
  · cases h

theorem round_shape (b : Buf) (f : Flags) (prev : Option Byte) (c : Byte) (t : Bytes) :
    Shape b c t (round b f prev c t).buf (round b f prev c t).len := by
  unfold round
  simp only []
  split
  · rename_i h
    simp at h
    obtain ⟨u, hu⟩ := at0_zero_of_ne h.2 (by decide)
    exact .two _ u hu
  · split
    · split
      · rename_i h
        obtain ⟨u, hu⟩ := at0_zero_of_ne h.2 (by decide)
        exact .two _ u hu
      · exact .one
    · split
      · rename_i r h; exact mathPart_shape h
      · split
        · exact .one
        · split
          · rename_i r h; exact superscript_shape h
          · split
            · rename_i r h; exact tilde_shape h
            · exact .one

/-- A byte that ends a word is copied, whatever the context. -/
theorem round_endsWord (b : Buf) (f : Flags) (prev : Option Byte) {c : Byte} (t : Bytes) (h : EndsWord c) :
    (round b f prev c t).buf = b.copy1 c ∧ (round b f prev c t).len = 1 := by
  have h1 : c ≠ c!"{" ∧ c ≠ c!"%" ∧ c ≠ c!"$" ∧ c ≠ c!"^" ∧ c ≠ c!"~" := by
    refine ⟨?_, ?_, ?_, ?_, ?_⟩ <;> (rintro rfl; exact absurd h (by simp [EndsWord]))
  obtain ⟨h1, h2, h3, h4, h5⟩ := h1
  unfold round
  simp only [mathPart, superscript, tilde, h1, h2, h3, h4, h5, false_and, if_false, decide_false, Bool.and_false,
    Bool.false_and, ite_self]
  split
  · rename_i h; simp at h
  · split
    · exact ⟨rfl, rfl⟩
    · exact ⟨rfl, rfl⟩

/-- The room used so far: at most 13/3 of what was read, or a little more when a word just ended. -/
def Budget (len : Nat) (out rest : Bytes) : Prop :=
  3 * out.length + 13 * rest.length ≤ 13 * len ∨
  (3 * out.length + 13 * rest.length ≤ 13 * len + 10 ∧ (rest = [] ∨ ∃ d u, rest = d :: u ∧ EndsWord d))

def capacity (len : Nat) : Nat := if len * 5 > 64 then len * 5 else 64

theorem capacity_room {len n k : Nat} (h : 3 * n + 3 * k ≤ 13 * len + 20) : n + k < capacity len := by
  unfold capacity; split <;> omega

/-- What a round does, and that it keeps to its budget. -/
def Step (len : Nat) (b : Buf) (rest : Bytes) (b' : Buf) (n : Nat) : Prop :=
  ∃ segs : List Seg, (∀ s ∈ segs, s.Ok) ∧ rest = segs.flatMap Seg.source ++ rest.drop n ∧ segs ≠ [] ∧
    b' = { b with out := b.out ++ segs.flatMap Seg.html } ∧ 1 ≤ n ∧
    Budget len (b.out ++ segs.flatMap Seg.html) (rest.drop n)

theorem loop_keeps (len : Nat) : ∀ (n : Nat) (b : Buf) (f : Flags) (prev : Option Byte) (rest : Bytes),
    rest.length ≤ n → b.cap = capacity len → Budget len b.out rest →
    ∃ segs : List Seg, (∀ s ∈ segs, s.Ok) ∧ segs.flatMap Seg.source = rest ∧
      (loop n b f prev rest).out = b.out ++ segs.flatMap Seg.html ∧ (loop n b f prev rest).cap = capacity len ∧
      (loop n b f prev rest).out.length < capacity len := by
  intro n
  induction n with
  | zero =>
    intro b f prev rest hn hc hb
    obtain rfl : rest = [] := List.length_eq_zero_iff.1 (by omega)
    refine ⟨[], by simp, rfl, by simp [loop], hc, ?_⟩
    unfold Budget at hb; simp at hb
    show b.out.length < _
    exact capacity_room (k := 0) (by omega)
  | succ n ih =>
    intro b f prev rest hn hc hb
    cases rest with
    | nil =>
      refine ⟨[], by simp, rfl, by simp [loop], hc, ?_⟩
      unfold Budget at hb; simp at hb
      show b.out.length < _
      exact capacity_room (k := 0) (by omega)
    | cons c t =>
      have hl : (c :: t).length = t.length + 1 := rfl
      have main : Step len b (c :: t) (round b f prev c t).buf (round b f prev c t).len := by
        have one : Step len b (c :: t) (b.copy1 c) 1 := by
          have hroom : b.remaining > 0 := by
            unfold Buf.remaining; rw [hc]
            have := capacity_room (len := len) (n := b.out.length) (k := 0)
              (by unfold Budget at hb; rw [hl] at hb; omega)
            omega
          refine ⟨[.plain c], by simp [Seg.Ok], by simp [Seg.source], by simp, ?_, by omega, .inl ?_⟩
          · simp [Buf.copy1, hroom, Seg.html]
          · simp [Seg.html]
            unfold Budget at hb; rw [hl] at hb; omega
        by_cases hE : EndsWord c
        · rw [(round_endsWord b f prev t hE).1, (round_endsWord b f prev t hE).2]; exact one
        · have hb : 3 * b.out.length + 13 * (t.length + 1) ≤ 13 * len := by
            rcases hb with hb | ⟨_, hb | ⟨d, u, he, hd⟩⟩
            · simpa using hb
            · cases hb
            · cases he; exact absurd hd hE
          have hs := round_shape b f prev c t
          generalize hB : (round b f prev c t).buf = B at *
          generalize hL : (round b f prev c t).len = L at *
          cases hs with
          | one => exact one
          | two d u h =>
            subst h
            have hroom : b.remaining > 1 := by
              unfold Buf.remaining; rw [hc]
              have := capacity_room (len := len) (n := b.out.length) (k := 1)
                (by simp at hb; omega)
              omega
            refine ⟨[.plain c, .plain d], by simp [Seg.Ok], by simp [Seg.source], by simp, ?_, by omega, .inl ?_⟩
            · simp [Buf.copy2, hroom, Seg.html]
            · simp [Seg.html] at hb ⊢; omega
          | mark s u h ok plain room next =>
            refine ⟨[s], by simpa using ok, by rw [h]; simp, by simp, by simp, ?_, ?_⟩
            · cases s <;> simp [Seg.source]
            · have hlen : t.length + 1 = s.source.length + u.length := by
                have := congrArg List.length h; simpa using this
              have hdrop : (c :: t).drop s.source.length = u := by rw [h]; simp
              rw [hdrop]
              have hx : ∀ x : Bytes, x ≠ [] → 1 ≤ x.length := by
                intro x hx; cases x with | nil => exact absurd rfl hx | cons _ _ => simp
              cases s with
              | plain d => exact absurd rfl (plain d)
              | sup x cl =>
                have := hx x ok.1
                cases cl with
                | true => left; simp [Seg.html, Seg.source] at hlen ⊢; omega
                | false =>
                  right
                  refine ⟨?_, next ⟨x, .inl rfl⟩⟩
                  simp [Seg.html, Seg.source] at hlen ⊢; omega
              | sub x cl =>
                have := hx x ok.1
                cases cl with
                | true => left; simp [Seg.html, Seg.source] at hlen ⊢; omega
                | false =>
                  right
                  refine ⟨?_, next ⟨x, .inr rfl⟩⟩
                  simp [Seg.html, Seg.source] at hlen ⊢; omega
              | under x =>
                have := hx x ok.1
                left; simp [Seg.html, Seg.source] at hlen ⊢; omega
      obtain ⟨segs, h1, h2, _, h3, h4, h5⟩ := main
      have hn' : ((c :: t).drop (round b f prev c t).len).length ≤ n := by
        rw [List.length_drop]; omega
      obtain ⟨segs', k1, k2, k3, k4, k5⟩ := ih (round b f prev c t).buf (round b f prev c t).flags
        ((c :: t)[(round b f prev c t).len - 1]?) _ hn' (by rw [h3]; exact hc) (by rw [h3]; exact h5)
      refine ⟨segs ++ segs', ?_, ?_, ?_, ?_, ?_⟩
      · intro s hs; rcases List.mem_append.1 hs with h | h
        · exact h1 s h
        · exact k1 s h
      · rw [List.flatMap_append, k2]; exact h2.symm
      · simp only [loop]
        rw [k3, h3]; simp
      · simp only [loop]; exact k4
      · simp only [loop]; exact k5

theorem process_keeps (text : Bytes) : ∃ segs : List Seg, (∀ s ∈ segs, s.Ok) ∧ segs.flatMap Seg.source = text ∧
    process text = .val (segs.flatMap Seg.html) := by
  obtain ⟨segs, h1, h2, h3, h4, h5⟩ := loop_keeps text.length text.length ⟨capacity text.length, []⟩
    ⟨false, false, false, false, false, false⟩ none text (Nat.le_refl _) rfl (.inl (by simp))
  refine ⟨segs, h1, h2, ?_⟩
  unfold process
  simp only []
  have e : (if text.length * 5 > 64 then text.length * 5 else 64) = capacity text.length := rfl
  rw [e, finish_val (by rw [h4]; exact h5), h3]
  rfl

/-! ### Single occurrences -/

theorem loop_nil (n : Nat) (b : Buf) (f : Flags) (prev : Option Byte) : loop n b f prev [] = b := by
  cases n <;> rfl

theorem copy1_val {b : Buf} {c : Byte} (h : b.out.length < b.cap) : b.copy1 c = { b with out := b.out ++ [c] } := by
  unfold Buf.copy1 Buf.remaining; rw [if_pos (by omega)]

theorem copy2_val {b : Buf} {c d : Byte} (h : b.out.length + 1 < b.cap) : b.copy2 c d = { b with out := b.out ++ [c, d] } := by
  unfold Buf.copy2 Buf.remaining; rw [if_pos (by omega)]

/-- Text without `^` and `~` is copied, whatever the context. -/
theorem loop_copy : ∀ (n : Nat) (b : Buf) (f : Flags) (prev : Option Byte) (s : Bytes), s.length ≤ n →
    (∀ c ∈ s, c ≠ c!"^" ∧ c ≠ c!"~") → b.out.length + s.length ≤ b.cap →
    loop n b f prev s = { b with out := b.out ++ s } := by
  intro n
  induction n with
  | zero =>
    intro b f prev s hn _ _
    obtain rfl : s = [] := List.length_eq_zero_iff.1 (by omega)
    simp [loop]
  | succ n ih =>
    intro b f prev s hn hs hc
    cases s with
    | nil => simp [loop]
    | cons c t =>
      simp only [List.length_cons] at hn hc
      have hsh := round_shape b f prev c t
      simp only [loop]
      generalize round b f prev c t = r at *
      obtain ⟨rb, rf, rl⟩ := r
      simp only [] at hsh ⊢
      cases hsh with
      | one =>
        rw [copy1_val (by omega)]
        rw [ih _ _ _ _ (by simpa using hn) (fun c hc => hs c (List.mem_cons_of_mem _ (by simpa using hc)))
          (by simp; omega)]
        simp
      | two d u h =>
        subst h
        simp only [List.length_cons] at hn hc
        rw [copy2_val (by omega)]
        rw [ih _ _ _ _ (by simp; omega) (fun c hc => hs c (List.mem_cons_of_mem _ (List.mem_cons_of_mem _ (by simpa using hc))))
          (by simp; omega)]
        simp
      | mark s u h ok plain room next =>
        exfalso
        have h1 := hs c (by simp)
        cases s with
        | plain d => exact plain d rfl
        | sup x cl => simp [Seg.source] at h; exact h1.1 h.1
        | sub x cl => simp [Seg.source] at h; exact h1.2 h.1
        | under x => simp [Seg.source] at h; exact h1.2 h.1

def clean : Flags := ⟨false, false, false, false, false, false⟩

theorem indentedCode_plain {a rest : Bytes} (ht : ∀ c ∈ a, c ≠ c!"\t") (h4 : ¬ b!"    " <:+: a) (hne : a ≠ [])
    (hr : rest.head? ≠ some c!" ") : indentedCode (a ++ rest) = false := by
  unfold indentedCode
  have h0 : at0 (a ++ rest) 0 ≠ c!"\t" := by
    cases a with
    | nil => exact absurd rfl hne
    | cons c a => simpa [at0] using ht c (by simp)
  rw [if_neg h0, if_pos]
  by_cases h : at0 (a ++ rest) 0 = c!" " ∧ at0 (a ++ rest) 1 = c!" " ∧ at0 (a ++ rest) 2 = c!" " ∧ at0 (a ++ rest) 3 = c!" "
  · exfalso
    obtain ⟨k0, k1, k2, k3⟩ := h
    have hr' : at0 rest 0 ≠ c!" " := by
      cases rest with
      | nil => simp [at0]
      | cons d r => simpa [at0] using hr
    match a, hne with
    | [c], _ => exact hr' (by simpa [at0] using k1)
    | [c, d], _ => exact hr' (by simpa [at0] using k2)
    | [c, d, e], _ => exact hr' (by simpa [at0] using k3)
    | c :: d :: e :: f :: a, _ =>
      apply h4
      simp [at0] at k0 k1 k2 k3
      subst k0 k1 k2 k3
      exact ⟨[], a, by simp⟩
  · grind

theorem round_plain (b : Buf) (prev : Option Byte) {c : Byte} {t : Bytes} (h : c ≠ c!"^" ∧ c ≠ c!"~" ∧ c ≠ c!"`" ∧ c ≠ c!"$" ∧ c ≠ c!"{")
    (hi : indentedCode (c :: t) = false) : round b clean prev c t = ⟨b.copy1 c, clean, 1⟩ := by
  obtain ⟨h1, h2, h3, h4, h5⟩ := h
  have hl : clean.line prev (c :: t) = clean := by
    unfold Flags.line clean; rw [hi]; split <;> rfl
  have ht : clean.ticks (c :: t) = clean := by
    unfold Flags.ticks; rw [if_neg (by simpa [at0] using h3)]
  unfold round
  simp only [hl, ht]
  simp [mathPart, superscript, tilde, h1, h2, h4, h5, clean]

/-- The byte in front. -/
def lastOr (prev : Option Byte) (a : Bytes) : Option Byte := a.getLast?.or prev

theorem lastOr_cons (prev : Option Byte) (c : Byte) (a : Bytes) : lastOr prev (c :: a) = lastOr (some c) a := by
  unfold lastOr
  cases a with
  | nil => simp
  | cons d a => rw [List.getLast?_cons_cons]; simp [List.getLast?_cons]

theorem loop_plain : ∀ (a rest : Bytes) (n : Nat) (b : Buf) (prev : Option Byte), Plain a →
    rest.head? ≠ some c!" " → b.out.length + a.length ≤ b.cap →
    loop (a.length + n) b clean prev (a ++ rest) = loop n { b with out := b.out ++ a } clean (lastOr prev a) rest := by
  intro a
  induction a with
  | nil => intro rest n b prev _ _ _; simp [lastOr]
  | cons c a ih =>
    intro rest n b prev hp hr hc
    have hi := indentedCode_plain (rest := rest) (fun d hd => (hp.ordinary d hd).2.2.2.2.2) hp.flush (by simp) hr
    have ho := hp.ordinary c (by simp)
    have e : (c :: a).length + n = (a.length + n) + 1 := by simp; omega
    simp only [List.length_cons] at hc
    rw [e, List.cons_append, loop]
    rw [round_plain b prev ⟨ho.1, ho.2.1, ho.2.2.1, ho.2.2.2.1, ho.2.2.2.2.1⟩ (by simpa using hi), copy1_val (by omega)]
    simp only [List.drop_one, List.tail_cons, Nat.sub_self]
    have hp' : Plain a := ⟨fun d hd => hp.ordinary d (List.mem_cons_of_mem _ hd),
      fun h => hp.flush (h.trans (List.suffix_cons c a).isInfix)⟩
    rw [ih rest n _ _ hp' hr (by simp; omega), lastOr_cons]
    simp

theorem takeWhile_append_stop {p : Byte → Bool} {x b : Bytes} (hx : ∀ c ∈ x, p c = true)
    (hb : b = [] ∨ ∃ d v, b = d :: v ∧ p d = false) : (x ++ b).takeWhile p = x := by
  induction x with
  | nil =>
    rcases hb with rfl | ⟨d, v, rfl, hd⟩
    · rfl
    · simp [hd]
  | cons c x ih =>
    rw [List.cons_append, List.takeWhile_cons, if_pos (hx c (by simp)), ih fun d hd => hx d (List.mem_cons_of_mem _ hd)]

theorem line_other (f : Flags) (prev : Option Byte) {c : Byte} (t : Bytes) (h : c ≠ c!" " ∧ c ≠ c!"\t") (hf : f.indent = false) :
    f.line prev (c :: t) = f := by
  unfold Flags.line
  split
  · have : indentedCode (c :: t) = false := by
      unfold indentedCode
      rw [if_neg (by simpa [at0] using h.2), if_pos (.inl (by simpa [at0] using h.1))]
    rw [this]; cases f; simp_all
  · rfl

/-- The loop after plain text and one marked piece. -/
theorem loop_around {a src mid b : Bytes} {len : Nat} (ha : Plain a) (hb : ∀ c ∈ b, c ≠ c!"^" ∧ c ≠ c!"~")
    (hs : ∃ c t, src = c :: t ∧ c ≠ c!" ") (hlen : len = (a ++ (src ++ b)).length) (hmid : mid.length ≤ src.length + 11)
    (hround : ∀ out : Bytes, out.length + mid.length ≤ capacity len → ∃ c t,
      src ++ b = c :: t ∧ ∃ f, round ⟨capacity len, out⟩ clean (lastOr none a) c t = ⟨⟨capacity len, out ++ mid⟩, f, src.length⟩) :
    process (a ++ (src ++ b)) = .val (a ++ (mid ++ b)) := by
  obtain ⟨c0, t0, hs0, hs1⟩ := hs
  have hroom : a.length + (mid.length + b.length) < capacity len := by
    rw [hlen]; simp only [capacity, List.length_append]; rw [hs0] at hmid ⊢; simp only [List.length_cons] at hmid ⊢; split <;> omega
  have hcap : capacity len ≥ 0 := Nat.zero_le _
  obtain ⟨c, t, hct, f, hr⟩ := hround a (by omega)
  have hsl : src.length ≥ 1 := by rw [hs0]; simp
  have e : len = a.length + ((src.length - 1 + b.length) + 1) := by rw [hlen]; simp; omega
  have hloop : loop len ⟨capacity len, []⟩ clean none (a ++ (src ++ b)) = ⟨capacity len, a ++ (mid ++ b)⟩ := by
    generalize hg : capacity len = k at *
    rw [e, loop_plain a _ _ _ _ ha (by rw [hs0]; simpa using hs1) (by simp; omega), hct, loop]
    simp only [List.nil_append, hr]
    rw [← hct]
    have hd : (src ++ b).drop src.length = b := by simp
    rw [hd, loop_copy _ _ _ _ _ (by omega) hb (by simp; omega)]
    simp
  unfold process
  simp only []
  have e2 : (if (a ++ (src ++ b)).length * 5 > 64 then (a ++ (src ++ b)).length * 5 else 64) = capacity len := by rw [hlen]; rfl
  rw [e2, ← hlen]
  unfold clean at hloop
  rw [hloop, finish_val (by simp; omega)]

theorem round_mark {b : Buf} {prev : Option Byte} {c : Byte} {t : Bytes} (h : c = c!"^" ∨ c = c!"~") :
    round b clean prev c t = match superscript b clean prev c t with
      | some r => r
      | none => match tilde b clean prev c t with
        | some r => r
        | none => ⟨b.copy1 c, clean, 1⟩ := by
  have hl : clean.line prev (c :: t) = clean := line_other _ _ _ (by rcases h with rfl | rfl <;> decide) rfl
  have ht : clean.ticks (c :: t) = clean := by
    unfold Flags.ticks; rw [if_neg (by rcases h with rfl | rfl <;> simp [at0])]
  have h5 : c ≠ c!"{" ∧ c ≠ c!"$" := by rcases h with rfl | rfl <;> decide
  unfold round
  simp only [hl, ht]
  have hm : mathPart b clean c t = none := by simp [mathPart, h5.2]
  rw [hm]
  have h6 : (!clean.liquid && decide (c = c!"{") && decide (at0 t 0 = c!"%")) = false := by simp [h5.1]
  rw [h6]
  rfl

/-- A raised word. -/
theorem round_sup {out x b : Bytes} {closed : Bool} {cap : Nat} {prev : Option Byte} (hprev : prev ≠ some c!"[") (hx : (Seg.sup x closed).Ok)
    (h0 : x.head? ≠ some 0) (hn : closed = false → b = [] ∨ ∃ d v, b = d :: v ∧ EndsWord d)
    (hroom : out.length + (Seg.sup x closed).html.length ≤ cap) :
    round ⟨cap, out⟩ clean prev c!"^" (x ++ ((if closed then b!"^" else []) ++ b)) =
      ⟨⟨cap, out ++ (Seg.sup x closed).html⟩, clean, (Seg.sup x closed).source.length⟩ := by
  rw [round_mark (.inl rfl)]
  obtain ⟨hne, hok⟩ := hx
  obtain ⟨c, x', rfl⟩ : ∃ c x', x = c :: x' := by cases x with | nil => exact absurd rfl hne | cons c x' => exact ⟨c, x', rfl⟩
  have ht : ((c :: x') ++ ((if closed then b!"^" else []) ++ b)).takeWhile (fun c => !supStop c) = c :: x' := by
    apply takeWhile_append_stop
    · intro d hd
      have := hok d hd
      have h5 : ¬ supStop d = true := by rw [supStop_iff]; exact fun h => h.elim this.1 this.2
      simpa using h5
    · cases closed with
      | true => exact .inr ⟨c!"^", b, rfl, by decide⟩
      | false =>
        rcases hn rfl with rfl | ⟨d, v, rfl, hd⟩
        · exact .inl rfl
        · exact .inr ⟨d, v, rfl, by have : supStop d = true := (supStop_iff d).2 (.inl hd); simp [this]⟩
  have hopen : opens c!"^" (at0 ((c :: x') ++ ((if closed then b!"^" else []) ++ b)) 0) = true := by
    have h1 := hok c (by simp)
    have h2 : c ≠ 0 := by simpa using h0
    have h3 : c ≠ c!" " ∧ c ≠ c!"\t" ∧ c ≠ c!"\n" := by
      refine ⟨?_, ?_, ?_⟩ <;> (rintro rfl; exact h1.1 (by simp [EndsWord]))
    simp [opens, at0, h1.2, h2, h3]
  have hat : at0 ((c :: x') ++ ((if closed then b!"^" else []) ++ b)) (c :: x').length = at0 ((if closed then b!"^" else []) ++ b) 0 := by
    simp only [at0, List.getD_eq_getElem?_getD]; rw [List.getElem?_append_right (Nat.le_refl _), Nat.sub_self]
  have hsup : superscript ⟨cap, out⟩ clean prev c!"^" ((c :: x') ++ ((if closed then b!"^" else []) ++ b)) =
      some ⟨⟨cap, out ++ (Seg.sup (c :: x') closed).html⟩, clean, (Seg.sup (c :: x') closed).source.length⟩ := by
    unfold superscript
    rw [if_pos ⟨rfl, hopen⟩, if_neg hprev]
    simp only [ht, hat]
    rw [if_pos ⟨by simp, by simp [Seg.html, Buf.remaining] at hroom ⊢; omega⟩, html_sup _ closed]
    congr 2
    cases closed with
    | true => simp [Seg.source, at0]; omega
    | false =>
      rcases hn rfl with rfl | ⟨d, v, rfl, hd⟩
      · simp [Seg.source, at0]; omega
      · have h6 : d ≠ c!"^" ∧ d ≠ c!"~" := by constructor <;> (rintro rfl; exact absurd hd (by simp [EndsWord]))
        simp [Seg.source, at0, h6]; omega
  rw [hsup]

theorem process_sup {a x b : Bytes} {closed : Bool} (ha : Plain a) (hf : a.getLast? ≠ some c!"[") (hx : (Seg.sup x closed).Ok)
    (h0 : x.head? ≠ some 0) (hb : Plain b) (hn : closed = false → b = [] ∨ ∃ d v, b = d :: v ∧ EndsWord d) :
    process (a ++ ((Seg.sup x closed).source ++ b)) = .val (a ++ ((Seg.sup x closed).html ++ b)) := by
  refine loop_around ha (fun c hc => ⟨(hb.ordinary c hc).1, (hb.ordinary c hc).2.1⟩) ⟨c!"^", _, rfl, by decide⟩ rfl
    (by simp [Seg.html, Seg.source]; omega) ?_
  intro out hroom
  generalize hlen : (a ++ ((Seg.sup x closed).source ++ b)).length = len at *
  refine ⟨c!"^", x ++ ((if closed then b!"^" else []) ++ b), by simp [Seg.source], clean, round_sup (by simpa [lastOr] using hf) hx h0 hn hroom⟩


theorem likelySub_alnum {x u : Bytes} (hx : ∀ c ∈ x, isAlnum c = true) : likelySub (x ++ c!"~" :: u) = false := by
  induction x with
  | nil => simp [likelySub]
  | cons c x ih =>
    have h := alnum_not_stop c (hx c (by simp))
    have h1 : ¬ terminator c = true := by intro h1; simp [subStop, h1] at h
    rw [List.cons_append, likelySub]
    split
    · rfl
    · exact ih fun d hd => hx d (List.mem_cons_of_mem _ hd)

/-- The first word has no punctuation. -/
theorem likelySub_word {x u : Bytes}
    (hx : ∀ w r : Bytes, x = w ++ r → (∀ c ∈ w, c ≠ c!" " ∧ c ≠ c!"\t") → ∀ c ∈ w, ¬ EndsWord c)
    (hn : c!"~" ∉ x) : likelySub (x ++ c!"~" :: u) = false := by
  induction x with
  | nil => simp [likelySub]
  | cons c x ih =>
    rw [List.cons_append, likelySub]
    by_cases h : c = c!" " ∨ c = c!"\t" ∨ c = c!"\n" ∨ c = c!"~"
    · rw [if_pos h]
    · rw [if_neg h]
      simp only [not_or] at h
      have h1 : ¬ terminator c = true := by
        intro h1
        refine hx [c] x rfl (by simp [h]) c (by simp) ?_
        simp [terminator] at h1
        simp [EndsWord]; grind
      rw [if_neg h1]
      refine ih ?_ (fun hm => hn (List.mem_cons_of_mem _ hm))
      intro w r he hw d hd
      exact hx (c :: w) r (by rw [he]; rfl) (by intro e he; rcases List.mem_cons.1 he with rfl | he; exact ⟨h.1, h.2.1⟩; exact hw e he)
        d (List.mem_cons_of_mem _ hd)

theorem scanTilde_run {before : Option Byte} : ∀ {x done u : Bytes}, c!"~" ∉ x → c!"\n" ∉ x →
    scanTilde before done (x ++ u) = scanTilde before (done ++ x) u
  | [], done, u, _, _ => by simp
  | c :: x, done, u, h1, h2 => by
    simp only [List.mem_cons, not_or] at h1 h2
    rw [List.cons_append, scanTilde.eq_def]
    simp only []
    rw [if_neg (Ne.symm h2.1), if_neg (Ne.symm h1.1), scanTilde_run h1.2 h2.2]
    simp

theorem scanTilde_close {before : Option Byte} {x b : Bytes} (hx : ∀ c, x.getLast? = some c → isSpace c = false)
    (hb : b.head? ≠ some c!"~") : scanTilde before x (c!"~" :: b) = some (x.length,
      !((before.map isAlnum).getD false && x.all isAlnum &&
        (b.head?.map fun d => isAlnum d || (isSpace d || isPunct d)).getD true)) := by
  have h : ¬ (x.getLast?.map isSpace).getD false = true := by
    cases hl : x.getLast? with
    | none => simp
    | some c => simp [hx c hl]
  rw [scanTilde.eq_def]
  simp only []
  rw [if_neg (by decide), if_pos trivial]
  cases b with
  | nil => simp only []; rw [if_neg h]; simp
  | cons d u =>
    simp only []
    rw [if_neg (by simpa using hb), if_neg h]; simp

theorem process_tilde {a x b : Bytes} {under : Bool} (ha : Plain a) (hne : x ≠ []) (h1 : c!"~" ∉ x) (h2 : c!"\n" ∉ x)
    (h3 : ∀ c, x.getLast? = some c → isSpace c = false)
    (hh : ∀ c, x.head? = some c → c ≠ 0 ∧ c ≠ c!" " ∧ c ≠ c!"\t" ∧ c ≠ c!">")
    (hlik : likelySub (x ++ c!"~" :: b) = false) (hb : Plain b)
    (hu : under = !((a.getLast?.map isAlnum).getD false && x.all isAlnum &&
        (b.head?.map fun d => isAlnum d || (isSpace d || isPunct d)).getD true)) :
    process (a ++ ((b!"~" ++ x ++ b!"~") ++ b)) = .val (a ++ (element (if under then b!"u" else b!"sub") x ++ b)) := by
  have hel : (element (if under then b!"u" else b!"sub") x).length ≤ x.length + 11 := by
    cases under <;> simp [element]
  refine loop_around ha (fun c hc => ⟨(hb.ordinary c hc).1, (hb.ordinary c hc).2.1⟩) ⟨c!"~", x ++ b!"~", rfl, by decide⟩ rfl
    (by simp; omega) ?_
  intro out hroom
  generalize hlen : (a ++ ((b!"~" ++ x ++ b!"~") ++ b)).length = len at *
  refine ⟨c!"~", x ++ c!"~" :: b, by simp, clean, ?_⟩
  have hbh : b.head? ≠ some c!"~" := by
    cases b with
    | nil => simp
    | cons d v => simpa using (hb.ordinary d (by simp)).2.1
  rw [round_mark (.inr rfl)]
  have hs : superscript ⟨capacity len, out⟩ clean (lastOr none a) c!"~" (x ++ c!"~" :: b) = none := by
    simp [superscript]
  have htc : tildeContent (lastOr none a) (x ++ c!"~" :: b) = (x.length, under) := by
    unfold tildeContent
    rw [hlik, if_neg (by simp), scanTilde_run h1 h2, List.nil_append, scanTilde_close h3 hbh]
    simp only [lastOr, Option.or_none]
    rw [← hu]
  obtain ⟨c, x', rfl⟩ : ∃ c x', x = c :: x' := by cases x with | nil => exact absurd rfl hne | cons c x' => exact ⟨c, x', rfl⟩
  have hc := hh c rfl
  simp only [List.mem_cons, not_or] at h1 h2
  have hat : at0 ((c :: x') ++ c!"~" :: b) 0 = c := by simp [at0]
  have hprev : ¬ (lastOr none a = some c!"~" ∨ c = c!"~") := by
    rintro (h | h)
    · have : a.getLast? = some c!"~" := by simpa [lastOr] using h
      exact (ha.ordinary _ (List.mem_of_getLast? this)).2.1 rfl
    · exact h1.1 h.symm
  have hat2 : at0 ((c :: x') ++ c!"~" :: b) (c :: x').length = c!"~" := by
    simp only [at0, List.getD_eq_getElem?_getD]; rw [List.getElem?_append_right (Nat.le_refl _), Nat.sub_self]; rfl
  have ht : tilde ⟨capacity len, out⟩ clean (lastOr none a) c!"~" ((c :: x') ++ c!"~" :: b) =
      some ⟨⟨capacity len, out ++ element (if under then b!"u" else b!"sub") (c :: x')⟩, clean, (b!"~" ++ (c :: x') ++ b!"~").length⟩ := by
    unfold tilde
    rw [if_pos rfl, hat, if_neg hprev, if_neg hc.2.2.2, if_pos (by simp [opens, hc, Ne.symm h1.1, Ne.symm h2.1])]
    simp only [htc, List.take_left, hat2]
    have hel : (element (if under then b!"u" else b!"sub") (c :: x')).length =
        ((if under then b!"u" else b!"sub").length + 2) + (c :: x').length + ((if under then b!"u" else b!"sub").length + 3) := by
      simp [element]; omega
    have hrem : (⟨capacity len, out⟩ : Buf).remaining ≥
        ((if under then b!"u" else b!"sub").length + 2) + (c :: x').length + ((if under then b!"u" else b!"sub").length + 3) := by
      simp only [Buf.remaining]; omega
    rw [if_pos ⟨by simp, hrem⟩]
    congr 2
    cases under <;> simp <;> omega
  rw [hs, ht]

/-- Inside code or mathematics, bytes are copied. -/
theorem loop_inside (keep : Flags → Prop) (hk : ∀ f, keep f → (f.fence || f.inline || f.indent || f.math || f.display) = true)
    (good : Byte → Prop) (hg : ∀ c, good c → c ≠ c!"{")
    (hstep : ∀ (f : Flags) (prev : Option Byte) (c : Byte) (t : Bytes) (b : Buf), keep f → f.liquid = false → good c →
      keep ((f.line prev (c :: t)).ticks (c :: t)) ∧ ((f.line prev (c :: t)).ticks (c :: t)).liquid = false ∧
        (f.line prev (c :: t)).liquid = false ∧ mathPart b ((f.line prev (c :: t)).ticks (c :: t)) c t = none) :
    ∀ (x rest : Bytes) (n : Nat) (b : Buf) (f : Flags) (prev : Option Byte), keep f → f.liquid = false → (∀ c ∈ x, good c) →
      b.out.length + x.length ≤ b.cap →
      ∃ f', keep f' ∧ f'.liquid = false ∧
        loop (x.length + n) b f prev (x ++ rest) = loop n { b with out := b.out ++ x } f' (lastOr prev x) rest := by
  intro x
  induction x with
  | nil => intro rest n b f prev hf hl _ _; exact ⟨f, hf, hl, by simp [lastOr]⟩
  | cons c x ih =>
    intro rest n b f prev hf hl hx hc
    simp only [List.length_cons] at hc
    obtain ⟨k1, k2, k3, k4⟩ := hstep f prev c (x ++ rest) b hf hl (hx c (by simp))
    have e : (c :: x).length + n = (x.length + n) + 1 := by simp; omega
    have hr : round b f prev c (x ++ rest) = ⟨b.copy1 c, (f.line prev (c :: (x ++ rest))).ticks (c :: (x ++ rest)), 1⟩ := by
      unfold round
      simp only [k3, k4, hk _ k1]
      simp [hg c (hx c (by simp))]
    obtain ⟨f', h1, h2, h3⟩ := ih rest n { b with out := b.out ++ [c] } _ (some c) k1 k2 (fun d hd => hx d (List.mem_cons_of_mem _ hd))
      (by simp; omega)
    refine ⟨f', h1, h2, ?_⟩
    rw [e, List.cons_append, loop, hr, copy1_val (by omega)]
    simp only [List.drop_one, List.tail_cons, Nat.sub_self, List.getElem?_cons_zero]
    rw [h3, lastOr_cons]
    simp

theorem line_liquid (f : Flags) (prev : Option Byte) (s : Bytes) : (f.line prev s).liquid = f.liquid ∧ (f.line prev s).inline = f.inline ∧
    (f.line prev s).math = f.math := by
  unfold Flags.line; split <;> simp

/-- Code and mathematics are left alone. -/
theorem process_verbatim {a x b : Bytes} {mark : Byte} (ha : Plain a) (hb : Plain b)
    (hm : (mark = c!"`" ∧ ∀ c ∈ x, c ≠ c!"`" ∧ c ≠ c!"{") ∨
      (mark = c!"$" ∧ (∀ c ∈ x, c ≠ c!"$" ∧ c ≠ c!"`" ∧ c ≠ c!"{") ∧ ∃ c y, x = c :: y ∧ c ≠ 0 ∧ c ≠ c!" " ∧ c ≠ c!"\t" ∧ c ≠ c!"\n")) :
    process (a ++ ((mark :: x ++ [mark]) ++ b)) = .val (a ++ ((mark :: x ++ [mark]) ++ b)) := by
  have hmk : mark ≠ c!" " ∧ mark ≠ c!"\t" ∧ mark ≠ c!"^" ∧ mark ≠ c!"~" ∧ mark ≠ c!"{" := by
    rcases hm with ⟨rfl, _⟩ | ⟨rfl, _⟩ <;> decide
  generalize hlen : (a ++ ((mark :: x ++ [mark]) ++ b)).length = len
  have hlen' : len = a.length + (1 + (x.length + (1 + b.length))) := by rw [← hlen]; simp; omega
  have hroom : len < capacity len := by unfold capacity; split <;> omega
  -- the opening marker
  have hopen : ∃ f1, f1.liquid = false ∧ ((mark = c!"`" ∧ f1.inline = true) ∨ (mark = c!"$" ∧ f1.math = true)) ∧
      round ⟨capacity len, a⟩ clean (lastOr none a) mark (x ++ mark :: b) = ⟨⟨capacity len, a ++ [mark]⟩, f1, 1⟩ := by
    have hl : clean.line (lastOr none a) (mark :: (x ++ mark :: b)) = clean := line_other _ _ _ ⟨hmk.1, hmk.2.1⟩ rfl
    have hcp : Buf.copy1 ⟨capacity len, a⟩ mark = ⟨capacity len, a ++ [mark]⟩ := copy1_val (by simp; omega)
    rcases hm with ⟨rfl, hx⟩ | ⟨rfl, hx, c, y, rfl, hy⟩
    · have ht : clean.ticks (c!"`" :: (x ++ c!"`" :: b)) = { clean with inline := true } := by
        have : ¬ (at0 (c!"`" :: (x ++ c!"`" :: b)) 1 = c!"`" ∧ at0 (c!"`" :: (x ++ c!"`" :: b)) 2 = c!"`") := by
          rintro ⟨h1, h2⟩
          cases x with
          | nil =>
            cases b with
            | nil => simp [at0] at h2
            | cons d v => exact (hb.ordinary d (by simp)).2.2.1 (by simpa [at0] using h2)
          | cons c y => exact (hx c (by simp)).1 (by simpa [at0] using h1)
        unfold Flags.ticks
        rw [if_pos (by simp [at0]), if_neg this]; rfl
      refine ⟨{ clean with inline := true }, rfl, .inl ⟨rfl, rfl⟩, ?_⟩
      unfold round
      simp only [hl, ht]
      simp [mathPart, clean, hcp]
    · have ht : clean.ticks (c!"$" :: ((c :: y) ++ c!"$" :: b)) = clean := by
        unfold Flags.ticks; rw [if_neg (by simp [at0])]
      refine ⟨{ clean with math := true }, rfl, .inr ⟨rfl, rfl⟩, ?_⟩
      have hx' := hx c (by simp)
      unfold round
      simp only [hl, ht]
      simp [mathPart, clean, hcp, at0, opens, hx', hy]
  obtain ⟨f1, hf1, hf1', hr⟩ := hopen
  -- what is inside
  have hin : ∃ f2, f2.liquid = false ∧ loop (x.length + (1 + b.length)) ⟨capacity len, a ++ [mark]⟩ f1 (some mark) (x ++ mark :: b) =
      loop (1 + b.length) ⟨capacity len, a ++ [mark] ++ x⟩ f2 (lastOr (some mark) x) (mark :: b) := by
    rcases hf1' with ⟨rfl, hi⟩ | ⟨rfl, hi⟩
    · have hx : ∀ c ∈ x, c ≠ c!"`" ∧ c ≠ c!"{" := by
        rcases hm with ⟨_, h⟩ | ⟨h, _⟩
        · exact h
        · exact absurd h (by decide)
      obtain ⟨f2, _, h2, h3⟩ := loop_inside (fun f => f.inline = true) (by intro f h; simp [h]) (fun c => c ≠ c!"`" ∧ c ≠ c!"{")
        (fun c h => h.2) (by
          intro f prev c t b' hf hl hc
          have ht : (f.line prev (c :: t)).ticks (c :: t) = f.line prev (c :: t) := by
            unfold Flags.ticks; rw [if_neg (by simpa [at0] using hc.1)]
          rw [ht]
          obtain ⟨l1, l2, l3⟩ := line_liquid f prev (c :: t)
          refine ⟨by rw [l2]; exact hf, by rw [l1]; exact hl, by rw [l1]; exact hl, ?_⟩
          simp [mathPart, l2, hf]) x (c!"`" :: b) (1 + b.length) ⟨capacity len, a ++ [c!"`"]⟩ f1 (some c!"`") hi hf1 hx (by simp; omega)
      exact ⟨f2, h2, h3⟩
    · have hx : ∀ c ∈ x, c ≠ c!"$" ∧ c ≠ c!"`" ∧ c ≠ c!"{" := by
        rcases hm with ⟨h, _⟩ | ⟨_, h, _⟩
        · exact absurd h (by decide)
        · exact h
      obtain ⟨f2, _, h2, h3⟩ := loop_inside (fun f => f.math = true) (by intro f h; simp [h]) (fun c => c ≠ c!"$" ∧ c ≠ c!"`" ∧ c ≠ c!"{")
        (fun c h => h.2.2) (by
          intro f prev c t b' hf hl hc
          have ht : (f.line prev (c :: t)).ticks (c :: t) = f.line prev (c :: t) := by
            unfold Flags.ticks; rw [if_neg (by simpa [at0] using hc.2.1)]
          rw [ht]
          obtain ⟨l1, l2, l3⟩ := line_liquid f prev (c :: t)
          refine ⟨by rw [l3]; exact hf, by rw [l1]; exact hl, by rw [l1]; exact hl, ?_⟩
          simp [mathPart, hc.1]) x (c!"$" :: b) (1 + b.length) ⟨capacity len, a ++ [c!"$"]⟩ f1 (some c!"$") hi hf1 hx (by simp; omega)
      exact ⟨f2, h2, h3⟩
  obtain ⟨f2, _, hin⟩ := hin
  have hloop : loop len ⟨capacity len, []⟩ clean none (a ++ ((mark :: x ++ [mark]) ++ b)) =
      ⟨capacity len, a ++ ((mark :: x ++ [mark]) ++ b)⟩ := by
    have e : (mark :: x ++ [mark]) ++ b = mark :: (x ++ mark :: b) := by simp
    rw [e]
    generalize hg : capacity len = k at *
    have e2 : 1 + (x.length + (1 + b.length)) = (x.length + (1 + b.length)) + 1 := by omega
    rw [hlen', loop_plain a _ _ _ _ ha (by simpa using hmk.1) (by simp; omega), e2, loop]
    simp only [List.nil_append, hr, List.drop_one, List.tail_cons, Nat.sub_self, List.getElem?_cons_zero]
    rw [hin, loop_copy _ _ _ _ _ (by simp; omega) (by
      intro c hc
      rcases List.mem_cons.1 hc with rfl | hc
      · exact ⟨hmk.2.2.1, hmk.2.2.2.1⟩
      · exact ⟨(hb.ordinary c hc).1, (hb.ordinary c hc).2.1⟩) (by simp; omega)]
    simp
  unfold process
  simp only []
  rw [hlen]
  have e2 : (if len * 5 > 64 then len * 5 else 64) = capacity len := rfl
  rw [e2]
  unfold clean at hloop
  rw [hloop, finish_val (by simp only [hlen]; exact hroom)]

theorem process_plain {s : Bytes} (hs : ∀ c ∈ s, c ≠ c!"^" ∧ c ≠ c!"~") : process s = .val s := by
  have hroom : s.length < capacity s.length := by unfold capacity; split <;> omega
  unfold process
  simp only []
  have e2 : (if s.length * 5 > 64 then s.length * 5 else 64) = capacity s.length := rfl
  rw [e2, loop_copy _ _ _ _ _ (Nat.le_refl _) hs (by simp; omega), finish_val (by simpa using hroom)]
  simp

theorem loop_liquid (rest : Bytes) : ∀ (x : Bytes) (n : Nat) (b : Buf) (prev : Byte), c!"%" ∉ x → c!"\n" ∉ x → prev ≠ c!"\n" →
    b.out.length + x.length ≤ b.cap →
    ∃ prev', prev' ≠ c!"\n" ∧ loop (x.length + n) b { clean with liquid := true } (some prev) (x ++ rest) =
      loop n { b with out := b.out ++ x } { clean with liquid := true } (some prev') rest := by
  intro x
  induction x with
  | nil => intro n b prev _ _ hp _; exact ⟨prev, hp, by simp⟩
  | cons c x ih =>
    intro n b prev h1 h2 hp hroom
    simp only [List.mem_cons, not_or] at h1 h2
    simp only [List.length_cons] at hroom
    obtain ⟨p', hp', h⟩ := ih n { b with out := b.out ++ [c] } c h1.2 h2.2 (fun e => h2.1 e.symm) (by simp; omega)
    refine ⟨p', hp', ?_⟩
    have hr : round b { clean with liquid := true } (some prev) c (x ++ rest) = ⟨{ b with out := b.out ++ [c] }, { clean with liquid := true }, 1⟩ := by
      unfold round
      have hl : Flags.line { clean with liquid := true } (some prev) (c :: (x ++ rest)) = { clean with liquid := true } := by
        unfold Flags.line; rw [if_neg (by simp [hp])]
      simp only [hl]
      rw [if_neg (by simp), if_pos True.intro, if_neg (by intro hh; exact h1.1 hh.1.symm), copy1_val (by omega)]
    have e : (c :: x).length + n = (x.length + n) + 1 := by simp; omega
    rw [e, List.cons_append, loop]
    simp only [hr]
    simpa using h

/-- Liquid tags are left alone, and the text behind them is not. -/
theorem process_liquid {x y w b : Bytes} {closed : Bool} (h1 : c!"%" ∉ x) (h2 : c!"\n" ∉ x) (hy : Plain y) (hl : y.getLast? ≠ some c!"[")
    (hw : (Seg.sup w closed).Ok) (h0 : w.head? ≠ some 0) (hb : Plain b) (hn : closed = false → b = [] ∨ ∃ d v, b = d :: v ∧ EndsWord d) :
    process (b!"{%" ++ (x ++ (b!"%}" ++ (y ++ ((Seg.sup w closed).source ++ b))))) =
      .val (b!"{%" ++ (x ++ (b!"%}" ++ (y ++ ((Seg.sup w closed).html ++ b))))) := by
  generalize hlen : (b!"{%" ++ (x ++ (b!"%}" ++ (y ++ ((Seg.sup w closed).source ++ b))))).length = len
  have hsl : (Seg.sup w closed).source.length ≥ 1 := by simp [Seg.source]
  have hhl : (Seg.sup w closed).html.length ≤ (Seg.sup w closed).source.length + 11 := by simp [Seg.html, Seg.source]; omega
  have hlen' : len = 4 + x.length + y.length + (Seg.sup w closed).source.length + b.length := by rw [← hlen]; simp; omega
  have hroom : 4 + x.length + y.length + (Seg.sup w closed).html.length + b.length < capacity len := by
    unfold capacity; split <;> omega
  generalize hcap : capacity len = cap at *
  have r1 : ∀ t, round ⟨cap, []⟩ clean none c!"{" (c!"%" :: t) = ⟨⟨cap, b!"{%"⟩, { clean with liquid := true }, 2⟩ := by
    intro t
    unfold round
    have hl : clean.line none (c!"{" :: c!"%" :: t) = clean := line_other _ _ _ (by decide) rfl
    simp only [hl]
    rw [if_pos (by simp [clean, at0]), copy2_val (by simp; omega)]
    rfl
  have r2 : ∀ (out t : Bytes) (prev : Byte), prev ≠ c!"\n" → out.length + 1 < cap →
      round ⟨cap, out⟩ { clean with liquid := true } (some prev) c!"%" (c!"}" :: t) = ⟨⟨cap, out ++ b!"%}"⟩, clean, 2⟩ := by
    intro out t prev hp ho
    unfold round
    have hl : Flags.line { clean with liquid := true } (some prev) (c!"%" :: c!"}" :: t) = { clean with liquid := true } := by
      unfold Flags.line; rw [if_neg (by simp [hp])]
    simp only [hl]
    rw [if_neg (by simp), if_pos True.intro, if_pos (by simp [at0]), copy2_val ho]
    rfl
  have hloop : loop len ⟨cap, []⟩ clean none (b!"{%" ++ (x ++ (b!"%}" ++ (y ++ ((Seg.sup w closed).source ++ b))))) =
      ⟨cap, b!"{%" ++ (x ++ (b!"%}" ++ (y ++ ((Seg.sup w closed).html ++ b))))⟩ := by
    have e1 : len = (x.length + ((y.length + ((Seg.sup w closed).source.length + 1 + b.length + 1)) + 1)) + 1 := by omega
    have e2 : b!"{%" ++ (x ++ (b!"%}" ++ (y ++ ((Seg.sup w closed).source ++ b)))) =
        c!"{" :: c!"%" :: (x ++ (c!"%" :: c!"}" :: (y ++ ((Seg.sup w closed).source ++ b)))) := by simp
    rw [e1, e2, loop]
    simp only [r1]
    show loop _ _ _ (some c!"%") (x ++ _) = _
    obtain ⟨p, hp, h⟩ := loop_liquid (c!"%" :: c!"}" :: (y ++ ((Seg.sup w closed).source ++ b))) x
      ((y.length + ((Seg.sup w closed).source.length + 1 + b.length + 1)) + 1) ⟨cap, b!"{%"⟩ c!"%" h1 h2 (by decide) (by simp; omega)
    rw [h, loop]
    simp only []
    rw [r2 _ _ _ hp (by simp; omega)]
    show loop _ _ _ (some c!"}") (y ++ _) = _
    have hsrc : (Seg.sup w closed).source ++ b = c!"^" :: (w ++ ((if closed then b!"^" else []) ++ b)) := by simp [Seg.source]
    rw [loop_plain y _ _ _ _ hy (by rw [hsrc]; simp) (by simp; omega), hsrc, loop]
    simp only []
    have hprev : lastOr (some c!"}") y ≠ some c!"[" := by
      unfold lastOr
      cases hh : y.getLast? with
      | none => simp
      | some d => rw [hh] at hl; simpa using hl
    rw [round_sup hprev hw h0 hn (by simp; omega)]
    simp only []
    rw [← hsrc, List.drop_left, loop_copy _ _ _ _ _ (by omega)
      (fun c hc => ⟨(hb.ordinary c hc).1, (hb.ordinary c hc).2.1⟩) (by simp; omega)]
    simp
  unfold process
  simp only []
  have e2 : (if (b!"{%" ++ (x ++ (b!"%}" ++ (y ++ ((Seg.sup w closed).source ++ b))))).length * 5 > 64 then
      (b!"{%" ++ (x ++ (b!"%}" ++ (y ++ ((Seg.sup w closed).source ++ b))))).length * 5 else 64) = cap := by rw [hlen, ← hcap]; rfl
  rw [e2, hlen]
  unfold clean at hloop
  rw [hloop, finish_val (by simp; omega)]

/-- A dollar before a blank does not begin mathematics. -/
theorem process_dollar {a y w b : Bytes} {closed : Bool} (ha : Plain a) (hy : Plain y) (hd : y.head? = some c!" " ∨ y.head? = some c!"\n")
    (hl : y.getLast? ≠ some c!"[") (hw : (Seg.sup w closed).Ok) (h0 : w.head? ≠ some 0) (hb : Plain b)
    (hn : closed = false → b = [] ∨ ∃ d v, b = d :: v ∧ EndsWord d) :
    process (a ++ (b!"$" ++ (y ++ ((Seg.sup w closed).source ++ b)))) = .val (a ++ (b!"$" ++ (y ++ ((Seg.sup w closed).html ++ b)))) := by
  generalize hlen : (a ++ (b!"$" ++ (y ++ ((Seg.sup w closed).source ++ b)))).length = len
  have hsl : (Seg.sup w closed).source.length ≥ 1 := by simp [Seg.source]
  have hhl : (Seg.sup w closed).html.length ≤ (Seg.sup w closed).source.length + 11 := by simp [Seg.html, Seg.source]; omega
  have hlen' : len = 1 + a.length + y.length + (Seg.sup w closed).source.length + b.length := by rw [← hlen]; simp; omega
  have hroom : 1 + a.length + y.length + (Seg.sup w closed).html.length + b.length < capacity len := by
    unfold capacity; split <;> omega
  generalize hcap : capacity len = cap at *
  obtain ⟨d, y', rfl⟩ : ∃ d y', y = d :: y' := by
    cases y with
    | nil => simp at hd
    | cons d y => exact ⟨d, y, rfl⟩
  have r1 : ∀ (out t : Bytes) prev, out.length < cap → round ⟨cap, out⟩ clean prev c!"$" (d :: t) = ⟨⟨cap, out ++ b!"$"⟩, clean, 1⟩ := by
    intro out t prev ho
    unfold round
    have hl : clean.line prev (c!"$" :: d :: t) = clean := line_other _ _ _ (by decide) rfl
    have ht : clean.ticks (c!"$" :: d :: t) = clean := by
      unfold Flags.ticks; rw [if_neg (by simp [at0])]
    have hm : mathPart ⟨cap, out⟩ clean c!"$" (d :: t) = none := by
      simp at hd
      rcases hd with rfl | rfl <;> simp [mathPart, clean, at0, opens]
    simp only [hl, ht, hm]
    simp [clean, superscript, tilde]
    exact copy1_val ho
  have hloop : loop len ⟨cap, []⟩ clean none (a ++ (b!"$" ++ (d :: y' ++ ((Seg.sup w closed).source ++ b)))) =
      ⟨cap, a ++ (b!"$" ++ (d :: y' ++ ((Seg.sup w closed).html ++ b)))⟩ := by
    have e1 : len = a.length + (((d :: y').length + (((Seg.sup w closed).source.length - 1 + b.length) + 1)) + 1) := by omega
    have hp := loop_plain a (b!"$" ++ (d :: y' ++ ((Seg.sup w closed).source ++ b)))
      (((d :: y').length + (((Seg.sup w closed).source.length - 1 + b.length) + 1)) + 1) ⟨cap, []⟩ none ha (by simp) (by simp; omega)
    rw [← e1] at hp
    rw [hp]
    have e2 : b!"$" ++ (d :: y' ++ ((Seg.sup w closed).source ++ b)) = c!"$" :: d :: (y' ++ ((Seg.sup w closed).source ++ b)) := by simp
    rw [e2, loop]
    simp only []
    rw [r1 _ _ _ (by simp; omega)]
    have hsrc : (Seg.sup w closed).source ++ b = c!"^" :: (w ++ ((if closed then b!"^" else []) ++ b)) := by simp [Seg.source]
    show loop ((d :: y').length + (((Seg.sup w closed).source.length - 1 + b.length) + 1)) ⟨cap, [] ++ a ++ b!"$"⟩ clean (some c!"$")
      (d :: y' ++ ((Seg.sup w closed).source ++ b)) = _
    rw [loop_plain (d :: y') _ _ _ _ hy (by rw [hsrc]; simp) (by simp at *; omega), hsrc, loop]
    simp only []
    have hprev : lastOr (some c!"$") (d :: y') ≠ some c!"[" := by
      unfold lastOr
      cases hh : (d :: y').getLast? with
      | none => simp
      | some e => rw [hh] at hl; simpa using hl
    rw [round_sup hprev hw h0 hn (by simp at *; omega)]
    simp only []
    rw [← hsrc, List.drop_left, loop_copy _ _ _ _ _ (by omega)
      (fun c hc => ⟨(hb.ordinary c hc).1, (hb.ordinary c hc).2.1⟩) (by simp at *; omega)]
    simp
  unfold process
  simp only []
  have e2 : (if (a ++ (b!"$" ++ (d :: y' ++ ((Seg.sup w closed).source ++ b)))).length * 5 > 64 then
      (a ++ (b!"$" ++ (d :: y' ++ ((Seg.sup w closed).source ++ b)))).length * 5 else 64) = cap := by rw [hlen, ← hcap]; rfl
  rw [e2, hlen]
  unfold clean at hloop
  rw [hloop, finish_val (by simp at *; omega)]

end Verif.SupSub
