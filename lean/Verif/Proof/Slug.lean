import Verif.Spec.Slug

namespace Verif.Slug

/-- What is written for a piece. -/
def emit (sep : Option Byte) (last : Bool) : Piece → Bytes
  | .gone => []
  | .keep w => w
  | .brk => if last then [] else sep.toList

/-- Whether the text then counts as ending in a separator. -/
def next (sep : Option Byte) (last : Bool) : Piece → Bool
  | .gone => last
  | .keep _ => false
  | .brk => if sep = none then last else true

/-- What is written for all of them. -/
def run (sep : Option Byte) : Bool → List Piece → Bytes
  | _, [] => []
  | last, p :: ps => emit sep last p ++ run sep (next sep last p) ps

/-- A separator at the end goes. -/
def trimEnd (sp : Byte) (s : Bytes) : Bytes := if s.getLast? = some sp then s.dropLast else s

theorem groups_ne (ps : List Piece) : groups ps ≠ [] := by
  induction ps with
  | nil => simp [groups]
  | cons p ps ih =>
    cases p with
    | gone => simpa [groups] using ih
    | brk => simp [groups]
    | keep w =>
      rw [groups]
      split <;> simp

theorem intercalate_cons (sp : Byte) (w : Bytes) {l : List Bytes} (h : l ≠ []) :
    List.intercalate [sp] (w :: l) = w ++ sp :: List.intercalate [sp] l := by
  cases l with
  | nil => exact absurd rfl h
  | cons a l => simp [List.intercalate]

theorem intercalate_one (sp : Byte) (w : Bytes) : List.intercalate [sp] [w] = w := by simp [List.intercalate]

theorem trimEnd_append {sp : Byte} (w : Bytes) {x : Bytes} (h : x ≠ []) : trimEnd sp (w ++ x) = w ++ trimEnd sp x := by
  have e : (w ++ x).getLast? = x.getLast? := by
    rw [List.getLast?_append, List.getLast?_eq_some_getLast h]; rfl
  by_cases hl : x.getLast? = some sp
  · rw [trimEnd, trimEnd, if_pos (e.trans hl), if_pos hl, List.dropLast_append_of_ne_nil h]
  · rw [trimEnd, trimEnd, if_neg (fun h' => hl (e.symm.trans h')), if_neg hl]

/-- Pieces are written as words that do not touch a separator. -/
def Fine (sp : Byte) (ps : List Piece) : Prop :=
  ∀ w, .keep w ∈ ps → w ≠ [] ∧ w.head? ≠ some sp ∧ w.getLast? ≠ some sp

theorem Fine.tail {sp : Byte} {p : Piece} {ps : List Piece} (h : Fine sp (p :: ps)) : Fine sp ps :=
  fun w hw => h w (by simp [hw])

theorem run_head {sp : Byte} {ps : List Piece} (h : Fine sp ps) : (run (some sp) true ps).head? ≠ some sp := by
  induction ps with
  | nil => simp [run]
  | cons p ps ih =>
    cases p with
    | gone => simpa [run, emit, next] using ih h.tail
    | brk => simpa [run, emit, next] using ih h.tail
    | keep w =>
      have h1 := h w (by simp)
      rw [run, emit, List.head?_append]
      cases hw : w.head? with
      | none => exact absurd (List.head?_eq_none_iff.1 hw) h1.1
      | some c => rw [hw] at h1; simpa using h1.2.1

theorem words_ne {ps : List Piece} {w : Bytes} (h : w ∈ words ps) : w ≠ [] := by
  have := List.mem_filter.1 h
  simpa using this.2

theorem run_join_aux (sp : Byte) (ps : List Piece) : Fine sp ps →
    trimEnd sp (run (some sp) true ps) = List.intercalate [sp] (words ps) ∧
    ∀ w, w ≠ [] → w.getLast? ≠ some sp → ∀ g gs, groups ps = g :: gs →
      trimEnd sp (w ++ run (some sp) false ps) = List.intercalate [sp] ((w ++ g) :: gs.filter (· ≠ [])) := by
  induction ps with
  | nil =>
    intro _
    refine ⟨rfl, ?_⟩
    rintro w hw hl g gs hg
    simp only [groups, List.cons.injEq] at hg
    obtain ⟨rfl, rfl⟩ := hg
    rw [run, List.append_nil, trimEnd, if_neg hl]
    simp [List.intercalate]
  | cons p ps ih =>
    intro hf
    obtain ⟨i1, i2⟩ := ih hf.tail
    cases p with
    | gone => exact ⟨by simpa [run, emit, next, words, groups] using i1, by simpa [run, emit, next, groups] using i2⟩
    | keep v =>
      obtain ⟨h1, h2, h3⟩ := hf v (by simp)
      obtain ⟨g, gs, hg⟩ : ∃ g gs, groups ps = g :: gs := by
        cases h : groups ps with
        | nil => exact absurd h (groups_ne ps)
        | cons g gs => exact ⟨g, gs, rfl⟩
      have hg' : groups (.keep v :: ps) = (v ++ g) :: gs := by rw [groups, hg]
      constructor
      · rw [run, emit, next, i2 v h1 h3 g gs hg, words, hg', List.filter_cons, if_pos (by simp [h1])]
      · rintro w hw hl g' gs' hh
        rw [hg'] at hh
        cases hh
        rw [run, emit, next, ← List.append_assoc, i2 (w ++ v) (by simp [hw]) _ g gs hg, List.append_assoc]
        rw [List.getLast?_append, List.getLast?_eq_some_getLast h1]
        rw [List.getLast?_eq_some_getLast h1] at h3
        simpa using h3
    | brk =>
      constructor
      · simpa [run, emit, next, words, groups] using i1
      · rintro w hw hl g gs hg
        rw [groups] at hg
        cases hg
        rw [run, emit, next, List.append_nil]
        simp only [Option.toList, Bool.false_eq_true, if_false, reduceCtorEq]
        by_cases hx : run (some sp) true ps = []
        · rw [hx]
          have hw0 : words ps = [] := by
            rw [hx] at i1
            have h0 : List.intercalate [sp] (words ps) = [] := i1.symm
            cases hw' : words ps with
            | nil => rfl
            | cons a l =>
              have ha : a ≠ [] := words_ne (ps := ps) (by rw [hw']; simp)
              rw [hw'] at h0
              by_cases hl : l = []
              · subst hl; rw [intercalate_one] at h0; exact absurd h0 ha
              · rw [intercalate_cons _ _ hl] at h0; simp at h0
          show _ = List.intercalate [sp] (w :: words ps)
          rw [hw0, intercalate_one, trimEnd_append _ (by simp)]
          simp [trimEnd]
        · show _ = List.intercalate [sp] (w :: words ps)
          have hne : words ps ≠ [] := by
            intro h0
            rw [h0] at i1
            have : trimEnd sp (run (some sp) true ps) = [] := i1
            unfold trimEnd at this
            split at this
            · rename_i hlast
              have h4 := run_head hf.tail
              cases hr : run (some sp) true ps with
              | nil => exact hx hr
              | cons a l =>
                rw [hr] at this hlast h4
                cases l with
                | nil => simp at hlast h4; exact h4 hlast
                | cons b l => simp at this
            · exact hx this
          rw [intercalate_cons _ _ hne, trimEnd_append _ (by simp), List.singleton_append]
          rw [show sp :: run (some sp) true ps = [sp] ++ run (some sp) true ps from rfl, trimEnd_append _ hx, i1]
          simp

/-- What is written is the words with one separator between them, and perhaps one behind. -/
theorem run_join {sp : Byte} {ps : List Piece} (h : Fine sp ps) :
    trimEnd sp (run (some sp) true ps) = joined (some sp) ps := (run_join_aux sp ps h).1

theorem run_none (ps : List Piece) : ∀ last, run none last ps = joined none ps := by
  have h1 : ∀ l : List Bytes, (l.filter (· ≠ [])).flatten = l.flatten := by
    intro l
    induction l with
    | nil => rfl
    | cons a l ih =>
      by_cases ha : a = []
      · subst ha; simpa using ih
      · rw [List.filter_cons, if_pos (by simpa using ha), List.flatten_cons, List.flatten_cons, ih]
  have h2 : ∀ last, run none last ps = (groups ps).flatten := by
    induction ps with
    | nil => intro _; simp [run, groups]
    | cons p ps ih =>
      intro last
      cases p with
      | gone => simpa [run, emit, groups] using ih _
      | brk => simpa [run, emit, groups] using ih _
      | keep w =>
        rw [run, emit, groups, ih]
        split
        · rename_i h; exact absurd h (groups_ne ps)
        · rename_i h; rw [h]; simp
  intro last
  rw [h2, joined, words, h1]

theorem infix_append {x y : Byte} {a b : Bytes} (h : [x, y] <:+: a ++ b) :
    [x, y] <:+: a ∨ [x, y] <:+: b ∨ a.getLast? = some x ∧ b.head? = some y := by
  induction a with
  | nil => exact .inr (.inl h)
  | cons c a ih =>
    rw [List.cons_append, List.infix_cons_iff] at h
    rcases h with ⟨t, ht⟩ | h
    · cases a with
      | nil =>
        right; right
        simp at ht
        obtain ⟨rfl, ht⟩ := ht
        rw [← ht]
        simp
      | cons d a =>
        left
        simp at ht
        obtain ⟨rfl, rfl, _⟩ := ht
        exact ⟨[], a, rfl⟩
    · rcases ih h with h | h | h
      · exact .inl (List.infix_cons_iff.2 (.inr h))
      · exact .inr (.inl h)
      · refine .inr (.inr ⟨?_, h.2⟩)
        cases a with
        | nil => simp at h
        | cons d a => rw [List.getLast?_cons_cons]; exact h.1

theorem head_append {a b : Bytes} (h : a ≠ []) : (a ++ b).head? = a.head? := by
  cases a with
  | nil => exact absurd rfl h
  | cons c a => rfl

theorem Tidy.append {sp : Byte} {a b : Bytes} (ha : Tidy sp a) (hb : Tidy sp b) : Tidy sp (a ++ b) := by
  by_cases h1 : a = []
  · subst h1; exact hb
  by_cases h2 : b = []
  · subst h2; rw [List.append_nil]; exact ha
  refine ⟨?_, ?_, ?_⟩
  · rw [head_append h1]; exact ha.1
  · rw [List.getLast?_append, List.getLast?_eq_some_getLast h2]
    have := hb.2.1
    rw [List.getLast?_eq_some_getLast h2] at this
    simpa using this
  · intro h
    rcases infix_append h with h | h | h
    · exact ha.2.2 h
    · exact hb.2.2 h
    · exact ha.2.1 h.1

theorem Tidy.sep {sp : Byte} {a b : Bytes} (ha : Tidy sp a) (hb : Tidy sp b) (h1 : a ≠ []) (h2 : b ≠ []) :
    Tidy sp (a ++ sp :: b) := by
  refine ⟨?_, ?_, ?_⟩
  · rw [head_append h1]; exact ha.1
  · rw [List.getLast?_append, List.getLast?_cons, List.getLast?_eq_some_getLast h2]
    have := hb.2.1
    rw [List.getLast?_eq_some_getLast h2] at this
    simpa using this
  · intro h
    rcases infix_append h with h | h | h
    · exact ha.2.2 h
    · rw [List.infix_cons_iff] at h
      rcases h with ⟨t, ht⟩ | h
      · simp at ht
        exact hb.1 (by rw [← ht]; rfl)
      · exact hb.2.2 h
    · exact ha.2.1 h.1

theorem tidy_nil (sp : Byte) : Tidy sp [] := by
  refine ⟨by simp, by simp, ?_⟩
  intro h
  have := h.length_le
  simp at this

theorem tidy_absent {sp : Byte} {w : Bytes} (h : sp ∉ w) : Tidy sp w :=
  ⟨fun h' => h (List.mem_of_head? h'), fun h' => h (List.mem_of_getLast? h'),
    fun h' => h (h'.subset (by simp))⟩

theorem tidy_intercalate {sp : Byte} {l : List Bytes} (h : ∀ w ∈ l, w ≠ [] ∧ Tidy sp w) :
    Tidy sp (List.intercalate [sp] l) ∧ (l ≠ [] → List.intercalate [sp] l ≠ []) := by
  induction l with
  | nil => exact ⟨tidy_nil sp, fun h => absurd rfl h⟩
  | cons w l ih =>
    obtain ⟨h1, h2⟩ := h w (by simp)
    have ih := ih fun v hv => h v (by simp [hv])
    by_cases hl : l = []
    · subst hl; rw [intercalate_one]; exact ⟨h2, fun _ => h1⟩
    · rw [intercalate_cons _ _ hl]
      exact ⟨h2.sep ih.1 h1 (ih.2 hl), fun _ => by simp⟩

theorem groups_tidy {sp : Byte} {ps : List Piece} (h : ∀ w, .keep w ∈ ps → Tidy sp w) :
    ∀ g ∈ groups ps, Tidy sp g := by
  induction ps with
  | nil =>
    intro g hg
    simp [groups] at hg
    subst hg; exact tidy_nil sp
  | cons p ps ih =>
    have ih := ih fun w hw => h w (by simp [hw])
    cases p with
    | gone => simpa [groups] using ih
    | brk =>
      intro g hg
      rw [groups] at hg
      rcases List.mem_cons.1 hg with rfl | hg
      · exact tidy_nil sp
      · exact ih g hg
    | keep w =>
      intro g hg
      rw [groups] at hg
      split at hg
      · rename_i h0; exact absurd h0 (groups_ne ps)
      · rename_i g' gs h0
        rcases List.mem_cons.1 hg with rfl | hg
        · exact (h w (by simp)).append (ih g' (by rw [h0]; simp))
        · exact ih g (by rw [h0]; simp [hg])

theorem joined_tidy {sp : Byte} {ps : List Piece} (h : ∀ w, .keep w ∈ ps → Tidy sp w) :
    Tidy sp (joined (some sp) ps) := by
  refine (tidy_intercalate ?_).1
  intro w hw
  exact ⟨words_ne hw, groups_tidy h w (List.mem_filter.1 hw).1⟩

theorem groups_mem {ps : List Piece} {g : Bytes} (h : g ∈ groups ps) : ∀ c ∈ g, ∃ w, .keep w ∈ ps ∧ c ∈ w := by
  induction ps generalizing g with
  | nil =>
    simp [groups] at h
    subst h; simp
  | cons p ps ih =>
    have up : (∀ c ∈ g, ∃ w, .keep w ∈ ps ∧ c ∈ w) → ∀ c ∈ g, ∃ w, .keep w ∈ p :: ps ∧ c ∈ w := by
      intro h c hc
      obtain ⟨w, h1, h2⟩ := h c hc
      exact ⟨w, by simp [h1], h2⟩
    cases p with
    | gone => exact up (ih (by simpa [groups] using h))
    | brk =>
      rw [groups] at h
      rcases List.mem_cons.1 h with rfl | h
      · simp
      · exact up (ih h)
    | keep w =>
      rw [groups] at h
      split at h
      · rename_i h0; exact absurd h0 (groups_ne ps)
      · rename_i g' gs h0
        rcases List.mem_cons.1 h with rfl | h
        · intro c hc
          rcases List.mem_append.1 hc with hc | hc
          · exact ⟨w, by simp, hc⟩
          · obtain ⟨v, h1, h2⟩ := ih (g := g') (by rw [h0]; simp) c hc
            exact ⟨v, by simp [h1], h2⟩
        · exact up (ih (by rw [h0]; simp [h]))

theorem joined_mem {sep : Option Byte} {ps : List Piece} {c : Byte} (h : c ∈ joined sep ps) :
    sep = some c ∨ ∃ w, .keep w ∈ ps ∧ c ∈ w := by
  have key : ∀ l : List Bytes, (∀ g ∈ l, g ∈ groups ps) → ∀ sp, c ∈ List.intercalate [sp] l →
      sp = c ∨ ∃ w, .keep w ∈ ps ∧ c ∈ w := by
    intro l
    induction l with
    | nil => intro _ sp h; simp [List.intercalate] at h
    | cons g l ih =>
      intro hl sp h
      by_cases h0 : l = []
      · subst h0; rw [intercalate_one] at h; exact .inr (groups_mem (hl g (by simp)) c h)
      · rw [intercalate_cons _ _ h0] at h
        rcases List.mem_append.1 h with h | h
        · exact .inr (groups_mem (hl g (by simp)) c h)
        · rcases List.mem_cons.1 h with h | h
          · exact .inl h.symm
          · exact ih (fun g hg => hl g (by simp [hg])) sp h
  cases sep with
  | some sp =>
    rcases key _ (fun g hg => (List.mem_filter.1 hg).1) sp h with h | h
    · exact .inl (by rw [h])
    · exact .inr h
  | none =>
    obtain ⟨g, hg, hc⟩ := List.mem_flatten.1 h
    exact .inr (groups_mem (List.mem_filter.1 hg).1 c hc)

end Verif.Slug
