import Verif.Spec.Includes
import Verif.Model.Includes
import Verif.Proof.Address
import Verif.Proof.Transforms

namespace Verif.Includes

open Spec Transforms

/-! ### Fences -/

theorem replicate_takeWhile (s : Bytes) : s.takeWhile (· == c!"`") = List.replicate (s.takeWhile (· == c!"`")).length c!"`" := by
  apply List.eq_replicate_iff.2
  refine ⟨rfl, fun c hc => ?_⟩
  have := List.all_takeWhile (l := s) (p := fun c => c == c!"`")
  rw [List.all_eq_true] at this
  simpa using this c hc

theorem run_pos {c : Byte} {t : Bytes} (h : (c == c!"`") = true) : 0 < ((c :: t).takeWhile (· == c!"`")).length := by
  rw [List.takeWhile_cons, if_pos h]; simp

theorem fence_le {open_ : Option (Nat × Nat)} {n : Nat} (hn : 0 < n) (ho : ∀ o k, open_ = some (o, k) → k ≤ o + 1) :
    (fence open_ n).1 ≤ 2 * n ∧ ∀ o k, (fence open_ n).2 = some (o, k) → k ≤ o + 1 := by
  unfold fence
  split
  · cases open_ with
    | none =>
      simp only []
      split
      · exact ⟨by omega, by intro o k h; cases h; omega⟩
      · exact ⟨by omega, by intro o k h; cases h; omega⟩
    | some x =>
      obtain ⟨o, k⟩ := x
      simp only []
      have := ho o k rfl
      split
      · exact ⟨by simp only []; omega, by simp⟩
      · exact ⟨by simp only []; omega, by simpa using ho⟩
  · exact ⟨by omega, ho⟩

theorem normLoop_safe (cap : Nat) : ∀ (fuel : Nat) (start : Bool) (open_ : Option (Nat × Nat)) (out s : Bytes),
    (∀ o k, open_ = some (o, k) → k ≤ o + 1) → out.length + 2 * s.length < cap →
    ∃ r, normLoop cap fuel start open_ out s = .val r ∧ r.length ≤ out.length + 2 * s.length
  | 0, _, _, out, s, _, _ => ⟨out, by rw [normLoop], by omega⟩
  | _ + 1, _, _, out, [], _, _ => ⟨out, by rw [normLoop], by simp⟩
  | fuel + 1, start, open_, out, c :: t, ho, hc => by
    rw [normLoop]
    by_cases h : (start && c == c!"`") = true
    · rw [if_pos h]
      have hp := run_pos (t := t) (by simp at h; simp [h.2] : (c == c!"`") = true)
      have hl : ((c :: t).takeWhile (· == c!"`")).length + ((c :: t).dropWhile (· == c!"`")).length = (c :: t).length := by
        rw [← List.length_append, List.takeWhile_append_dropWhile]
      generalize ((c :: t).takeWhile (· == c!"`")).length = n at hp hl ⊢
      generalize (c :: t).dropWhile (· == c!"`") = rest at hl ⊢
      obtain ⟨hf, ho'⟩ := fence_le hp ho
      have hline : (if n ≥ 3 then rest.takeWhile (fun c => c != c!"\n" && c != c!"\r") else []).length ≤ rest.length := by
        split
        · exact (List.takeWhile_sublist _).length_le
        · simp
      simp only []
      generalize (if n ≥ 3 then rest.takeWhile (fun c => c != c!"\n" && c != c!"\r") else []) = line at hline ⊢
      rw [puts_val (by simp; omega), C.val_bind, puts_val (by simp; omega), C.val_bind]
      obtain ⟨r, hr, hrl⟩ := normLoop_safe cap fuel false (fence open_ n).2 (out ++ List.replicate (fence open_ n).1 c!"`" ++ line)
        (rest.drop line.length) ho' (by simp; omega)
      refine ⟨r, hr, ?_⟩
      simp only [List.length_append, List.length_replicate, List.length_drop] at hrl
      omega
    · rw [if_neg h]
      rw [List.length_cons] at hc ⊢
      rw [put_val (by omega), C.val_bind]
      obtain ⟨r, hr, hrl⟩ := normLoop_safe cap fuel (c == c!"\n") open_ (out ++ [c]) t ho (by simp; omega)
      refine ⟨r, hr, ?_⟩
      simp at hrl; omega

theorem normalize_safe (text : Bytes) : ∃ r, normalize text = .val r ∧ r.length ≤ 2 * text.length := by
  unfold normalize
  obtain ⟨r, hr, hl⟩ := normLoop_safe (text.length * 2 + 1) text.length true none [] text (by simp) (by simp; omega)
  refine ⟨r, ?_, by simpa using hl⟩
  simp only []
  rw [hr, C.val_bind, finish_val (by simp at hl; omega)]

theorem lineStart_cons {a : Bytes} {c : Byte} : LineStart (c :: a) ↔ (a = [] ∧ c = c!"\n") ∨ (a ≠ [] ∧ a.getLast? = some c!"\n") := by
  unfold LineStart
  cases a with
  | nil => simp
  | cons d a => simp

theorem lineStart_ne {a : Bytes} (h : a ≠ []) : LineStart a ↔ a.getLast? = some c!"\n" := by
  unfold LineStart; simp [h]

theorem normLoop_id (cap : Nat) : ∀ (fuel : Nat) (before : Bytes) (start : Bool) (open_ : Option (Nat × Nat)) (out s : Bytes),
    (start = true ↔ LineStart before) → NoEvenFence (before ++ s) → (∀ o k, open_ = some (o, k) → k = o) → s.length ≤ fuel →
    out.length + s.length < cap → normLoop cap fuel start open_ out s = .val (out ++ s)
  | 0, _, _, _, out, s, _, _, _, hs, _ => by
    have : s = [] := List.length_eq_zero_iff.1 (by omega)
    subst this; rw [normLoop, List.append_nil]
  | _ + 1, _, _, _, out, [], _, _, _, _, _ => by rw [normLoop, List.append_nil]
  | fuel + 1, before, start, open_, out, c :: t, hst, hne, ho, hfu, hc => by
    rw [normLoop]
    by_cases h : (start && c == c!"`") = true
    · rw [if_pos h]
      have h2 : start = true ∧ c = c!"`" := by simpa using h
      have hp := run_pos (t := t) (by simp [h2.2] : (c == c!"`") = true)
      have hsplit : List.replicate ((c :: t).takeWhile (· == c!"`")).length c!"`" ++ (c :: t).dropWhile (· == c!"`") = c :: t := by
        rw [← replicate_takeWhile, List.takeWhile_append_dropWhile]
      have hhead : ((c :: t).dropWhile (· == c!"`")).head? ≠ some c!"`" := by
        intro hh
        have := List.head?_dropWhile_not (fun c => c == c!"`") (c :: t)
        rw [hh] at this
        simp at this
      generalize ((c :: t).takeWhile (· == c!"`")).length = n at hp hsplit ⊢
      generalize (c :: t).dropWhile (· == c!"`") = rest at hsplit hhead ⊢
      have hl : n + rest.length = (c :: t).length := by rw [← hsplit]; simp
      have hodd : 4 ≤ n → n % 2 = 1 := by
        intro hn
        exact hne before n rest (by rw [List.append_assoc, hsplit]) (hst.1 h2.1) hhead hn
      have hf : (fence open_ n).1 = n ∧ ∀ o k, (fence open_ n).2 = some (o, k) → k = o := by
        unfold fence
        split
        · cases open_ with
          | none =>
            simp only []
            rw [if_neg (by
              intro he
              by_cases h4 : 4 ≤ n
              · have := hodd h4; omega
              · have : n = 3 := by omega
                omega)]
            exact ⟨rfl, by intro o k h; cases h; rfl⟩
          | some x =>
            obtain ⟨o, k⟩ := x
            simp only []
            have := ho o k rfl
            split
            · exact ⟨by simp only []; omega, by simp⟩
            · exact ⟨rfl, ho⟩
        · exact ⟨rfl, ho⟩
      simp only []
      have hline : ∃ line tail, (if n ≥ 3 then rest.takeWhile (fun c => c != c!"\n" && c != c!"\r") else []) = line ∧ rest = line ++ tail ∧
          (c!"\n" ∉ line) := by
        split
        · refine ⟨_, rest.dropWhile (fun c => c != c!"\n" && c != c!"\r"), rfl, (List.takeWhile_append_dropWhile).symm, ?_⟩
          intro hm
          have := List.all_takeWhile (l := rest) (p := fun c => c != c!"\n" && c != c!"\r")
          rw [List.all_eq_true] at this
          have := this _ hm
          simp at this
        · exact ⟨[], rest, rfl, rfl, by simp⟩
      obtain ⟨line, tail, hline, htail, hnl⟩ := hline
      rw [hline, htail, List.drop_left, hf.1]
      have hll : rest.length = line.length + tail.length := by rw [htail, List.length_append]
      rw [puts_val (by simp; omega), C.val_bind, puts_val (by simp; omega), C.val_bind]
      have hbne : before ++ List.replicate n c!"`" ++ line ≠ [] := by
        cases n with
        | zero => omega
        | succ n => simp [List.replicate_succ]
      have hlast : ∃ d, (before ++ List.replicate n c!"`" ++ line).getLast? = some d ∧ d ≠ c!"\n" := by
        cases hg : line.getLast? with
        | some d =>
          refine ⟨d, by rw [List.getLast?_append, hg]; rfl, ?_⟩
          rintro rfl
          exact hnl (List.mem_of_getLast? hg)
        | none =>
          refine ⟨c!"`", ?_, by decide⟩
          rw [List.getLast?_append, hg, List.getLast?_append, List.getLast?_replicate, if_neg (by omega)]; rfl
      have hfl : false = true ↔ LineStart (before ++ List.replicate n c!"`" ++ line) := by
        rw [lineStart_ne hbne]
        obtain ⟨d, hd, hd2⟩ := hlast
        rw [hd]
        simp [hd2]
      have hne' : NoEvenFence ((before ++ List.replicate n c!"`" ++ line) ++ tail) := by
        have e : (before ++ List.replicate n c!"`" ++ line) ++ tail = before ++ (c :: t) := by
          rw [← hsplit, htail]; simp
        rw [e]; exact hne
      rw [normLoop_id cap fuel (before ++ List.replicate n c!"`" ++ line) false (fence open_ n).2 _ tail hfl hne' hf.2
        (by simp at hfu; simp at hl; omega) (by simp at hc hl; simp; omega)]
      rw [← hsplit, htail]; simp
    · rw [if_neg h]
      rw [List.length_cons] at hc hfu
      rw [put_val (by omega), C.val_bind]
      have hst' : (c == c!"\n") = true ↔ LineStart (before ++ [c]) := by
        rw [lineStart_ne (by simp)]; simp
      rw [normLoop_id cap fuel (before ++ [c]) (c == c!"\n") open_ (out ++ [c]) t hst'
        (by have e : before ++ [c] ++ t = before ++ c :: t := by simp
            rw [e]; exact hne) ho (by omega) (by simp; omega)]
      simp

theorem normalize_id {text : Bytes} (h : NoEvenFence text) : normalize text = .val text := by
  unfold normalize
  simp only []
  rw [normLoop_id _ text.length [] true none [] text (by simp [LineStart]) (by simpa using h) (by simp) (Nat.le_refl _)
    (by simp; omega), C.val_bind, List.nil_append, finish_val (by omega)]

/-! ### Quiet text -/

theorem step_quiet {w : World} {fuel : Nat} {recurse : Recurse} {base : Option Bytes} {start code : Bool} {before s : Bytes}
    (hst : start = true → LineStart before) (h : ¬ IncludeAt before s) : step w fuel recurse base start code s = some (.val none) := by
  unfold IncludeAt at h
  unfold step
  rw [if_neg, if_neg, if_neg]
  · intro hh
    simp only [Bool.and_eq_true, List.isPrefixOf_iff_prefix] at hh
    exact h (.inr ⟨hst hh.1.2, .inr hh.2⟩)
  · intro hh
    simp only [Bool.and_eq_true, List.isPrefixOf_iff_prefix] at hh
    exact h (.inl hh.2)
  · intro hh
    simp only [Bool.and_eq_true, beq_iff_eq] at hh
    refine h (.inr ⟨hst hh.2, .inl ?_⟩)
    cases s with
    | nil => simp at hh
    | cons c t =>
      have : c = c!"/" := by simpa using hh.1.2
      subst this; simp

theorem step_code {w : World} {fuel : Nat} {recurse : Recurse} {base : Option Bytes} {start : Bool} {s : Bytes} :
    step w fuel recurse base start true s = some (.val none) := by
  unfold step; simp

/-- The state after a text. -/
def toggled (code : Bool) (s : Bytes) : Bool := if s.count c!"`" % 2 = 0 then code else !code

theorem toggled_cons (code : Bool) (c : Byte) (t : Bytes) :
    toggled (if c = c!"`" then !code else code) t = toggled code (c :: t) := by
  unfold toggled
  rw [List.count_cons]
  by_cases h : c = c!"`"
  · subst h
    simp only [if_true, beq_self_eq_true]
    by_cases h2 : t.count c!"`" % 2 = 0
    · rw [if_pos h2, if_neg (by omega)]
    · rw [if_neg h2, if_pos (by omega)]; simp
  · simp [h]

theorem loop_copy_none {w : World} {recurse : Recurse} {base : Option Bytes} {cap : Nat} : ∀ (s : Bytes) (fuel : Nat) (start code : Bool)
    (before out after : Bytes), (start = true ↔ LineStart before) →
    (∀ a b, s = a ++ b → b ≠ [] → ∀ fuel start, (start = true ↔ LineStart (before ++ a)) →
      step w fuel recurse base start (toggled code (a ++ b.take 1)) (b ++ after) = some (.val none)) → out.length + s.length ≤ cap →
    ∃ start', (s ≠ [] → (start' = true ↔ LineStart (before ++ s))) ∧ (s = [] → start' = start) ∧
      loop w recurse base cap (fuel + s.length) start code out (s ++ after) =
      loop w recurse base cap fuel start' (toggled code s) (out ++ s) after
  | [], fuel, start, code, before, out, after, _, _, _ => ⟨start, by simp, by simp, by simp [toggled]⟩
  | c :: t, fuel, start, code, before, out, after, hst, hq, hc => by
    have hstep : step w (fuel + t.length) recurse base start (if c = c!"`" then !code else code) (c :: (t ++ after)) = some (.val none) := by
      have e : (if c = c!"`" then !code else code) = toggled code ([] ++ (c :: t).take 1) := by
        rw [show ([] : Bytes) ++ (c :: t).take 1 = [c] from rfl, ← toggled_cons]; simp [toggled]
      rw [e]
      exact hq [] (c :: t) rfl (by simp) _ _ (by simpa using hst)
    have hst' : (c == c!"\n") = true ↔ LineStart (before ++ [c]) := by
      rw [lineStart_ne (by simp)]; simp
    rw [List.length_cons] at hc
    obtain ⟨st, h1, h2, h3⟩ := loop_copy_none (w := w) (recurse := recurse) (base := base) (cap := cap) t fuel (c == c!"\n")
      (if c = c!"`" then !code else code) (before ++ [c]) (out ++ [c]) after hst'
      (by
        intro a b hab hb fuel start hs
        have := hq (c :: a) b (by simp [hab]) hb fuel start (by simpa using hs)
        rw [List.cons_append, ← toggled_cons] at this
        exact this) (by simp; omega)
    refine ⟨st, fun _ => ?_, by simp, ?_⟩
    · by_cases ht : t = []
      · rw [h2 ht, hst', ht]
      · have := h1 ht
        simpa using this
    · rw [List.length_cons, ← Nat.add_assoc, List.cons_append, loop]
      rw [hstep]
      simp only [M.bind]
      rw [if_pos (by omega), put_val (by omega)]
      simp only []
      rw [h3, toggled_cons]
      simp only [List.append_assoc, List.singleton_append]

theorem loop_copy {w : World} {recurse : Recurse} {base : Option Bytes} {cap : Nat} (s : Bytes) (fuel : Nat) (start code : Bool)
    (before out after : Bytes) (hst : start = true ↔ LineStart before)
    (hq : ∀ a b, s = a ++ b → b ≠ [] → toggled code (a ++ b.take 1) = true ∨ ¬ IncludeAt (before ++ a) (b ++ after))
    (hc : out.length + s.length ≤ cap) :
    ∃ start', (s ≠ [] → (start' = true ↔ LineStart (before ++ s))) ∧ (s = [] → start' = start) ∧
      loop w recurse base cap (fuel + s.length) start code out (s ++ after) =
      loop w recurse base cap fuel start' (toggled code s) (out ++ s) after := by
  apply loop_copy_none s fuel start code before out after hst _ hc
  intro a b h1 h2 f st hs
  rcases hq a b h1 h2 with h | h
  · rw [h]; exact step_code
  · exact step_quiet hs.1 h

/-! ### More fuel does not change a result -/

/-- Whatever the first yields, the second yields. -/
def Le {α : Type} (x y : M α) : Prop := ∀ r, x = some r → y = some r

theorem Le.refl {α : Type} (x : M α) : Le x x := fun _ h => h

theorem Le.bind {α β : Type} {x y : M α} {f g : α → M β} (h : Le x y) (hfg : ∀ a, Le (f a) (g a)) : Le (M.bind x f) (M.bind y g) := by
  intro r hr
  cases hx : x with
  | none => rw [hx] at hr; simp [M.bind] at hr
  | some v =>
    rw [h v hx]
    rw [hx] at hr
    cases v with
    | ub => exact hr
    | val a => exact hfg a r hr

theorem extract_mono {regcomp : Bytes → Option (Bytes → Bool)} {content : Bytes} {s : Address.Spec} : ∀ {fuel fuel' : Nat},
    fuel ≤ fuel' → Le (Address.extract regcomp fuel content s) (Address.extract regcomp fuel' content s) := by
  intro fuel
  induction fuel with
  | zero => intro fuel' _ r h; cases h
  | succ n ih =>
    intro fuel' hle r h
    obtain ⟨m, rfl⟩ : ∃ m, fuel' = m + 1 := ⟨fuel' - 1, by omega⟩
    unfold Address.extract at h ⊢
    split
    · rename_i h1
      rw [if_pos h1] at h; exact h
    · rename_i h1
      rw [if_neg h1] at h
      simp only [] at h ⊢
      split
      · rename_i h2
        rw [if_pos h2] at h
        split
        · rename_i h3
          rw [if_pos h3] at h
          split
          · rename_i h4
            rw [if_pos h4] at h
            exact ih (by omega) r h
          · rename_i h4
            rw [if_neg h4] at h; exact h
        · rename_i h3
          rw [if_neg h3] at h; exact h
      · rename_i h2
        rw [if_neg h2] at h; exact h

theorem select_mono {regcomp : Bytes → Option (Bytes → Bool)} {content a : Bytes} {fuel fuel' : Nat} (h : fuel ≤ fuel') :
    Le (Address.select regcomp fuel content a) (Address.select regcomp fuel' content a) := by
  unfold Address.select
  split
  · exact extract_mono h
  · exact Le.refl _

theorem part_mono {w : World} {content : Bytes} {addr : Option (Bytes × Bytes)} {fuel fuel' : Nat} (h : fuel ≤ fuel') :
    Le (part w fuel content addr) (part w fuel' content addr) := by
  unfold part
  split
  · split
    · exact select_mono h
    · exact Le.refl _
  · exact Le.refl _

theorem slash_mono {w : World} {r1 r2 : Recurse} (hr : ∀ b t s, Le (r1 b t s) (r2 b t s)) {base : Option Bytes} {s : Bytes} :
    Le (slash w r1 base s) (slash w r2 base s) := by
  unfold slash
  simp only []
  split
  · split
    · split
      · exact Le.refl _
      · split
        · exact Le.refl _
        · exact Le.refl _
        · exact Le.refl _
        · exact Le.refl _
        · exact Le.bind (hr _ _ _) fun a => Le.refl _
    · exact Le.refl _
  · exact Le.refl _

theorem braces_mono {w : World} {r1 r2 : Recurse} (hr : ∀ b t s, Le (r1 b t s) (r2 b t s)) {base : Option Bytes} {s : Bytes}
    {fuel fuel' : Nat} (hf : fuel ≤ fuel') : Le (braces w fuel r1 base s) (braces w fuel' r2 base s) := by
  unfold braces
  split
  · exact Le.refl _
  · split
    · simp only []
      split
      · exact Le.refl _
      · exact Le.bind (part_mono hf) fun a => Le.bind (Le.refl _) fun a => Le.bind (hr _ _ _) fun a => Le.refl _
    · exact Le.refl _

theorem marked_mono {w : World} {r1 r2 : Recurse} (hr : ∀ b t s, Le (r1 b t s) (r2 b t s)) {base : Option Bytes} {s : Bytes}
    {fuel fuel' : Nat} (hf : fuel ≤ fuel') : Le (marked w fuel r1 base s) (marked w fuel' r2 base s) := by
  unfold marked
  simp only []
  split
  · exact Le.refl _
  · split
    · exact Le.refl _
    · split
      · split
        · exact Le.refl _
        · refine Le.bind (part_mono hf) fun a => ?_
          split
          · exact Le.bind (Le.refl _) fun a => Le.bind (hr _ _ _) fun a => Le.refl _
          · exact Le.refl _
      · exact Le.refl _

theorem step_mono {w : World} {r1 r2 : Recurse} (hr : ∀ b t s, Le (r1 b t s) (r2 b t s)) {base : Option Bytes} {start code : Bool}
    {s : Bytes} {fuel fuel' : Nat} (hf : fuel ≤ fuel') : Le (step w fuel r1 base start code s) (step w fuel' r2 base start code s) := by
  unfold step
  split
  · exact slash_mono hr
  · split
    · exact braces_mono hr hf
    · split
      · exact marked_mono hr hf
      · exact Le.refl _

theorem loop_mono {w : World} {r1 r2 : Recurse} (hr : ∀ b t s, Le (r1 b t s) (r2 b t s)) {base : Option Bytes} {cap : Nat} :
    ∀ {fuel fuel' : Nat} {start code : Bool} {out s : Bytes}, fuel ≤ fuel' →
    Le (loop w r1 base cap fuel start code out s) (loop w r2 base cap fuel' start code out s) := by
  intro fuel
  induction fuel with
  | zero => intro fuel' start code out s _ r h; cases h
  | succ n ih =>
    intro fuel' start code out s hle
    obtain ⟨m, rfl⟩ : ∃ m, fuel' = m + 1 := ⟨fuel' - 1, by omega⟩
    cases s with
    | nil => exact Le.refl _
    | cons c t =>
      unfold loop
      simp only []
      refine Le.bind (step_mono hr (by omega)) fun x => ?_
      split
      · split
        · exact Le.bind (Le.refl _) fun a => ih (by omega)
        · exact ih (by omega)
      · split
        · exact Le.bind (Le.refl _) fun a => ih (by omega)
        · exact ih (by omega)

theorem process_mono {w : World} : ∀ {fuel fuel' depth : Nat} {base tb : Option Bytes} {text : Bytes}, fuel ≤ fuel' →
    Le (process w fuel depth base tb text) (process w fuel' depth base tb text) := by
  intro fuel
  induction fuel with
  | zero => intro fuel' depth base tb text _ r h; cases h
  | succ n ih =>
    intro fuel' depth base tb text hle
    obtain ⟨m, rfl⟩ : ∃ m, fuel' = m + 1 := ⟨fuel' - 1, by omega⟩
    unfold process
    split
    · exact Le.refl _
    · exact Le.bind (Le.refl _) fun t => loop_mono (fun b tb s => ih (by omega)) (by omega)

/-! ### Termination -/

theorem extract_done {regcomp : Bytes → Option (Bytes → Bool)} (hre : ∀ p, (regcomp p).isSome = true) {content : Bytes} {s : Address.Spec}
    (hs : s.isRegex = true → s.regexStart.isSome = true) (fuel : Nat) : ∃ r, Address.extract regcomp (fuel + 1) content s = some r := by
  unfold Address.extract
  split
  · cases s.pre <;> exact ⟨_, rfl⟩
  · simp only []
    split
    · rename_i h2
      obtain ⟨p, hp⟩ := Option.isSome_iff_exists.1 (hs h2)
      obtain ⟨m, hm⟩ := Option.isSome_iff_exists.1 (hre p)
      have e : s.regexStart.bind regcomp = some m := by rw [hp, Option.bind_some, hm]
      rw [e, if_neg (by simp)]
      split <;> exact ⟨_, rfl⟩
    · split
      · exact ⟨_, rfl⟩
      · split <;> exact ⟨_, rfl⟩

theorem parse_regexStart {a : Bytes} {s : Address.Spec} (h : Address.parse a = some s) : s.isRegex = true → s.regexStart.isSome = true := by
  unfold Address.parse at h
  simp only [] at h
  split at h
  · cases h
  · split at h
    · cases h; simp
    · split at h
      · split at h
        · cases h
        · split at h <;> (cases h; simp)
      · split at h
        · cases h; simp
        · split at h
          · cases h; simp
          · split at h
            · split at h
              · cases h; simp
              · split at h <;> (cases h; simp)
            · cases h; simp

theorem part_done {w : World} (hre : ∀ p, (w.regcomp p).isSome = true) (fuel : Nat) (content : Bytes) (addr : Option (Bytes × Bytes)) :
    ∃ r, part w (fuel + 1) content addr = some r := by
  unfold part
  split
  · split
    · unfold Address.select
      split
      · rename_i h
        exact extract_done hre (parse_regexStart h) fuel
      · exact ⟨_, rfl⟩
    · exact ⟨_, rfl⟩
  · exact ⟨_, rfl⟩

theorem tabled_done (t : FileType) (content : Bytes) : ∃ r, tabled t content = some r := by
  unfold tabled
  split
  · split <;> exact ⟨_, rfl⟩
  · exact ⟨_, rfl⟩

theorem upTo_length {d : Byte} {s x t : Bytes} (h : Address.upTo d s = some (x, t)) : t.length < s.length := by
  unfold Address.upTo at h
  split at h
  · rename_i hm
    cases h
    have h1 : s.dropWhile (· != d) ≠ [] := by
      intro hh
      have h1 := List.takeWhile_append_dropWhile (p := fun c => c != d) (l := s)
      rw [hh, List.append_nil] at h1
      have := List.all_takeWhile (l := s) (p := fun c => c != d)
      rw [h1, List.all_eq_true] at this
      have := this d hm
      simp at this
    have h2 : (s.dropWhile (· != d)).length ≤ s.length := (List.dropWhile_sublist _).length_le
    have h3 : 0 < (s.dropWhile (· != d)).length := List.length_pos_iff.2 h1
    rw [List.length_drop]; omega
  · cases h

theorem address_length {s a rest : Bytes} (h : address s = some (a, rest)) : rest.length ≤ s.length := by
  unfold address at h
  split at h
  · have := upTo_length h
    rw [List.length_drop] at this; omega
  · cases h

/-- Defined for enough fuel, and then always the same. -/
def Ev {α : Type} (f : Nat → Nat → M α) : Prop := ∃ k r, ∀ n m, k ≤ n → k ≤ m → f n m = some r

theorem Ev.const {α : Type} (r : C α) : Ev fun _ _ => some r := ⟨0, r, fun _ _ _ _ => rfl⟩

theorem Ev.bind {α β : Type} {x : Nat → Nat → M α} {f : Nat → Nat → α → M β} (hx : Ev x) (hf : ∀ a, Ev fun n m => f n m a) :
    Ev fun n m => M.bind (x n m) (f n m) := by
  obtain ⟨k, r, hk⟩ := hx
  cases r with
  | ub => exact ⟨k, .ub, fun n m h1 h2 => by show M.bind (x n m) (f n m) = _; rw [hk n m h1 h2]; rfl⟩
  | val a =>
    obtain ⟨k2, r2, hk2⟩ := hf a
    exact ⟨max k k2, r2, fun n m h1 h2 => by show M.bind (x n m) (f n m) = _; rw [hk n m (by omega) (by omega)]; exact hk2 n m (by omega) (by omega)⟩

theorem Ev.of {α : Type} {f : Nat → Nat → M α} {g : Nat → Nat → M α} (h : ∀ n m, f n m = g n m) (hg : Ev g) : Ev f := by
  have : f = g := by funext n m; exact h n m
  rw [this]; exact hg

theorem part_ev {w : World} (hre : ∀ p, (w.regcomp p).isSome = true) (content : Bytes) (addr : Option (Bytes × Bytes)) :
    Ev fun _ m => part w m content addr := by
  obtain ⟨r, hr⟩ := part_done hre 0 content addr
  exact ⟨1, r, fun n m _ h => part_mono h r hr⟩

theorem tabled_ev (t : FileType) (content : Bytes) : Ev fun _ _ => tabled t content := by
  obtain ⟨r, hr⟩ := tabled_done t content
  exact ⟨0, r, fun n m _ _ => hr⟩

theorem step_ev {w : World} (hre : ∀ p, (w.regcomp p).isSome = true) {recurse : Nat → Recurse}
    (hrec : ∀ b t s, Ev fun n _ => recurse n b t s) (base : Option Bytes) (start code : Bool) (s : Bytes) :
    Ev fun n m => step w m (recurse n) base start code s := by
  unfold step
  split
  · unfold slash
    simp only []
    split
    · split
      · split
        · exact Ev.const _
        · split
          · exact Ev.const _
          · split <;> exact Ev.const _
          · split <;> exact Ev.const _
          · exact Ev.const _
          · exact Ev.bind (hrec _ _ _) fun a => Ev.const _
      · exact Ev.const _
    · exact Ev.const _
  · split
    · unfold braces
      split
      · exact Ev.const _
      · split
        · simp only []
          split
          · exact Ev.const _
          · exact Ev.bind (part_ev hre _ _) fun a => Ev.bind (tabled_ev _ _) fun a => Ev.bind (hrec _ _ _) fun a => Ev.const _
        · exact Ev.const _
    · split
      · unfold marked
        simp only []
        split
        · exact Ev.const _
        · split
          · exact Ev.const _
          · split
            · split
              · exact Ev.const _
              · refine Ev.bind (part_ev hre _ _) fun a => ?_
                split
                · exact Ev.bind (tabled_ev _ _) fun a => Ev.bind (hrec _ _ _) fun a => Ev.const _
                · split <;> exact Ev.const _
            · exact Ev.const _
      · exact Ev.const _

theorem bind_some_val {α β : Type} {x : M α} {f : α → M β} {b : β} (h : M.bind x f = some (.val b)) : ∃ a, x = some (.val a) ∧ f a = some (.val b) := by
  cases x with
  | none => simp [M.bind] at h
  | some v =>
    cases v with
    | ub => simp [M.bind] at h
    | val a => exact ⟨a, rfl, h⟩

theorem step_rest {w : World} {fuel : Nat} {recurse : Recurse} {base : Option Bytes} {start code : Bool} {s ins rest : Bytes}
    (h : step w fuel recurse base start code s = some (.val (some (ins, rest)))) : rest.length < s.length := by
  have hval : ∀ {a b : Bytes}, (some (C.val (some (a, b))) : M Step) = some (.val (some (ins, rest))) → rest = b := by
    intro a b h; cases h; rfl
  unfold step at h
  split at h
  · rename_i h0
    have hs : 0 < s.length := by
      cases s with
      | nil => simp at h0
      | cons c t => simp
    unfold slash at h
    simp only [] at h
    have hr : ∀ p : Byte → Bool, ((s.drop 1).dropWhile p).length < s.length := by
      intro p
      have := (List.dropWhile_sublist p (l := s.drop 1)).length_le
      rw [List.length_drop] at this; omega
    split at h
    · split at h
      · split at h
        · cases h
        · split at h
          · rw [hval h]; exact hr _
          · split at h
            · cases h
            · rw [hval h]; exact hr _
          · split at h
            · cases h
            · rw [hval h]; exact hr _
          · rw [hval h]; exact hr _
          · obtain ⟨a, _, h⟩ := bind_some_val h
            rw [hval h]; exact hr _
      · cases h
    · cases h
  · split at h
    · unfold braces at h
      split at h
      · cases h
      · rename_i i hi
        have hi := strstr_le hi
        rw [List.length_drop] at hi
        have hi2 : i + 2 ≤ s.length - 2 := hi
        split at h
        · simp only [] at h
          split at h
          · cases h
          · obtain ⟨a, _, h⟩ := bind_some_val h
            obtain ⟨b, _, h⟩ := bind_some_val h
            obtain ⟨t, _, h⟩ := bind_some_val h
            rw [hval h]
            have hl : ((s.drop 2).drop (i + 2)).length < s.length := by
              rw [List.length_drop, List.length_drop]; omega
            split
            · rename_i ha
              have := address_length ha
              omega
            · exact hl
        · cases h
    · split at h
      · unfold marked at h
        simp only [] at h
        split at h
        · cases h
        · split at h
          · cases h
          · rename_i file after hu
            have hu := upTo_length hu
            rw [List.length_drop] at hu
            have hsk : (Address.skipSpace after).length ≤ after.length := (List.dropWhile_sublist _).length_le
            have key : ∀ x : Option (Bytes × Bytes), x = address (Address.skipSpace after) →
                (match x with | some (_, rest) => rest | none => after).length < s.length := by
              intro x hx
              split
              · have := address_length hx.symm
                omega
              · omega
            split at h
            · split at h
              · rw [hval h]; exact key _ rfl
              · obtain ⟨a, _, h⟩ := bind_some_val h
                split at h
                · obtain ⟨b, _, h⟩ := bind_some_val h
                  obtain ⟨t, _, h⟩ := bind_some_val h
                  rw [hval h]; exact key _ rfl
                · split at h
                  · rw [hval h]; exact key _ rfl
                  · rw [hval h]; exact key _ rfl
            · cases h
      · cases h

theorem Ev.shift {α : Type} {f : Nat → Nat → M α} (h : Ev fun n m => f n (m + 1)) : Ev f := by
  obtain ⟨k, r, hk⟩ := h
  refine ⟨k + 1, r, fun n m h1 h2 => ?_⟩
  obtain ⟨m', rfl⟩ : ∃ m', m = m' + 1 := ⟨m - 1, by omega⟩
  exact hk n m' (by omega) (by omega)

/-- Like `Ev.bind`, with a continuation that only has to work for the values that occur. -/
theorem Ev.bind' {α β : Type} {x : Nat → Nat → M α} {f : Nat → Nat → α → M β} (hx : Ev x)
    (hf : ∀ a n m, x n m = some (.val a) → Ev fun n m => f n m a) : Ev fun n m => M.bind (x n m) (f n m) := by
  obtain ⟨k, r, hk⟩ := hx
  cases r with
  | ub => exact ⟨k, .ub, fun n m h1 h2 => by show M.bind (x n m) (f n m) = _; rw [hk n m h1 h2]; rfl⟩
  | val a =>
    obtain ⟨k2, r2, hk2⟩ := hf a k k (hk k k (Nat.le_refl _) (Nat.le_refl _))
    exact ⟨max k k2, r2, fun n m h1 h2 => by show M.bind (x n m) (f n m) = _; rw [hk n m (by omega) (by omega)]; exact hk2 n m (by omega) (by omega)⟩

theorem loop_ev {w : World} (hre : ∀ p, (w.regcomp p).isSome = true) {recurse : Nat → Recurse}
    (hrec : ∀ b t s, Ev fun n _ => recurse n b t s) (base : Option Bytes) (cap : Nat) : ∀ (len : Nat) (s : Bytes) (start code : Bool) (out : Bytes),
    s.length ≤ len → Ev fun n m => loop w (recurse n) base cap m start code out s := by
  intro len
  induction len with
  | zero =>
    intro s start code out hl
    have : s = [] := List.length_eq_zero_iff.1 (by omega)
    subst this
    apply Ev.shift
    unfold loop
    exact Ev.const _
  | succ len ih =>
    intro s start code out hl
    cases s with
    | nil => apply Ev.shift; unfold loop; exact Ev.const _
    | cons c t =>
      apply Ev.shift
      unfold loop
      simp only []
      refine Ev.bind' (step_ev hre hrec _ _ _ _) fun x n m hx => ?_
      rw [List.length_cons] at hl
      cases x with
      | none =>
        simp only []
        split
        · exact Ev.bind (Ev.const _) fun a => ih t _ _ _ (by omega)
        · exact ih t _ _ _ (by omega)
      | some y =>
        obtain ⟨ins, rest⟩ := y
        have hlt := step_rest hx
        rw [List.length_cons] at hlt
        simp only []
        split
        · exact Ev.bind (Ev.const _) fun a => ih rest _ _ _ (by omega)
        · exact ih rest _ _ _ (by omega)

theorem process_ev {w : World} (hre : ∀ p, (w.regcomp p).isSome = true) : ∀ (k depth : Nat) (base tb : Option Bytes) (text : Bytes),
    11 ≤ depth + k → ∃ fuel r, process w fuel depth base tb text = some r := by
  intro k
  induction k with
  | zero =>
    intro depth base tb text h
    exact ⟨1, _, by rw [process, if_pos (by omega)]⟩
  | succ k ih =>
    intro depth base tb text h
    by_cases hd : depth > 10
    · exact ⟨1, _, by rw [process, if_pos hd]⟩
    · obtain ⟨norm, hn, _⟩ := normalize_safe text
      have hrec : ∀ b t s, Ev fun n _ => process w n (depth + 1) b t s := by
        intro b t s
        obtain ⟨f, r, hr⟩ := ih (depth + 1) b t s (by omega)
        exact ⟨f, r, fun n m h1 _ => process_mono h1 r hr⟩
      obtain ⟨f, r, hr⟩ := loop_ev hre (recurse := fun n base tb text => process w n (depth + 1) base tb text) hrec (transcludeBase base tb)
        (max (norm.length * 10) (1024 * 1024)) norm.length norm true false [] (Nat.le_refl _)
      refine ⟨f + 1, r, ?_⟩
      rw [process, if_neg hd, hn]
      exact hr f f (Nat.le_refl _) (Nat.le_refl _)

/-! ### One include -/

/-- The step at an include, for enough fuel. -/
def StepAt (w : World) (depth : Nat) (base : Option Bytes) (start : Bool) (s : Bytes) (r : Step) : Prop :=
  ∃ k, ∀ n m, k ≤ n → k ≤ m → step w m (fun b t s => process w n (depth + 1) b t s) base start false s = some (.val r)

theorem toggled_even {code : Bool} {s : Bytes} (h : Balanced s) : toggled code s = code := by
  unfold toggled; rw [if_pos (show s.count c!"`" % 2 = 0 from h)]

/-- The loop over the text after the include. -/
theorem loop_tail {w : World} {recurse : Recurse} {base : Option Bytes} {cap fuel : Nat} {code : Bool} {before out post : Bytes}
    (hst : ¬ LineStart before) (hq : Quiet before post []) (hfit : out.length + post.length < cap) :
    loop w recurse base cap (fuel + 1 + post.length) false code out post = some (.val (out ++ post)) := by
  obtain ⟨st, _, _, h⟩ := loop_copy (w := w) (recurse := recurse) (base := base) (cap := cap) post (fuel + 1) false code before out []
    (by simp [hst]) (by intro a b h1 h2; exact .inr (hq a b h1 h2)) (by omega)
  rw [List.append_nil] at h
  rw [h, loop, finish_val (by simp; omega)]

/-- Once the buffer is full, the rest is dropped and the terminator goes behind the end. -/
theorem loop_full {w : World} {recurse : Recurse} {base : Option Bytes} {cap : Nat} : ∀ (s : Bytes) (fuel : Nat) (start code : Bool)
    (before out : Bytes), (start = true → LineStart before) → Quiet before s [] → out.length = cap →
    loop w recurse base cap (fuel + 1 + s.length) start code out s = some .ub
  | [], fuel, start, code, before, out, _, _, hc => by
    simp only [List.length_nil, Nat.add_zero, loop]
    simp [finish, hc]
  | c :: t, fuel, start, code, before, out, hst, hq, hc => by
    rw [List.length_cons, ← Nat.add_assoc, loop]
    have h0 := hq [] (c :: t) rfl (by simp)
    rw [List.append_nil, List.append_nil] at h0
    rw [step_quiet hst h0]
    simp only [M.bind]
    rw [if_neg (by omega)]
    refine loop_full t fuel _ _ (before ++ [c]) out ?_ ?_ hc
    · intro h
      rw [lineStart_ne (by simp)]
      simpa using h
    · intro a b hab hb
      have := hq (c :: a) b (by simp [hab]) hb
      simpa using this

theorem loop_tail_full {w : World} {recurse : Recurse} {base : Option Bytes} {cap fuel : Nat} {code : Bool} {before out post : Bytes}
    (hst : ¬ LineStart before) (hq : Quiet before post []) (hout : out.length ≤ cap) (hfit : cap ≤ out.length + post.length) :
    loop w recurse base cap (fuel + 1 + post.length) false code out post = some .ub := by
  have hsplit : post = post.take (cap - out.length) ++ post.drop (cap - out.length) := (List.take_append_drop _ _).symm
  generalize hp1 : post.take (cap - out.length) = p1 at hsplit
  generalize post.drop (cap - out.length) = p2 at hsplit
  have hl1 : p1.length = cap - out.length := by rw [← hp1, List.length_take]; omega
  obtain ⟨st, h1, h2, h3⟩ := loop_copy (w := w) (recurse := recurse) (base := base) (cap := cap) p1 (fuel + 1 + p2.length) false code before out p2
    (by simp [hst])
    (by
      intro a b hab hb
      right
      have := hq a (b ++ p2) (by rw [hsplit, hab]; simp) (by simp [hb])
      simpa using this) (by omega)
  have e : fuel + 1 + post.length = fuel + 1 + p2.length + p1.length := by rw [hsplit]; simp; omega
  rw [e, hsplit, h3]
  apply loop_full (before := before ++ p1)
  · intro hs
    by_cases hp : p1 = []
    · rw [h2 hp] at hs; cases hs
    · exact (h1 hp).1 hs
  · intro a b hab hb
    have := hq (p1 ++ a) b (by rw [hsplit, hab]; simp) hb
    simpa using this
  · simp; omega

theorem core {w : World} {depth : Nat} {base tb : Option Bytes} {pre inc post ins : Bytes} (hd : depth ≤ 10)
    (hn : NoEvenFence (pre ++ inc ++ post)) (hq1 : Quiet [] pre (inc ++ post)) (hb : Balanced pre)
    (hq2 : Quiet (pre ++ inc) post []) (hhead : ∃ c t, inc = c :: t ∧ c ≠ c!"`") (hlast : inc.getLast? ≠ some c!"\n")
    (hstep : ∀ start : Bool, (start = true ↔ LineStart pre) → StepAt w depth (transcludeBase base tb) start (inc ++ post) (some (ins, post)))
    {cap : Nat} (hcap : cap = max ((pre ++ inc ++ post).length * 10) (1024 * 1024)) {res : C Bytes}
    (hres : (pre.length + ins.length + post.length < cap ∧ res = .val (pre ++ ins ++ post)) ∨
      (cap ≤ pre.length + ins.length ∧ res = .val (pre ++ post)) ∨
      (pre.length + ins.length < cap ∧ cap ≤ pre.length + ins.length + post.length ∧ res = .ub)) :
    ∃ fuel, process w fuel depth base tb (pre ++ inc ++ post) = some res := by
  obtain ⟨c, t, hinc, hc⟩ := hhead
  have hls : ¬ LineStart (pre ++ inc) := by
    rw [lineStart_ne (by rw [hinc]; simp), List.getLast?_append]
    cases hg : inc.getLast? with
    | none => rw [List.getLast?_eq_none_iff] at hg; rw [hg] at hinc; cases hinc
    | some d => rw [hg] at hlast; simpa using hlast
  have hlen : (pre ++ inc ++ post).length < cap := by
    have : 0 < (pre ++ inc ++ post).length := by rw [hinc]; simp; omega
    omega
  have hlen2 : pre.length + inc.length + post.length < cap := by simpa [Nat.add_assoc] using hlen
  -- the state after the text before
  have hcopy := fun (f : Nat) (n : Nat) => loop_copy (w := w) (recurse := fun b t s => process w n (depth + 1) b t s)
    (base := transcludeBase base tb) (cap := cap) pre f true false [] [] (inc ++ post)
    (by simp [LineStart]) (by intro a b h1 h2; exact .inr (hq1 a b h1 h2)) (by simp; omega)
  let start : Bool := (pre = [] ∨ pre.getLast? = some c!"\n" : Bool)
  have hst : start = true ↔ LineStart pre := by simp [start, LineStart]
  obtain ⟨k, hk⟩ := hstep start hst
  let f := k + 1 + post.length
  refine ⟨(f + 1 + pre.length) + 1, ?_⟩
  rw [process, if_neg (by omega), normalize_id hn]
  simp only [M.bind]
  rw [← hcap]
  obtain ⟨st, h1, h2, h3⟩ := hcopy (f + 1) (f + 1 + pre.length)
  have hst2 : st = start := by
    by_cases hp : pre = []
    · rw [h2 hp]
      have := hst.2 (.inl hp)
      exact this.symm
    · have := h1 hp
      rw [List.nil_append] at this
      cases hA : st <;> cases hB : start <;> simp_all
  rw [List.append_assoc, h3, toggled_even hb, hst2, List.nil_append, hinc, List.cons_append, loop]
  simp only [if_neg hc]
  rw [← List.cons_append, ← hinc, hk _ _ (by omega) (by omega)]
  simp only [M.bind]
  rcases hres with ⟨hfit, hr⟩ | ⟨hfit, hr⟩ | ⟨hfit, hfit2, hr⟩
  · rw [if_pos (by omega), puts_val (by omega)]
    simp only []
    rw [loop_tail hls hq2 (by simp; omega), hr]
  · rw [if_neg (by omega)]
    rw [loop_tail hls hq2 (by omega), hr]
  · rw [if_pos (by omega), puts_val (by omega)]
    simp only []
    rw [loop_tail_full hls hq2 (by simp; omega) (by simp; omega), hr]

/-- Texts without includes. -/
theorem process_quiet {w : World} {depth : Nat} {base tb : Option Bytes} {text : Bytes} (hn : NoEvenFence text) (hq : Quiet [] text []) :
    ∃ fuel, process w fuel depth base tb text = some (.val text) := by
  by_cases hd : depth > 10
  · exact ⟨1, by rw [process, if_pos hd]⟩
  · refine ⟨(0 + 1 + text.length) + 1, ?_⟩
    rw [process, if_neg hd, normalize_id hn]
    simp only [M.bind]
    obtain ⟨st, _, _, h⟩ := loop_copy (w := w) (recurse := fun b t s => process w (0 + 1 + text.length) (depth + 1) b t s)
      (base := transcludeBase base tb) (cap := max (text.length * 10) (1024 * 1024)) text (0 + 1) true false [] [] []
      (by simp [LineStart]) (by intro a b h1 h2; exact .inr (hq a b h1 h2)) (by simp; omega)
    rw [List.append_nil] at h
    rw [h, loop, finish_val (by simp; omega)]; rfl

/-! ### The three kinds of includes -/

theorem strstr_braces : ∀ (file r : Bytes), c!"}" ∉ file → strstr (file ++ b!"}}" ++ r) b!"}}" = some file.length
  | [], r, _ => by unfold strstr; rw [if_pos (by simp)]; rfl
  | c :: t, r, h => by
    unfold strstr
    rw [if_neg (by
      intro hh
      rw [List.isPrefixOf_iff_prefix] at hh
      obtain ⟨x, hx⟩ := hh
      have : c!"}" = c := by simp at hx; exact hx.1
      exact h (by simp [this]))]
    simp only [List.cons_append]
    rw [show t ++ b!"}}" ++ r = (t ++ b!"}}" ++ r : Bytes) from rfl, strstr_braces t r (by intro hm; exact h (List.mem_cons_of_mem _ hm))]
    simp

/-- What the address selects, for enough fuel. -/
def Selected (w : World) (content : Bytes) (addr : Option Bytes) (sel : Bytes) : Prop :=
  match addr with
  | none => sel = content
  | some a => c!"]" ∉ a ∧ 0 < a.length ∧ a.length < 1024 ∧ ∃ fuel, Address.select w.regcomp fuel content a = some (.val sel)

theorem address_some {a post : Bytes} (h : c!"]" ∉ a) : address (addressText (some a) ++ post) = some (a, post) := by
  have e : addressText (some a) ++ post = c!"[" :: (a ++ c!"]" :: post) := by simp [addressText]
  unfold address
  rw [e, if_pos (by simp), List.drop_one, List.tail_cons, Address.upTo_eq h]

theorem address_none {post : Bytes} (h : post.head? ≠ some c!"[") : address post = none := by
  unfold address; rw [if_neg h]

theorem part_selected {w : World} {content sel : Bytes} {addr : Option Bytes} {post : Bytes} (h : Selected w content addr sel) :
    ∃ k, ∀ m, k ≤ m → part w m content (addr.map fun a => (a, post)) = some (.val sel) := by
  cases addr with
  | none => cases h; exact ⟨0, fun m _ => rfl⟩
  | some a =>
    obtain ⟨_, h1, h2, f, hf⟩ := h
    refine ⟨f, fun m hm => ?_⟩
    show (if 0 < a.length ∧ a.length < 1024 then _ else _) = _
    rw [if_pos ⟨h1, h2⟩]
    exact select_mono hm _ hf

theorem hasGlob_name {file : Bytes} (h : Name file) : hasGlob file = false := by
  unfold hasGlob
  rw [List.any_eq_false]
  intro c hc
  have := h.plain c hc
  simp [this]

theorem wildcard_name {w : World} {file : Bytes} {base : Option Bytes} (h : Name file) :
    resolveWildcard w file base = some (resolvePath file base) := by
  unfold resolveWildcard
  have hn : strstr file b!".*" = none := by
    apply strstr_of_not_infix
    rintro ⟨a, b, hab⟩
    have : c!"*" ∈ file := by rw [← hab]; simp
    exact (h.plain _ this).2.1 rfl
  simp [hn, hasGlob_name h]

theorem step_braces {w : World} {depth : Nat} {base : Option Bytes} {start : Bool} {file post content sel tab ins : Bytes} {addr : Option Bytes}
    (hname : Name file) (hread : w.read (resolvePath file base) = some content) (hsel : Selected w content addr sel)
    (hnone : addr = none → post.head? ≠ some c!"[") (htab : tabled (fileType (resolvePath file base)) sel = some (.val tab))
    (hin : ∃ fuel, process w fuel (depth + 1) (innerBase w (resolvePath file base) content) (w.base content) tab = some (.val ins)) :
    StepAt w depth base start (b!"{{" ++ file ++ b!"}}" ++ addressText addr ++ post) (some (ins, post)) := by
  obtain ⟨f, hf⟩ := hin
  obtain ⟨k, hk⟩ := part_selected (post := post) hsel
  refine ⟨max f k, fun n m h1 h2 => ?_⟩
  have hc : c!"}" ∉ file := fun hm => (hname.plain _ hm).1 rfl
  unfold step
  have e : b!"{{" ++ file ++ b!"}}" ++ addressText addr ++ post = c!"{" :: c!"{" :: (file ++ b!"}}" ++ (addressText addr ++ post)) := by simp
  rw [e, if_neg (by simp), if_pos (by simp)]
  unfold braces
  have e2 : (c!"{" :: c!"{" :: (file ++ b!"}}" ++ (addressText addr ++ post))).drop 2 = file ++ b!"}}" ++ (addressText addr ++ post) := rfl
  rw [e2, strstr_braces file _ hc]
  simp only []
  rw [if_pos ⟨hname.ne, hname.short⟩]
  have e3 : (file ++ b!"}}" ++ (addressText addr ++ post)).take file.length = file := by simp
  have e4 : (file ++ b!"}}" ++ (addressText addr ++ post)).drop (file.length + 2) = addressText addr ++ post := by
    rw [show file.length + 2 = (file ++ b!"}}").length by simp, List.drop_left]
  have ea : address (addressText addr ++ post) = addr.map fun a => (a, post) := by
    cases addr with
    | none => simpa [addressText] using address_none (hnone rfl)
    | some a => exact address_some hsel.1
  rw [e3, e4, wildcard_name hname, Option.getD_some, ea, hread]
  simp only []
  rw [hk m (by omega)]
  simp only [M.bind]
  rw [htab]
  simp only []
  rw [process_mono (by omega : f ≤ n) _ hf]
  cases addr <;> simp [addressText]

/-- The closing byte of the three forms. -/
theorem step_marked {w : World} {depth : Nat} {base : Option Bytes} {file post content sel tab ins : Bytes} {addr : Option Bytes}
    (hne : 0 < file.length) (hshort : file.length < 1024) (hfile : c!"]" ∉ file)
    (hread : w.read (resolvePath file base) = some content) (hsel : Selected w content addr sel)
    (hnone : addr = none → (Address.skipSpace post).head? ≠ some c!"[") (htab : tabled (fileType (resolvePath file base)) sel = some (.val tab))
    (hin : ∃ fuel, process w fuel (depth + 1) (innerBase w (resolvePath file base) content) (w.base content) tab = some (.val ins)) :
    StepAt w depth base true (b!"<<[" ++ file ++ b!"]" ++ addressText addr ++ post) (some (ins, post)) := by
  obtain ⟨f, hf⟩ := hin
  obtain ⟨k, hk⟩ := part_selected (post := post) hsel
  refine ⟨max f k, fun n m h1 h2 => ?_⟩
  unfold step
  have e : b!"<<[" ++ file ++ b!"]" ++ addressText addr ++ post = c!"<" :: c!"<" :: c!"[" :: (file ++ c!"]" :: (addressText addr ++ post)) := by simp
  rw [e, if_neg (by simp), if_neg (by simp), if_pos (by simp)]
  unfold marked
  simp only [List.drop_succ_cons, List.drop_zero, List.head?_cons, if_true]
  rw [Address.upTo_eq hfile]
  simp only []
  rw [if_pos ⟨hne, hshort⟩]
  have ea : address (Address.skipSpace (addressText addr ++ post)) = addr.map fun a => (a, post) := by
    cases addr with
    | none => simpa [addressText] using address_none (hnone rfl)
    | some a =>
      rw [Address.skipSpace_of (by
        intro c hc
        have : c = c!"[" := by simpa [addressText] using hc.symm
        rw [this]; decide)]
      exact address_some hsel.1
  rw [ea, hread]
  simp only []
  rw [hk m (by omega)]
  simp only [M.bind]
  rw [htab]
  simp only []
  rw [process_mono (by omega : f ≤ n) _ hf]
  cases addr <;> simp [addressText]

theorem step_marked_code {w : World} {depth : Nat} {base : Option Bytes} {file post content sel : Bytes} {addr : Option Bytes}
    (hne : 0 < file.length) (hshort : file.length < 1024) (hfile : c!")" ∉ file)
    (hread : w.read (resolvePath file base) = some content) (hsel : Selected w content addr sel)
    (hnone : addr = none → (Address.skipSpace post).head? ≠ some c!"[") :
    StepAt w depth base true (b!"<<(" ++ file ++ b!")" ++ addressText addr ++ post)
      (some ((b!"\n```" ++ language file ++ b!"\n").take 127 ++ sel ++ b!"\n```\n", post)) := by
  obtain ⟨k, hk⟩ := part_selected (post := post) hsel
  refine ⟨k, fun n m h1 h2 => ?_⟩
  unfold step
  have e : b!"<<(" ++ file ++ b!")" ++ addressText addr ++ post = c!"<" :: c!"<" :: c!"(" :: (file ++ c!")" :: (addressText addr ++ post)) := by simp
  rw [e, if_neg (by simp), if_neg (by simp), if_pos (by simp)]
  unfold marked
  simp only [List.drop_succ_cons, List.drop_zero, List.head?_cons, if_true]
  rw [if_neg (by decide)]
  simp only []
  rw [Address.upTo_eq hfile]
  simp only []
  rw [if_pos ⟨hne, hshort⟩]
  have ea : address (Address.skipSpace (addressText addr ++ post)) = addr.map fun a => (a, post) := by
    cases addr with
    | none => simpa [addressText] using address_none (hnone rfl)
    | some a =>
      rw [Address.skipSpace_of (by
        intro c hc
        have : c = c!"[" := by simpa [addressText] using hc.symm
        rw [this]; decide)]
      exact address_some hsel.1
  rw [ea, hread]
  simp only []
  rw [hk m (by omega)]
  simp only [M.bind]
  rw [if_neg (by decide)]
  cases addr <;> simp [addressText]

theorem step_marked_raw {w : World} {depth : Nat} {base : Option Bytes} {file post content : Bytes}
    (hne : 0 < file.length) (hshort : file.length < 1024) (hfile : c!"}" ∉ file)
    (hread : w.read (resolvePath file base) = some content) (hnone : (Address.skipSpace post).head? ≠ some c!"[") :
    StepAt w depth base true (b!"<<{" ++ file ++ b!"}" ++ post)
      (some ((b!"<!--APEX_RAW_INCLUDE:" ++ resolvePath file base ++ b!"-->").take 1023, post)) := by
  refine ⟨0, fun n m h1 h2 => ?_⟩
  unfold step
  have e : b!"<<{" ++ file ++ b!"}" ++ post = c!"<" :: c!"<" :: c!"{" :: (file ++ c!"}" :: post) := by simp
  rw [e, if_neg (by simp), if_neg (by simp), if_pos (by simp)]
  unfold marked
  simp only [List.drop_succ_cons, List.drop_zero, List.head?_cons, if_true]
  rw [if_neg (by decide), if_neg (by decide)]
  simp only []
  rw [Address.upTo_eq hfile]
  simp only []
  rw [if_pos ⟨hne, hshort⟩, address_none hnone, hread]
  simp only [part, M.bind]
  rw [if_neg (by decide), if_neg (by decide)]

/-- A file that cannot be read: the include disappears. -/
theorem step_marked_missing {w : World} {depth : Nat} {base : Option Bytes} {file post : Bytes}
    (hne : 0 < file.length) (hshort : file.length < 1024) (hfile : c!"]" ∉ file)
    (hread : w.read (resolvePath file base) = none) (hnone : (Address.skipSpace post).head? ≠ some c!"[") :
    StepAt w depth base true (b!"<<[" ++ file ++ b!"]" ++ post) (some ([], post)) := by
  refine ⟨0, fun n m h1 h2 => ?_⟩
  unfold step
  have e : b!"<<[" ++ file ++ b!"]" ++ post = c!"<" :: c!"<" :: c!"[" :: (file ++ c!"]" :: post) := by simp
  rw [e, if_neg (by simp), if_neg (by simp), if_pos (by simp)]
  unfold marked
  simp only [List.drop_succ_cons, List.drop_zero, List.head?_cons, if_true]
  rw [Address.upTo_eq hfile]
  simp only []
  rw [if_pos ⟨hne, hshort⟩, address_none hnone, hread]

/-- The bytes that end a file name after a slash. -/
def isSep (c : Byte) : Bool := c == c!" " || c == c!"\t" || c == c!"\n" || c == c!"\r"

theorem slash_file {file post : Bytes} (hfile : ∀ c ∈ file, isSep c = false) (hpost : ∀ c, post.head? = some c → isSep c = true) :
    (file ++ post).takeWhile (fun c => !isSep c) = file ∧ (file ++ post).dropWhile (fun c => !isSep c) = post := by
  induction file with
  | nil =>
    cases post with
    | nil => exact ⟨rfl, rfl⟩
    | cons c t => simp [hpost c rfl]
  | cons c t ih =>
    obtain ⟨h1, h2⟩ := ih fun d hd => hfile d (List.mem_cons_of_mem _ hd)
    have hc := hfile c (by simp)
    rw [List.cons_append, List.takeWhile_cons, List.dropWhile_cons, if_pos (by simp [hc]), if_pos (by simp [hc]), h1, h2]
    exact ⟨rfl, rfl⟩

theorem step_slash {w : World} {depth : Nat} {base : Option Bytes} {file post content ins : Bytes}
    (hne : 0 < file.length) (hshort : file.length < 1024) (hfile : ∀ c ∈ file, isSep c = false)
    (hpost : ∀ c, post.head? = some c → isSep c = true) (hex : w.exist (resolvePath file base) = true)
    (hread : w.read (resolvePath file base) = some content) (htype : fileType (resolvePath file base) = .text)
    (hin : ∃ fuel, process w fuel (depth + 1) (innerBase w (resolvePath file base) content) (w.base content) content = some (.val ins)) :
    StepAt w depth base true (b!"/" ++ file ++ post) (some (ins, post)) := by
  obtain ⟨f, hf⟩ := hin
  refine ⟨f, fun n m h1 h2 => ?_⟩
  unfold step
  have e : b!"/" ++ file ++ post = c!"/" :: (file ++ post) := by simp
  rw [e, if_pos (by simp)]
  unfold slash
  obtain ⟨e1, e2⟩ := slash_file hfile hpost
  unfold isSep at e1 e2
  simp only [List.drop_succ_cons, List.drop_zero, e1, e2]
  rw [if_pos ⟨hne, hshort⟩, if_pos hex, hread]
  simp only [htype]
  rw [process_mono h1 _ hf]
  rfl

/-- `/file` for images and code. -/
theorem step_slash_block {w : World} {depth : Nat} {base : Option Bytes} {file post content ins : Bytes}
    (hne : 0 < file.length) (hshort : file.length < 1024) (hfile : ∀ c ∈ file, isSep c = false)
    (hpost : ∀ c, post.head? = some c → isSep c = true) (hex : w.exist (resolvePath file base) = true)
    (hread : w.read (resolvePath file base) = some content)
    (htype : (fileType (resolvePath file base) = .image ∧ ins = b!"![](" ++ file ++ b!")\n") ∨
      (fileType (resolvePath file base) = .code ∧ ins = b!"\n```" ++ (extension file).getD [] ++ b!"\n" ++ content ++ b!"\n```\n")) :
    StepAt w depth base true (b!"/" ++ file ++ post) (some (ins, post)) := by
  refine ⟨0, fun n m h1 h2 => ?_⟩
  unfold step
  have e : b!"/" ++ file ++ post = c!"/" :: (file ++ post) := by simp
  rw [e, if_pos (by simp)]
  unfold slash
  obtain ⟨e1, e2⟩ := slash_file hfile hpost
  unfold isSep at e1 e2
  simp only [List.drop_succ_cons, List.drop_zero, e1, e2]
  rw [if_pos ⟨hne, hshort⟩, if_pos hex, hread]
  rcases htype with ⟨h, rfl⟩ | ⟨h, rfl⟩ <;> simp only [h]

/-- The extension of a name that ends in one. -/
theorem extension_dot (name : Bytes) {ext : Bytes} (h : c!"." ∉ ext) : extension (name ++ b!"." ++ ext) = some ext := by
  unfold extension
  rw [if_pos (by simp)]
  congr 1
  have e : (name ++ b!"." ++ ext).reverse = ext.reverse ++ c!"." :: name.reverse := by simp
  have h1 : ∀ c ∈ ext.reverse, (c != c!".") = true := by
    intro c hc
    rw [List.mem_reverse] at hc
    simp only [bne_iff_ne, ne_eq]
    rintro rfl
    exact h hc
  rw [e, List.takeWhile_append_of_pos h1, List.takeWhile_cons_of_neg (by decide)]
  simp

theorem lower_dot {ext : Bytes} (h : c!"." ∉ ext.map toLower) : c!"." ∉ ext := by
  intro hm
  exact h (List.mem_map.2 ⟨_, hm, by decide⟩)

end Verif.Includes
