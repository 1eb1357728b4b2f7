/-
C32 (failure policy of AST filters), C66 (exchange with external commands).
-/
import Verif.Spec.Filters

namespace Verif.Filters

open Spec

variable {D : Type}

theorem takeWhile_nul (out : Bytes) :
    (0 : Byte) ∉ out.takeWhile (· != 0) ∧
      (out = out.takeWhile (· != 0) ∨ ∃ r, out = out.takeWhile (· != 0) ++ 0 :: r) := by
  induction out with
  | nil => simp
  | cons c t ih =>
    by_cases h : c = 0
    · subst h; exact ⟨by simp, .inr ⟨t, by simp⟩⟩
    · rw [List.takeWhile_cons_of_pos (by simpa using h)]
      refine ⟨by simpa [ih.1] using fun h' => h h'.symm, ?_⟩
      rcases ih.2 with h' | ⟨r, h'⟩
      · exact .inl (by rw [← h'])
      · exact .inr ⟨r, by rw [List.cons_append, ← h']⟩

theorem nul_unique {out o : Bytes} (h1 : (0 : Byte) ∉ o) (h2 : out = o ∨ ∃ r, out = o ++ 0 :: r) :
    o = out.takeWhile (· != 0) := by
  induction o generalizing out with
  | nil => rcases h2 with rfl | ⟨r, rfl⟩ <;> simp
  | cons c t ih =>
    simp only [List.mem_cons, not_or] at h1
    have hc : (fun x : Byte => x != 0) c = true := by simpa using fun h => h1.1 h.symm
    rcases h2 with rfl | ⟨r, rfl⟩
    · rw [List.takeWhile_cons_of_pos (p := fun x : Byte => x != 0) hc, ← ih h1.2 (.inl rfl)]
    · rw [List.cons_append, List.takeWhile_cons_of_pos (p := fun x : Byte => x != 0) hc, ← ih h1.2 (.inr ⟨r, rfl⟩)]

/-- One filter of the loop, in terms of the specification. -/
theorem filter_cases (w : World D) (strict : Bool) (cmd : Bytes) (hc : cmd ≠ []) (rest : List (Option Bytes))
    (d : D) (log : List Bytes) :
    (∃ new log', Answers w d cmd new ∧ log' = log ++ [cmd] ∧
      loop w strict (some cmd :: rest) d log = loop w strict rest (taken w d new) log') ∨
    (∃ log', Fails w d cmd ∧ (log' = log ∨ log' = log ++ [cmd]) ∧
      loop w strict (some cmd :: rest) d log = if strict then (none, log') else loop w strict rest d log') := by
  rw [loop, if_neg hc]
  cases hj : w.toJson d with
  | none =>
    right
    refine ⟨log, ?_, .inl rfl, rfl⟩
    rintro d' ⟨j, _, _, h, _⟩
    rw [hj] at h; cases h
  | some j =>
    simp only []
    have hfail : ∀ o, runSingle w cmd j = o → (∀ d', ∀ s, o = some s → w.fromJson s ≠ some d') → Fails w d cmd := by
      rintro o ho hno d' ⟨j', out, s, h1, h2, h3, h4, h5⟩
      rw [hj] at h1; cases h1
      have : runSingle w cmd j = some s := by
        rw [runSingle, if_neg hc, h2]
        simp only []
        rw [if_neg (by simp), ← nul_unique h3 h4]
      rw [← ho, this] at hno
      exact hno d' s rfl h5
    cases hr : runSingle w cmd j with
    | none =>
      right
      exact ⟨log ++ [cmd], hfail none hr (by simp), .inr rfl, rfl⟩
    | some o =>
      simp only []
      cases hp : w.fromJson o with
      | none =>
        right
        refine ⟨log ++ [cmd], hfail _ hr ?_, .inr rfl, rfl⟩
        rintro d' s h
        cases h
        rw [hp]; simp
      | some new =>
        left
        refine ⟨new, log ++ [cmd], ?_, rfl, ?_⟩
        · rw [runSingle, if_neg hc] at hr
          cases hrun : w.run cmd j with
          | none => rw [hrun] at hr; cases hr
          | some co =>
            obtain ⟨code, out⟩ := co
            rw [hrun] at hr
            simp only [] at hr
            by_cases h0 : code = 0
            · rw [if_neg (by simpa using h0)] at hr
              subst h0
              cases hr
              exact ⟨j, out, _, hj, hrun, (takeWhile_nul out).1, (takeWhile_nul out).2, hp⟩
            · rw [if_pos h0] at hr; cases hr
        · simp only [taken]
          cases w.hasBlocks new <;> cases w.hasBlocks d <;> rfl

theorem loop_blank (w : World D) (strict : Bool) {c : Option Bytes} (hc : Blank c) (rest : List (Option Bytes))
    (d : D) (log : List Bytes) : loop w strict (c :: rest) d log = loop w strict rest d log := by
  rcases hc with rfl | rfl <;> simp [loop]

theorem blank_or_proper (c : Option Bytes) : Blank c ∨ ∃ cmd, c = some cmd ∧ cmd ≠ [] := by
  cases c with
  | none => exact .inl (.inl rfl)
  | some s =>
    by_cases h : s = []
    · exact .inl (.inr (by rw [h]))
    · exact .inr ⟨s, rfl, h⟩

theorem commands_blank {c : Option Bytes} (hc : Blank c) (cs : List (Option Bytes)) :
    commands (c :: cs) = commands cs := by
  rcases hc with rfl | rfl <;> simp [commands]

theorem commands_proper {cmd : Bytes} (hc : cmd ≠ []) (cs : List (Option Bytes)) :
    commands (some cmd :: cs) = cmd :: commands cs := by
  simp [commands, hc]

theorem strict_loop (w : World D) (cs : List (Option Bytes)) (d : D) (log : List Bytes) :
    (∃ d', loop w true cs d log = (some d', log ++ commands cs) ∧ AllAnswer w cs d d') ∨
    (∃ pre c cmd post d' log', cs = pre ++ c :: post ∧ AllAnswer w pre d d' ∧ Proper c cmd ∧ Fails w d' cmd ∧
      loop w true cs d log = (none, log') ∧
      (log' = log ++ commands pre ∨ log' = log ++ commands pre ++ [cmd])) := by
  induction cs generalizing d log with
  | nil => exact .inl ⟨d, by simp [loop, commands], .nil⟩
  | cons c cs ih =>
    rcases blank_or_proper c with hb | ⟨cmd, rfl, hc⟩
    · rw [loop_blank w true hb, commands_blank hb]
      rcases ih d log with ⟨d', h1, h2⟩ | ⟨pre, c', cmd, post, d', log', rfl, h1, h2, h3, h4, h5⟩
      · exact .inl ⟨d', h1, .blank hb h2⟩
      · exact .inr ⟨c :: pre, c', cmd, post, d', log', rfl, .blank hb h1, h2, h3, h4,
          by rw [commands_blank hb]; exact h5⟩
    · rcases filter_cases w true cmd hc cs d log with ⟨new, log1, h1, rfl, h2⟩ | ⟨log', h1, h2, h3⟩
      · rw [h2, commands_proper hc]
        rcases ih (taken w d new) (log ++ [cmd]) with
          ⟨d', h3, h4⟩ | ⟨pre, c', cmd', post, d', log', rfl, h3, h4, h5, h6, h7⟩
        · exact .inl ⟨d', by rw [h3]; simp, .step ⟨rfl, hc⟩ h1 h4⟩
        · refine .inr ⟨some cmd :: pre, c', cmd', post, d', log', rfl, .step ⟨rfl, hc⟩ h1 h3, h4, h5, h6, ?_⟩
          rw [commands_proper hc]
          simpa using h7
      · refine .inr ⟨[], some cmd, cmd, cs, d, log', rfl, .nil, ⟨rfl, hc⟩, h1, by rw [h3]; rfl, ?_⟩
        simpa [commands] using h2

theorem lenient_loop (w : World D) (cs : List (Option Bytes)) (d : D) (log : List Bytes) :
    ∃ d' log', loop w false cs d log = (some d', log') ∧ Lenient w cs d d' := by
  induction cs generalizing d log with
  | nil => exact ⟨d, log, rfl, .nil⟩
  | cons c cs ih =>
    rcases blank_or_proper c with hb | ⟨cmd, rfl, hc⟩
    · rw [loop_blank w false hb]
      obtain ⟨d', log', h1, h2⟩ := ih d log
      exact ⟨d', log', h1, .blank hb h2⟩
    · rcases filter_cases w false cmd hc cs d log with ⟨new, log1, h1, rfl, h2⟩ | ⟨log1, h1, h2, h3⟩
      · obtain ⟨d', log', h3, h4⟩ := ih (taken w d new) (log ++ [cmd])
        exact ⟨d', log', by rw [h2, h3], .step ⟨rfl, hc⟩ h1 h4⟩
      · obtain ⟨d', log', h4, h5⟩ := ih d log1
        exact ⟨d', log', by rw [h3]; exact h4, .fail ⟨rfl, hc⟩ h1 h5⟩

/-! ### C32 -/

/-- **C32**, strict: either every filter answers, the result is the document after all of them and every
command was run, or the result is NULL, some filter failed after all before it had answered, and no later
command was run. -/
theorem C32_strict (w : World D) (cs : List (Option Bytes)) (d : D) :
    (∃ d', runFilters w true cs d = (some d', commands cs) ∧ AllAnswer w cs d d') ∨
    (∃ pre c cmd post d' log, cs = pre ++ c :: post ∧ AllAnswer w pre d d' ∧ Proper c cmd ∧ Fails w d' cmd ∧
      runFilters w true cs d = (none, log) ∧ (log = commands pre ∨ log = commands pre ++ [cmd])) := by
  simpa [runFilters] using strict_loop w cs d []

/-- **C32**, not strict, partial: the run never fails and passes over the filters that fail.
What is missing: an answer without any blocks is not used although the filter succeeded (`taken`); see
`C32_empty_answer_ignored`. -/
theorem C32_lenient_partial (w : World D) (cs : List (Option Bytes)) (d : D) :
    ∃ d' log, runFilters w false cs d = (some d', log) ∧ Lenient w cs d d' :=
  lenient_loop w cs d []

/-- With answers that have blocks, the document after a filter is the answer. -/
theorem C32_taken (w : World D) (d d' : D) (h : w.hasBlocks d' = true) : taken w d d' = d' := by
  simp [taken, h]

/-- Documents as byte strings, blocks being bytes; `rm` removes everything, `up` writes `U`, `bad` fails. -/
def toy : World Bytes where
  toJson d := some d
  run cmd _ := if cmd = b!"rm" then some (0, []) else if cmd = b!"up" then some (0, b!"U") else some (1, [])
  fromJson o := some o
  hasBlocks d := !d.isEmpty

/-- C32 fails: a filter that succeeds in removing everything has no effect, strict or not. -/
theorem C32_empty_answer_ignored :
    Answers toy b!"doc" b!"rm" [] ∧ runFilters toy true [some b!"rm"] b!"doc" = (some b!"doc", [b!"rm"]) ∧
      runFilters toy false [some b!"rm"] b!"doc" = (some b!"doc", [b!"rm"]) :=
  ⟨⟨b!"doc", [], [], rfl, rfl, by simp, .inl rfl, rfl⟩, by decide +kernel, by decide +kernel⟩

example : runFilters toy true [some b!"up", none, some b!"bad", some b!"up"] b!"doc" =
    (none, [b!"up", b!"bad"]) := by decide +kernel
example : runFilters toy false [some b!"bad", some b!"up"] b!"doc" = (some b!"U", [b!"bad", b!"up"]) := by
  decide +kernel

/-! ### C66 -/

/-- The buffer for the child's output never overflows, whatever the sizes of the reads. -/
theorem C66_buffer (ns : List Nat) (h : ∀ n ∈ ns, n ≤ 4096) : readLoop 8192 0 ns = .val ns.sum := by
  have key : ∀ (ns : List Nat) (cap size : Nat), (∀ n ∈ ns, n ≤ 4096) → size ≤ cap → 8192 ≤ cap →
      readLoop cap size ns = .val (size + ns.sum) := by
    intro ns
    induction ns with
    | nil =>
      intro cap size _ h1 h2
      simp only [readLoop, List.sum_nil]
      generalize hcap : (if size + 4096 > cap then cap * 2 else cap) = cap'
      have : size + 4096 ≤ cap' := by rw [← hcap]; split <;> omega
      rw [if_neg (by omega), if_pos (by omega)]
      rfl
    | cons n ns ih =>
      intro cap size hn h1 h2
      simp only [readLoop, List.sum_cons]
      generalize hcap : (if size + 4096 > cap then cap * 2 else cap) = cap'
      have h3 : size + 4096 ≤ cap' ∧ 8192 ≤ cap' := by rw [← hcap]; split <;> omega
      have h4 := hn n (by simp)
      rw [if_neg (by omega), ih _ _ (fun m hm => hn m (by simp [hm])) (by omega) h3.2]
      congr 1
      omega
  simpa using key ns 8192 0 h (by omega) (by omega)

/-- The total number of bytes is kept, the buffers are within bounds, and nothing is received before
everything is written. -/
theorem reach_inv {cap buf n : Nat} {s : Pipes} (h : Reach cap buf (start n) s) :
    s.toWrite + s.inPipe + s.held + s.outPipe + s.received = n ∧ s.inPipe ≤ cap ∧ s.held ≤ buf ∧
      s.outPipe ≤ cap ∧ (0 < s.toWrite → s.received = 0) := by
  induction h with
  | refl => simp [start]
  | tail _ hm ih =>
    obtain ⟨h1, h2, h3, h4, h5⟩ := ih
    cases hm <;> simp_all <;> omega

/-- **C66**: the exchange always stops, after at most `4 n` moves. -/
theorem C66_stops {cap buf : Nat} (s t : Pipes) (h : Move cap buf s t) :
    4 * t.toWrite + 3 * t.inPipe + 2 * t.held + t.outPipe <
      4 * s.toWrite + 3 * s.inPipe + 2 * s.held + s.outPipe := by
  cases h <;> simp only [] <;> omega

/-- **C66**, partial: with a child that passes its input on through a buffer of `buf` bytes, an input of
`n` bytes that fits into the buffers always comes back completely: wherever the exchange stops, it is
finished.  Missing from C66: larger inputs; see `C66_hangs`. -/
theorem C66_exchange_partial {cap buf n : Nat} (hcap : 0 < cap) (hbuf : 0 < buf) (hn : n ≤ 2 * cap + buf)
    {s : Pipes} (h : Reach cap buf (start n) s) (hs : Stuck cap buf s) : Finished n s := by
  obtain ⟨h1, h2, h3, h4, h5⟩ := reach_inv h
  obtain ⟨w, a, hh, b, r⟩ := s
  simp only [] at h1 h2 h3 h4 h5
  -- the parent is not waiting to write
  have hw : w = 0 := by
    cases w with
    | zero => rfl
    | succ w =>
      have ha : ¬ a < cap := fun h => hs _ (.write h)
      have hh' : ¬ hh < buf := by
        intro hlt
        cases a with
        | zero => omega
        | succ a => exact hs _ (.childRead hlt)
      have hb : ¬ b < cap := by
        intro hlt
        cases hh with
        | zero => omega
        | succ hh => exact hs _ (.childWrite hlt)
      have := h5 (by omega)
      omega
  subst hw
  have hb : b = 0 := by
    cases b with
    | zero => rfl
    | succ b => exact absurd .read (hs _)
  subst hb
  have hh0 : hh = 0 := by
    cases hh with
    | zero => rfl
    | succ hh => exact absurd (.childWrite hcap) (hs _)
  subst hh0
  have ha : a = 0 := by
    cases a with
    | zero => rfl
    | succ a => exact absurd (.childRead hbuf) (hs _)
  subst ha
  unfold Finished
  congr 1
  omega

/-- C66 fails for larger inputs: apex waits for the child to read and the child for apex to read, in every
execution: nothing ever comes back. -/
theorem C66_hangs {cap buf n : Nat} (hn : 2 * cap + buf < n) {s : Pipes} (h : Reach cap buf (start n) s) :
    0 < s.toWrite ∧ s.received = 0 := by
  obtain ⟨h1, h2, h3, h4, h5⟩ := reach_inv h
  by_cases hw : 0 < s.toWrite
  · exact ⟨hw, h5 hw⟩
  · exfalso
    -- the last byte written left a full system; follow the run back to it
    have key : ∀ s, Reach cap buf (start n) s → 0 < s.toWrite := by
      intro s hr
      induction hr with
      | refl => simp [start]; omega
      | tail hr hm ih =>
        have h0 := ih
        obtain ⟨g1, g2, g3, g4, g5⟩ := reach_inv hr
        cases hm with
        | write ha =>
          simp only [] at *
          have := g5 h0
          omega
        | childRead _ => exact h0
        | childWrite _ => exact h0
        | read => exact h0
    exact hw (key s h)

/-- Pipes of 65536 bytes and a child with a buffer of 131072: 300000 bytes never come back. -/
example {s : Pipes} (h : Reach 65536 131072 (start 300000) s) : ¬ Finished 300000 s := by
  intro hf
  have := (C66_hangs (by omega) h).1
  rw [hf] at this
  exact absurd this (by simp)

end Verif.Filters
