/- C136: cells that span columns. -/
import Verif.Proof.Colspans

namespace Verif.Colspans

open Spec

/-- Every text that ends a line, and the empty one, is a text of lines; so the theorems about lines are about every text. -/
theorem C136_lines (s : Bytes) (h : s = [] ∨ s.getLast? = some 10 ∨ s.getLast? = some 13) : ∃ ls, Ok ls ∧ s = source ls :=
  exists_lines s h

/-- C136 (what holds): nothing is written behind the block, and the new text is that of the lines: in lines outside of fences
    every pipe that follows another gets a mark in front of it, all other bytes of the text stay, and so do all lines from one
    fence to the next.

    Missing from the claim: that only rows of tables change (`C136_prose_fails`, `C136_span_fails`), and that code stays
    (`C136_fence_fails`, `C136_indented_fails`). -/
theorem C136_partial (ls : List (Row × Bytes)) (h : Ok ls) (h0 : 0 ∉ source ls) : call (source ls) = .val (result false ls) := by
  have hr := process_lines ls h (result_clean ls h0 false)
  unfold call
  cases hl : (source ls).getLast? with
  | none => exact hr
  | some c =>
    simp only
    have : c = 10 ∨ c = 13 := by
      rcases List.eq_nil_or_concat ls with rfl | ⟨a, l, rfl⟩
      · simp [source] at hl
      · have he := (h.1 l (by simp)).2.2.2
        rw [List.concat_eq_append] at hl
        simp only [source, List.flatMap_append, List.flatMap_cons, List.flatMap_nil, List.append_nil] at hl
        rcases he with he | he | he <;> (rw [he] at hl; simp at hl; simp [← hl])
    rw [if_neg (by rcases this with rfl | rfl <;> decide)]
    exact hr

/-- The call is defined for every text, and gives the lines of the text, with an end for the last one. -/
theorem C136_total (text : Bytes) (h0 : 0 ∉ text) :
    ∃ ls, Ok ls ∧ call text = .val (result false ls) ∧ (source ls = text ∨ source ls = text ++ [10]) := by
  by_cases he : text = [] ∨ text.getLast? = some 10 ∨ text.getLast? = some 13
  · obtain ⟨ls, o1, rfl⟩ := exists_lines text he
    exact ⟨ls, o1, C136_partial ls o1 h0, Or.inl rfl⟩
  · obtain ⟨ls, o1, o2⟩ := exists_lines (text ++ [10]) (by right; left; simp)
    refine ⟨ls, o1, ?_, Or.inr o2.symm⟩
    have hne : text ≠ [] := fun h => he (Or.inl h)
    have ec : call text = process (text ++ [10]) := by
      unfold call
      cases hl : text.getLast? with
      | none => exact absurd (List.getLast?_eq_none_iff.1 hl) hne
      | some c =>
        simp only
        rw [if_pos]
        simp
        exact ⟨fun e => he (by rw [hl, e]; simp), fun e => he (by rw [hl, e]; simp)⟩
    rw [ec, o2]
    exact process_lines ls o1 (result_clean ls (by rw [← o2]; simp [h0]) false)

/-- A text without two pipes next to each other stays, but for an end of its last line. -/
theorem C136_same (text : Bytes) (h0 : 0 ∉ text) (hp : ¬ b!"||" <:+: text) : call text = .val text ∨ call text = .val (text ++ [10]) := by
  obtain ⟨ls, o1, o2, o3⟩ := C136_total text h0
  have hp' : ¬ b!"||" <:+: source ls := by
    rcases o3 with e | e
    · rw [e]; exact hp
    · rw [e]
      rintro ⟨a, b, hab⟩
      rcases List.eq_nil_or_concat b with rfl | ⟨b', x, rfl⟩
      · have := congrArg List.getLast? hab
        simp at this
      · have := congrArg List.dropLast hab
        rw [List.concat_eq_append, ← List.append_assoc, List.dropLast_concat, List.dropLast_concat] at this
        exact hp ⟨a, b', this⟩
  have key : ∀ (ls : List (Row × Bytes)), (∀ l ∈ ls, l.1.Ok) → ¬ b!"||" <:+: source ls → ∀ code, result code ls = source ls := by
    intro ls
    induction ls with
    | nil => intros; rfl
    | cons l ls ih =>
      intro hok hp code
      have es : source (l :: ls) = l.1.line ++ l.2 ++ source ls := by simp [source]
      rw [es] at hp ⊢
      have e1 : l.1.out = l.1.line := by
        have hl : ¬ b!"||" <:+: l.1.line := fun ⟨a, b, hab⟩ => hp ⟨a, b ++ l.2 ++ source ls, by rw [← hab]; simp⟩
        obtain ⟨k1, -, -⟩ := hok l (by simp)
        have : ∀ c ∈ l.1.cells, c.2 = 1 := by
          intro c hc
          have := (k1 c hc).2
          rcases Nat.lt_or_ge 1 c.2 with h2 | h2
          · exfalso
            apply hl
            obtain ⟨x, y, hxy⟩ := List.append_of_mem hc
            obtain ⟨j, hj⟩ : ∃ j, c.2 = j + 1 + 1 := ⟨c.2 - 2, by omega⟩
            refine ⟨x.flatMap (fun c => c.1 ++ List.replicate c.2 c!"|") ++ c.1, List.replicate j c!"|" ++ y.flatMap (fun c => c.1 ++ List.replicate c.2 c!"|") ++ l.1.rest, ?_⟩
            unfold Row.line
            rw [hxy, List.flatMap_append, List.flatMap_cons, hj, List.replicate_succ, List.replicate_succ]
            simp
          · omega
        unfold Row.out Row.line
        congr 1
        revert this
        generalize l.1.cells = cells
        intro hc
        induction cells with
        | nil => rfl
        | cons c cells ihc =>
          rw [List.flatMap_cons, List.flatMap_cons, ihc fun x hx => hc x (by simp [hx]), hc c (by simp)]
          rfl
      simp only [result, e1, ite_self]
      rw [ih (fun x hx => hok x (by simp [hx])) (fun ⟨a, b, hab⟩ => hp ⟨l.1.line ++ l.2 ++ a, b, by rw [← hab]; simp⟩)]
  rw [key ls (fun l hl => (o1.1 l hl).1) hp' false] at o2
  rcases o3 with e | e
  · left; rw [o2, e]
  · right; rw [o2, e]

/-- A row where the first cell spans three columns, and a block of code. -/
def sample : List (Row × Bytes) :=
  [(⟨[([], 1), (b!" A ", 3), (b!" B ", 1)], []⟩, b!"\r\n"), (⟨[], b!"```"⟩, b!"\n"), (⟨[(b!"x", 2)], b!"y"⟩, b!"\n"), (⟨[], b!"```"⟩, b!"\n")]

example : Ok sample ∧ 0 ∉ source sample ∧ source sample = b!"| A ||| B |\r\n```\nx||y\n```\n" ∧
    call (source sample) = .val b!"| A | << | << | B |\r\n```\nx||y\n```\n" := by
  refine ⟨⟨?_, ?_⟩, by decide, by decide, by decide +kernel⟩
  · intro l hl
    simp only [sample, List.mem_cons, List.not_mem_nil, or_false] at hl
    unfold Row.Ok Eol
    rcases hl with rfl | rfl | rfl | rfl
    all_goals exact ⟨⟨by decide, by decide, by decide⟩, by decide, by decide, by decide⟩
  · simp [sample, Apart]

/-- The claim fails outside of tables: `or` in a sentence about programs gets a mark. -/
theorem C136_prose_fails : call b!"Use a || b here.\n" = .val b!"Use a | << | b here.\n" := by decide +kernel

/-- … and in code inside of a line. -/
theorem C136_span_fails : call b!"Use `a || b` here.\n" = .val b!"Use `a | << | b` here.\n" := by decide +kernel

/-- The claim fails for code with the other kind of fence, or a longer one, around it. -/
theorem C136_fence_fails : call b!"```\n~~~\na || b\n```\n" = .val b!"```\n~~~\na | << | b\n```\n" ∧
    call b!"````\n```\na || b\n```\n````\n" = .val b!"````\n```\na | << | b\n```\n````\n" := by decide +kernel

/-- … and for code by indentation. -/
theorem C136_indented_fails : call b!"    if (a || b)\n" = .val b!"    if (a | << | b)\n" := by decide +kernel

/-- Without the line end that the call adds, a byte is written behind the block. -/
theorem C136_end_fails : process b!"||x" = .ub ∧ call b!"||x" = .val b!"| << |x\n" := by decide +kernel

end Verif.Colspans
