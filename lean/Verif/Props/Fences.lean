/-
Fences of code blocks in texts with includes: C115.
-/
import Verif.Proof.Fences

namespace Verif.Fences
open Spec
open Includes (normalize)

/-- C115: every text consists of such lines, so the next theorem says what happens to it. -/
theorem C115_every (s : Bytes) : ∃ l, (∀ x ∈ l, x.Ok) ∧ l ≠ [] ∧ s = join l := lines_exist s

/-- C115: a fence of an even number of backticks gets one more, and so does the line that closes it. Every other line
stays as it is. No access is out of bounds. -/
theorem C115_lines (l : List Line) (h : ∀ x ∈ l, x.Ok) : ∃ o, normalize (join l) = .val (join o) ∧ Fixed none l o :=
  ⟨_, normalize_lines l h, fixed_outs l none⟩

example : ∀ x ∈ [((4 : Nat), b!"c"), (0, b!"x"), (3, b!""), (4, b!""), (0, b!"")], Line.Ok x := by
  unfold Line.Ok; decide +kernel

/-- There is one result. -/
theorem C115_one : ∀ {s : Option (Nat × Nat)} {l o p : List Line}, Fixed s l o → Fixed s l p → o = p := by
  intro s l o p h
  induction h generalizing p with
  | nil => intro h; cases h; rfl
  | text hn _ ih =>
    intro h
    cases h with
    | text _ h => rw [ih h]
    | odd h1 => omega
    | even h1 => omega
    | close h1 => omega
    | inside h1 => omega
  | odd h1 h2 _ ih =>
    intro h
    cases h with
    | text h => omega
    | odd _ _ h => rw [ih h]
    | even _ h => omega
  | even h1 h2 _ ih =>
    intro h
    cases h with
    | text h => omega
    | odd _ h => omega
    | even _ _ h => rw [ih h]
  | close h1 _ ih =>
    intro h
    cases h with
    | text h => omega
    | close _ h => rw [ih h]
    | inside _ h => exact absurd rfl h
  | inside h1 h2 _ ih =>
    intro h
    cases h with
    | text h => omega
    | close => exact absurd rfl h2
    | inside _ _ h => rw [ih h]

theorem inside_body {n k : Nat} {r : Bytes} {rest o : List Line} (hr : Fixed none rest o) (hn : 3 ≤ n) : ∀ body : List Line,
    (∀ x ∈ body, x.1 ≠ n) → Fixed (some (n, k)) (body ++ (n, r) :: rest) (body ++ (k, r) :: o)
  | [], _ => .close hn hr
  | (m, x) :: body, h => by
    have ih := inside_body (k := k) (r := r) hr hn body (fun y hy => h y (List.mem_cons_of_mem _ hy))
    by_cases hm : m < 3
    · exact .text hm ih
    · exact .inside (by omega) (h (m, x) List.mem_cons_self) ih

/-- C115: the body of a code block is not changed, and its two fences stay equal. The body may hold fences of other
lengths. -/
theorem C115_partial {n : Nat} {info : Bytes} {body rest : List Line} (hn : 3 ≤ n) (hb : ∀ x ∈ body, x.1 ≠ n)
    (h : ∀ x ∈ (n, info) :: body ++ (n, []) :: rest, Line.Ok x) :
    ∃ k o, (k = n ∨ k = n + 1) ∧ Fixed none rest o ∧
      normalize (join ((n, info) :: body ++ (n, []) :: rest)) = .val (join ((k, info) :: body ++ (k, []) :: o)) := by
  obtain ⟨p, h1, h2⟩ := C115_lines _ h
  have hr := fixed_outs rest none
  by_cases h3 : n % 2 = 0
  · refine ⟨n + 1, _, Or.inr rfl, hr, ?_⟩
    rw [h1, C115_one h2 (Fixed.even hn h3 (inside_body hr hn body hb))]
    rfl
  · refine ⟨n, _, Or.inl rfl, hr, ?_⟩
    rw [h1, C115_one h2 (Fixed.odd hn (by omega) (inside_body hr hn body hb))]
    rfl

example : normalize b!"```\n````\n```\n````\na\n````\n" = .val b!"```\n````\n```\n`````\na\n`````\n" := by decide +kernel

/-- C115 is false when the body of a block with four backticks has a line of five, which is text before and closes the
block after. -/
theorem C115_early : normalize b!"````\n`````\n````\n" = .val b!"`````\n`````\n`````\n" := by decide +kernel

/-- C115 is false for blocks fenced by tildes: a line in them is changed. -/
theorem C115_tildes : normalize b!"~~~\n````\n~~~\n" = .val b!"~~~\n`````\n~~~\n" := by decide +kernel

end Verif.Fences
