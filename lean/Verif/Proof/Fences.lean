import Verif.Proof.Includes
import Verif.Spec.Fences

namespace Verif.Fences
open Spec
open Includes (normLoop normalize fence fence_le)

theorem copy_line (cap : Nat) (o : Option (Nat × Nat)) : ∀ (x z : Bytes) (fuel : Nat) (out : Bytes) (st : Bool), c!"\n" ∉ x →
    (st = true → x.head? ≠ some c!"`") → out.length + x.length ≤ cap →
    ∃ st', normLoop cap (fuel + x.length) st o out (x ++ z) = normLoop cap fuel st' o (out ++ x) z ∧ (st' = true → st = true ∧ x = [])
  | [], z, fuel, out, st, _, _, _ => ⟨st, by simp, fun h => ⟨h, rfl⟩⟩
  | c :: x, z, fuel, out, st, hx, hs, hc => by
    have hn : c ≠ c!"\n" := fun e => hx (by simp [e])
    have h1 : (st && c == c!"`") = false := by
      cases st with
      | false => rfl
      | true => have := hs rfl; simpa using this
    obtain ⟨st', h2, h3⟩ := copy_line cap o x z fuel (out ++ [c]) false (fun h => hx (by simp [h])) (by simp) (by simp at hc ⊢; omega)
    refine ⟨st', ?_, fun h => absurd (h3 h).1 (by simp)⟩
    rw [List.length_cons, ← Nat.add_assoc, List.cons_append, normLoop, h1]
    simp only [Bool.false_eq_true, if_false]
    rw [put_val (by simp at hc; omega), C.val_bind]
    have : (c == c!"\n") = false := by simpa using hn
    rw [this, h2]
    simp

theorem ticks_take {n : Nat} {z : Bytes} (h : z.head? ≠ some c!"`") :
    (List.replicate n c!"`" ++ z).takeWhile (· == c!"`") = List.replicate n c!"`" ∧
    (List.replicate n c!"`" ++ z).dropWhile (· == c!"`") = z := by
  induction n with
  | zero =>
    cases z with
    | nil => simp
    | cons c z =>
      have : (c == c!"`") = false := by simpa using h
      simp [List.takeWhile_cons, List.dropWhile_cons, this]
  | succ n ih => simp [List.replicate_succ, ih]

/-- One line, at whose end the loop is not at the start of a line. -/
theorem loop_line (cap : Nat) (o : Option (Nat × Nat)) (l : Line) (hl : l.Ok) (z : Bytes) (hz : z.head? ≠ some c!"`") (fuel : Nat) (out : Bytes)
    (hf : l.text.length ≤ fuel) (ho : ∀ a k, o = some (a, k) → k ≤ a + 1) (hc : out.length + 2 * l.text.length < cap)
    (hzn : z = [] ∨ ∃ w, z = c!"\n" :: w) :
    ∃ fuel' st, fuel' + l.text.length ≥ fuel ∧
      normLoop cap fuel true o out (l.text ++ z) =
        normLoop cap fuel' st (fence o l.1).2 (out ++ Line.text ((fence o l.1).1, l.2)) z := by
  obtain ⟨n, r⟩ := l
  obtain ⟨h1, h2⟩ := hl
  simp only at h1 h2 ⊢
  have hrz : (r ++ z).head? ≠ some c!"`" := by
    cases r with
    | nil => exact hz
    | cons c r => exact h1
  by_cases hn : n = 0
  · subst hn
    have ht : Line.text (0, r) = r := by simp [Line.text]
    rw [ht] at hf hc
    obtain ⟨st', h3, _⟩ := copy_line cap o r z (fuel - r.length) out true h2 (fun _ => h1) (by omega)
    have hfe : fence o 0 = (0, o) := by simp [fence]
    rw [Nat.sub_add_cancel hf] at h3
    refine ⟨fuel - r.length, st', by rw [ht]; omega, ?_⟩
    rw [ht, hfe]
    simpa [Line.text] using h3
  · have ht : Line.text (n, r) = List.replicate n c!"`" ++ r := rfl
    have htl : (Line.text (n, r)).length = n + r.length := by simp [Line.text]
    rw [htl] at hf hc
    obtain ⟨fuel, rfl⟩ : ∃ f, fuel = f + 1 := ⟨fuel - 1, by omega⟩
    obtain ⟨htk, hdr⟩ := ticks_take (n := n) hrz
    have hcons : Line.text (n, r) ++ z = c!"`" :: (List.replicate (n - 1) c!"`" ++ (r ++ z)) := by
      rw [ht]
      obtain ⟨m, rfl⟩ : ∃ m, n = m + 1 := ⟨n - 1, by omega⟩
      simp [List.replicate_succ]
    have hback : c!"`" :: (List.replicate (n - 1) c!"`" ++ (r ++ z)) = List.replicate n c!"`" ++ (r ++ z) := by
      rw [← hcons, ht]; simp
    obtain ⟨hfl, ho'⟩ := fence_le (n := n) (by omega) ho
    rw [hcons, normLoop, if_pos (by simp), hback]
    simp only [htk, hdr, List.length_replicate]
    -- the line
    obtain ⟨x, y, hxy, hx⟩ : ∃ x y, r = x ++ y ∧
        (if n ≥ 3 then (r ++ z).takeWhile (fun c => c != c!"\n" && c != c!"\r") else []) = x := by
      split
      · refine ⟨r.takeWhile (fun c => c != c!"\n" && c != c!"\r"), r.dropWhile (fun c => c != c!"\n" && c != c!"\r"),
          (List.takeWhile_append_dropWhile).symm, ?_⟩
        rcases hzn with rfl | ⟨w, rfl⟩
        · simp
        · rw [List.takeWhile_append]
          split
          · rename_i he
            rw [List.takeWhile_cons, if_neg (by simp), List.append_nil]
            exact ((List.takeWhile_prefix _).eq_of_length he).symm
          · rfl
      · exact ⟨[], r, rfl, rfl⟩
    rw [hx]
    have hlen : r.length = x.length + y.length := by rw [hxy]; simp
    rw [puts_val (by simp; omega), C.val_bind, puts_val (by simp; omega), C.val_bind, hxy, List.append_assoc x y z, List.drop_left]
    have hy : c!"\n" ∉ y := fun h => h2 (by rw [hxy]; simp [h])
    obtain ⟨st', h3, _⟩ := copy_line cap (fence o n).2 y z (fuel - y.length) (out ++ List.replicate (fence o n).1 c!"`" ++ x) false hy
      (by simp) (by simp; omega)
    rw [Nat.sub_add_cancel (by omega)] at h3
    refine ⟨fuel - y.length, st', by simp [Line.text]; omega, ?_⟩
    rw [h3]
    simp [Line.text]

/-- What `fence` makes of the lines. -/
def outs : Option (Nat × Nat) → List Line → List Line
  | _, [] => []
  | o, (n, r) :: l => ((fence o n).1, r) :: outs (fence o n).2 l

theorem fixed_outs : ∀ (l : List Line) (o : Option (Nat × Nat)), Fixed o l (outs o l)
  | [], _ => .nil
  | (n, r) :: l, o => by
    rw [outs]
    unfold fence
    by_cases h : n ≥ 3
    · rw [if_pos h]
      cases o with
      | none =>
        simp only []
        by_cases h2 : n % 2 = 0
        · simp only [if_pos h2]
          exact .even h h2 (fixed_outs l _)
        · simp only [if_neg h2]
          exact .odd h (by omega) (fixed_outs l _)
      | some x =>
        obtain ⟨m, k⟩ := x
        simp only []
        by_cases h2 : n = m
        · subst h2
          simp only [if_true]
          exact .close h (fixed_outs l _)
        · simp only [if_neg h2]
          exact .inside h h2 (fixed_outs l _)
    · rw [if_neg h]
      exact .text (by omega) (fixed_outs l _)

theorem line_len (o : Option (Nat × Nat)) (l : Line) (ho : ∀ a k, o = some (a, k) → k ≤ a + 1) :
    (Line.text ((fence o l.1).1, l.2)).length ≤ 2 * l.text.length := by
  by_cases h : l.1 = 0
  · rw [h]; simp [fence, Line.text]; omega
  · have := (fence_le (n := l.1) (by omega) ho).1
    simp [Line.text]; omega

theorem loop_lines (cap : Nat) : ∀ (l : List Line) (o : Option (Nat × Nat)) (fuel : Nat) (out : Bytes), (∀ x ∈ l, x.Ok) →
    (join l).length ≤ fuel → (∀ a k, o = some (a, k) → k ≤ a + 1) → out.length + 2 * (join l).length < cap →
    normLoop cap fuel true o out (join l) = .val (out ++ join (outs o l)) ∧ (join (outs o l)).length ≤ 2 * (join l).length
  | [], o, fuel, out, _, _, _, _ => by
    cases fuel <;> simp [join, outs, normLoop]
  | [l], o, fuel, out, hl, hf, ho, hc => by
    obtain ⟨f', st, _, h⟩ := loop_line cap o l (hl l (by simp)) [] (by simp) fuel out hf ho hc (Or.inl rfl)
    rw [List.append_nil] at h
    have h2 : ∀ f st o (out : Bytes), normLoop cap f st o out [] = .val out := by intro f; cases f <;> intros <;> rfl
    refine ⟨?_, line_len o l ho⟩
    show normLoop cap fuel true o out l.text = _
    rw [h, h2]
    rfl
  | l :: m :: r, o, fuel, out, hl, hf, ho, hc => by
    have e : join (l :: m :: r) = l.text ++ c!"\n" :: join (m :: r) := by simp [join]
    have el : (join (l :: m :: r)).length = l.text.length + 1 + (join (m :: r)).length := by rw [e]; simp; omega
    rw [el] at hf hc
    have hll := line_len o l ho
    obtain ⟨f', st, hf', h⟩ := loop_line cap o l (hl l (by simp)) (c!"\n" :: join (m :: r)) (by simp) fuel out (by omega) ho (by omega)
      (Or.inr ⟨_, rfl⟩)
    have ho' : ∀ a k, (fence o l.1).2 = some (a, k) → k ≤ a + 1 := by
      by_cases h0 : l.1 = 0
      · rw [h0]; simpa [fence] using ho
      · exact (fence_le (n := l.1) (by omega) ho).2
    obtain ⟨g, rfl⟩ : ∃ g, f' = g + 1 := ⟨f' - 1, by omega⟩
    have h2 : normLoop cap (g + 1) st (fence o l.1).2 (out ++ Line.text ((fence o l.1).1, l.2)) (c!"\n" :: join (m :: r)) =
        normLoop cap g true (fence o l.1).2 (out ++ Line.text ((fence o l.1).1, l.2) ++ [c!"\n"]) (join (m :: r)) := by
      rw [normLoop, if_neg (by simp), put_val (by simp; omega), C.val_bind]
      rfl
    obtain ⟨h3, h4⟩ := loop_lines cap (m :: r) (fence o l.1).2 g (out ++ Line.text ((fence o l.1).1, l.2) ++ [c!"\n"])
      (fun x hx => hl x (List.mem_cons_of_mem _ hx)) (by omega) ho' (by simp at *; omega)
    have eo : join (outs o (l :: m :: r)) = Line.text ((fence o l.1).1, l.2) ++ c!"\n" :: join (outs (fence o l.1).2 (m :: r)) := by
      obtain ⟨n, x⟩ := l
      obtain ⟨n', x'⟩ := m
      simp [outs, join]
    refine ⟨?_, by rw [eo, el]; simp at *; omega⟩
    rw [e, h, h2, h3, eo]
    simp

theorem normalize_lines (l : List Line) (h : ∀ x ∈ l, x.Ok) : normalize (join l) = .val (join (outs none l)) := by
  unfold normalize
  simp only []
  obtain ⟨h1, h2⟩ := loop_lines ((join l).length * 2 + 1) l none (join l).length [] h (Nat.le_refl _) (by simp) (by simp; omega)
  rw [h1, C.val_bind, finish_val (by simp; omega)]
  rfl

theorem line_exists (s : Bytes) (h : c!"\n" ∉ s) : ∃ l : Line, l.Ok ∧ s = l.text := by
  induction s with
  | nil => exact ⟨(0, []), ⟨by simp, by simp⟩, rfl⟩
  | cons c s ih =>
    obtain ⟨⟨n, r⟩, h1, h2⟩ := ih (fun hm => h (by simp [hm]))
    by_cases hc : c = c!"`"
    · exact ⟨(n + 1, r), h1, by rw [h2, hc]; simp [Line.text, List.replicate_succ]⟩
    · exact ⟨(0, c :: s), ⟨by simpa using hc, h⟩, by simp [Line.text]⟩

theorem lines_exist (s : Bytes) : ∃ l, (∀ x ∈ l, x.Ok) ∧ l ≠ [] ∧ s = join l := by
  generalize hn : s.length = n
  induction n using Nat.strongRecOn generalizing s with
  | _ n ih =>
    by_cases h : c!"\n" ∈ s
    · obtain ⟨a, b, hab, ha⟩ := List.eq_append_cons_of_mem h
      obtain ⟨l, hl, hne, hb⟩ := ih b.length (by rw [← hn, hab]; simp; omega) b rfl
      obtain ⟨x, hx, hax⟩ := line_exists a ha
      cases l with
      | nil => exact absurd rfl hne
      | cons y l =>
        refine ⟨x :: y :: l, ?_, by simp, ?_⟩
        · intro z hz
          rcases List.mem_cons.1 hz with rfl | hz
          · exact hx
          · exact hl z hz
        · rw [hab, hb, hax]; simp [join]
    · obtain ⟨x, hx, hax⟩ := line_exists s h
      exact ⟨[x], by simpa using hx, by simp, hax⟩

end Verif.Fences
