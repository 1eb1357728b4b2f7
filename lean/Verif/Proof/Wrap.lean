/-
Helper lemmas for C169 and C170: wrapping for a terminal, reading of the standard input.
-/
import Verif.Model.Wrap
import Verif.Spec.Wrap
import Verif.Proof.Index

namespace Verif.Wrap
open Spec (Tok flat Tokens Added shown Narrow Fill)
open Index (span_stop span_all span_split)

theorem push1_val {c : Byte} {b : Buf} (h : b.out.length < b.cap) : ∃ b', push1 c b = .val b' ∧ b'.out = b.out ++ [c] ∧ b'.out.length < b'.cap := by
  refine ⟨⟨if b.cap ≤ b.out.length + 1 then b.cap * 2 else b.cap, b.out ++ [c]⟩, if_pos ?_, rfl, ?_⟩
  · split <;> omega
  · simp only [List.length_append, List.length_cons, List.length_nil]
    split <;> omega

theorem pushSeq_val {s : Bytes} {b : Buf} (h : b.out.length < b.cap) : ∃ b', pushSeq s b = .val b' ∧ b'.out = b.out ++ s ∧ b'.out.length < b'.cap := by
  refine ⟨⟨if b.cap ≤ b.out.length + s.length + 1 then b.cap + s.length + 16 else b.cap, b.out ++ s⟩, if_pos ?_, rfl, ?_⟩
  · split <;> omega
  · simp only [List.length_append]
    split <;> omega

theorem tokens_total (n : Nat) : ∀ s : Bytes, s.length ≤ n → ∃ ts, Tokens s ts := by
  induction n with
  | zero => intro s h; cases s with | nil => exact ⟨_, .nil⟩ | cons => simp at h
  | succ n ih =>
    intro s h
    cases s with
    | nil => exact ⟨_, .nil⟩
    | cons c s =>
      have hs : s.length ≤ n := by simpa using h
      by_cases h1 : c = c!"\n"
      · subst h1; obtain ⟨ts, ht⟩ := ih s hs; exact ⟨_, .newline ht⟩
      by_cases h2 : c = c!"\r"
      · subst h2; obtain ⟨ts, ht⟩ := ih s hs; exact ⟨_, .ret ht⟩
      by_cases h3 : c = 27 ∧ s.head? = some c!"["
      · obtain ⟨rfl, h3⟩ := h3
        cases s with
        | nil => simp at h3
        | cons d s =>
          simp only [List.head?_cons, Option.some.injEq] at h3
          subst h3
          obtain ⟨x, r, e, hx, hr, _, _⟩ := span_split (!isAlpha ·) s
          have hx' : ∀ c ∈ x, isAlpha c = false := fun c hc => by simpa using hx c hc
          rcases hr with rfl | ⟨l, r, rfl, hl⟩
          · rw [List.append_nil] at e
            subst e
            exact ⟨_, .open hx'⟩
          · obtain ⟨ts, ht⟩ := ih r (by rw [e] at hs; simp at hs; omega)
            have := Tokens.seq hx' (by simpa using hl) ht
            exact ⟨_, by rw [e]; simpa using this⟩
      · obtain ⟨ts, ht⟩ := ih s hs
        exact ⟨_, .char h1 h2 h3 ht⟩

theorem fill_total (w : Nat) (ts : List Tok) : ∀ col, ∃ us, Fill w col ts us := by
  induction ts with
  | nil => exact fun _ => ⟨_, .nil⟩
  | cons t ts ih =>
    intro col
    cases t with
    | newline => obtain ⟨us, h⟩ := ih 0; exact ⟨_, .newline h⟩
    | ret => obtain ⟨us, h⟩ := ih col; exact ⟨_, .ret h⟩
    | seq s => obtain ⟨us, h⟩ := ih col; exact ⟨_, .seq h⟩
    | char c =>
      by_cases hc : col < w
      · obtain ⟨us, h⟩ := ih (col + 1); exact ⟨_, .char hc h⟩
      · obtain ⟨us, h⟩ := ih 1; exact ⟨_, .wrap (by omega) h⟩

theorem wrapGo_fill (w : Nat) {s : Bytes} {ts : List Tok} (ht : Tokens s ts) : ∀ {n col : Nat} {us : List Tok} {b : Buf}, s.length ≤ n → Fill w col ts us → b.out.length < b.cap →
    ∃ b', wrapGo w n col s b = .val b' ∧ b'.out = b.out ++ flat us ∧ b'.out.length < b'.cap := by
  induction ht with
  | nil =>
    intro n col us b _ hf hb
    cases hf
    refine ⟨b, ?_, by simp [flat], hb⟩
    cases n <;> rfl
  | @newline s ts _ ih =>
    intro n col us b hn hf hb
    cases n with
    | zero => simp at hn
    | succ n =>
      cases hf with
      | newline hf =>
        obtain ⟨b1, h1, h2, h3⟩ := push1_val (c := c!"\n") hb
        obtain ⟨b2, h4, h5, h6⟩ := ih (n := n) (by simpa using hn) hf h3
        refine ⟨b2, ?_, by rw [h5, h2]; simp [flat, Tok.bytes], h6⟩
        rw [show b!"\n" ++ s = c!"\n" :: s from rfl, wrapGo, if_pos rfl, h1]
        exact h4
  | @ret s ts _ ih =>
    intro n col us b hn hf hb
    cases n with
    | zero => simp at hn
    | succ n =>
      cases hf with
      | ret hf =>
        obtain ⟨b1, h1, h2, h3⟩ := push1_val (c := c!"\r") hb
        obtain ⟨b2, h4, h5, h6⟩ := ih (n := n) (by simpa using hn) hf h3
        refine ⟨b2, ?_, by rw [h5, h2]; simp [flat, Tok.bytes], h6⟩
        rw [show b!"\r" ++ s = c!"\r" :: s from rfl, wrapGo, if_neg (by decide), if_pos rfl, h1]
        exact h4
  | @seq x l s ts hx hl _ ih =>
    intro n col us b hn hf hb
    cases n with
    | zero => simp at hn
    | succ n =>
      cases hf with
      | seq hf =>
        obtain ⟨b1, h1, h2, h3⟩ := pushSeq_val (s := 27 :: c!"[" :: (x ++ [l])) hb
        obtain ⟨b2, h4, h5, h6⟩ := ih (n := n) (by simp at hn; omega) hf h3
        refine ⟨b2, ?_, by rw [h5, h2]; simp [flat, Tok.bytes], h6⟩
        obtain ⟨h7, h8⟩ := span_stop (p := (!isAlpha ·)) (a := x) (b := s) (c := l) (fun c hc => by simp [hx c hc]) (by simp [hl])
        rw [show 27 :: c!"[" :: (x ++ [l]) ++ s = 27 :: c!"[" :: (x ++ l :: s) by simp, wrapGo, if_neg (by decide), if_neg (by decide), if_pos (by simp)]
        simp only [List.drop_succ_cons, List.drop_zero, h7, h8, List.take_succ_cons, List.take_zero]
        rw [h1]
        exact h4
  | @«open» x hx =>
    intro n col us b hn hf hb
    cases n with
    | zero => simp at hn
    | succ n =>
      cases hf with
      | seq hf =>
        cases hf
        obtain ⟨b1, h1, h2, h3⟩ := pushSeq_val (s := 27 :: c!"[" :: x) hb
        refine ⟨b1, ?_, by rw [h2]; simp [flat, Tok.bytes], h3⟩
        obtain ⟨h7, h8⟩ := span_all (p := (!isAlpha ·)) (a := x) (fun c hc => by simp [hx c hc])
        rw [wrapGo, if_neg (by decide), if_neg (by decide), if_pos (by simp)]
        simp only [List.drop_succ_cons, List.drop_zero, h7, h8, List.take_nil, List.drop_nil, List.append_nil]
        rw [h1]
        cases n <;> rfl
  | @char c s ts h1 h2 h3 _ ih =>
    intro n col us b hn hf hb
    cases n with
    | zero => simp at hn
    | succ n =>
      rw [wrapGo, if_neg h1, if_neg h2, if_neg h3]
      cases hf with
      | char hc hf =>
        obtain ⟨b1, g1, g2, g3⟩ := push1_val (c := c) hb
        obtain ⟨b2, h4, h5, h6⟩ := ih (n := n) (by simpa using hn) hf g3
        refine ⟨b2, ?_, by rw [h5, g2]; simp [flat, Tok.bytes], h6⟩
        rw [if_neg (by omega), if_neg (by omega)]
        simp only [C.bind]
        rw [g1]
        exact h4
      | wrap hc hf =>
        obtain ⟨b0, f1, f2, f3⟩ := push1_val (c := c!"\n") hb
        obtain ⟨b1, g1, g2, g3⟩ := push1_val (c := c) f3
        obtain ⟨b2, h4, h5, h6⟩ := ih (n := n) (by simpa using hn) hf g3
        refine ⟨b2, ?_, by rw [h5, g2, f2]; simp [flat, Tok.bytes], h6⟩
        rw [if_pos hc, if_pos hc, f1]
        simp only [C.bind]
        rw [g1]
        exact h4

theorem fill_added {w col : Nat} {ts us : List Tok} (h : Fill w col ts us) : Added ts us := by
  induction h with
  | nil => exact .nil
  | newline _ ih => exact .keep ih
  | ret _ ih => exact .keep ih
  | seq _ ih => exact .keep ih
  | char _ _ ih => exact .keep ih
  | wrap _ _ ih => exact .add (.keep ih)

theorem fill_front {w col : Nat} {ts us : List Tok} (hw : 0 < w) (h : Fill w col ts us) : ∀ b c, us = b ++ c → Tok.newline ∉ b → shown b ≤ w - col := by
  induction h with
  | nil =>
    intro b c e _
    have : b = [] := by
      cases b with
      | nil => rfl
      | cons x b => simp at e
    subst this
    simp [shown]
  | newline _ _ =>
    intro b c e hb
    cases b with
    | nil => simp [shown]
    | cons x b => simp only [List.cons_append, List.cons.injEq] at e; rw [← e.1] at hb; simp at hb
  | ret _ ih =>
    intro b c e hb
    cases b with
    | nil => simp [shown]
    | cons x b =>
      simp only [List.cons_append, List.cons.injEq] at e
      rw [← e.1, shown]
      · exact ih b c e.2 (fun h => hb (by simp [h]))
      · intro c h; cases h
  | seq _ ih =>
    intro b c e hb
    cases b with
    | nil => simp [shown]
    | cons x b =>
      simp only [List.cons_append, List.cons.injEq] at e
      rw [← e.1, shown]
      · exact ih b c e.2 (fun h => hb (by simp [h]))
      · intro c h; cases h
  | char hc _ ih =>
    intro b c e hb
    cases b with
    | nil => simp [shown]
    | cons x b =>
      simp only [List.cons_append, List.cons.injEq] at e
      have := ih b c e.2 (fun h => hb (by simp [h]))
      rw [← e.1, shown]
      omega
  | wrap _ _ _ =>
    intro b c e hb
    cases b with
    | nil => simp [shown]
    | cons x b => simp only [List.cons_append, List.cons.injEq] at e; rw [← e.1] at hb; simp at hb

theorem fill_narrow {w col : Nat} {ts us : List Tok} (hw : 0 < w) (h : Fill w col ts us) : Narrow w us := by
  induction h with
  | nil =>
    intro a b c e _
    have : b = [] := by
      cases a with
      | nil => cases b with | nil => rfl | cons x b => simp at e
      | cons x a => simp at e
    subst this
    simp [shown]
  | @newline col _ _ h ih =>
    intro a b c e hb
    cases a with
    | nil => exact Nat.le_trans (fill_front (col := col) hw (.newline h) b c (by simpa using e) hb) (by omega)
    | cons x a => simp only [List.cons_append, List.cons.injEq] at e; exact ih a b c (by simpa using e.2) hb
  | ret h ih =>
    intro a b c e hb
    cases a with
    | nil => exact Nat.le_trans (fill_front hw (.ret h) b c (by simpa using e) hb) (by omega)
    | cons x a => simp only [List.cons_append, List.cons.injEq] at e; exact ih a b c (by simpa using e.2) hb
  | seq h ih =>
    intro a b c e hb
    cases a with
    | nil => exact Nat.le_trans (fill_front hw (.seq h) b c (by simpa using e) hb) (by omega)
    | cons x a => simp only [List.cons_append, List.cons.injEq] at e; exact ih a b c (by simpa using e.2) hb
  | char hc h ih =>
    intro a b c e hb
    cases a with
    | nil => exact Nat.le_trans (fill_front hw (.char hc h) b c (by simpa using e) hb) (by omega)
    | cons x a => simp only [List.cons_append, List.cons.injEq] at e; exact ih a b c (by simpa using e.2) hb
  | @wrap _ ch _ us hc h ih =>
    intro a b c e hb
    match a, e with
    | [], e => exact Nat.le_trans (fill_front hw (.wrap hc h) b c (by simpa using e) hb) (by omega)
    | [x], e =>
      simp only [List.cons_append, List.nil_append, List.cons.injEq] at e
      have := fill_front hw (Fill.char (c := ch) (by omega : 0 < w) h) b c e.2 hb
      omega
    | x :: y :: a, e =>
      simp only [List.cons_append, List.cons.injEq] at e
      exact ih a b c (by simpa using e.2.2) hb

theorem flat_head {w col : Nat} {ts us : List Tok} (h : Fill w col ts us) {s : Bytes} (ht : Tokens s ts) (hs : s.head? ≠ some c!"[") : (flat us).head? ≠ some c!"[" := by
  cases h with
  | nil => simp [flat]
  | newline => simp [flat, Tok.bytes]
  | ret => simp [flat, Tok.bytes]
  | seq =>
    cases ht with
    | seq => simp [flat, Tok.bytes]
    | «open» => simp [flat, Tok.bytes]
  | char =>
    cases ht with
    | char => simpa [flat, Tok.bytes] using hs
  | wrap => simp [flat, Tok.bytes]

theorem fill_tokens {s : Bytes} {ts : List Tok} (ht : Tokens s ts) : ∀ {w col : Nat} {us : List Tok}, Fill w col ts us → Tokens (flat us) us := by
  induction ht with
  | nil => intro w col us h; cases h; exact .nil
  | newline _ ih => intro w col us h; cases h with | newline h => exact .newline (ih h)
  | ret _ ih => intro w col us h; cases h with | ret h => exact .ret (ih h)
  | seq hx hl _ ih => intro w col us h; cases h with | seq h => exact .seq hx hl (ih h)
  | «open» hx =>
    intro w col us h
    cases h with
    | seq h => cases h; simpa [flat, Tok.bytes] using Tokens.open hx
  | @char c s ts h1 h2 h3 ht ih =>
    intro w col us h
    cases h with
    | char hc h =>
      refine .char h1 h2 ?_ (ih h)
      rintro ⟨rfl, e⟩
      exact flat_head h ht (fun e' => h3 ⟨rfl, e'⟩) e
    | wrap hc h =>
      refine .newline (.char h1 h2 ?_ (ih h))
      rintro ⟨rfl, e⟩
      exact flat_head h ht (fun e' => h3 ⟨rfl, e'⟩) e

theorem tokens_flat {s : Bytes} {ts : List Tok} (ht : Tokens s ts) : flat ts = s := by
  induction ht with
  | nil => rfl
  | newline _ ih => rw [← ih]; rfl
  | ret _ ih => rw [← ih]; rfl
  | seq _ _ _ ih => rw [← ih]; simp [flat, Tok.bytes]
  | «open» => simp [flat, Tok.bytes]
  | char _ _ _ _ ih => rw [← ih]; rfl

/-! ### Reading -/

theorem readGo_all (n : Nat) : ∀ (ps : List Bytes) (cap : Nat) (buf : Bytes), (∀ p ∈ ps, p ≠ []) → ps.flatten.length < n → buf.length < cap → 4096 ≤ cap →
    ∃ cap', readGo n ps cap buf = .val (cap', buf ++ ps.flatten) ∧ (buf ++ ps.flatten).length < cap' := by
  induction n with
  | zero => intro ps cap buf _ h; simp at h
  | succ n ih =>
    intro ps cap buf hp hn hb hcap
    cases ps with
    | nil => exact ⟨cap, by simp [readGo], by simpa using hb⟩
    | cons p ps =>
      have hp0 : p ≠ [] := hp p (by simp)
      rw [readGo]
      simp only []
      have hlen : 0 < p.length := List.length_pos_iff.2 hp0
      have hg : p.take (cap - buf.length) ≠ [] := by
        intro h
        have := congrArg List.length h
        rw [List.length_take, List.length_nil] at this
        omega
      have hgl : (p.take (cap - buf.length)).length = min (cap - buf.length) p.length := List.length_take
      rw [if_neg hg, if_pos (by omega)]
      generalize hcap' : (if cap < (buf ++ p.take (cap - buf.length)).length + 4096 then cap * 2 else cap) = cap'
      have h1 : (buf ++ p.take (cap - buf.length)).length < cap' := by
        rw [← hcap']
        rw [List.length_append] at *
        split <;> omega
      have h2 : 4096 ≤ cap' := by rw [← hcap']; split <;> omega
      have e : p = p.take (cap - buf.length) ++ p.drop (cap - buf.length) := (List.take_append_drop _ _).symm
      have hfl : (p :: ps).flatten = p.take (cap - buf.length) ++ (if p.drop (cap - buf.length) = [] then ps else p.drop (cap - buf.length) :: ps).flatten := by
        split
        · rename_i h
          rw [List.flatten_cons]
          conv => lhs; rw [e, h, List.append_nil]
        · rw [List.flatten_cons, List.flatten_cons, ← List.append_assoc, ← e]
      obtain ⟨c', h3, h4⟩ := ih (if p.drop (cap - buf.length) = [] then ps else p.drop (cap - buf.length) :: ps) cap' (buf ++ p.take (cap - buf.length)) (by
        intro q hq
        split at hq
        · exact hp q (by simp [hq])
        · rename_i h
          rcases List.mem_cons.1 hq with rfl | hq
          · exact h
          · exact hp q (by simp [hq])) (by
        rw [hfl, List.length_append] at hn
        omega) h1 h2
      exact ⟨c', by rw [h3, hfl, List.append_assoc], by rw [hfl, ← List.append_assoc]; exact h4⟩

end Verif.Wrap
