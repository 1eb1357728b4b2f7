/- Lemmas for `Verif.Props.Hashtags`. -/
import Verif.Model.Hashtags
import Verif.Spec.Hashtags
import Verif.Proof.Embed

namespace Verif.Hashtags
open Spec

/-! Buffers. -/

theorem add_grow (b : Buf) (s : Bytes) (hs : s.length < 10) (h : b.out.length < b.cap) : ∃ k, b.grow.add s = .val ⟨b.out ++ s, k⟩ ∧ b.cap ≤ k ∧ b.out.length + s.length < k := by
  unfold Buf.grow
  split
  · rename_i h1
    refine ⟨(b.out.length + 100) * 2, ?_, by omega, by omega⟩
    unfold Buf.add
    rw [if_pos (by simp only; omega)]
  · rename_i h1
    refine ⟨b.cap, ?_, by omega, by omega⟩
    unfold Buf.add
    rw [if_pos (by omega)]

theorem add_ok (o s : Bytes) (k : Nat) (h : o.length + s.length ≤ k) : Buf.add ⟨o, k⟩ s = .val ⟨o ++ s, k⟩ := by
  unfold Buf.add
  rw [if_pos h]

/-- The parts of a text. -/
def parts : Nat → Option Byte → Line → Bytes → List Part
  | 0, _, _, _ => []
  | _, _, _, [] => []
  | n + 1, prev, l, c :: s =>
    let l := l.step c
    if l.code then ⟨false, [c]⟩ :: parts n (some c) l s
    else if c = c!"#" && before prev && starts s then ⟨true, c :: (tag s).1⟩ :: parts n (tag s).1.getLast? l (tag s).2
    else ⟨false, [c]⟩ :: parts n (some c) l s

theorem shown_cons (cls : Bytes) (p : Part) (ps : List Part) : shown cls (p :: ps) = (if p.tag then b!"<span class=\"" ++ cls ++ b!"\">" ++ p.text ++ b!"</span>" else p.text) ++ shown cls ps := by
  simp [shown]

theorem source_cons (p : Part) (ps : List Part) : Spec.source (p :: ps) = p.text ++ Spec.source ps := by
  simp [Spec.source]

theorem parts_step (n : Nat) (prev : Option Byte) (l : Line) (c : Byte) (s : Bytes) : parts (n + 1) prev l (c :: s) =
    if (l.step c).code then ⟨false, [c]⟩ :: parts n (some c) (l.step c) s
    else if c = c!"#" && before prev && starts s then ⟨true, c :: (tag s).1⟩ :: parts n (tag s).1.getLast? (l.step c) (tag s).2
    else ⟨false, [c]⟩ :: parts n (some c) (l.step c) s := rfl

theorem tags_step (cls : Bytes) (n : Nat) (b : Buf) (prev : Option Byte) (l : Line) (c : Byte) (s : Bytes) : tags cls (n + 1) b prev l (c :: s) =
    if (l.step c).code then (do
      let b ← b.grow.add [c]
      tags cls n b (some c) (l.step c) s)
    else if c = c!"#" && before prev && starts s then (do
      let b ← (b.need (13 + cls.length + 2 + (1 + (tag s).1.length) + 7)).add b!"<span class=\""
      let b ← b.add cls
      let b ← b.add b!"\">"
      let b ← b.add (c :: (tag s).1)
      let b ← b.add b!"</span>"
      tags cls n b (tag s).1.getLast? (l.step c) (tag s).2)
    else (do
      let b ← b.grow.add [c]
      tags cls n b (some c) (l.step c) s) := rfl

theorem tags_parts (cls : Bytes) : ∀ n (b : Buf) prev l s, b.out.length < b.cap →
    ∃ k, tags cls n b prev l s = .val ⟨b.out ++ shown cls (parts n prev l s), k⟩ ∧ (b.out ++ shown cls (parts n prev l s)).length < k
  | 0, b, prev, l, s, h => ⟨b.cap, by simp [tags, parts, shown], by simpa [parts, shown] using h⟩
  | n + 1, b, prev, l, [], h => ⟨b.cap, by simp [tags, parts, shown], by simpa [parts, shown] using h⟩
  | n + 1, b, prev, l, c :: s, h => by
    have plain : ∀ l', ∃ k, (do let b ← b.grow.add [c]; tags cls n b (some c) l' s) = C.val ⟨b.out ++ shown cls (⟨false, [c]⟩ :: parts n (some c) l' s), k⟩ ∧
        (b.out ++ shown cls (⟨false, [c]⟩ :: parts n (some c) l' s)).length < k := by
      intro l'
      obtain ⟨k, hk, _, hk2⟩ := add_grow b [c] (by simp) h
      rw [hk]
      obtain ⟨k', hk', hk2'⟩ := tags_parts cls n ⟨b.out ++ [c], k⟩ (some c) l' s (by simpa using hk2)
      refine ⟨k', ?_, ?_⟩
      · simp only [C.val_bind]
        rw [hk', shown_cons]
        simp
      · rw [shown_cons]
        simpa using hk2'
    rw [tags_step, parts_step]
    split
    · exact plain _
    · split
      · let t := (tag s).1
        let m := 13 + cls.length + 2 + (1 + t.length) + 7
        have hb : ∃ k, b.need m = ⟨b.out, k⟩ ∧ b.out.length + m < k := by
          unfold Buf.need
          split
          · exact ⟨_, rfl, by omega⟩
          · exact ⟨b.cap, rfl, by omega⟩
        obtain ⟨k, hk, hm⟩ := hb
        obtain ⟨k', hk', hk2'⟩ := tags_parts cls n ⟨b.out ++ b!"<span class=\"" ++ cls ++ b!"\">" ++ (c :: t) ++ b!"</span>", k⟩ t.getLast? (l.step c) (tag s).2 (by
          simp only [List.length_append, List.length_cons, List.length_nil]; omega)
        refine ⟨k', ?_, ?_⟩
        · show (do let b ← (b.need m).add b!"<span class=\""; let b ← b.add cls; let b ← b.add b!"\">"; let b ← b.add (c :: t); let b ← b.add b!"</span>"; tags cls n b t.getLast? (l.step c) (tag s).2) = _
          rw [hk, add_ok _ _ _ (by simp only [List.length_cons, List.length_nil]; omega)]
          simp only [C.val_bind]
          rw [add_ok _ _ _ (by simp only [List.length_append, List.length_cons, List.length_nil]; omega)]
          simp only [C.val_bind]
          rw [add_ok _ _ _ (by simp only [List.length_append, List.length_cons, List.length_nil]; omega)]
          simp only [C.val_bind]
          rw [add_ok _ _ _ (by simp only [List.length_append, List.length_cons, List.length_nil]; omega)]
          simp only [C.val_bind]
          rw [add_ok _ _ _ (by simp only [List.length_append, List.length_cons, List.length_nil]; omega)]
          simp only [C.val_bind]
          rw [hk', shown_cons]
          simp [t]
        · rw [shown_cons]
          simpa [t] using hk2'
      · exact plain _

/-! Lines. -/

theorem lastLine_snoc (s : Bytes) (c : Byte) : lastLine (s ++ [c]) = if c = c!"\n" then [] else lastLine s ++ [c] := by
  unfold lastLine
  rw [List.reverse_append, List.reverse_cons, List.reverse_nil, List.nil_append, List.cons_append, List.nil_append, List.takeWhile_cons]
  by_cases h : c = c!"\n"
  · simp [h]
  · simp [h]

theorem lastLine_append (s : Bytes) : ∀ t : Bytes, c!"\n" ∉ t → lastLine (s ++ t) = lastLine s ++ t := by
  intro t
  induction t generalizing s with
  | nil => simp
  | cons c t ih =>
    intro h
    have e : s ++ c :: t = (s ++ [c]) ++ t := by simp
    rw [e, ih _ (fun hc => h (by simp [hc])), lastLine_snoc, if_neg (fun hc => h (by simp [hc]))]
    simp

/-- Spaces, and then nothing or something else. -/
theorem spaces_split (l : Bytes) : ∃ k r, l = List.replicate k c!" " ++ r ∧ (r = [] ∨ ∃ d q, r = d :: q ∧ d ≠ c!" ") := by
  induction l with
  | nil => exact ⟨0, [], rfl, .inl rfl⟩
  | cons c l ih =>
    by_cases h : c = c!" "
    · obtain ⟨k, r, hl, hr⟩ := ih
      refine ⟨k + 1, r, ?_, hr⟩
      rw [h, hl, List.replicate_succ]; rfl
    · exact ⟨0, c :: l, rfl, .inr ⟨c, l, rfl, h⟩⟩

theorem take_spaces (k : Nat) {r : Bytes} (hr : r = [] ∨ ∃ d q, r = d :: q ∧ d ≠ c!" ") :
    ((List.replicate k c!" " ++ r).takeWhile fun c => c = c!" ").length = k ∧ (List.replicate k c!" " ++ r).dropWhile (fun c => c = c!" ") = r := by
  induction k with
  | zero =>
    rcases hr with rfl | ⟨d, q, rfl, hd⟩
    · simp
    · simp [hd]
  | succ k ih =>
    rw [List.replicate_succ, List.cons_append, List.takeWhile_cons, List.dropWhile_cons]
    simp only [decide_true, if_true, List.length_cons]
    exact ⟨by rw [ih.1], ih.2⟩

/-- What counts of a line. -/
def core (line : Bytes) : Bytes := line.filter fun c => c != c!"\r"

theorem core_append (a b : Bytes) : core (a ++ b) = core a ++ core b := List.filter_append ..

theorem indented_iff {line : Bytes} {k : Nat} {r : Bytes} (hl : core line = List.replicate k c!" " ++ r) (hr : r = [] ∨ ∃ d q, r = d :: q ∧ d ≠ c!" ") :
    Indented line ↔ 4 ≤ k ∨ r.head? = some c!"\t" := by
  unfold Indented
  simp only
  rw [show (line.filter fun c => c != c!"\r") = core line from rfl, hl, (take_spaces k hr).1, (take_spaces k hr).2]

theorem indented_append {line : Bytes} (x : Bytes) (h : Indented line) : Indented (line ++ x) := by
  obtain ⟨k, r, hl, hr⟩ := spaces_split (core line)
  have h1 := (indented_iff hl hr).mp h
  rcases hr with rfl | ⟨d, q, rfl, hd⟩
  · have hk : 4 ≤ k := by simpa using h1
    obtain ⟨k', r', hl', hr'⟩ := spaces_split (core x)
    have : core (line ++ x) = List.replicate (k + k') c!" " ++ r' := by
      rw [core_append, hl, hl', List.append_nil, ← List.append_assoc, List.replicate_append_replicate]
    exact (indented_iff this hr').mpr (.inl (by omega))
  · have : core (line ++ x) = List.replicate k c!" " ++ (d :: (q ++ core x)) := by
      rw [core_append, hl]; simp
    exact (indented_iff this (.inr ⟨d, _, rfl, hd⟩)).mpr (by simpa using h1)

/-- The state tells what the line is. -/
structure Inv (line : Bytes) (l : Line) : Prop where
  code : l.code = true → Indented line
  plain : l.code = false →
    (l.start = true ∧ core line = List.replicate l.indent c!" " ∧ l.indent < 4) ∨
    (l.start = false ∧ ∃ k d r, core line = List.replicate k c!" " ++ d :: r ∧ k < 4 ∧ d ≠ c!" " ∧ d ≠ c!"\t")

theorem Inv.not {line : Bytes} {l : Line} (h : Inv line l) (hc : l.code = false) : ¬Indented line := by
  rcases h.plain hc with ⟨_, hl, hk⟩ | ⟨_, k, d, r, hl, hk, hd, ht⟩
  · rw [indented_iff (r := []) (by simpa using hl) (.inl rfl)]
    simp; omega
  · rw [indented_iff hl (.inr ⟨d, r, rfl, hd⟩)]
    simp [ht]; omega

theorem inv_start : Inv [] ⟨true, 0, false⟩ := ⟨by simp, fun _ => .inl ⟨rfl, rfl, by simp⟩⟩

theorem inv_step {line : Bytes} {l : Line} (h : Inv line l) (c : Byte) : Inv (if c = c!"\n" then [] else line ++ [c]) (l.step c) := by
  by_cases hn : c = c!"\n"
  · rw [if_pos hn]
    unfold Line.step
    simp only [hn, if_true]
    exact inv_start
  rw [if_neg hn]
  by_cases hc : l.code = true
  · have hs : (l.step c).code = true := by
      unfold Line.step
      simp only [hn, if_false]
      split <;> (try split) <;> (try split) <;> (try split) <;> simp_all
    exact ⟨fun _ => indented_append _ (h.code hc), fun hf => by rw [hs] at hf; cases hf⟩
  · rw [Bool.not_eq_true] at hc
    rcases h.plain hc with ⟨hst, hl, hk⟩ | ⟨hst, k, d, r, hl, hk, hd, ht⟩
    · by_cases h1 : c = c!"\t"
      · have e : l.step c = { l with code := true, indent := 0 } := by
          unfold Line.step; simp [hst, h1]
        rw [e]
        refine ⟨fun _ => ?_, fun hf => by cases hf⟩
        have : core (line ++ [c]) = List.replicate l.indent c!" " ++ [c!"\t"] := by
          rw [core_append, hl, h1]; rfl
        exact (indented_iff this (.inr ⟨_, _, rfl, by decide⟩)).mpr (.inr rfl)
      · by_cases h2 : c = c!" "
        · have hcore : core (line ++ [c]) = List.replicate (l.indent + 1) c!" " := by
            rw [core_append, hl, h2, List.replicate_succ']; rfl
          have e : l.step c = if l.indent + 1 ≥ 4 then { l with indent := l.indent + 1, code := true } else { l with indent := l.indent + 1 } := by
            unfold Line.step; simp [hst, h2]
          rw [e]
          split
          · rename_i h4
            refine ⟨fun _ => ?_, fun hf => by cases hf⟩
            exact (indented_iff (r := []) (by simpa using hcore) (.inl rfl)).mpr (.inl h4)
          · rename_i h4
            refine ⟨fun hf => ?_, fun _ => .inl ⟨hst, hcore, by simp only; omega⟩⟩
            simp only [hc] at hf
            cases hf
        · by_cases h3 : c = c!"\r"
          · have e : l.step c = l := by
              unfold Line.step; simp [h3]
            rw [e]
            refine ⟨fun hf => (by rw [hc] at hf; cases hf), fun _ => .inl ⟨hst, ?_, hk⟩⟩
            rw [core_append, hl, h3]
            show List.replicate l.indent c!" " ++ [] = _
            simp
          · have e : l.step c = { l with start := false, indent := 0 } := by
              unfold Line.step; simp [hst, h1, h2, h3, hn]
            rw [e]
            refine ⟨fun hf => (by simp only [hc] at hf; cases hf), fun _ => .inr ⟨rfl, l.indent, c, [], ?_, hk, h2, h1⟩⟩
            rw [core_append, hl]
            have : core [c] = [c] := by simp [core, h3]
            rw [this]
    · have e : l.step c = l := by
        unfold Line.step; simp [hst, hn]
      rw [e]
      refine ⟨fun hf => (by rw [hc] at hf; cases hf), fun _ => .inr ⟨hst, k, d, r ++ core [c], ?_, hk, hd, ht⟩⟩
      rw [core_append, hl]; simp

theorem letter_iff (c : Byte) : letter c = true ↔ Letter c := by
  simp [letter, Letter, or_assoc]

theorem inside_iff : ∀ c : Byte, inside c = true ↔ c ∉ enders := forall_byte (p := fun c => inside c = true ↔ c ∉ enders) (by decide +kernel)

theorem before_iff (s : Bytes) : before s.getLast? = true ↔ (s = [] ∨ ∃ x c, s = x ++ [c] ∧ (c = c!" " ∨ c = c!"\t" ∨ c = c!"\n")) := by
  rcases List.eq_nil_or_concat s with rfl | ⟨x, c, rfl⟩
  · simp [before]
  · simp only [List.concat_eq_append, List.getLast?_concat, before, Bool.or_eq_true, decide_eq_true_eq, or_assoc]
    constructor
    · intro h; exact .inr ⟨x, c, rfl, h⟩
    · rintro (h | ⟨y, d, h, hd⟩)
      · simp at h
      · have := List.append_inj' h rfl
        simp only [List.cons.injEq, and_true] at this
        rw [this.2]; exact hd

/-- The tag behind `#`. -/
theorem tag_whole (s : Bytes) : s = (tag s).1 ++ (tag s).2 ∧ c!"\n" ∉ (tag s).1 ∧
    ((∃ x, (tag s).1 = x ++ [c!"#"] ∧ ∀ c ∈ x, c ∉ enders) ∨ ((∀ c ∈ (tag s).1, c ∉ enders) ∧ ((tag s).2 = [] ∨ ∃ c r, (tag s).2 = c :: r ∧ c ∈ enders ∧ c ≠ c!"#"))) := by
  have hsplit := List.takeWhile_append_dropWhile (p := inside) (l := s)
  have hin : ∀ c ∈ s.takeWhile inside, c ∉ enders := fun c hc => (inside_iff c).mp (List.all_eq_true.mp List.all_takeWhile c hc)
  have hnl : c!"\n" ∉ s.takeWhile inside := fun hc => hin _ hc (by decide)
  unfold tag
  simp only
  cases hd : s.dropWhile inside with
  | nil =>
    rw [hd] at hsplit
    exact ⟨hsplit.symm, hnl, .inr ⟨hin, .inl rfl⟩⟩
  | cons c r =>
    have hc : inside c = false := by
      have := List.head?_dropWhile_not inside s
      rw [hd] at this
      simpa using this
    rw [hd] at hsplit
    simp only
    split
    · rename_i h
      subst h
      refine ⟨by simpa using hsplit.symm, ?_, .inl ⟨_, rfl, hin⟩⟩
      simp [hnl]
    · rename_i h
      refine ⟨hsplit.symm, hnl, .inr ⟨hin, .inr ⟨c, r, rfl, ?_, h⟩⟩⟩
      have := inside_iff c
      rw [hc] at this
      simpa using this

/-- What is to be shown of each part. -/
def Right (pre : Bytes) (p : Part) (after : Bytes) : Prop :=
  if p.tag then Place pre ∧ WholeTag p.text after else (∃ c, p.text = [c]) ∧ ¬(Place pre ∧ StartsTag (p.text ++ after))

theorem parts_right : ∀ n pre l s, s.length ≤ n → Inv (lastLine pre) l →
    Spec.source (parts n pre.getLast? l s) = s ∧ ∀ a p b, parts n pre.getLast? l s = a ++ p :: b → Right (pre ++ Spec.source a) p (Spec.source b)
  | n, pre, l, [], _, _ => by
    have e : parts n pre.getLast? l [] = [] := by cases n <;> rfl
    rw [e]
    exact ⟨rfl, fun a p b h => by simp at h⟩
  | 0, pre, l, c :: s, h, _ => by simp at h
  | n + 1, pre, l, c :: s, h, hi => by
    have hi' := inv_step hi c
    rw [← lastLine_snoc] at hi'
    have hlen : s.length ≤ n := by simpa using h
    have plain : ¬(Place pre ∧ StartsTag (c :: s)) → parts (n + 1) pre.getLast? l (c :: s) = ⟨false, [c]⟩ :: parts n (some c) (l.step c) s →
        Spec.source (parts (n + 1) pre.getLast? l (c :: s)) = c :: s ∧
        ∀ a p b, parts (n + 1) pre.getLast? l (c :: s) = a ++ p :: b → Right (pre ++ Spec.source a) p (Spec.source b) := by
      intro hnot he
      have ih := parts_right n (pre ++ [c]) (l.step c) s hlen hi'
      rw [List.getLast?_concat] at ih
      rw [he]
      refine ⟨by rw [source_cons, ih.1]; rfl, ?_⟩
      intro a p b hab
      cases a with
      | nil =>
        simp only [List.nil_append, List.cons.injEq] at hab
        obtain ⟨rfl, rfl⟩ := hab
        show (∃ d, [c] = [d]) ∧ _
        refine ⟨⟨c, rfl⟩, ?_⟩
        rw [ih.1]
        simpa [Spec.source] using hnot
      | cons q a =>
        simp only [List.cons_append, List.cons.injEq] at hab
        obtain ⟨rfl, hab⟩ := hab
        have := ih.2 a p b hab
        rw [source_cons]
        simpa using this
    rw [parts_step] at plain ⊢
    by_cases hcode : (l.step c).code = true
    · rw [if_pos hcode] at plain ⊢
      refine plain ?_ rfl
      rintro ⟨hp, d, r, hs, _⟩
      simp only [List.cons.injEq] at hs
      have hc := hs.1
      have h2 := hi'.code hcode
      apply hp.2
      by_cases hl : l.code = true
      · exact hi.code hl
      · exfalso
        rw [Bool.not_eq_true] at hl
        have : (l.step c).code = false := by
          rw [hc]; unfold Line.step
          cases hst : l.start <;> simp [hl]
        rw [this] at hcode; cases hcode
    · rw [if_neg hcode] at plain ⊢
      rw [Bool.not_eq_true] at hcode
      split at plain
      · rename_i ht
        rw [if_pos ht]
        simp only [Bool.and_eq_true, decide_eq_true_eq] at ht
        obtain ⟨⟨hc, hb⟩, hlet⟩ := ht
        cases s with
        | nil => simp [starts] at hlet
        | cons d s =>
          rw [starts] at hlet
          obtain ⟨ht1, ht2, ht3⟩ := tag_whole (d :: s)
          have hlc : l.code = false := by
            cases hl : l.code
            · rfl
            · exfalso
              have : (l.step c).code = true := by
                rw [hc]; unfold Line.step
                cases hst : l.start <;> simp [hl]
              rw [this] at hcode; cases hcode
          have hplace : Place pre := ⟨(before_iff pre).mp hb, hi.not hlc⟩
          have hst : (l.step c).start = false := by
            rw [hc]; unfold Line.step
            cases hst : l.start <;> simp [hst]
          have hinv : Inv (lastLine (pre ++ (c :: (tag (d :: s)).1))) (l.step c) := by
            have e : pre ++ (c :: (tag (d :: s)).1) = (pre ++ [c]) ++ (tag (d :: s)).1 := by simp
            rw [e, lastLine_append _ _ ht2]
            refine ⟨fun hf => (by rw [hcode] at hf; cases hf), fun _ => .inr ⟨hst, ?_⟩⟩
            rcases hi'.plain hcode with ⟨hst', _⟩ | ⟨_, k, x, r, hl, hk, hd, htab⟩
            · rw [hst] at hst'; cases hst'
            · exact ⟨k, x, r ++ core (tag (d :: s)).1, by rw [core_append, hl]; simp, hk, hd, htab⟩
          have hne : (tag (d :: s)).1 ≠ [] := by
            intro h0
            rcases ht3 with ⟨x, hx, _⟩ | ⟨_, hx | ⟨e, r, hx, he, hne⟩⟩
            · rw [h0] at hx; simp at hx
            · rw [h0, hx] at ht1; simp at ht1
            · rw [h0, hx] at ht1
              simp only [List.nil_append, List.cons.injEq] at ht1
              have : inside d = false := by
                have := inside_iff d
                rw [ht1.1] at this ⊢
                cases hh : inside e
                · rfl
                · exact absurd he (this.mp hh)
              have hd2 : ∀ d : Byte, letter d = true → inside d = true := forall_byte (p := fun d => letter d = true → inside d = true) (by decide +kernel)
              rw [hd2 d hlet] at this
              cases this
          have ih := parts_right n (pre ++ (c :: (tag (d :: s)).1)) (l.step c) (tag (d :: s)).2 (by
            have := congrArg List.length ht1
            simp only [List.length_append, List.length_cons] at this h
            have : 0 < (tag (d :: s)).1.length := List.length_pos_iff.mpr hne
            omega) hinv
          have hlast : (pre ++ (c :: (tag (d :: s)).1)).getLast? = (tag (d :: s)).1.getLast? := by
            have e : pre ++ (c :: (tag (d :: s)).1) = (pre ++ [c]) ++ (tag (d :: s)).1 := by simp
            rw [e, List.getLast?_append]
            cases hg : (tag (d :: s)).1.getLast? with
            | none => rw [List.getLast?_eq_none_iff] at hg; exact absurd hg hne
            | some x => rfl
          rw [hlast] at ih
          refine ⟨by rw [source_cons, ih.1]; simp [← ht1], ?_⟩
          intro a p b hab
          cases a with
          | nil =>
            simp only [List.nil_append, List.cons.injEq] at hab
            obtain ⟨rfl, rfl⟩ := hab
            show Place _ ∧ WholeTag _ _
            rw [ih.1]
            refine ⟨by simpa [Spec.source] using hplace, ?_, ?_⟩
            · cases htt : (tag (d :: s)).1 with
              | nil => exact absurd htt hne
              | cons x xs =>
                rw [htt] at ht1
                simp only [List.cons_append, List.cons.injEq] at ht1
                exact ⟨x, xs, by rw [hc], by rw [← ht1.1]; exact (letter_iff d).mp hlet⟩
            · rw [hc]
              rcases ht3 with ⟨x, hx, hx2⟩ | ⟨hx, hx2⟩
              · exact .inl ⟨x, by rw [hx], hx2⟩
              · exact .inr ⟨_, rfl, hx, hx2⟩
          | cons q a =>
            simp only [List.cons_append, List.cons.injEq] at hab
            obtain ⟨rfl, hab⟩ := hab
            have := ih.2 a p b hab
            rw [source_cons]
            simpa using this
      · rename_i ht
        rw [if_neg ht]
        refine plain ?_ rfl
        rintro ⟨hp, d, r, hs, hl⟩
        simp only [List.cons.injEq] at hs
        obtain ⟨rfl, rfl⟩ := hs
        apply ht
        simp only [Bool.and_eq_true, decide_eq_true_eq]
        exact ⟨⟨trivial, (before_iff pre).mpr hp.1⟩, (letter_iff d).mpr hl⟩

end Verif.Hashtags
