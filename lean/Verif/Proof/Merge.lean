/-
Helper lemmas for C171 and C172: merging of files.
-/
import Verif.Model.Merge
import Verif.Spec.Merge
import Verif.Proof.Text
import Verif.Proof.HtmlPass
import Verif.Proof.Embed
import Verif.Proof.Index

namespace Verif.Merge
open Spec (Gap Tail Solid Level Entry Path Merged Link Names Texts between)
open HtmlPass.Spec (shifted HasHeader)
open Text.Spec (Lines)
open Embed (find)
open Index (span_stop span_all span_split)

theorem blank_iff (c : Byte) : blank c = true ↔ c = c!" " ∨ c = c!"\t" := by simp [blank]

theorem not_blank {c : Byte} : blank c = false ↔ c ≠ c!" " ∧ c ≠ c!"\t" := by simp [blank]

/-- What is left out at the end. -/
def white (c : Byte) : Bool := blank c || c == c!"\r"

theorem white_iff (c : Byte) : white c = true ↔ c = c!" " ∨ c = c!"\t" ∨ c = c!"\r" := by simp [white, blank, or_assoc]

theorem not_white {c : Byte} : white c = false ↔ c ≠ c!" " ∧ c ≠ c!"\t" ∧ c ≠ c!"\r" := by simp [white, blank, and_assoc]

theorem trimEnd_tail {p : Byte → Bool} {x tail : Bytes} (h : ∀ c ∈ tail, p c = true) : trimEnd p (x ++ tail) = trimEnd p x := by
  unfold trimEnd
  rw [List.reverse_append]
  congr 1
  have h' : ∀ c ∈ tail.reverse, p c = true := fun c hc => h c (by simpa using hc)
  revert h'
  generalize tail.reverse = r
  intro h'
  induction r with
  | nil => rfl
  | cons c r ih =>
    rw [List.cons_append, List.dropWhile_cons, if_pos (h' c (by simp))]
    exact ih fun d hd => h' d (by simp [hd])

theorem trimEnd_last {p : Byte → Bool} {t : Bytes} {c : Byte} (h : p c = false) : trimEnd p (t ++ [c]) = t ++ [c] := by
  unfold trimEnd
  rw [List.reverse_append]
  simp [h]

theorem trimEnd_split (p : Byte → Bool) (s : Bytes) : ∃ tail, s = trimEnd p s ++ tail ∧ (∀ c ∈ tail, p c = true) ∧ (trimEnd p s = [] ∨ ∃ t c, trimEnd p s = t ++ [c] ∧ p c = false) := by
  obtain ⟨a, r, e, ha, hr, _, h2⟩ := span_split p s.reverse
  have e' : s = r.reverse ++ a.reverse := by rw [← List.reverse_append, ← e, List.reverse_reverse]
  unfold trimEnd
  rw [h2]
  refine ⟨a.reverse, e', fun c hc => ha c (by simpa using hc), ?_⟩
  rcases hr with rfl | ⟨c, b, rfl, hc⟩
  · exact Or.inl rfl
  · exact Or.inr ⟨b.reverse, c, by simp, hc⟩

theorem solid_drop {w x : Bytes} (hw : Gap w) (hx : Solid x) : (w ++ x).dropWhile blank = x := by
  obtain ⟨⟨c, t, rfl, h1⟩, _⟩ := hx
  exact (span_stop (fun y hy => (blank_iff y).2 (hw y hy)) (not_blank.2 h1)).2

theorem solid_trim {w x tail : Bytes} (hx : Solid x) (ht : Tail tail) : trimEnd white (w ++ x ++ tail) = w ++ x := by
  rw [trimEnd_tail fun c hc => (white_iff c).2 (ht c hc)]
  obtain ⟨_, t, c, rfl, h1⟩ := hx
  rw [← List.append_assoc]
  exact trimEnd_last (not_white.2 h1)

theorem core_exists (l : Bytes) (h : (trimEnd white l).dropWhile blank ≠ []) :
    ∃ w tail, l = w ++ (trimEnd white l).dropWhile blank ++ tail ∧ Gap w ∧ Tail tail ∧ Solid ((trimEnd white l).dropWhile blank) ∧ trimEnd white l = w ++ (trimEnd white l).dropWhile blank := by
  obtain ⟨tail, e, ht, hlast⟩ := trimEnd_split white l
  generalize trimEnd white l = t at *
  obtain ⟨w, y, e', hw, hy, _, h2⟩ := span_split blank t
  rw [h2] at h ⊢
  refine ⟨w, tail, by rw [← e', ← e], fun c hc => (blank_iff c).1 (hw c hc), fun c hc => (white_iff c).1 (ht c hc), ⟨?_, ?_⟩, e'⟩
  · rcases hy with rfl | ⟨c, b, rfl, hc⟩
    · exact absurd rfl h
    · exact ⟨c, b, rfl, not_blank.1 hc⟩
  · rcases hlast with rfl | ⟨u, c, rfl, hc⟩
    · simp at e'
      exact absurd e'.2 h
    · rcases List.eq_nil_or_concat y with rfl | ⟨v, d, rfl⟩
      · exact absurd rfl h
      · rw [List.concat_eq_append] at e' ⊢
        rw [← List.append_assoc] at e'
        have := (List.append_inj' e' rfl).2
        simp only [List.cons.injEq, and_true] at this
        exact ⟨v, d, rfl, this ▸ not_white.1 hc⟩

theorem core2_exists (l : Bytes) (h : trimEnd white (l.dropWhile blank) ≠ []) :
    ∃ w tail, l = w ++ trimEnd white (l.dropWhile blank) ++ tail ∧ Gap w ∧ Tail tail ∧ Solid (trimEnd white (l.dropWhile blank)) := by
  obtain ⟨w, y, e, hw, hy, _, h2⟩ := span_split blank l
  rw [h2] at h ⊢
  obtain ⟨tail, e', ht, hlast⟩ := trimEnd_split white y
  generalize trimEnd white y = t at *
  refine ⟨w, tail, by rw [e, List.append_assoc, ← e'], fun c hc => (blank_iff c).1 (hw c hc), fun c hc => (white_iff c).1 (ht c hc), ?_, ?_⟩
  · rcases hy with rfl | ⟨c, b, rfl, hc⟩
    · simp at e'
      exact absurd e'.1 h
    · cases t with
      | nil => exact absurd rfl h
      | cons d t =>
        simp only [List.cons_append, List.cons.injEq] at e'
        exact ⟨d, t, rfl, e'.1 ▸ not_blank.1 hc⟩
  · rcases hlast with rfl | ⟨u, c, rfl, hc⟩
    · exact absurd rfl h
    · exact ⟨u, c, rfl, not_white.1 hc⟩

theorem indent_solid {c : Byte} {t : Bytes} (h1 : c ≠ c!" ") (h2 : c ≠ c!"\t") : indent (c :: t) = 0 := by
  rw [indent]
  · exact h2
  · intro _ h; exact absurd h h1

theorem indent_few {s : Bytes} (h : ¬ b!"   " <+: s) : indent (c!" " :: s) = 0 := by
  match s with
  | [] => rfl
  | [a] => by_cases ha : a = c!" " <;> simp [indent]
  | [a, b] => simp [indent]
  | a :: b :: c :: s =>
    rw [indent]
    · decide
    · intro s' _ e
      simp only [List.cons.injEq] at e
      obtain ⟨rfl, rfl, rfl, _⟩ := e
      exact h ⟨s, rfl⟩

theorem level_indent {w : Bytes} {n : Nat} (h : Level w n) {c : Byte} {t : Bytes} (h1 : c ≠ c!" ") (h2 : c ≠ c!"\t") : indent (w ++ c :: t) = n := by
  induction h with
  | nil => exact indent_solid h1 h2
  | @tab w n _ ih =>
    show indent (9 :: (w ++ c :: t)) = n + 1
    rw [indent, ih]
  | @four w n _ ih =>
    show indent (32 :: 32 :: 32 :: 32 :: (w ++ c :: t)) = n + 1
    rw [indent, ih]
  | @few w hr hn =>
    obtain ⟨r, rfl⟩ := hr
    refine indent_few ?_
    rintro ⟨z, e⟩
    match r, e with
    | [], e => injection (show 32 :: 32 :: 32 :: z = c :: t from e) with e1; exact h1 e1.symm
    | [a], e =>
      have e : 32 :: 32 :: 32 :: z = a :: c :: t := e
      simp only [List.cons.injEq] at e
      exact h1 e.2.1.symm
    | [a, b], e =>
      have e : 32 :: 32 :: 32 :: z = a :: b :: c :: t := e
      simp only [List.cons.injEq] at e
      exact h1 e.2.2.1.symm
    | a :: b :: d :: r, e =>
      have e : 32 :: 32 :: 32 :: z = a :: b :: d :: (r ++ c :: t) := e
      simp only [List.cons.injEq] at e
      obtain ⟨rfl, rfl, rfl, _⟩ := e
      exact hn ⟨r, rfl⟩

theorem level_total (n : Nat) : ∀ w : Bytes, w.length ≤ n → Gap w → ∃ k, Level w k := by
  induction n with
  | zero => intro w h _; cases w with | nil => exact ⟨0, .nil⟩ | cons => simp at h
  | succ n ih =>
    intro w h hw
    cases w with
    | nil => exact ⟨0, .nil⟩
    | cons c w =>
      rcases hw c (by simp) with rfl | rfl
      · by_cases hp : b!"    " <+: c!" " :: w
        · obtain ⟨r, e⟩ := hp
          rw [← e] at h hw ⊢
          obtain ⟨k, hk⟩ := ih r (by simp at h; omega) fun d hd => hw d (by simp [hd])
          exact ⟨k + 1, .four hk⟩
        · exact ⟨0, .few ⟨w, rfl⟩ hp⟩
      · obtain ⟨k, hk⟩ := ih w (by simpa using h) fun d hd => hw d (by simp [hd])
        exact ⟨k + 1, .tab hk⟩

theorem entry_iff {l name : Bytes} {n : Nat} : entry l = some (n, name) ↔ Entry l n name := by
  constructor
  · intro h
    unfold entry at h
    simp only [] at h
    split at h
    · simp at h
    · rename_i hp
      simp only [Option.some.injEq, Prod.mk.injEq] at h
      obtain ⟨h1, h2⟩ := h
      have hne : (trimEnd white l).dropWhile blank ≠ [] := fun h => hp (Or.inl h)
      obtain ⟨w, tail, e, hw, ht, hs, e2⟩ := core_exists l hne
      have h2' : (trimEnd white l).dropWhile blank = name := h2
      have h1' : indent (trimEnd white l) = n := h1
      rw [h2'] at e hs e2
      refine ⟨w, tail, e, hw, ht, hs, fun h => hp (Or.inr (by rw [show (fun c => blank c || c == c!"\r") = white from rfl, h2']; exact h)), ?_⟩
      obtain ⟨k, hk⟩ := level_total _ w (Nat.le_refl _) hw
      obtain ⟨⟨c, t, rfl, hc1, hc2⟩, _⟩ := hs
      rw [e2, level_indent hk hc1 hc2] at h1'
      exact h1' ▸ hk
  · rintro ⟨w, tail, rfl, hw, ht, hs, hh, hl⟩
    unfold entry
    simp only [show (fun c => blank c || c == c!"\r") = white from rfl, solid_trim hs ht, solid_drop hw hs]
    have hne : name ≠ [] := by
      obtain ⟨⟨c, t, rfl, _⟩, _⟩ := hs
      simp
    rw [if_neg (by simp [hne, hh])]
    obtain ⟨⟨c, t, rfl, hc1, hc2⟩, _⟩ := hs
    rw [level_indent hl hc1 hc2]

theorem entry_none {l : Bytes} : entry l = none ↔ ∀ n name, ¬ Entry l n name := by
  constructor
  · intro h n name he
    rw [entry_iff.2 he] at h
    simp at h
  · intro h
    cases he : entry l with
    | none => rfl
    | some x => exact absurd (entry_iff.1 he) (h x.1 x.2)

theorem path_eq {base name p : Bytes} (h : Path base name p) (hl : p.length < 4096) : path base name = p := by
  unfold Path at h
  unfold path
  split at h
  · rename_i hn
    rw [if_pos hn, ← h]
    exact List.take_of_length_le (by omega)
  · rename_i hn
    rw [if_neg hn, ← h]
    exact List.take_of_length_le (by omega)

theorem shift_ok {c : Bytes} {n : Nat} (h0 : (0 : Byte) ∉ c) (h : n ≤ 1 ∨ ¬ HasHeader c) : HtmlPass.shift c n = .val (shifted n true c) := by
  by_cases hh : HtmlPass.hdr true c = true
  · have hn : n ≤ 1 := h.elim id fun h => absurd (by simpa [HtmlPass.hdr_iff, HasHeader] using hh) h
    match n, hn with
    | 0, _ =>
      have : ∀ (s : Bytes) st, shifted 0 st s = s := by
        intro s
        induction s with
        | nil => intro st; rfl
        | cons c t ih => intro st; rw [shifted, ih]; simp
      rw [HtmlPass.shift_zero, this]
    | 1, _ => rw [HtmlPass.shift_succ _ _ h0, if_neg (by simp)]
  · rw [Bool.not_eq_true] at hh
    rw [HtmlPass.shifted_same n _ _ hh]
    cases n with
    | zero => rw [HtmlPass.shift_zero]
    | succ n => rw [HtmlPass.shift_succ _ _ h0, if_neg (by simp [hh]), HtmlPass.shifted_same 1 _ _ hh]

theorem merged_go {read : Bytes → Option Bytes} {base : Bytes} (h0 : ∀ p c, read p = some c → (0 : Byte) ∉ c) {ls : List Bytes} {o : Bytes} (h : Merged read base ls o) :
    ∀ out, mergeGo read base ls out = .val (out ++ o) := by
  induction h with
  | nil => intro out; simp [mergeGo]
  | skip hn _ ih => intro out; rw [mergeGo, entry_none.2 hn]; exact ih out
  | missing he hp hl hr _ ih => intro out; rw [mergeGo, entry_iff.2 he]; simp only [path_eq hp hl, hr]; exact ih out
  | file he hp hl hr hs _ ih =>
    intro out
    rw [mergeGo, entry_iff.2 he]
    simp only [path_eq hp hl, hr, shift_ok (h0 _ _ hr) hs, C.bind]
    rw [ih]
    simp

theorem merged_total (read : Bytes → Option Bytes) (base : Bytes) (ls : List Bytes)
    (h : ∀ l ∈ ls, ∀ n name p, Entry l n name → Path base name p → p.length < 4096 ∧ ∀ c, read p = some c → n ≤ 1 ∨ ¬ HasHeader c) : ∃ o, Merged read base ls o := by
  induction ls with
  | nil => exact ⟨_, .nil⟩
  | cons l ls ih =>
    obtain ⟨o, ho⟩ := ih fun x hx => h x (by simp [hx])
    by_cases he : ∃ n name, Entry l n name
    · obtain ⟨n, name, he⟩ := he
      obtain ⟨p, hp⟩ : ∃ p, Path base name p := by
        by_cases hh : name.head? = some c!"/"
        · exact ⟨name, by simp [Path, hh]⟩
        · exact ⟨base ++ b!"/" ++ name, by simp [Path, hh]⟩
      obtain ⟨h1, h2⟩ := h l (by simp) n name p he hp
      cases hr : read p with
      | none => exact ⟨_, .missing he hp h1 hr ho⟩
      | some c => exact ⟨_, .file he hp h1 hr (h2 c hr) ho⟩
    · exact ⟨_, .skip (fun n name h => he ⟨n, name, h⟩) ho⟩

/-! ### Summaries -/

theorem until_spec (d : Byte) (s : Bytes) : (∃ x y, s = x ++ d :: y ∧ d ∉ x ∧ s.takeWhile (· != d) = x ∧ s.dropWhile (· != d) = d :: y) ∨
    (d ∉ s ∧ s.dropWhile (· != d) = [] ∧ s.takeWhile (· != d) = s) := by
  obtain ⟨a, r, e, ha, hr, h1, h2⟩ := span_split (· != d) s
  have hn : d ∉ a := fun h => by simpa using ha _ h
  rcases hr with rfl | ⟨c, b, rfl, hc⟩
  · right
    rw [List.append_nil] at e
    exact ⟨by rw [e]; exact hn, h2, by rw [h1, ← e]⟩
  · left
    have : c = d := by simpa using hc
    subst this
    exact ⟨a, b, e, hn, h1, h2⟩

theorem until_eq {d : Byte} {x : Bytes} (h : d ∉ x) (y : Bytes) : (x ++ d :: y).takeWhile (· != d) = x ∧ (x ++ d :: y).dropWhile (· != d) = d :: y :=
  span_stop (fun c hc => by simp; rintro rfl; exact h hc) (by simp)

theorem link_iff {l q : Bytes} : link l = some q ↔ Link l q := by
  constructor
  · intro h
    unfold link at h
    rcases until_spec c!"[" l with ⟨a, y, e, ha, _, h2⟩ | ⟨_, h2, _⟩
    · rw [h2] at h
      rcases until_spec c!"]" (c!"[" :: y) with ⟨t, z, e2, ht, _, h3⟩ | ⟨_, h3, _⟩
      · rw [h3] at h
        cases t with
        | nil => simp at e2
        | cons b t =>
          simp only [List.cons_append, List.cons.injEq] at e2
          obtain ⟨rfl, e2⟩ := e2
          match z, h with
          | [], h => simp at h
          | d :: r, h =>
            simp only [] at h
            split at h
            · rename_i hd
              subst hd
              rcases until_spec c!")" r with ⟨x, z, e3, hx, h4, h5⟩ | ⟨_, h5, _⟩
              · rw [h4, h5] at h
                simp only [] at h
                split at h
                · simp at h
                · rename_i hne
                  simp only [Option.some.injEq] at h
                  subst h
                  refine ⟨a, t, z, by rw [e, e2, e3]; simp, ha, ?_, hx, hne⟩
                  intro hm
                  exact ht (by simp [hm])
              · rw [h5] at h
                simp at h
            · simp at h
      · rw [h3] at h
        simp at h
    · rw [h2] at h
      simp at h
  · rintro ⟨a, t, z, rfl, ha, ht, hq, hne⟩
    unfold link
    have h1 := (until_eq ha (t ++ c!"]" :: c!"(" :: (q ++ c!")" :: z))).2
    have h2 := (until_eq (d := c!"]") (x := c!"[" :: t) (by simp [ht]) (c!"(" :: (q ++ c!")" :: z))).2
    obtain ⟨h3, h4⟩ := until_eq hq z
    rw [show a ++ b!"[" ++ t ++ b!"](" ++ q ++ b!")" ++ z = a ++ c!"[" :: (t ++ c!"]" :: c!"(" :: (q ++ c!")" :: z)) by simp, h1]
    rw [show c!"[" :: (t ++ c!"]" :: c!"(" :: (q ++ c!")" :: z)) = c!"[" :: t ++ c!"]" :: c!"(" :: (q ++ c!")" :: z) by simp, h2]
    simp [h3, h4, hne]

theorem target_iff {l p : Bytes} : target l = some p ↔ Names l p := by
  constructor
  · intro h
    unfold target at h
    cases hq : link l with
    | none => rw [hq] at h; simp at h
    | some q =>
      rw [hq] at h
      simp only [show (fun c => blank c || c == c!"\r") = white from rfl] at h
      split at h
      · simp at h
      · rename_i hne
        obtain ⟨w, tail, e, hw, ht, hs⟩ := core2_exists q hne
        generalize trimEnd white (q.dropWhile blank) = core at *
        split at h
        · simp at h
        · rename_i hf
          simp only [Option.some.injEq] at h
          have hno : ¬ b!"://" <:+: p := by
            rw [← h]
            refine (Embed.find_none (by decide)).1 ?_
            cases hh : find b!"://" (core.takeWhile (· != c!"#")) with
            | none => rfl
            | some x => rw [hh] at hf; simp at hf
          rcases until_spec c!"#" core with ⟨x, y, e2, hx, h1, _⟩ | ⟨hx, _, h1⟩
          · rw [h1] at h
            subst h
            exact ⟨w, core, tail, c!"#" :: y, by rw [← e]; exact link_iff.1 hq, hw, ht, hs, e2, Or.inr rfl, hx, hno⟩
          · rw [h1] at h
            subst h
            exact ⟨w, core, tail, [], by rw [← e]; exact link_iff.1 hq, hw, ht, hs, by simp, Or.inl rfl, hx, hno⟩
  · rintro ⟨w, core, tail, z, hl, hw, ht, hs, rfl, hz, hp, hno⟩
    unfold target
    rw [link_iff.2 hl]
    simp only [show (fun c => blank c || c == c!"\r") = white from rfl]
    have h1 : trimEnd white ((w ++ (p ++ z) ++ tail).dropWhile blank) = p ++ z := by
      have : (w ++ (p ++ z) ++ tail).dropWhile blank = p ++ z ++ tail := by
        obtain ⟨⟨c, t, e, h1⟩, _⟩ := hs
        rw [e, show w ++ c :: t ++ tail = w ++ c :: (t ++ tail) by simp]
        exact (span_stop (fun y hy => (blank_iff y).2 (hw y hy)) (not_blank.2 h1)).2
      rw [this]
      exact solid_trim (w := []) hs ht
    rw [h1]
    have hne : p ++ z ≠ [] := by
      obtain ⟨⟨c, t, e, _⟩, _⟩ := hs
      rw [e]; simp
    have h2 : (p ++ z).takeWhile (· != c!"#") = p := by
      rcases hz with rfl | hz
      · rw [List.append_nil]
        exact (span_all fun c hc => by simp; rintro rfl; exact hp hc).1
      · cases z with
        | nil => simp at hz
        | cons c z =>
          simp only [List.head?_cons, Option.some.injEq] at hz
          subst hz
          exact (until_eq hp z).1
    rw [if_neg hne, h2, (Embed.find_none (by decide)).2 hno]
    rfl

theorem target_none {l : Bytes} : target l = none ↔ ∀ p, ¬ Names l p := by
  constructor
  · intro h p he
    rw [target_iff.2 he] at h
    simp at h
  · intro h
    cases he : target l with
    | none => rfl
    | some x => exact absurd (target_iff.1 he) (h x)

theorem texts_total (file : Bytes → Option Bytes) (base : Bytes) (ls : List Bytes) : ∃ ts, Texts file base ls ts := by
  induction ls with
  | nil => exact ⟨_, .nil⟩
  | cons l ls ih =>
    obtain ⟨ts, ht⟩ := ih
    by_cases he : ∃ p, Names l p
    · obtain ⟨p, hp⟩ := he
      cases hf : file (base ++ b!"/" ++ p) with
      | none => exact ⟨_, .missing hp hf ht⟩
      | some c => exact ⟨_, .file hp hf ht⟩
    · exact ⟨_, .skip (fun p h => he ⟨p, h⟩) ht⟩

/-- Texts behind others. -/
def more : List Bytes → Bytes
  | [] => []
  | t :: ts => b!"\n\n" ++ t ++ more ts

theorem between_more (t : Bytes) (ts : List Bytes) : between (t :: ts) = t ++ more ts := by
  induction ts generalizing t with
  | nil => simp [between, more]
  | cons u ts ih => rw [between, ih, more]; simp

theorem texts_go {file : Bytes → Option Bytes} {base : Bytes} {ls ts : List Bytes} (h : Texts file base ls ts) :
    ∀ sep out, combineGo file base ls sep out = out ++ if sep then more ts else between ts := by
  induction h with
  | nil => intro sep out; cases sep <;> simp [combineGo, more, between]
  | skip hn _ ih => intro sep out; rw [combineGo, target_none.2 hn]; exact ih sep out
  | missing hp hf _ ih => intro sep out; rw [combineGo, target_iff.2 hp]; simp only [hf]; exact ih sep out
  | @file l p c ls ts hp hf _ ih =>
    intro sep out
    rw [combineGo, target_iff.2 hp]
    simp only [hf]
    rw [ih, between_more]
    cases sep <;> simp [more]

end Verif.Merge
