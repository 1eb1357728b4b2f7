import Verif.Proof.Pretty
import Verif.Spec.PrettyTree

namespace Verif.Pretty
open Spec
open DropBuf (Tok)
open Transforms.Spec (White)

/-- What the turns write. -/
def T (st : St) (s : Bytes) : Bytes := (turns st s).flatten.flatMap Tok.out

/-- The newline that is due. -/
def nl (a : Bool) : Bytes := if a then [] else b!"\n"

theorem name_attrs {n w : Bytes} (hn : n ≠ [] ∧ (∀ c ∈ n, nameByte c = true) ∧ n.head? ≠ some c!"/") (hw : Attrs w) (z : Bytes) :
    tagName (n ++ w ++ c!">" :: z) = some (n, false, false) := by
  obtain ⟨h1, h2, h3⟩ := hn
  have htw : (n ++ (w ++ c!">" :: z)).takeWhile nameByte = n := by
    refine SupSub.takeWhile_append_stop h2 (.inr ?_)
    rcases hw with rfl | ⟨d, r, rfl, _⟩
    · exact ⟨_, _, rfl, by decide⟩
    · exact ⟨_, _, rfl, by decide⟩
  have hdw : (n ++ (w ++ c!">" :: z)).dropWhile nameByte = w ++ c!">" :: z := by
    have := List.takeWhile_append_dropWhile (p := nameByte) (l := n ++ (w ++ c!">" :: z))
    rw [htw] at this
    exact List.append_cancel_left this
  have hsc : ((w ++ c!">" :: z).dropWhile isSpace).head? ≠ some c!"/" := by
    rcases hw with rfl | ⟨d, r, rfl, hd, hs, _⟩
    · have : isSpace c!">" = false := by decide
      simp [this]
    · have h0 : isSpace c!" " = true := by decide
      have hd' : isSpace d = false := by
        rw [Bool.eq_false_iff]; intro e; exact hd ((Transforms.isSpace_iff d).1 e)
      simp [List.dropWhile_cons, h0, hd', hs]
  obtain ⟨e, n', rfl⟩ : ∃ e n', n = e :: n' := by
    cases n with
    | nil => exact absurd rfl h1
    | cons e n' => exact ⟨e, n', rfl⟩
  unfold tagName
  have hh : ((e :: n') ++ w ++ c!">" :: z).head? ≠ some c!"/" := by simpa using h3
  simp only [hh, decide_false, if_false, Bool.false_eq_true]
  rw [List.append_assoc, htw, if_neg (by simp), hdw]
  simp [hsc]

theorem name_close {n : Bytes} (hn : n ≠ [] ∧ (∀ c ∈ n, nameByte c = true) ∧ n.head? ≠ some c!"/") (z : Bytes) :
    tagName (c!"/" :: n ++ c!">" :: z) = some (n, true, false) := by
  obtain ⟨h1, h2, h3⟩ := hn
  have htw : (n ++ c!">" :: z).takeWhile nameByte = n :=
    SupSub.takeWhile_append_stop h2 (.inr ⟨_, _, rfl, by decide⟩)
  have hdw : (n ++ c!">" :: z).dropWhile nameByte = c!">" :: z := by
    have := List.takeWhile_append_dropWhile (p := nameByte) (l := n ++ c!">" :: z)
    rw [htw] at this
    exact List.append_cancel_left this
  unfold tagName
  have hh : (c!"/" :: n ++ c!">" :: z).head? = some c!"/" := rfl
  simp only [hh, decide_true, if_true]
  have hd : (c!"/" :: n ++ c!">" :: z).drop 1 = n ++ c!">" :: z := by simp
  rw [hd, htw, if_neg h1, hdw]
  have : isSpace c!">" = false := by decide
  simp [this]

theorem attrs_gt {w : Bytes} (h : Attrs w) : c!">" ∉ w ∧ c!"\n" ∉ w := by
  rcases h with rfl | ⟨d, r, rfl, _, _, h1, h2⟩
  · simp
  · exact ⟨h1, h2⟩

theorem T_cons {st : St} {c : Byte} {t : Bytes} {ts : List Tok} {st' : St} {k : Nat} (h : step st c t = (ts, st', k)) :
    T st (c :: t) = ts.flatMap Tok.out ++ T st' ((c :: t).drop k) := by
  unfold T
  rw [turns_cons, h]
  simp

theorem phrasing_ok : ∀ n ∈ phrasing, (n ≠ [] ∧ (∀ c ∈ n, nameByte c = true) ∧ n.head? ≠ some c!"/") ∧ c!">" ∉ n ∧ c!"\n" ∉ n ∧ n ∉ blockTags := by
  decide +kernel

theorem blocks_ok : ∀ n ∈ blocks, (n ≠ [] ∧ (∀ c ∈ n, nameByte c = true) ∧ n.head? ≠ some c!"/") ∧ c!">" ∉ n ∧ c!"\n" ∉ n ∧ n ∈ blockTags ∧
    n ≠ b!"pre" ∧ n ≠ b!"code" := by
  decide +kernel

theorem T_inline {x : Bytes} (hx : Inline x) : ∀ (z : Bytes) (st : St), st.atStart = false →
    ∃ st', T st (x ++ z) = x ++ T st' z ∧ st'.atStart = false ∧ st'.level = st.level ∧
      (st'.inPre = true → st.inPre = true) ∧ (st'.inInline = true → st.inInline = true) := by
  induction hx with
  | nil => intro z st h; exact ⟨st, rfl, h, rfl, id, id⟩
  | @byte x c _ hc hnl ih =>
    intro z st h
    obtain ⟨s1, e1, a1, l1, p1, i1⟩ := ih (c :: z) st h
    have hs : step s1 c z = ([.byte c], afterByte s1 c, 1) := by
      have hi : indentByte s1 c = ([], s1) := by unfold indentByte indent; simp [a1]
      unfold step
      rw [if_neg hc]
      simp [hi]
    refine ⟨afterByte s1 c, ?_, ?_, ?_, ?_, ?_⟩
    · rw [List.append_assoc, List.singleton_append, e1, T_cons hs]
      simp [Tok.out]
    · unfold afterByte; rw [if_neg hnl]; split <;> simp [a1]
    · unfold afterByte; rw [if_neg hnl]; split <;> simp [l1]
    · unfold afterByte; rw [if_neg hnl]; split <;> simpa using p1
    · unfold afterByte; rw [if_neg hnl]; split <;> simpa using i1
  | @elem x y n w _ hn hw _ ihx ihy =>
    intro z st h
    obtain ⟨hok, hgt, _, hnb⟩ := phrasing_ok n hn
    obtain ⟨s1, e1, a1, l1, p1, i1⟩ := ihx (b!"<" ++ n ++ w ++ b!">" ++ y ++ (b!"</" ++ n ++ b!">") ++ z) st h
    have h2 : T s1 (c!"<" :: (n ++ w ++ c!">" :: (y ++ (b!"</" ++ n ++ b!">") ++ z))) = c!"<" :: (n ++ w) ++ b!">" ++ _ :=
      turns_tag (st := s1) (p := n ++ w) (q := y ++ (b!"</" ++ n ++ b!">") ++ z) (by simp [hgt, (attrs_gt hw).1])
        (name_attrs hok hw []) (by rintro ⟨h, _⟩; exact hnb h)
    obtain ⟨s3, e3, a3, l3, p3, i3⟩ := ihy (c!"<" :: (c!"/" :: n ++ c!">" :: z)) (enterInline (enterPre s1 n false) n false) 
      ((enter_atStart s1 n false).trans a1)
    have h4 : T s3 (c!"<" :: (c!"/" :: n ++ c!">" :: z)) = c!"<" :: (c!"/" :: n) ++ b!">" ++ _ :=
      turns_tag (st := s3) (p := c!"/" :: n) (q := z) (by simp [hgt])
        (name_close hok []) (by rintro ⟨h, _⟩; exact hnb h)
    refine ⟨enterInline (enterPre s3 n true) n true, ?_, (enter_atStart _ _ _).trans a3, ?_, ?_, ?_⟩
    · have e0 : x ++ (b!"<" ++ n ++ w ++ b!">" ++ y ++ (b!"</" ++ n ++ b!">")) ++ z =
          x ++ (b!"<" ++ n ++ w ++ b!">" ++ y ++ (b!"</" ++ n ++ b!">") ++ z) := by simp
      have e5 : b!"<" ++ n ++ w ++ b!">" ++ y ++ (b!"</" ++ n ++ b!">") ++ z =
          c!"<" :: (n ++ w ++ c!">" :: (y ++ (b!"</" ++ n ++ b!">") ++ z)) := by simp
      have e6 : y ++ (b!"</" ++ n ++ b!">") ++ z = y ++ c!"<" :: (c!"/" :: n ++ c!">" :: z) := by simp
      rw [e0, e1, e5, h2, e6]
      change x ++ (c!"<" :: (n ++ w) ++ b!">" ++ T _ (y ++ c!"<" :: (c!"/" :: n ++ c!">" :: z))) = _
      rw [e3, h4]
      change _ = _ ++ T _ z
      simp [T]
    · rw [← l1]
      have : (enterInline (enterPre s1 n false) n false).level = s1.level := by
        unfold enterInline enterPre; (repeat' split) <;> rfl
      rw [← this, ← l3]
      unfold enterInline enterPre; (repeat' split) <;> rfl
    · intro hp
      apply p1
      by_cases hc : n = b!"pre" ∨ n = b!"code"
      · simp [enterInline, enterPre, hc] at hp
        split at hp <;> simp at hp
      · have h3 : s3.inPre = true := by
          simp [enterInline, enterPre, hc] at hp
          split at hp <;> simpa using hp
        have := p3 h3
        simp [enterInline, enterPre, hc] at this
        split at this <;> simpa using this
    · intro hp
      apply i1
      by_cases hc : n ∈ inlineTags
      · simp [enterInline, hc] at hp
      · have h3 : s3.inInline = true := by
          simp [enterInline, enterPre, hc] at hp
          split at hp <;> simpa using hp
        have := i3 h3
        simp [enterInline, enterPre, hc] at this
        split at this <;> simpa using this

theorem inline_tail {x : Bytes} (hx : Inline x) : ∀ {c t}, x = c :: t → c ≠ c!"<" → Inline t := by
  induction hx with
  | nil => intro c t h; cases h
  | @byte x d h1 hc hnl ih =>
    intro c t h hcc
    cases x with
    | nil => simp at h; rw [h.2]; exact .nil
    | cons e x => simp at h; rw [← h.2]; exact .byte (ih (by rw [h.1]) hcc) hc hnl
  | @elem x y n w h1 hn hw hy ihx ihy =>
    intro c t h hcc
    cases x with
    | nil => simp at h; exact absurd h.1.symm hcc
    | cons e x => simp only [List.cons_append, List.cons.injEq] at h; rw [← h.2]; exact .elem (ihx (by rw [h.1]) hcc) hn hw hy

theorem chunks_out (n : Nat) : (List.replicate n (Tok.chunk b!"  ")).flatMap Tok.out = List.replicate (2 * n) c!" " := by
  induction n with
  | zero => rfl
  | succ n ih =>
    rw [List.replicate_succ, List.flatMap_cons, ih, show 2 * (n + 1) = 2 * n + 1 + 1 by omega]
    rfl

theorem T_text {x : Bytes} (hx : Text x) (L : Nat) (z : Bytes) :
    T ⟨L, true, false, false⟩ (x ++ z) = List.replicate (2 * L) c!" " ++ x ++ T ⟨L, false, false, false⟩ z := by
  obtain ⟨h1, c, t, rfl, hc, hw⟩ := hx
  have hnl : c ≠ c!"\n" := by rintro rfl; exact hw (by decide)
  have hsp : isSpace c = false := by
    rw [Bool.eq_false_iff]; intro e; exact hw ((Transforms.isSpace_iff c).1 e)
  have hs : step ⟨L, true, false, false⟩ c (t ++ z) =
      (List.replicate L (.chunk b!"  ") ++ [.byte c], ⟨L, false, false, false⟩, 1) := by
    have hi : indentByte ⟨L, true, false, false⟩ c = (List.replicate L (.chunk b!"  "), ⟨L, false, false, false⟩) := by
      unfold indentByte indent; simp [hnl]
    unfold step
    rw [if_neg hc]
    simp [hi, afterByte, hnl, hsp]
  obtain ⟨st', e, a, l, p, i⟩ := T_inline (inline_tail h1 rfl hc) z ⟨L, false, false, false⟩ rfl
  have : st' = ⟨L, false, false, false⟩ := by
    obtain ⟨L', a', p', i'⟩ := st'
    simp at a l p i
    simp [a, l, p, i]
  rw [List.cons_append, T_cons hs, List.flatMap_append, chunks_out]
  simp only [List.drop_succ_cons, List.drop_zero]
  rw [e, this]
  simp [Tok.out]

theorem T_open {n w : Bytes} (hn : n ∈ blocks) (hw : Attrs w) (L : Nat) {a : Bool} (ha : n = b!"tr" → a = true) (z : Bytes) :
    T ⟨L, a, false, false⟩ (b!"<" ++ n ++ w ++ b!">" ++ z) =
      nl a ++ (List.replicate (2 * L) c!" " ++ (b!"<" ++ n ++ w ++ b!">")) ++ b!"\n" ++ T ⟨L + 1, true, false, false⟩ z := by
  obtain ⟨hok, hgt, _, hb, hp, hcd⟩ := blocks_ok n hn
  have e0 : b!"<" ++ n ++ w ++ b!">" ++ z = c!"<" :: (n ++ w ++ c!">" :: z) := by simp
  have e2 : tagText (c!"<" :: (n ++ w ++ c!">" :: z)) = b!"<" ++ n ++ w ++ b!">" := by
    have := tagText_of (x := c!"<" :: (n ++ w)) (y := z) (by simp [hgt, (attrs_gt hw).1])
    simpa using this
  have hs : step ⟨L, a, false, false⟩ c!"<" (n ++ w ++ c!">" :: z) =
      ((if a then [] else [.byte c!"\n"]) ++ List.replicate L (.chunk b!"  ") ++ [.chunk (b!"<" ++ n ++ w ++ b!">"), .byte c!"\n"],
        ⟨L + 1, true, false, false⟩, (b!"<" ++ n ++ w ++ b!">").length) := by
    unfold step
    rw [if_pos rfl, name_attrs hok hw z]
    simp only [enterPre, hp, hcd, or_self, if_false, hb, and_self, if_true, blockTag, e2, Bool.false_eq_true]
    by_cases ht : n = b!"tr"
    · have := ha ht; subst this
      simp [ht, indent]
    · cases a <;> simp [ht, indent]
  rw [e0, T_cons hs, List.flatMap_append, List.flatMap_append, chunks_out]
  have e3 : (c!"<" :: (n ++ w ++ c!">" :: z)).drop (b!"<" ++ n ++ w ++ b!">").length = z := by
    rw [← e0]; simp only [List.drop_left]
  rw [e3]
  cases a <;> simp [Tok.out, nl]

theorem T_brk (L : Nat) (a : Bool) (z : Bytes) : T ⟨L, a, false, false⟩ (c!"\n" :: z) = b!"\n" ++ T ⟨L, true, false, false⟩ z := by
  have hs : step ⟨L, a, false, false⟩ c!"\n" z = ([.byte c!"\n"], ⟨L, true, false, false⟩, 1) := by
    unfold step
    rw [if_neg (by decide)]
    cases a <;> simp [indentByte, indent, afterByte]
  rw [T_cons hs]
  rfl

/-- The bytes behind a closing tag that are skipped. -/
def gapOf (n z : Bytes) : Bytes := if n = b!"tr" then rowGap z else []

theorem T_close {n : Bytes} (hn : n ∈ blocks) (L : Nat) {a : Bool} (ha : n = b!"tr" → a = true) (z : Bytes) :
    T ⟨L + 1, a, false, false⟩ (b!"</" ++ n ++ b!">" ++ z) =
      nl a ++ (List.replicate (2 * L) c!" " ++ (b!"</" ++ n ++ b!">")) ++ b!"\n" ++
        T ⟨L, true, false, false⟩ (z.drop (gapOf n z).length) := by
  obtain ⟨hok, hgt, _, hb, hp, hcd⟩ := blocks_ok n hn
  have e0 : b!"</" ++ n ++ b!">" ++ z = c!"<" :: (c!"/" :: n ++ c!">" :: z) := by simp
  have e2 : tagText (c!"<" :: (c!"/" :: n ++ c!">" :: z)) = b!"</" ++ n ++ b!">" := by
    have := tagText_of (x := c!"<" :: (c!"/" :: n)) (y := z) (by simp [hgt])
    simpa using this
  have e3 : (c!"<" :: (c!"/" :: n ++ c!">" :: z)).drop (b!"</" ++ n ++ b!">").length = z := by
    rw [← e0]; simp only [List.drop_left]
  have hs : step ⟨L + 1, a, false, false⟩ c!"<" (c!"/" :: n ++ c!">" :: z) =
      ((if a then [] else [.byte c!"\n"]) ++ List.replicate L (.chunk b!"  ") ++ [.chunk (b!"</" ++ n ++ b!">"), .byte c!"\n"],
        ⟨L, true, false, false⟩, (b!"</" ++ n ++ b!">").length + (gapOf n z).length) := by
    unfold step
    rw [if_pos rfl, name_close hok z]
    simp only [enterPre, hp, hcd, or_self, if_false, hb, and_self, if_true, blockTag, e2, e3, gapOf]
    by_cases ht : n = b!"tr"
    · have := ha ht; subst this
      simp [ht, indent]
    · cases a <;> simp [ht, indent]
  rw [e0, T_cons hs, List.flatMap_append, List.flatMap_append, chunks_out, ← List.drop_drop, e3]
  cases a <;> simp [Tok.out, nl]

theorem rowGap_none {z : Bytes} (hz : ∀ c, z.head? = some c → ¬ White c) : rowGap z = [] := by
  unfold rowGap
  have : (z.takeWhile fun c => decide (c = c!" " ∨ c = c!"\t" ∨ c = c!"\n" ∨ c = c!"\r")) = [] := by
    cases z with
    | nil => rfl
    | cons c t =>
      have := hz c rfl
      rw [List.takeWhile_cons, if_neg]
      simp only [decide_eq_true_eq]
      rintro (rfl | rfl | rfl | rfl) <;> exact this (by decide)
  simp only [this]
  split <;> rfl

theorem rowGap_nl {z : Bytes} (hz : ∀ c, z.head? = some c → ¬ White c) :
    rowGap (c!"\n" :: z) = if b!"<tr" <+: z ∨ b!"</tbody>" <+: z then b!"\n" else [] := by
  have : (z.takeWhile fun c => decide (c = c!" " ∨ c = c!"\t" ∨ c = c!"\n" ∨ c = c!"\r")) = [] := by
    cases z with
    | nil => rfl
    | cons c t =>
      have := hz c rfl
      rw [List.takeWhile_cons, if_neg]
      simp only [decide_eq_true_eq]
      rintro (rfl | rfl | rfl | rfl) <;> exact this (by decide)
  unfold rowGap
  have e : ((c!"\n" :: z).takeWhile fun c => decide (c = c!" " ∨ c = c!"\t" ∨ c = c!"\n" ∨ c = c!"\r")) = [c!"\n"] := by
    rw [List.takeWhile_cons, if_pos (by decide), this]
  simp only [e, List.length_singleton, List.drop_succ_cons, List.drop_zero]

theorem closed_of_part {p : Bytes} (hp : p ∈ tableParts) : ∀ {f : Forest}, f.Ok p → f.Closed
  | .nil, _ => trivial
  | .text _ _ _, h => absurd hp h.1
  | .elem _ _ _ _ _ r, h => closed_of_part (f := r) hp h.2.2.2.2

/-- What may stand behind the content of `p`. -/
def After (p z : Bytes) : Prop :=
  (∀ c, z.head? = some c → ¬ White c) ∧ ¬ b!"<tr" <+: z ∧ (b!"</tbody>" <+: z ↔ p = b!"tbody")

theorem after_close {n : Bytes} (hn : n ∈ blocks) (z : Bytes) : After n (b!"</" ++ n ++ b!">" ++ z) := by
  have h : ∀ n ∈ blocks, ¬ b!"<tr" <+: b!"</" ++ n ++ b!">" ∧ (b!"</tbody>" <+: b!"</" ++ n ++ b!">" ↔ n = b!"tbody") := by decide +kernel
  obtain ⟨h1, h2⟩ := h n hn
  refine ⟨by intro c hc; simp at hc; rw [← hc]; decide, ?_, ?_⟩
  · rw [prefix_cut (by simp) (by decide)]; exact h1
  · rw [prefix_cut (by simp) (by decide)]; exact h2

theorem html_head {p : Bytes} {f : Forest} (h : f.Ok p) {z : Bytes} (hz : After p z) :
    (∀ c, (f.html ++ z).head? = some c → ¬ White c) ∧
    ((b!"<tr" <+: f.html ++ z ∨ b!"</tbody>" <+: f.html ++ z) ↔ f.rowNext p = true) := by
  cases f with
  | nil => exact ⟨hz.1, by simp [Forest.html, Forest.rowNext, hz.2]⟩
  | text x b r =>
    obtain ⟨_, ⟨_, c, t, rfl, hc, hw⟩, _⟩ := h
    refine ⟨by intro d hd; simp [Forest.html] at hd; rw [← hd]; exact hw, ?_⟩
    simp [Forest.html, Forest.rowNext, Ne.symm hc]
  | elem n w b1 k b2 r =>
    refine ⟨by intro d hd; simp [Forest.html] at hd; rw [← hd]; decide, ?_⟩
    obtain ⟨hn, hw, _⟩ := h
    have e0 : (Forest.elem n w b1 k b2 r).html ++ z = c!"<" :: (n ++ (w ++ (b!">" ++ lineEnd b1 ++ k.html ++ (b!"</" ++ n ++ b!">") ++ lineEnd b2 ++
        r.html ++ z))) := by simp [Forest.html]
    rw [e0]
    generalize w ++ (b!">" ++ lineEnd b1 ++ k.html ++ (b!"</" ++ n ++ b!">") ++ lineEnd b2 ++ r.html ++ z) = u
    simp only [Forest.rowNext, decide_eq_true_eq]
    simp only [blocks, List.mem_cons, List.not_mem_nil, or_false] at hn
    rcases hn with rfl | rfl | rfl | rfl | rfl | rfl | rfl | rfl | rfl | rfl | rfl | rfl | rfl | rfl | rfl | rfl | rfl | rfl | rfl | rfl | rfl |
      rfl | rfl | rfl | rfl | rfl | rfl | rfl | rfl | rfl | rfl | rfl | rfl | rfl | rfl | rfl <;> simp

theorem T_forest : ∀ (f : Forest) (p : Bytes) (L : Nat) (a : Bool) (z : Bytes), f.Ok p → After p z →
    (a = false → p ∉ tableParts ∧ ∀ y b r, f ≠ .text y b r) →
    ∃ o a', T ⟨L, a, false, false⟩ (f.html ++ z) = o ++ T ⟨L, a', false, false⟩ z ∧ nl a ++ unlines (f.lines p L) = o ++ nl a' ∧
      (f.Closed → a = true → a' = true) := by
  intro f
  induction f with
  | nil => intro p L a z _ _ _; exact ⟨[], a, rfl, by simp [Forest.lines, unlines], fun _ h => h⟩
  | text x b r ih =>
    intro p L a z hok hz ha
    obtain ⟨hp, hx, hr, hk⟩ := hok
    have hat : a = true := by
      cases a with
      | true => rfl
      | false => exact absurd rfl ((ha rfl).2 x b r)
    subst hat
    obtain ⟨o, a', e1, e2, e3⟩ := ih p L b z hk hz (fun h => ⟨hp, hr h⟩)
    refine ⟨List.replicate (2 * L) c!" " ++ x ++ lineEnd b ++ o, a', ?_, ?_, fun h _ => e3 h.2 h.1⟩
    · rw [Forest.html, List.append_assoc, List.append_assoc, T_text hx]
      cases b with
      | false => simp only [lineEnd]; rw [if_neg (by simp)]; rw [List.nil_append, e1]; simp
      | true =>
        simp only [lineEnd, if_true]
        rw [List.singleton_append, T_brk, e1]; simp
    · rw [List.append_assoc, ← e2]
      cases b <;> simp [Forest.lines, unlines, nl, lineEnd]
  | elem n w b1 k b2 r ihk ihr =>
    intro p L a z hok hz ha
    obtain ⟨hn, hw, htr, hkk, hkr⟩ := hok
    have hat : n = b!"tr" → a = true := by
      intro h
      cases a with
      | true => rfl
      | false => exact absurd (htr h) (ha rfl).1
    obtain ⟨hz1, hz2⟩ := html_head hkr hz
    obtain ⟨o1, a1, e1, e2, c1⟩ := ihk n (L + 1) true (b!"</" ++ n ++ b!">" ++ (lineEnd b2 ++ (r.html ++ z))) hkk (after_close hn _) (by simp)
    obtain ⟨o2, a2, e3, e4, c2⟩ := ihr p L true z hkr hz (by simp)
    have hat1 : n = b!"tr" → a1 = true := fun h => c1 (closed_of_part (by rw [h]; decide) hkk) rfl
    have hgap : T ⟨L, true, false, false⟩ ((lineEnd b2 ++ (r.html ++ z)).drop (gapOf n (lineEnd b2 ++ (r.html ++ z))).length) =
        unlines (if b2 && !(n = b!"tr" && r.rowNext p) then [[]] else []) ++ T ⟨L, true, false, false⟩ (r.html ++ z) := by
      cases b2 with
      | false =>
        have : gapOf n (r.html ++ z) = [] := by 
          unfold gapOf
          split
          · exact rowGap_none hz1
          · rfl
        simp [lineEnd, this, unlines]
      | true =>
        simp only [lineEnd, if_true, List.singleton_append, Bool.true_and]
        by_cases ht : n = b!"tr"
        · unfold gapOf
          rw [if_pos ht, rowGap_nl hz1]
          by_cases hn : r.rowNext p = true
          · rw [if_pos (hz2.2 hn)]
            simp [ht, hn, unlines]
          · rw [if_neg (fun h => hn (hz2.1 h)), List.length_nil, List.drop_zero, T_brk]
            simp [hn, unlines]
        · unfold gapOf
          rw [if_neg ht, List.length_nil, List.drop_zero, T_brk]
          simp [ht, unlines]
    refine ⟨nl a ++ (List.replicate (2 * L) c!" " ++ (b!"<" ++ n ++ w ++ b!">")) ++ b!"\n" ++ lineEnd b1 ++ o1 ++ (nl a1 ++
      (List.replicate (2 * L) c!" " ++ (b!"</" ++ n ++ b!">")) ++ b!"\n") ++
      unlines (if b2 && !(n = b!"tr" && r.rowNext p) then [[]] else []) ++ o2, a2, ?_, ?_, fun h _ => c2 h rfl⟩
    · have e0 : (Forest.elem n w b1 k b2 r).html ++ z = b!"<" ++ n ++ w ++ b!">" ++ (lineEnd b1 ++ (k.html ++ (b!"</" ++ n ++ b!">" ++
          (lineEnd b2 ++ (r.html ++ z))))) := by
        simp [Forest.html]
      rw [e0, T_open hn hw L hat]
      have e8 : T ⟨L + 1, true, false, false⟩ (lineEnd b1 ++ (k.html ++ (b!"</" ++ n ++ b!">" ++ (lineEnd b2 ++ (r.html ++ z))))) =
          lineEnd b1 ++ T ⟨L + 1, true, false, false⟩ (k.html ++ (b!"</" ++ n ++ b!">" ++ (lineEnd b2 ++ (r.html ++ z)))) := by
        cases b1 with
        | false => rfl
        | true => exact T_brk _ _ _
      rw [e8, e1, T_close hn L hat1, hgap, e3]
      simp only [List.append_assoc]
    · have e5 : unlines (k.lines n (L + 1)) = o1 ++ nl a1 := by simpa [nl] using e2
      have e6 : unlines (r.lines p L) = o2 ++ nl a2 := by simpa [nl] using e4
      have e7 : unlines ((Forest.elem n w b1 k b2 r).lines p L) = (List.replicate (2 * L) c!" " ++ (b!"<" ++ n ++ w ++ b!">")) ++ b!"\n" ++
          lineEnd b1 ++ unlines (k.lines n (L + 1)) ++ ((List.replicate (2 * L) c!" " ++ (b!"</" ++ n ++ b!">")) ++ b!"\n") ++
          unlines (if b2 && !(n = b!"tr" && r.rowNext p) then [[]] else []) ++ unlines (r.lines p L) := by
        cases b1 <;> simp [Forest.lines, unlines, lineEnd]
      rw [e7, e5, e6]
      simp only [List.append_assoc]

theorem inline_nl {x : Bytes} (h : Inline x) : c!"\n" ∉ x := by
  induction h with
  | nil => simp
  | byte _ _ h ih => simp [ih, Ne.symm h]
  | @elem x y n w _ hn hw _ ihx ihy =>
    simp [ihx, ihy, (phrasing_ok n hn).2.2.1, (attrs_gt hw).2]

theorem few_line {l : Bytes} (h : c!"\n" ∉ l) : ∀ {k : Nat} {s : Bytes}, l ≠ [] → Few 2 s → Few k (l ++ s) := by
  induction l with
  | nil => intro k s h; exact absurd rfl h
  | cons c t ih =>
    intro k s _ hs
    simp only [List.mem_cons, not_or] at h
    rw [List.cons_append, Few, if_neg (Ne.symm h.1)]
    by_cases ht : t = []
    · subst ht; exact hs
    · exact ih h.2 ht hs

/-- A line and perhaps an empty one. -/
theorem few_lines {l : Bytes} (h : c!"\n" ∉ l) (hne : l ≠ []) {s : Bytes} (hs : ∀ k, Few k s) (b : Bool) (k : Nat) :
    Few k (unlines ([l] ++ (if b then [[]] else [])) ++ s) := by
  have e : unlines ([l] ++ (if b then [[]] else [])) ++ s = l ++ (c!"\n" :: (if b then b!"\n" else []) ++ s) := by
    cases b <;> simp [unlines]
  rw [e]
  refine few_line h hne ?_
  cases b <;> simp [Few, hs]

theorem lines_few {p : Bytes} : ∀ {f : Forest} {L : Nat}, f.Ok p → ∀ {s}, (∀ k, Few k s) → ∀ k, Few k (unlines (f.lines p L) ++ s)
  | .nil, _, _, s, hs => by simpa [Forest.lines, unlines] using hs
  | .text x b r, L, h, s, hs => by
    obtain ⟨_, ⟨h1, c, t, rfl, _⟩, _, h2⟩ := h
    intro k
    have := few_lines (l := List.replicate (2 * L) c!" " ++ c :: t) (by simpa using inline_nl h1) (by simp) 
      (lines_few (L := L) h2 hs) false k
    simpa [Forest.lines, unlines] using this
  | .elem n w b1 kk b2 r, L, h, s, hs => by
    obtain ⟨hn, hw, _, h1, h2⟩ := h
    obtain ⟨_, _, h3, _⟩ := blocks_ok n hn
    intro k
    have i1 := fun k => few_lines (l := List.replicate (2 * L) c!" " ++ (b!"</" ++ n ++ b!">")) (by simp [h3]) (by simp)
      (lines_few (L := L) h2 hs) (b2 && !(n = b!"tr" && r.rowNext p)) k
    have i2 := few_lines (l := List.replicate (2 * L) c!" " ++ (b!"<" ++ n ++ w ++ b!">")) (by simp [h3, (attrs_gt hw).2]) (by simp)
      (lines_few (L := L + 1) h1 i1) b1 k
    have e : unlines ((Forest.elem n w b1 kk b2 r).lines p L) ++ s = 
        unlines ([List.replicate (2 * L) c!" " ++ (b!"<" ++ n ++ w ++ b!">")] ++ (if b1 then [[]] else [])) ++ (unlines (kk.lines n (L + 1)) ++
        (unlines ([List.replicate (2 * L) c!" " ++ (b!"</" ++ n ++ b!">")] ++ (if b2 && !(n = b!"tr" && r.rowNext p) then [[]] else [])) ++
        (unlines (r.lines p L) ++ s))) := by
      simp only [Forest.lines, unlines, List.flatMap_append, List.append_assoc]
    rw [e]
    exact i2

end Verif.Pretty
