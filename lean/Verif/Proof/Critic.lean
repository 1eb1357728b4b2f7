import Verif.Model.Critic
import Verif.Spec.Critic
import Verif.Proof.DropBuf
import Verif.Proof.Transforms

namespace Verif.Critic

open Spec DropBuf Transforms.Spec

theorem strstr_first {s pat p r : Bytes} (h : FirstOcc pat s p r) : Transforms.strstr s pat = some p.length := by
  cases hs : Transforms.strstr s pat with
  | none => exact absurd ⟨p, r, h.1.symm⟩ (Transforms.strstr_none hs)
  | some i =>
    have h' := Transforms.strstr_some hs
    have hl := Transforms.strstr_le hs
    rw [← (Transforms.firstOcc_unique h' h).1, List.length_take, Nat.min_eq_left (by omega)]

theorem free_iff {mark x r : Bytes} (hm : mark ≠ []) : Free mark x ↔ FirstOcc mark (x ++ mark ++ r) x r := by
  constructor
  · intro hf
    refine ⟨rfl, ?_⟩
    intro p q h
    refine Decidable.byContradiction fun hlt => hf ?_
    have hml : 0 < mark.length := List.length_pos_iff.2 hm
    have h1 : p ++ mark <+: x ++ mark ++ r := ⟨q, h.symm⟩
    have h2 : (x ++ mark).dropLast <+: x ++ mark ++ r := (List.dropLast_prefix _).trans (List.prefix_append _ _)
    have h3 : p ++ mark <+: (x ++ mark).dropLast := by
      refine List.prefix_of_prefix_length_le h1 h2 ?_
      rw [List.length_append, List.length_dropLast, List.length_append]
      omega
    obtain ⟨q', h3⟩ := h3
    exact ⟨p, q', h3⟩
  · intro h ⟨p, q, hpq⟩
    have hml : 0 < mark.length := List.length_pos_iff.2 hm
    have hne : x ++ mark ≠ [] := by simp [hm]
    have h1 : x ++ mark ++ r = p ++ mark ++ (q ++ [(x ++ mark).getLast hne] ++ r) := by
      have := List.dropLast_concat_getLast hne
      have e : x ++ mark = p ++ mark ++ q ++ [(x ++ mark).getLast hne] := by
        conv => lhs; rw [← this, ← hpq]
      conv => lhs; rw [e]
      simp
    have h2 := h.2 _ _ h1
    have h3 := congrArg List.length hpq
    simp only [List.length_append, List.length_dropLast] at h3
    omega

/-- What the scanner reports for an edit. -/
def found : Seg → Found
  | .plain _ => ⟨.add, none, [], 0⟩
  | .insert x => ⟨.add, none, x, x.length + 6⟩
  | .delete x => ⟨.del, none, x, x.length + 6⟩
  | .replace old new => ⟨.sub, some old, new, old.length + 2 + new.length + 6⟩
  | .fresh x => ⟨.sub, none, x, x.length + 6⟩
  | .highlight x => ⟨.highlight, none, x, x.length + 6⟩
  | .comment x => ⟨.comment, none, x, x.length + 6⟩

theorem found_consumed {e : Seg} (he : ∀ c, e ≠ .plain c) : (found e).consumed = e.source.length := by
  cases e <;> simp [found, Seg.source]
  · exact absurd rfl (he _)
  all_goals omega

theorem found_inj {e e' : Seg} (he : ∀ c, e ≠ .plain c) (he' : ∀ c, e' ≠ .plain c) (h : found e = found e') :
    e = e' := by
  cases e <;> cases e' <;> simp_all [found]

theorem kindOf_some {a b : Byte} {k : Kind} (h : kindOf a b = some k) :
    (k = .add ∧ a = c!"+" ∧ b = c!"+") ∨ (k = .del ∧ a = c!"-" ∧ b = c!"-") ∨ (k = .sub ∧ a = c!"~" ∧ b = c!"~") ∨
    (k = .highlight ∧ a = c!"=" ∧ b = c!"=") ∨ (k = .comment ∧ a = c!">" ∧ b = c!">") := by
  unfold kindOf at h
  repeat' split at h
  all_goals simp_all

theorem closer_ne (k : Kind) : closer k ≠ [] := by cases k <;> simp [closer]

theorem closer_length (k : Kind) : (closer k).length = 3 := by cases k <;> rfl

/-- The scanner on edits other than substitutions. -/
theorem scan_simple {a b : Byte} {k : Kind} {x rest : Bytes} (hk : kindOf a b = some k) (hs : k ≠ .sub)
    (hf : Free (closer k) x) :
    scan (c!"{" :: a :: b :: (x ++ closer k ++ rest)) = some ⟨k, none, x, x.length + 6⟩ := by
  have h1 : Transforms.strstr (x ++ closer k ++ rest) (closer k) = some x.length :=
    strstr_first ((free_iff (closer_ne k)).1 hf)
  unfold scan
  rw [if_neg (by simp [closer_length]; omega)]
  simp only [ne_eq, not_true, if_false, hk, h1]
  have h2 : (x ++ closer k ++ rest).take x.length = x := by rw [List.append_assoc, List.take_left]
  split
  · exact absurd rfl hs
  · rw [h2]

theorem not_infix_first {old new tail : Bytes} (h : ¬ b!"~>" <:+: old) :
    FirstOcc b!"~>" (old ++ b!"~>" ++ new ++ tail) old (new ++ tail) := by
  refine ⟨by simp, ?_⟩
  intro p q hpq
  refine Decidable.byContradiction fun hlt => h ?_
  have hlt : p.length < old.length := by omega
  have e1 : p ++ b!"~>" <+: old ++ b!"~>" ++ new ++ tail := ⟨q, hpq.symm⟩
  rcases Nat.lt_or_ge (p.length + 1) old.length with hc | hc
  · have : p ++ b!"~>" <+: old := by
      refine List.prefix_of_prefix_length_le e1 ⟨b!"~>" ++ new ++ tail, by simp⟩ ?_
      simp; omega
    obtain ⟨t, ht⟩ := this
    exact ⟨p, t, ht⟩
  · exfalso
    have : (old ++ b!"~>" ++ new ++ tail)[p.length + 1]? = some c!">" := by
      rw [hpq]
      rw [List.append_assoc, List.getElem?_append_right (by omega)]
      simp
    have h2 : (old ++ b!"~>" ++ new ++ tail)[p.length + 1]? = some c!"~" := by
      rw [show p.length + 1 = old.length by omega]
      simp
    rw [this] at h2
    simp at h2

/-- The scanner on substitutions with a separator. -/
theorem scan_replace {old new rest : Bytes} (hf : Free b!"~~}" (old ++ b!"~>" ++ new)) (ho : ¬ b!"~>" <:+: old) :
    scan (b!"{~~" ++ old ++ b!"~>" ++ new ++ b!"~~}" ++ rest) =
      some ⟨.sub, some old, new, old.length + 2 + new.length + 6⟩ := by
  have h1 : Transforms.strstr (old ++ b!"~>" ++ new ++ b!"~~}" ++ rest) b!"~~}" = some (old.length + 2 + new.length) := by
    have := strstr_first ((free_iff (r := rest) (by simp)).1 hf)
    rw [this]
    simp; omega
  have h2 : Transforms.strstr (old ++ b!"~>" ++ new ++ b!"~~}" ++ rest) b!"~>" = some old.length := by
    have := strstr_first (not_infix_first (new := new) (tail := b!"~~}" ++ rest) ho)
    rw [← this]; simp
  have e : b!"{~~" ++ old ++ b!"~>" ++ new ++ b!"~~}" ++ rest =
      c!"{" :: c!"~" :: c!"~" :: (old ++ b!"~>" ++ new ++ b!"~~}" ++ rest) := by simp
  rw [e]
  unfold scan
  rw [if_neg (by simp; omega)]
  have hk : kindOf c!"~" c!"~" = some .sub := by decide
  simp only [ne_eq, not_true, if_false, hk, closer, h1, h2]
  rw [if_pos (by omega)]
  have h3 : (old ++ b!"~>" ++ new ++ b!"~~}" ++ rest).take old.length = old := by
    simp
  have h4 : (old ++ b!"~>" ++ new ++ b!"~~}" ++ rest).take (old.length + 2 + new.length) = old ++ b!"~>" ++ new := by
    rw [List.append_assoc (old ++ b!"~>" ++ new)]
    exact List.take_left' (by simp; omega)
  have h5 : (old ++ b!"~>" ++ new).drop (old.length + 2) = new := List.drop_left' (by simp)
  rw [h3, h4, h5]

/-- … and without. -/
theorem scan_fresh {x rest : Bytes} (hf : Free b!"~~}" x) (ho : ¬ b!"~>" <:+: x) :
    scan (b!"{~~" ++ x ++ b!"~~}" ++ rest) = some ⟨.sub, none, x, x.length + 6⟩ := by
  have h1 : Transforms.strstr (x ++ b!"~~}" ++ rest) b!"~~}" = some x.length :=
    strstr_first ((free_iff (by simp)).1 hf)
  have e : b!"{~~" ++ x ++ b!"~~}" ++ rest = c!"{" :: c!"~" :: c!"~" :: (x ++ b!"~~}" ++ rest) := by simp
  rw [e]
  unfold scan
  rw [if_neg (by simp; omega)]
  have hk : kindOf c!"~" c!"~" = some .sub := by decide
  have h2 : (x ++ b!"~~}" ++ rest).take x.length = x := by rw [List.append_assoc, List.take_left]
  simp only [ne_eq, not_true, if_false, hk, closer, h1]
  cases hs : Transforms.strstr (x ++ b!"~~}" ++ rest) b!"~>" with
  | none => simp only [h2]
  | some m =>
    simp only
    rw [if_neg, h2]
    intro hm
    have hp := (Transforms.strstr_some hs).1
    have hle := Transforms.strstr_le hs
    have e1 : (x ++ b!"~~}" ++ rest).take m ++ b!"~>" <+: x ++ b!"~~}" ++ rest := ⟨_, hp.symm⟩
    have hlen : ((x ++ b!"~~}" ++ rest).take m).length = m := by
      rw [List.length_take]; simp at hle ⊢; omega
    rcases Nat.lt_or_ge (m + 1) x.length with hc | hc
    · have : (x ++ b!"~~}" ++ rest).take m ++ b!"~>" <+: x := by
        refine List.prefix_of_prefix_length_le e1 ⟨b!"~~}" ++ rest, by simp⟩ ?_
        rw [List.length_append, hlen]; simp; omega
      obtain ⟨t, ht⟩ := this
      exact ho ⟨_, t, ht⟩
    · have g1 : (x ++ b!"~~}" ++ rest)[m + 1]? = some c!">" := by
        obtain ⟨t, ht⟩ := e1
        rw [← ht, List.append_assoc, List.getElem?_append_right (by omega), hlen]
        simp
      have g2 : (x ++ b!"~~}" ++ rest)[m + 1]? = some c!"~" := by
        rw [show m + 1 = x.length by omega]
        simp
      rw [g1] at g2
      simp at g2

/-- The scanner finds every edit. -/
theorem scan_edit {e : Seg} (he : ∀ c, e ≠ .plain c) (hp : e.Proper) (rest : Bytes) :
    scan (e.source ++ rest) = some (found e) := by
  cases e with
  | plain c => exact absurd rfl (he c)
  | insert x => simpa [Seg.source, closer, found] using scan_simple (rest := rest) (k := .add) (a := c!"+") (b := c!"+") rfl (by simp) hp
  | delete x => simpa [Seg.source, closer, found] using scan_simple (rest := rest) (k := .del) (a := c!"-") (b := c!"-") rfl (by simp) hp
  | highlight x => simpa [Seg.source, closer, found] using scan_simple (rest := rest) (k := .highlight) (a := c!"=") (b := c!"=") rfl (by simp) hp
  | comment x => simpa [Seg.source, closer, found] using scan_simple (rest := rest) (k := .comment) (a := c!">") (b := c!">") rfl (by simp) hp
  | replace old new => exact scan_replace hp.1 hp.2
  | fresh x => exact scan_fresh hp.1 hp.2

/-- … and finds nothing else. -/
theorem scan_some {s : Bytes} {f : Found} (h : scan s = some f) :
    ∃ e rest, (∀ c, e ≠ .plain c) ∧ e.Proper ∧ s = e.source ++ rest ∧ f = found e := by
  have key : ∃ (e : Seg) (rest : Bytes), (∀ c, e ≠ .plain c) ∧ e.Proper ∧ s = e.source ++ rest := by
    unfold scan at h
    split at h
    · simp at h
    · split at h
      · rename_i brace a b body _
        split at h
        · simp at h
        · rename_i hb
          have hb : brace = c!"{" := Decidable.byContradiction hb
          subst hb
          split at h
          · simp at h
          · rename_i k hk
            split at h
            · simp at h
            · rename_i n hn
              have ho := Transforms.strstr_some hn
              have hfree := (free_iff (x := body.take n) (r := body.drop (n + (closer k).length)) (closer_ne k)).2
                (ho.1 ▸ ho)
              have heq := ho.1
              generalize body.take n = x at *
              generalize body.drop (n + (closer k).length) = r at *
              rcases kindOf_some hk with ⟨rfl, rfl, rfl⟩ | ⟨rfl, rfl, rfl⟩ | ⟨rfl, rfl, rfl⟩ | ⟨rfl, rfl, rfl⟩ | ⟨rfl, rfl, rfl⟩
              · exact ⟨.insert x, r, by simp, hfree, by simp [Seg.source, heq, closer]⟩
              · exact ⟨.delete x, r, by simp, hfree, by simp [Seg.source, heq, closer]⟩
              · by_cases hi : b!"~>" <:+: x
                · obtain ⟨m, hm⟩ : ∃ m, Transforms.strstr x b!"~>" = some m := by
                    cases hm : Transforms.strstr x b!"~>" with
                    | none => exact absurd hi (Transforms.strstr_none hm)
                    | some m => exact ⟨m, rfl⟩
                  have hf := Transforms.strstr_some hm
                  have hx := hf.1
                  have hno : ¬ b!"~>" <:+: x.take m := by
                    rintro ⟨p, q, hpq⟩
                    have := hf.2 p (q ++ b!"~>" ++ x.drop (m + 2)) (by
                      conv => lhs; rw [hx, ← hpq]
                      simp)
                    have h2 := congrArg List.length hpq
                    simp at h2 this
                    omega
                  refine ⟨.replace (x.take m) (x.drop (m + 2)), r, by simp, ⟨?_, hno⟩, ?_⟩
                  · have : x = x.take m ++ b!"~>" ++ x.drop (m + 2) := hx
                    rw [← this]; exact hfree
                  · have : x = x.take m ++ b!"~>" ++ x.drop (m + 2) := hx
                    simp only [Seg.source]
                    rw [heq]
                    conv => lhs; rw [this]
                    simp [closer]
                · exact ⟨.fresh x, r, by simp, ⟨hfree, hi⟩, by simp [Seg.source, heq, closer]⟩
              · exact ⟨.highlight x, r, by simp, hfree, by simp [Seg.source, heq, closer]⟩
              · exact ⟨.comment x, r, by simp, hfree, by simp [Seg.source, heq, closer]⟩
      · simp at h
  obtain ⟨e, rest, he, hp, hs⟩ := key
  refine ⟨e, rest, he, hp, hs, ?_⟩
  rw [hs, scan_edit he hp] at h
  simpa using h.symm

theorem scan_none_iff {s : Bytes} : scan s = none ↔ ¬ StartsEdit s := by
  constructor
  · rintro h ⟨e, he, hp, rest, rfl⟩
    rw [scan_edit he hp] at h
    simp at h
  · intro h
    cases hs : scan s with
    | none => rfl
    | some f =>
      obtain ⟨e, rest, he, hp, hs, _⟩ := scan_some hs
      exact absurd ⟨e, he, hp, rest, hs.symm⟩ h

/-- What a segment gives in each mode. -/
def render : Mode → Seg → Bytes
  | .accept => Seg.accepted
  | .reject => Seg.rejected
  | .markup => Seg.shown

theorem toHtml_found {e : Seg} (he : ∀ c, e ≠ .plain c) (mode : Mode) : toHtml (found e) mode = render mode e := by
  cases e with
  | plain c => exact absurd rfl (he c)
  | replace old new => cases mode <;> cases old <;> simp [found, toHtml, render, Seg.accepted, Seg.rejected, Seg.shown]
  | _ => cases mode <;> simp [found, toHtml, render, Seg.accepted, Seg.rejected, Seg.shown]

/-- The token written for a segment. -/
def tok (mode : Mode) : Seg → Tok
  | .plain c => .byte c
  | e => .chunk (render mode e)

theorem tok_out (mode : Mode) (e : Seg) : (tok mode e).out = render mode e := by
  cases e <;> cases mode <;> rfl

theorem source_pos (e : Seg) : 0 < e.source.length := by cases e <;> simp [Seg.source]

theorem tokens_spec (mode : Mode) : ∀ n s, s.length ≤ n →
    ∃ d, Spec.Proper d ∧ source d = s ∧ tokens mode n s = d.map (tok mode) := by
  intro n
  induction n with
  | zero =>
    intro s h
    have : s = [] := by simpa using h
    subst this
    exact ⟨[], trivial, rfl, rfl⟩
  | succ n ih =>
    intro s h
    cases s with
    | nil => exact ⟨[], trivial, rfl, rfl⟩
    | cons c t =>
      have hstart : (if c = c!"{" then scan (c :: t) else none) = scan (c :: t) := by
        split
        · rfl
        · rename_i hc
          cases hs : scan (c :: t) with
          | none => rfl
          | some f =>
            obtain ⟨e, rest, he, hp, hs, _⟩ := scan_some hs
            exfalso
            cases e <;> simp [Seg.source] at hs he
            all_goals exact hc hs.1
      rw [tokens, hstart]
      cases hs : scan (c :: t) with
      | none =>
        obtain ⟨d, hd, rfl, ht⟩ := ih t (by simp at h; omega)
        refine ⟨.plain c :: d, ⟨scan_none_iff.1 hs, hd⟩, rfl, ?_⟩
        simp only [ht, List.map_cons, tok]
      | some f =>
        obtain ⟨e, rest, he, hp, hst, rfl⟩ := scan_some hs
        have hpos := source_pos e
        have hl := congrArg List.length hst
        rw [List.length_append] at hl
        have hdrop : (c :: t).drop (found e).consumed = rest := by
          rw [found_consumed he, hst, List.drop_left]
        obtain ⟨d, hd, hsrc, ht⟩ := ih rest (by omega)
        refine ⟨e :: d, ?_, ?_, ?_⟩
        · cases e with
          | plain c => exact absurd rfl (he c)
          | _ => exact ⟨hp, hd⟩
        · rw [hst, ← hsrc]; rfl
        · simp only [hdrop, ht, List.map_cons, toHtml_found he]
          cases e with
          | plain c => exact absurd rfl (he c)
          | _ => rfl

theorem proper_unique : ∀ {d d' : List Seg}, Spec.Proper d → Spec.Proper d' → source d = source d' → d = d' := by
  intro d
  induction d with
  | nil =>
    intro d' _ _ h
    cases d' with
    | nil => rfl
    | cons e d' =>
      have := congrArg List.length h
      have h2 := source_pos e
      simp [source] at this
      omega
  | cons e d ih =>
    intro d' hd hd' h
    have hcons : ∀ (e : Seg) d, source (e :: d) = e.source ++ source d := fun e d => rfl
    cases d' with
    | nil =>
      have := congrArg List.length h
      have h2 := source_pos e
      rw [hcons, List.length_append] at this
      simp only [source, List.flatMap_nil, List.length_nil] at this
      omega
    | cons e' d' =>
      by_cases he : ∀ c, e ≠ .plain c
      · have hp : e.Proper ∧ Spec.Proper d := by
          cases e with
          | plain c => exact absurd rfl (he c)
          | _ => exact hd
        by_cases he' : ∀ c, e' ≠ .plain c
        · have hp' : e'.Proper ∧ Spec.Proper d' := by
            cases e' with
            | plain c => exact absurd rfl (he' c)
            | _ => exact hd'
          rw [hcons, hcons] at h
          have h1 := scan_edit he hp.1 (source d)
          rw [h, scan_edit he' hp'.1] at h1
          have := found_inj he' he (by simpa using h1)
          subst this
          rw [ih hp.2 hp'.2 (List.append_cancel_left h)]
        · exfalso
          cases e' with
          | plain c => exact hd'.1 ⟨e, he, hp.1, source d, h⟩
          | _ => exact he' (by simp)
      · cases e with
        | plain c =>
          cases e' with
          | plain c' =>
            simp [source, Seg.source] at h
            obtain ⟨rfl, h⟩ := h
            rw [ih hd.2 hd'.2 h]
          | _ => exact absurd ⟨_, by simp, hd'.1, source d', h.symm⟩ hd.1
        | _ => exact absurd (by simp) he

theorem process_fits (mode : Mode) (text : Bytes) (d : List Seg) (hd : Spec.Proper d) (hs : source d = text)
    (hfit : (d.flatMap (render mode)).length < text.length * 2) :
    process mode text = .val (d.flatMap (render mode)) := by
  obtain ⟨d', hd', hs', ht⟩ := tokens_spec mode text.length text (Nat.le_refl _)
  have := proper_unique hd hd' (hs.trans hs'.symm)
  subst this
  have he : (tokens mode text.length text).flatMap Tok.out = d.flatMap (render mode) := by
    rw [ht, List.flatMap_map]
    congr 1
    funext e
    exact tok_out mode e
  unfold process
  rw [run_fits, he]
  · rw [ht]
    intro t h n e' hx
    rw [List.mem_map] at h
    obtain ⟨e, _, rfl⟩ := h
    cases e <;> simp [tok] at hx
  · rw [he]; exact hfit

theorem accepted_le (e : Seg) : e.accepted.length ≤ e.source.length := by
  cases e <;> simp [Seg.source, Seg.accepted] <;> omega

theorem rejected_le (e : Seg) : e.rejected.length ≤ e.source.length := by
  cases e <;> simp [Seg.source, Seg.rejected] <;> omega

theorem flatMap_le {f g : Seg → Bytes} (h : ∀ e, (f e).length ≤ (g e).length) (d : List Seg) :
    (d.flatMap f).length ≤ (d.flatMap g).length := by
  induction d with
  | nil => simp
  | cons e d ih => rw [List.flatMap_cons, List.flatMap_cons, List.length_append, List.length_append]; have := h e; omega

end Verif.Critic
