/-
Lemmas for the plugin properties.
-/
import Verif.Spec.Plugins
import Verif.Proof.Escape
import Verif.Model.Man

namespace Verif.Plugins

open Spec

/-! ### Order -/

theorem strcmp_eq_iff : ∀ {a b : Bytes}, strcmp a b = .eq ↔ a = b
  | [], [] => by simp [strcmp]
  | [], _ :: _ => by simp [strcmp]
  | _ :: _, [] => by simp [strcmp]
  | a :: as, b :: bs => by
    simp only [strcmp, List.cons.injEq]
    by_cases h : a < b
    · rw [if_pos h]
      simp only [reduceCtorEq, false_iff, not_and]
      rintro rfl
      exact absurd h (UInt8.lt_irrefl _)
    · rw [if_neg h]
      by_cases h' : b < a
      · rw [if_pos h']
        simp only [reduceCtorEq, false_iff, not_and]
        rintro rfl
        exact absurd h' (UInt8.lt_irrefl _)
      · rw [if_neg h', strcmp_eq_iff]
        have : a = b := UInt8.le_antisymm (UInt8.not_lt.1 h') (UInt8.not_lt.1 h)
        simp [this]

theorem strcmp_gt_iff : ∀ {a b : Bytes}, strcmp a b = .gt ↔ b < a
  | [], [] => by simp [strcmp]
  | [], _ :: _ => by simp [strcmp]
  | _ :: _, [] => by simp [strcmp]
  | a :: as, b :: bs => by
    simp only [strcmp, List.cons_lt_cons_iff]
    by_cases h : a < b
    · rw [if_pos h]
      simp only [reduceCtorEq, false_iff, not_or, not_and]
      refine ⟨UInt8.lt_asymm h, ?_⟩
      rintro rfl
      exact absurd h (UInt8.lt_irrefl _)
    · rw [if_neg h]
      by_cases h' : b < a
      · rw [if_pos h']
        simp [h']
      · rw [if_neg h', strcmp_gt_iff]
        have : a = b := UInt8.le_antisymm (UInt8.not_lt.1 h') (UInt8.not_lt.1 h)
        simp [this, UInt8.lt_irrefl]

theorem strcmp_le_iff {a b : Bytes} : strcmp a b ≠ .gt ↔ a ≤ b := by
  rw [ne_eq, strcmp_gt_iff, List.not_lt]

theorem walk_iff (n p : Plugin) :
    (n.priority < p.priority ∨ n.priority = p.priority ∧ strcmp n.id p.id ≠ .gt) ↔ Before n p := by
  rw [strcmp_le_iff]; rfl

theorem bytes_total (a b : Bytes) : a ≤ b ∨ b ≤ a := by
  by_cases h : a ≤ b
  · exact .inl h
  · right
    rw [List.not_le] at h
    exact List.le_of_lt h

theorem head_iff (h p : Plugin) :
    (h.priority > p.priority ∨ h.priority = p.priority ∧ strcmp h.id p.id = .gt) ↔ ¬ Before h p := by
  rw [strcmp_gt_iff, Before, ← List.not_le]
  constructor
  · rintro (h1 | ⟨h1, h2⟩) (h3 | ⟨h3, h4⟩)
    · omega
    · omega
    · omega
    · exact h2 h4
  · intro h1
    by_cases h2 : h.priority > p.priority
    · exact .inl h2
    · right
      have h3 : h.priority = p.priority := by
        refine Int.le_antisymm (by omega) (Int.not_lt.1 fun h4 => h1 (.inl h4))
      exact ⟨h3, fun h4 => h1 (.inr ⟨h3, h4⟩)⟩

theorem before_trans {a b c : Plugin} (h : Before a b) (h' : Before b c) : Before a c := by
  rcases h with h | ⟨h, h1⟩ <;> rcases h' with h' | ⟨h', h1'⟩
  · exact .inl (by omega)
  · exact .inl (by omega)
  · exact .inl (by omega)
  · exact .inr ⟨by omega, List.le_trans h1 h1'⟩

theorem before_of_not {a b : Plugin} (h : ¬ Before a b) : Before b a := by
  rw [← head_iff, strcmp_gt_iff] at h
  rcases h with h | ⟨h, h1⟩
  · exact .inl h
  · exact .inr ⟨h.symm, List.le_of_lt h1⟩

instance (p q : Plugin) : Decidable (Before p q) := by unfold Before; infer_instance

/-- Both parts of `append_plugin_sorted` are one insertion behind everything that may stand before. -/
def place (p : Plugin) : List Plugin → List Plugin
  | [] => [p]
  | n :: t => if Before n p then n :: place p t else p :: n :: t

theorem insertTail_eq (p : Plugin) (l : List Plugin) : insertTail p l = place p l := by
  induction l with
  | nil => rfl
  | cons n t ih =>
    rw [insertTail, place, ih]
    by_cases h : Before n p
    · rw [if_pos h, if_pos ((walk_iff _ _).2 h)]
    · rw [if_neg h, if_neg fun h' => h ((walk_iff _ _).1 h')]

theorem insert_eq (p : Plugin) (l : List Plugin) : insert p l = place p l := by
  cases l with
  | nil => rfl
  | cons n t =>
    rw [insert, place, insertTail_eq]
    by_cases h : Before n p
    · rw [if_pos h, if_neg fun h' => (head_iff _ _).1 h' h]
    · rw [if_neg h, if_pos ((head_iff _ _).2 h)]

theorem place_perm (p : Plugin) (l : List Plugin) : (place p l).Perm (p :: l) := by
  induction l with
  | nil => exact .refl _
  | cons n t ih =>
    rw [place]
    split
    · exact (ih.cons n).trans (.swap _ _ _)
    · exact .refl _

theorem insert_perm (p : Plugin) (l : List Plugin) : (insert p l).Perm (p :: l) := by
  rw [insert_eq]; exact place_perm p l

theorem mem_insert {p q : Plugin} {l : List Plugin} : q ∈ insert p l ↔ q = p ∨ q ∈ l := by
  rw [(insert_perm p l).mem_iff, List.mem_cons]

theorem place_sorted (p : Plugin) (l : List Plugin) (h : l.Pairwise Before) :
    (place p l).Pairwise Before := by
  induction l with
  | nil => simp [place]
  | cons n t ih =>
    rw [List.pairwise_cons] at h
    rw [place]
    split
    · rename_i hb
      rw [List.pairwise_cons]
      refine ⟨fun q hq => ?_, ih h.2⟩
      rw [(place_perm p t).mem_iff, List.mem_cons] at hq
      rcases hq with rfl | hq
      · exact hb
      · exact h.1 q hq
    · rename_i hb
      have hpn := before_of_not hb
      rw [List.pairwise_cons]
      refine ⟨fun q hq => ?_, List.pairwise_cons.2 h⟩
      rcases List.mem_cons.1 hq with rfl | hq
      · exact hpn
      · exact before_trans hpn (h.1 q hq)

theorem insert_sorted (p : Plugin) (l : List Plugin) (h : l.Pairwise Before) :
    (insert p l).Pairwise Before := by
  rw [insert_eq]; exact place_sorted p l h

/-- Selecting plugins that compare equal: the new one comes last. -/
theorem place_filter (p : Plugin) (l : List Plugin) (h : l.Pairwise Before) (f : Plugin → Bool)
    (hf : ∀ q, f q = true → f p = true → Before q p) :
    (place p l).filter f = l.filter f ++ [p].filter f := by
  induction l with
  | nil => rfl
  | cons n t ih =>
    rw [List.pairwise_cons] at h
    rw [place]
    split
    · rw [List.filter_cons, ih h.2, List.filter_cons (xs := t)]
      split <;> rfl
    · rename_i hb
      by_cases hp : f p = true
      · have hnone : (n :: t).filter f = [] := by
          rw [List.filter_eq_nil_iff]
          intro q hq hfq
          have hqp := hf q hfq hp
          rcases List.mem_cons.1 hq with rfl | hq
          · exact hb hqp
          · exact hb (before_trans (h.1 q hq) hqp)
        rw [List.filter_cons, if_pos hp, hnone]
        simp [hp]
      · simp [List.filter_cons, hp]

theorem foldl_insert (ps l : List Plugin) (h : l.Pairwise Before) :
    (ps.foldl (fun l p => insert p l) l).Pairwise Before ∧
    (ps.foldl (fun l p => insert p l) l).Perm (l ++ ps) ∧
    ∀ (k : Int) (i : Bytes),
      (ps.foldl (fun l p => insert p l) l).filter (fun q => q.priority = k ∧ q.id = i) =
        (l ++ ps).filter (fun q => q.priority = k ∧ q.id = i) := by
  induction ps generalizing l with
  | nil => simp [h]
  | cons p ps ih =>
    obtain ⟨h1, h2, h3⟩ := ih (insert p l) (insert_sorted p l h)
    refine ⟨h1, h2.trans ?_, fun k i => ?_⟩
    · exact ((insert_perm p l).append_right ps).trans (List.perm_middle.symm)
    · rw [List.foldl_cons, h3, List.filter_append, insert_eq, place_filter p l h]
      · rw [← List.filter_append, ← List.filter_append, List.append_assoc]
        rfl
      · simp only [decide_eq_true_eq]
        rintro q ⟨h1, h2⟩ ⟨h3, h4⟩
        exact .inr ⟨by rw [h1, h3], by rw [h2, h4]; exact List.le_refl _⟩

theorem idExists_iff {l : List Plugin} {i : Bytes} : idExists l i = true ↔ ∃ q ∈ l, q.id = i := by
  simp [idExists, strcmp_eq_iff]

theorem First.append {ph : Phase} {ps : List Plugin} {r p : Plugin} :
    First ph (ps ++ [r]) p ↔
      First ph ps p ∨ (p = r ∧ r.phase = ph ∧ ∀ q ∈ ps, q.phase = ph → q.id ≠ r.id) := by
  constructor
  · rintro ⟨pre, post, he, h1, h2⟩
    rcases List.eq_nil_or_concat post with rfl | ⟨post', x, rfl⟩
    · have := List.append_inj' he rfl
      obtain ⟨rfl, hr⟩ := this
      simp at hr
      subst hr
      exact .inr ⟨rfl, h1, h2⟩
    · left
      have he' : ps ++ [r] = (pre ++ p :: post') ++ [x] := by rw [he]; simp
      have := List.append_inj' he' rfl
      exact ⟨pre, post', this.1, h1, h2⟩
  · rintro (⟨pre, post, rfl, h1, h2⟩ | ⟨rfl, h1, h2⟩)
    · exact ⟨pre, post ++ [r], by simp, h1, h2⟩
    · exact ⟨ps, [], rfl, h1, h2⟩

/-- A sequence with a plugin of this id has a first one. -/
theorem first_exists {ph : Phase} : ∀ {ps : List Plugin} {q : Plugin}, q ∈ ps → q.phase = ph →
    ∃ p, First ph ps p ∧ p.id = q.id
  | a :: t, q, hq, hph => by
    by_cases h : a.phase = ph ∧ a.id = q.id
    · exact ⟨a, ⟨[], t, rfl, h.1, by simp⟩, h.2⟩
    · have hq' : q ∈ t := by
        rcases List.mem_cons.1 hq with rfl | hq
        · exact absurd ⟨hph, rfl⟩ h
        · exact hq
      obtain ⟨p, ⟨pre, post, rfl, h1, h2⟩, h3⟩ := first_exists hq' hph
      refine ⟨p, ⟨a :: pre, post, rfl, h1, ?_⟩, h3⟩
      intro x hx hxp
      rcases List.mem_cons.1 hx with rfl | hx
      · rw [h3]; exact fun h' => h ⟨hxp, h'⟩
      · exact h2 x hx hxp

theorem found_append (ph : Phase) (ps : List Plugin) (r : Plugin) :
    found ph (ps ++ [r]) = attach ph (found ph ps) r := by
  simp [found]

theorem list_reverse_induction {α} {P : List α → Prop} (h0 : P [])
    (h1 : ∀ l a, P l → P (l ++ [a])) (l : List α) : P l := by
  rw [← List.reverse_reverse l]
  induction l.reverse with
  | nil => exact h0
  | cons a t ih => rw [List.reverse_cons]; exact h1 _ _ ih

theorem found_spec (ph : Phase) (ps : List Plugin) :
    (found ph ps).Pairwise Before ∧ (∀ p, p ∈ found ph ps ↔ First ph ps p) ∧
    (found ph ps).Pairwise (fun p q => p.id ≠ q.id) := by
  induction ps using list_reverse_induction with
  | h0 =>
    refine ⟨.nil, fun p => ?_, .nil⟩
    simp [found, First]
  | h1 ps r ih =>
    obtain ⟨h1, h2, h3⟩ := ih
    rw [found_append]
    unfold attach
    by_cases hr : r.phase = ph
    · rw [if_pos hr]
      by_cases he : idExists (found ph ps) r.id = true
      · rw [if_pos he]
        refine ⟨h1, fun p => ?_, h3⟩
        rw [h2, First.append]
        constructor
        · exact .inl
        · rintro (h | ⟨rfl, _, h⟩)
          · exact h
          · obtain ⟨q, hq, hid⟩ := idExists_iff.1 he
            obtain ⟨pre, post, rfl, hp, _⟩ := (h2 q).1 hq
            exact absurd hid (h q (by simp) hp)
      · rw [if_neg he]
        have hno : ∀ q ∈ found ph ps, q.id ≠ r.id := fun q hq hid => he (idExists_iff.2 ⟨q, hq, hid⟩)
        refine ⟨insert_sorted _ _ h1, fun p => ?_, ?_⟩
        · rw [mem_insert, h2, First.append]
          constructor
          · rintro (rfl | h)
            · right
              refine ⟨rfl, hr, fun q hq hqp hid => ?_⟩
              obtain ⟨p', hp', hid'⟩ := first_exists hq hqp
              exact hno p' ((h2 p').2 hp') (hid'.trans hid)
            · exact .inl h
          · rintro (h | ⟨rfl, _, _⟩)
            · exact .inr h
            · exact .inl rfl
        · rw [(insert_perm r _).pairwise_iff (fun h => fun h' => h h'.symm)]
          exact List.pairwise_cons.2 ⟨fun q hq h => hno q hq h.symm, h3⟩
    · rw [if_neg hr]
      refine ⟨h1, fun p => ?_, h3⟩
      rw [h2, First.append]
      constructor
      · exact .inl
      · rintro (h | ⟨_, h, _⟩)
        · exact h
        · exact absurd h hr

/-! ### Regular expressions -/

theorem appendGrow_val (cap : Nat) (out s : Bytes) :
    ∃ cap', appendGrow (cap, out) s = .val (cap', out ++ s) := by
  refine ⟨ensure cap (out.length + s.length + 1), ?_⟩
  simp only [appendGrow]
  rw [puts_val]
  · rfl
  · simp only [ensure]
    split <;> omega

theorem template_val (g : Nat → Option (Nat × Nat)) (s : Bytes)
    (hg : ∀ i a e, g i = some (a, e) → a ≤ e ∧ e ≤ s.length) :
    ∀ (cap : Nat) (out rep : Bytes), ∃ cap' e, template g s (cap, out) rep = .val (cap', out ++ e) ∧
      Expand (group g s) rep e
  | cap, out, [] => ⟨cap, [], by simp [template], .nil⟩
  | cap, out, [c] => by
    obtain ⟨cap', h⟩ := appendGrow_val cap out [c]
    exact ⟨cap', [c], by rw [template, h], .chr (by simp) .nil⟩
  | cap, out, c :: d :: t => by
    by_cases h : c = c!"$" ∧ isDigit d = true
    · obtain ⟨rfl, hd⟩ := h
      cases hgi : g (d.toNat - 48) with
      | none =>
        obtain ⟨cap', e, h1, h2⟩ := template_val g s hg cap out t
        refine ⟨cap', group g s (d.toNat - 48) ++ e, ?_, .ref hd h2⟩
        simp only [template, hd, and_self, if_true, hgi, group]
        simpa using h1
      | some ae =>
        obtain ⟨a, e⟩ := ae
        obtain ⟨h1, h2⟩ := hg _ _ _ hgi
        obtain ⟨cap1, hcap1⟩ := appendGrow_val cap out ((s.drop a).take (e - a))
        obtain ⟨cap', e', h3, h4⟩ := template_val g s hg cap1 (out ++ (s.drop a).take (e - a)) t
        refine ⟨cap', group g s (d.toNat - 48) ++ e', ?_, .ref hd h4⟩
        simp only [template, hd, and_self, if_true, hgi, group]
        rw [if_pos h1, if_pos h2, hcap1]
        simp only [C.val_bind]
        rw [h3, List.append_assoc]
    · obtain ⟨cap1, hcap1⟩ := appendGrow_val cap out [c]
      obtain ⟨cap', e', h3, h4⟩ := template_val g s hg cap1 (out ++ [c]) (d :: t)
      refine ⟨cap', c :: e', ?_, .chr ?_ h4⟩
      · rw [template, if_neg h, hcap1]
        simp only [C.val_bind]
        rw [h3]
        simp
      · rintro rfl d' t' hdt hd'
        simp only [List.cons.injEq] at hdt
        exact h ⟨rfl, hdt.1 ▸ hd'⟩

theorem regexLoop_val (rx : Rx) (hrx : Valid rx) (rep : Bytes) : ∀ (n : Nat) (s : Bytes), s.length ≤ n →
    ∀ (cap : Nat) (out : Bytes) (any : Bool), ∃ cap' o rest,
      regexLoop rx rep (cap, out) any s = .val (cap', out ++ o, rest, any || (rx s).isSome) ∧
      Replaced rx rep s (o ++ rest) ∧ (rx s = none → o = [] ∧ rest = s) := by
  intro n
  induction n with
  | zero =>
    intro s hs cap out any
    obtain rfl : s = [] := by cases s <;> simp_all
    rw [regexLoop]
    cases hr : rx [] with
    | none => exact ⟨cap, [], [], by simp, .done hr, by simp⟩
    | some g =>
      obtain ⟨⟨a, e, h0⟩, hg⟩ := hrx _ _ hr
      obtain ⟨h1, h2⟩ := hg _ _ _ h0
      simp at h2
      subst h2
      obtain rfl : a = 0 := by omega
      obtain ⟨cap1, hc1⟩ := appendGrow_val cap out []
      obtain ⟨cap2, ex, h3, h4⟩ := template_val g [] hg cap1 (out ++ []) rep
      refine ⟨cap2, ex, [], ?_, ?_, by simp⟩
      · simp only [h0]
        rw [dif_neg (by simp)]
        simp only [List.take_nil]
        rw [hc1]
        simp only [C.val_bind]
        rw [h3]
        simp
      · simpa using Replaced.zeroEnd hr h4
  | succ n ih =>
    intro s hs cap out any
    rw [regexLoop]
    cases hr : rx s with
    | none => exact ⟨cap, [], s, by simp, .done hr, by simp⟩
    | some g =>
      obtain ⟨⟨a, e, h0⟩, hg⟩ := hrx _ _ hr
      obtain ⟨h1, h2⟩ := hg _ _ _ h0
      obtain ⟨cap1, hc1⟩ := appendGrow_val cap out (s.take a)
      obtain ⟨cap2, ex, h3, h4⟩ := template_val g s hg cap1 (out ++ s.take a) rep
      simp only [h0]
      rw [dif_neg (by omega), hc1]
      simp only [C.val_bind]
      rw [h3]
      simp only [C.val_bind]
      by_cases he : e = 0
      · subst he
        obtain rfl : a = 0 := by omega
        rw [dif_pos rfl]
        cases s with
        | nil =>
          refine ⟨cap2, ex, [], by simp, ?_, by simp⟩
          simpa using Replaced.zeroEnd hr h4
        | cons c t =>
          obtain ⟨cap3, hc3⟩ := appendGrow_val cap2 (out ++ (c :: t).take 0 ++ ex) [c]
          obtain ⟨cap', o, rest, h5, h6, _⟩ := ih t (by simpa using hs) cap3
            (out ++ (c :: t).take 0 ++ ex ++ [c]) true
          refine ⟨cap', ex ++ c :: o, rest, ?_, ?_, by simp⟩
          · simp only []
            rw [hc3]
            simp only [C.val_bind]
            rw [h5]
            simp
          · have := Replaced.zero hr h0 h4 h6
            simpa using this
      · rw [dif_neg he]
        obtain ⟨cap', o, rest, h5, h6, _⟩ := ih (s.drop e) (by simp; omega) cap2 (out ++ s.take a ++ ex) true
        refine ⟨cap', s.take a ++ ex ++ o, rest, ?_, ?_, by simp⟩
        · rw [h5]; simp
        · have hsplit : s = s.take a ++ (s.drop a).take (e - a) ++ s.drop e := by
            have h7 : s.drop e = (s.drop a).drop (e - a) := by rw [List.drop_drop]; congr 1; omega
            rw [h7, List.append_assoc, List.take_append_drop, List.take_append_drop]
          have hla : (s.take a).length = a := by simp; omega
          have hlm : ((s.drop a).take (e - a)).length = e - a := by simp; omega
          have := Replaced.step (rx := rx) (rep := rep) (pre := s.take a) (m := (s.drop a).take (e - a))
            (post := s.drop e) (g := g) (e := ex) (o := o ++ rest) (by rw [← hsplit]; exact hr)
            (by rw [hla, hlm, h0]; congr 2; omega)
            (by intro h; have := congrArg List.length h; rw [List.length_append, hla, hlm] at this
                simp at this; omega)
            (by rw [← hsplit]; exact h4) h6
          rw [← hsplit] at this
          simpa using this

theorem applyRegex_val (rx : Rx) (hrx : Valid rx) (rep s : Bytes) :
    (rx s = none ∧ applyRegex rx rep s = .val none) ∨
    (rx s ≠ none ∧ ∃ o, applyRegex rx rep s = .val (some o) ∧ Replaced rx rep s o) := by
  obtain ⟨cap', o, rest, h1, h2, h3⟩ := regexLoop_val rx hrx rep s.length s (Nat.le_refl _) (s.length + 1) []
    false
  simp only [applyRegex]
  rw [h1]
  simp only [C.val_bind, Bool.false_or, List.nil_append]
  cases hr : rx s with
  | none => exact .inl ⟨rfl, by simp⟩
  | some g =>
    right
    refine ⟨by simp, o ++ rest, ?_, h2⟩
    simp only [Option.isSome_some, if_true]
    rw [puts_val]
    · simp only [C.val_bind]
      rw [finish_val]
      · rfl
      · simp only [List.length_append]
        split <;> omega
    · split <;> omega

/-! ### Environment -/

theorem enter_eq (env : Env) (p : Plugin) (file : Bytes) : enter env p file = seen env p file := by
  have h1 : supportDir ≠ pluginDir := by decide +kernel
  change _ = fun k => if k = filePath then some file else if k = pluginDir then some p.dir
    else if k = supportDir ∧ p.support.isSome then p.support else env k
  funext k
  simp only [enter]
  cases p.support with
  | none => simp [setenv]
  | some s =>
    simp only [setenv]
    by_cases hk : k = filePath
    · rw [if_pos hk, if_pos hk]
    · rw [if_neg hk, if_neg hk]
      by_cases hk2 : k = supportDir
      · rw [if_pos hk2, if_neg (by rw [hk2]; exact h1), if_pos ⟨hk2, rfl⟩]
      · rw [if_neg hk2, if_neg (c := _ ∧ _) fun h => hk2 h.1]

theorem leave_eq (env : Env) (p : Plugin) (file : Bytes) : leave (enter env p file) env p = env := by
  have hr : ∀ (e : Env) (k : Bytes) (v : Option Bytes) (x : Bytes),
      restore e k v x = if x = k then v else e x := by
    intro e k v x
    cases v <;> simp [restore, setenv, unsetenv]
  funext k
  simp only [leave, enter]
  cases p.support with
  | none =>
    simp only [hr, setenv]
    by_cases h1 : k = filePath
    · rw [if_pos h1, h1]
    · rw [if_neg h1, if_neg h1]
      by_cases h2 : k = pluginDir
      · rw [if_pos h2, h2]
      · rw [if_neg h2, if_neg h2]
  | some s =>
    simp only [hr, setenv]
    by_cases h1 : k = filePath
    · rw [if_pos h1, h1]
    · rw [if_neg h1, if_neg h1]
      by_cases h3 : k = supportDir
      · rw [if_pos h3, h3]
      · rw [if_neg h3, if_neg h3]
        by_cases h2 : k = pluginDir
        · rw [if_pos h2, h2]
        · rw [if_neg h2, if_neg h2]

theorem cstr_upToNul (s : Bytes) : UpToNul s (Escape.cstr s) := by
  induction s with
  | nil => exact ⟨by simp [Escape.cstr], .inl rfl⟩
  | cons c t ih =>
    by_cases h : c = 0
    · subst h
      exact ⟨by simp [Escape.cstr], .inr ⟨t, by simp [Escape.cstr]⟩⟩
    · have he : Escape.cstr (c :: t) = c :: Escape.cstr t := by simp [Escape.cstr, h]
      rw [he]
      refine ⟨?_, ?_⟩
      · simp only [List.mem_cons, not_or]
        exact ⟨fun h' => h h'.symm, ih.1⟩
      · rcases ih.2 with h' | ⟨r, h'⟩
        · exact .inl (by rw [← h'])
        · exact .inr ⟨r, by rw [List.cons_append, ← h']⟩

theorem upToNul_eq {o a : Bytes} (h : UpToNul o a) : a = Escape.cstr o := by
  obtain ⟨h1, rfl | ⟨r, rfl⟩⟩ := h
  · rw [Escape.cstr_of_nulfree _ h1]
  · induction a with
    | nil => simp [Escape.cstr]
    | cons c t ih =>
      simp only [List.mem_cons, not_or] at h1
      have hc : c ≠ 0 := fun h => h1.1 h.symm
      conv => lhs; rw [ih h1.2]
      simp [Escape.cstr, hc]

theorem upToNul_unique {o a b : Bytes} (ha : UpToNul o a) (hb : UpToNul o b) : a = b := by
  rw [upToNul_eq ha, upToNul_eq hb]

theorem runPlugin_val (proc : Proc) (file : Bytes) (env : Env) (p : Plugin) (text : Bytes)
    (hv : ∀ rx rep, p.regex = some (rx, rep) → Valid rx) :
    ∃ next, runPlugin proc file p.phase env p text = .val (env, next) ∧
      Step proc file env p text (next.getD text) := by
  cases hc : p.command with
  | some cmd =>
    simp only [runPlugin, hc, leave_eq]
    by_cases he : cmd = []
    · subst he
      exact ⟨none, by simp [runExternal], .noCommand hc⟩
    · refine ⟨(proc (enter env p file) cmd (request p.id (phaseName p.phase)
        (text.flatMap Escape.jsonByte))).map fun o => Escape.cstr o.2, ?_, ?_⟩
      · simp only [runExternal]
        rw [if_neg he, Escape.jsonEscape_eq]
        rfl
      · rw [enter_eq]
        cases hp : proc (seen env p file) cmd (request p.id (phaseName p.phase)
          (text.flatMap Escape.jsonByte)) with
        | none => exact .noStart hc he (Escape.value_flatMap text) hp
        | some o => exact .ran hc he (Escape.value_flatMap text) hp (cstr_upToNul _)
  | none =>
    simp only [runPlugin, hc]
    cases hr : p.regex with
    | none => exact ⟨none, rfl, .nothing hc hr⟩
    | some rr =>
      obtain ⟨rx, rep⟩ := rr
      simp only []
      rcases applyRegex_val rx (hv _ _ hr) rep text with ⟨h1, h2⟩ | ⟨h1, o, h2, h3⟩
      · exact ⟨none, by rw [h2]; rfl, .regex hc hr (.done h1)⟩
      · exact ⟨some o, by rw [h2]; rfl, .regex hc hr h3⟩

theorem runLoop_val (proc : Proc) (file : Bytes) (ph : Phase) (ps : List Plugin)
    (hv : ∀ p ∈ ps, ∀ rx rep, p.regex = some (rx, rep) → Valid rx) (env : Env) (text : Bytes) :
    ∃ out, runLoop proc file ph ps env text = .val (env, out) ∧
      Steps proc file env (ps.filter fun p => p.phase = ph) text out := by
  induction ps generalizing text with
  | nil => exact ⟨text, rfl, .nil⟩
  | cons p ps ih =>
    have ih := ih fun q hq => hv q (List.mem_cons_of_mem _ hq)
    rw [runLoop]
    by_cases hp : p.phase = ph
    · obtain ⟨next, h1, h2⟩ := runPlugin_val proc file env p text (hv p (List.mem_cons_self ..))
      obtain ⟨out, h3, h4⟩ := ih (next.getD text)
      refine ⟨out, ?_, ?_⟩
      · rw [if_pos hp, ← hp, h1]
        simp only [C.val_bind]
        rw [hp, h3]
      · rw [List.filter_cons, if_pos (by simpa using hp)]
        exact .cons h2 h4
    · obtain ⟨out, h3, h4⟩ := ih text
      refine ⟨out, by rw [if_neg hp, h3], ?_⟩
      rw [List.filter_cons, if_neg (by simpa using hp)]
      exact h4

/-! ### Manifests -/

theorem lastValue_last {pre post : Metadata.Meta} {k v : Bytes}
    (hpost : ∀ it ∈ post, it.1 ≠ k) : lastValue (pre ++ (k, v) :: post) [k] = some v := by
  have hp : post.filter (fun it => [k].contains it.1) = [] := by
    rw [List.filter_eq_nil_iff]
    intro it hit
    simpa using hpost it hit
  simp only [lastValue, List.filter_append, List.filter_cons]
  rw [if_pos (by simp), hp]
  simp

theorem lastValue_none {m : Metadata.Meta} {k : Bytes} (h : ∀ it ∈ m, it.1 ≠ k) : lastValue m [k] = none := by
  have hp : m.filter (fun it => [k].contains it.1) = [] := by
    rw [List.filter_eq_nil_iff]
    intro it hit
    simpa using h it hit
  simp only [lastValue]
  rw [hp]
  rfl

theorem digit_byte : ∀ k : Fin 10, isDigit (UInt8.ofNat (48 + k.val)) = true ∧
    (UInt8.ofNat (48 + k.val)).toNat = 48 + k.val ∧ isSpace (UInt8.ofNat (48 + k.val)) = false ∧
    UInt8.ofNat (48 + k.val) ≠ c!"-" ∧ UInt8.ofNat (48 + k.val) ≠ c!"+" := by decide +kernel

theorem atoiDigits_append (n : Int) (a b : Bytes) (h : ∀ c ∈ a, isDigit c = true) :
    atoiDigits n (a ++ b) = atoiDigits (atoiDigits n a) b := by
  induction a generalizing n with
  | nil => rfl
  | cons c t ih =>
    simp only [List.cons_append, atoiDigits]
    rw [if_pos (h c (by simp)), if_pos (h c (by simp)), ih _ fun c hc => h c (by simp [hc])]

theorem decimal_digits (n : Nat) : ∀ c ∈ Man.decimal n, isDigit c = true := by
  fun_induction Man.decimal n with
  | case1 n h =>
    simp only [List.mem_singleton]
    rintro c rfl
    exact (digit_byte ⟨n, h⟩).1
  | case2 n h ih =>
    intro c hc
    rcases List.mem_append.1 hc with hc | hc
    · exact ih c hc
    · simp only [List.mem_singleton] at hc
      subst hc
      exact (digit_byte ⟨n % 10, Nat.mod_lt _ (by omega)⟩).1

theorem atoiDigits_decimal (n : Nat) : atoiDigits 0 (Man.decimal n) = n := by
  fun_induction Man.decimal n with
  | case1 n h =>
    have := digit_byte ⟨n, h⟩
    simp only [atoiDigits, this.1, this.2.1, if_true]
    omega
  | case2 n h ih =>
    have := digit_byte ⟨n % 10, Nat.mod_lt _ (by omega)⟩
    rw [atoiDigits_append _ _ _ (decimal_digits _), ih]
    simp only [atoiDigits, this.1, this.2.1, if_true]
    omega

theorem decimal_head (n : Nat) : ∃ (k : Fin 10) (t : Bytes), Man.decimal n = UInt8.ofNat (48 + k.val) :: t := by
  fun_induction Man.decimal n with
  | case1 n h => exact ⟨⟨n, h⟩, [], rfl⟩
  | case2 n h ih =>
    obtain ⟨k, t, ht⟩ := ih
    exact ⟨k, _, by rw [ht]; rfl⟩

theorem atoi_decimal (n : Nat) : atoi (Man.decimal n) = n := by
  have h := atoiDigits_decimal n
  obtain ⟨k, t, ht⟩ := decimal_head n
  obtain ⟨-, -, h1, h2, h3⟩ := digit_byte k
  rw [ht] at h ⊢
  simp only [atoi]
  rw [List.dropWhile_cons_of_neg (by rw [h1]; decide)]
  simp only []
  rw [if_neg h2, if_neg h3, h]

theorem atoi_neg_decimal (n : Nat) : atoi (c!"-" :: Man.decimal n) = -(n : Int) := by
  simp only [atoi]
  rw [List.dropWhile_cons_of_neg (by decide)]
  simp only [if_true]
  rw [atoiDigits_decimal]

theorem fromManifest_some {regcomp : Bytes → Bool → Option Rx} {entry dir : Bytes} {sup : Option Bytes}
    {m : Metadata.Meta} {p : Plugin} (h : fromManifest regcomp entry dir sup m = some p) :
    ∃ phase, (lastValue m [b!"phase"]).bind phaseOf = some phase ∧ p.phase = phase ∧
      p.id = (lastValue m [b!"id"]).getD entry ∧
      p.priority = (match lastValue m [b!"priority"] with
        | some s => atoi s
        | none => 100) ∧
      (p.command = none ∨ p.regex = none) := by
  simp only [fromManifest] at h
  split at h
  · cases h
  · rename_i phase hph
    refine ⟨phase, hph, ?_⟩
    split at h
    · rename_i hc _ _
      split at h
      · cases h; exact ⟨rfl, rfl, rfl, .inl hc⟩
      · cases h
    · cases h; exact ⟨rfl, rfl, rfl, .inr rfl⟩

end Verif.Plugins
