import Verif.Model.HrBreak
import Verif.Spec.HrBreak
import Verif.Proof.Transforms

namespace Verif.HrBreak
open Spec
open Transforms (strstr)

def Inv (o : Out) : Prop := o.remaining = o.cap - o.text.length ∧ o.text.length < o.cap

theorem write_val {o : Out} (h : Inv o) (e : Nat) (s : Bytes) : ∃ o', write o e s = .val o' ∧ Inv o' ∧ o'.text = o.text ++ s := by
  obtain ⟨h1, h2⟩ := h
  unfold write
  simp only []
  split
  · simp only
    rw [puts_val (by omega)]
    exact ⟨_, rfl, ⟨by simp only [List.length_append]; omega, by simp only [List.length_append]; omega⟩, rfl⟩
  · rw [puts_val (by omega)]
    exact ⟨_, rfl, ⟨by simp only [List.length_append]; omega, by simp only [List.length_append]; omega⟩, rfl⟩

theorem finish_inv {o : Out} (h : Inv o) : finish o.cap o.text = .val o.text := finish_val h.2

theorem strstr_first {a : Bytes} (z : Bytes) (h : ¬ b!"<hr" <:+: a) : strstr (a ++ (b!"<hr" ++ z)) b!"<hr" = some a.length := by
  induction a with
  | nil => unfold strstr; simp
  | cons c a ih =>
    have h1 : ¬ b!"<hr" <:+: a := fun hi => h (hi.trans (List.suffix_cons c a).isInfix)
    have h2 : b!"<hr".isPrefixOf (c :: a ++ (b!"<hr" ++ z)) = false := by
      rw [Bool.eq_false_iff]
      intro hp
      rw [List.isPrefixOf_iff_prefix] at hp
      match a, h, hp with
      | [], _, hp => simp at hp
      | [d], _, hp => simp at hp
      | d :: e :: a, h, hp =>
        simp at hp
        obtain ⟨rfl, rfl, rfl⟩ := hp
        exact h ⟨[], a, rfl⟩
    rw [List.cons_append] at h2 ⊢
    unfold strstr
    rw [h2]
    show Option.map (· + 1) (strstr (a ++ (b!"<hr" ++ z)) b!"<hr") = _
    rw [ih h1]
    rfl

theorem takeWhile_stop {d : Byte} {s z : Bytes} (h : d ∉ s) : (s ++ d :: z).takeWhile (· ≠ d) = s := by
  induction s with
  | nil => simp
  | cons c s ih =>
    have hc : c ≠ d := fun e => h (by simp [e])
    rw [List.cons_append, List.takeWhile_cons, if_pos (by simp [hc]), ih (fun hm => h (by simp [hm]))]

theorem loop_page : ∀ (l : List (Bytes × Bytes)) (tail : Bytes) (n : Nat) (o : Out), Inv o → (page l tail).length ≤ n → Cut l tail →
    loop n o (page l tail) = .val (o.text ++ broken l tail)
  | [], tail, n, o, hi, hn, hc => by
    have e1 : page [] tail = tail := rfl
    have e2 : broken [] tail = tail := rfl
    rw [e1] at hn
    rw [e1, e2]
    match n, tail, hn, hc with
    | 0, [], _, _ => rw [loop, finish_inv hi]; simp
    | n + 1, [], _, _ => rw [loop, finish_inv hi]; simp
    | 0, c :: t, hn, _ => simp at hn
    | n + 1, c :: t, hn, hc =>
      rw [loop]
      simp only []
      cases hs : strstr (c :: t) b!"<hr" with
      | none =>
        obtain ⟨o', h1, h2, h3⟩ := write_val hi 0 (c :: t)
        simp only [h1, C.val_bind]
        rw [finish_inv h2, h3]
      | some i =>
        have hf := (Transforms.strstr_some hs).1
        have hg : c!">" ∉ (c :: t).drop i := by
          have h4 := hc.2 _ _ hf
          have h5 : (c :: t).drop i = b!"<hr" ++ (c :: t).drop (i + 3) := by
            have h6 := List.take_append_drop i (c :: t)
            rw [hf, List.append_assoc] at h6
            have h7 : (c :: t).take i ++ (c :: t).drop i = (c :: t).take i ++ (b!"<hr" ++ (c :: t).drop (i + 3)) := by
              rw [List.take_append_drop, ← List.append_assoc]; exact hf
            exact List.append_cancel_left h7
          rw [h5]
          simpa using h4
        obtain ⟨o', h1, h2, h3⟩ := write_val hi replacement.length ((c :: t).take i)
        obtain ⟨o'', h4, h5, h6⟩ := write_val h2 0 ((c :: t).drop i)
        simp only [h1, C.val_bind, if_neg hg, h4]
        rw [finish_inv h5, h6, h3, List.append_assoc, List.take_append_drop]
  | (a, x) :: l, tail, n, o, hi, hn, hc => by
    have hcl : Cut l tail := ⟨fun y hy => hc.1 y (List.mem_cons_of_mem _ hy), hc.2⟩
    obtain ⟨ha, hx⟩ := hc.1 (a, x) (List.mem_cons_self)
    have e1 : page ((a, x) :: l) tail = a ++ (b!"<hr" ++ (x ++ (c!">" :: page l tail))) := by simp [page, rule]
    have e2 : broken ((a, x) :: l) tail = a ++ (pageBreak ++ broken l tail) := by simp [broken]
    rw [e2]
    cases n with
    | zero => rw [e1] at hn; simp at hn
    | succ n =>
      have hlen : (page l tail).length ≤ n := by rw [e1] at hn; simp at hn; omega
      have hs : strstr (page ((a, x) :: l) tail) b!"<hr" = some a.length := by rw [e1]; exact strstr_first _ ha
      have ht : (page ((a, x) :: l) tail).take a.length = a := by rw [e1, List.take_left]
      have hd : (page ((a, x) :: l) tail).drop a.length = b!"<hr" ++ x ++ c!">" :: page l tail := by rw [e1, List.drop_left]; simp
      have hm : c!">" ∈ b!"<hr" ++ x ++ c!">" :: page l tail := by simp
      have hw : (b!"<hr" ++ x ++ c!">" :: page l tail).takeWhile (· ≠ c!">") = b!"<hr" ++ x :=
        takeWhile_stop (by simp [hx])
      cases hp : page ((a, x) :: l) tail with
      | nil => rw [e1] at hp; simp at hp
      | cons c t =>
        rw [hp] at hs ht hd
        rw [loop]
        simp only []
        obtain ⟨o', h1, h2, h3⟩ := write_val hi replacement.length a
        obtain ⟨o'', h4, h5, h6⟩ := write_val h2 0 replacement
        simp only [hs, ht, hd, h1, C.val_bind, if_pos hm, h4, hw]
        have hl : (b!"<hr" ++ x).length + 1 = (b!"<hr" ++ x ++ [c!">"]).length := by simp
        have hsplit : b!"<hr" ++ x ++ c!">" :: page l tail = (b!"<hr" ++ x ++ [c!">"]) ++ page l tail := by simp
        rw [hl, hsplit, List.drop_left, loop_page l tail n o'' h5 hlen hcl, h6, h3]
        have : replacement = pageBreak := rfl
        rw [this]
        simp

theorem replace_page (l : List (Bytes × Bytes)) (tail : Bytes) (h : Cut l tail) : replace (page l tail) = .val (broken l tail) := by
  unfold replace
  rw [loop_page l tail _ _ ⟨by simp, by simp⟩ (Nat.le_refl _) h]
  simp

theorem cut_exists (html : Bytes) : ∃ l tail, html = page l tail ∧ Cut l tail := by
  generalize hn : html.length = n
  induction n using Nat.strongRecOn generalizing html with
  | _ n ih =>
    by_cases h : ∃ a b, html = a ++ b!"<hr" ++ b ∧ c!">" ∈ b
    · cases hs : strstr html b!"<hr" with
      | none =>
        obtain ⟨a, b, h1, _⟩ := h
        exact absurd ⟨a, b, h1.symm⟩ (Transforms.strstr_none hs)
      | some i =>
        obtain ⟨hf1, hf2⟩ := Transforms.strstr_some hs
        generalize hp : html.take i = p at hf1 hf2
        generalize hr : html.drop (i + b!"<hr".length) = r at hf1 hf2
        have hno : ¬ b!"<hr" <:+: p := by
          rintro ⟨u, v, hv⟩
          have := hf2 u (v ++ b!"<hr" ++ r) (by rw [hf1, ← hv]; simp)
          have h2 := congrArg List.length hv
          simp at h2
          omega
        have hg : c!">" ∈ r := by
          obtain ⟨a, b, h1, h2⟩ := h
          have hl := hf2 a b h1
          rw [hf1] at h1
          have h3 : r.length ≥ b.length := by
            have := congrArg List.length h1
            simp at this
            omega
          have h4 : b <:+ r := List.suffix_of_suffix_length_le (l₃ := p ++ b!"<hr" ++ r)
            (by rw [h1]; exact List.suffix_append _ _) (List.suffix_append _ _) h3
          exact h4.mem h2
        obtain ⟨x, y, hx, hxg⟩ := List.eq_append_cons_of_mem hg
        obtain ⟨l, tail, h1, h2⟩ := ih y.length (by
          have := congrArg List.length hf1
          rw [hx] at this
          simp at this
          omega) y rfl
        refine ⟨(p, x) :: l, tail, ?_, ⟨?_, h2.2⟩⟩
        · rw [hf1, hx, h1]
          simp [page, rule]
        · intro z hz
          rcases List.mem_cons.1 hz with rfl | hz
          · exact ⟨hno, hxg⟩
          · exact h2.1 z hz
    · refine ⟨[], html, rfl, ⟨by simp, ?_⟩⟩
      intro a b hb hg
      exact h ⟨a, b, hb, hg⟩

/-- A rule begins in the text behind `p` if it does not begin in `p` itself. -/
theorem occ_behind {p z a b : Bytes} (hp : ∀ u v, u ++ v = p → v ≠ [] → ¬ b!"<hr" <+: v ++ z) (h : p ++ z = a ++ b!"<hr" ++ b) :
    ∃ a', z = a' ++ b!"<hr" ++ b := by
  by_cases hl : p.length ≤ a.length
  · have h1 : p <+: a := List.prefix_of_prefix_length_le (l₃ := p ++ z) (List.prefix_append _ _)
      (by rw [h, List.append_assoc]; exact List.prefix_append _ _) hl
    obtain ⟨a', rfl⟩ := h1
    refine ⟨a', ?_⟩
    rw [List.append_assoc, List.append_assoc] at h
    rw [List.append_assoc]
    exact List.append_cancel_left h
  · have h1 : a <+: p := List.prefix_of_prefix_length_le (l₃ := p ++ z)
      (by rw [h, List.append_assoc]; exact List.prefix_append _ _) (List.prefix_append _ _) (by omega)
    obtain ⟨v, hv⟩ := h1
    exfalso
    refine hp a v hv (fun e => ?_) ?_
    · subst e; simp at hv; rw [hv] at hl; omega
    · rw [← hv, List.append_assoc, List.append_assoc] at h
      rw [List.append_cancel_left h]
      exact List.prefix_append _ _

theorem text_free {a : Bytes} (z : Bytes) (h : ¬ b!"<hr" <:+: a) (u v : Bytes) (he : u ++ v = a) (hv : v ≠ []) :
    ¬ b!"<hr" <+: v ++ (pageBreak ++ z) := by
  have hb : pageBreak ++ z = c!"<" :: c!"d" :: (pageBreak.drop 2 ++ z) := rfl
  rw [hb]
  intro hp
  match v, hv with
  | [c], _ => simp at hp
  | [c, d], _ => simp at hp
  | c :: d :: e :: v, _ =>
    simp at hp
    obtain ⟨rfl, rfl, rfl⟩ := hp
    exact h ⟨u, v, by rw [← he]; simp⟩

/-- The places in `s` at which `<hr` may begin, if other text follows. -/
def starts : Bytes → List Bytes
  | [] => []
  | c :: t => (c :: t) :: starts t

theorem mem_starts : ∀ (p u v : Bytes), u ++ v = p → v ≠ [] → v ∈ starts p
  | p, [], v, h, hv => by
    simp at h; subst h
    cases v with
    | nil => exact absurd rfl hv
    | cons c v => exact List.mem_cons_self
  | p, c :: u, v, h, hv => by
    subst h
    exact List.mem_cons_of_mem _ (mem_starts (u ++ v) u v rfl hv)

theorem break_starts : ∀ v ∈ starts pageBreak, v.length ≥ 3 ∧ b!"<hr".isPrefixOf v = false ∨ v = b!">" ∨ v = b!"v>" := by
  decide +kernel

theorem break_free (z u v : Bytes) (he : u ++ v = pageBreak) (hv : v ≠ []) : ¬ b!"<hr" <+: v ++ z := by
  intro hp
  rcases break_starts v (mem_starts _ u v he hv) with ⟨h1, h2⟩ | rfl | rfl
  · have : b!"<hr" <+: v := List.prefix_of_prefix_length_le hp (List.prefix_append _ _) h1
    rw [← List.isPrefixOf_iff_prefix, h2] at this
    cases this
  · simp at hp
  · simp at hp

theorem broken_gone {l : List (Bytes × Bytes)} {tail : Bytes} (h : Cut l tail) :
    ∀ a b, broken l tail = a ++ b!"<hr" ++ b → c!">" ∉ b := by
  induction l with
  | nil => exact h.2
  | cons e l ih =>
    obtain ⟨t, x⟩ := e
    intro a b hab
    have e2 : broken ((t, x) :: l) tail = t ++ (pageBreak ++ broken l tail) := by simp [broken]
    rw [e2] at hab
    obtain ⟨a1, h1⟩ := occ_behind (text_free _ (h.1 (t, x) List.mem_cons_self).1) hab
    obtain ⟨a2, h2⟩ := occ_behind (break_free _) h1
    exact ih ⟨fun y hy => h.1 y (List.mem_cons_of_mem _ hy), h.2⟩ a2 b h2

end Verif.HrBreak
