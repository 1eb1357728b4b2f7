/- Lemmas about the headers of tables without a separator. -/
import Verif.Model.RelaxedHeads
import Verif.Spec.RelaxedHeads
import Verif.Proof.SepRows

namespace Verif.RelaxedHeads
open Spec
open SepRows.Spec (Cell Row Dashy)
open SepRows (cells no_tag no_lt row_lt rowBody cells_gap cells_cell cells_zero)
open Transforms (strstr)

/-! ### Without the buffer -/

def toBody : Nat → Nat → Bytes → Bytes × Bytes
  | 0, _, p => ([], p)
  | _, 0, p => ([], p)
  | f + 1, n + 1, p =>
    if b!"<th>".isPrefixOf p then
      let r := toBody f (n + 1 - 4) (p.drop 4)
      (b!"<td>" ++ r.1, r.2)
    else if b!"</th>".isPrefixOf p then
      let r := toBody f (n + 1 - 5) (p.drop 5)
      (b!"</td>" ++ r.1, r.2)
    else if b!"<th ".isPrefixOf p then
      let attrs := (p.drop 3).takeWhile (· ≠ c!">")
      let q := p.drop (3 + attrs.length)
      if q.head? = some c!">" then
        let r := toBody f (n + 1 - (3 + attrs.length + 1)) (q.drop 1)
        (b!"<td" ++ attrs ++ b!">" ++ r.1, r.2)
      else
        let r := toBody f (n + 1 - (3 + attrs.length)) q
        (b!"<td" ++ attrs ++ r.1, r.2)
    else if b!"</thead>".isPrefixOf p then ([], afterHead (p.drop 8))
    else match p with
      | [] => ([], [])
      | c :: t => let r := toBody f n t; (c :: r.1, r.2)

theorem pre_len {x p : Bytes} (h : x.isPrefixOf p = true) : x.length ≤ p.length :=
  (List.isPrefixOf_iff_prefix.1 h).length_le

theorem afterHead_len (p : Bytes) : (afterHead p).length ≤ p.length := by
  unfold afterHead
  simp only
  split
  · have := (List.dropWhile_suffix (l := p) fun c => c == c!" " || c == c!"\n" || c == c!"\t").length_le
    simp only [List.length_drop]
    omega
  · exact Nat.le_refl _

theorem attrs_len (p : Bytes) (h : 3 ≤ p.length) : 3 + ((p.drop 3).takeWhile (· ≠ c!">")).length ≤ p.length := by
  have := (List.takeWhile_prefix (l := p.drop 3) (· ≠ c!">")).length_le
  simp only [List.length_drop] at this
  omega

theorem asBody_eq (cap : Nat) : ∀ (f n : Nat) (out p : Bytes), n < f → n ≤ p.length → out.length + p.length ≤ cap →
    asBody cap f n out p = .val (out ++ (toBody f n p).1, (toBody f n p).2) ∧
    (toBody f n p).1.length + (toBody f n p).2.length ≤ p.length
  | 0, _, _, _, h, _, _ => by omega
  | f + 1, 0, out, p, _, _, _ => by simp [asBody, toBody]
  | f + 1, n + 1, out, p, hf, hn, hc => by
    rw [asBody.eq_def, toBody.eq_def]
    simp only []
    split
    · rename_i h
      have hl := pre_len h
      simp only [List.length_cons, List.length_nil] at hl
      obtain ⟨h1, h2⟩ := asBody_eq cap f (n + 1 - 4) (out ++ b!"<td>") (p.drop 4) (by omega) (by simp; omega) (by simp; omega)
      rw [puts_val (by simp; omega), C.val_bind, h1]
      exact ⟨by simp, by simp at h2 ⊢; omega⟩
    split
    · rename_i h
      have hl := pre_len h
      simp only [List.length_cons, List.length_nil] at hl
      obtain ⟨h1, h2⟩ := asBody_eq cap f (n + 1 - 5) (out ++ b!"</td>") (p.drop 5) (by omega) (by simp; omega) (by simp; omega)
      rw [puts_val (by simp; omega), C.val_bind, h1]
      exact ⟨by simp, by simp at h2 ⊢; omega⟩
    split
    · rename_i h
      have hl := pre_len h
      simp only [List.length_cons, List.length_nil] at hl
      have ha := attrs_len p (by omega)
      generalize ((p.drop 3).takeWhile (· ≠ c!">")) = attrs at ha
      rw [puts_val (by simp; omega), C.val_bind, puts_val (by simp; omega), C.val_bind]
      split
      · rename_i hg
        have hq : 3 + attrs.length < p.length := by
          rw [List.head?_drop] at hg
          exact (List.getElem?_eq_some_iff.1 hg).1
        obtain ⟨h1, h2⟩ := asBody_eq cap f (n + 1 - (3 + attrs.length + 1)) (out ++ b!"<td" ++ attrs ++ [c!">"])
          ((p.drop (3 + attrs.length)).drop 1) (by omega) (by simp; omega) (by simp; omega)
        rw [put_val (by simp; omega), C.val_bind, h1]
        exact ⟨by simp, by simp at h2 ⊢; omega⟩
      · obtain ⟨h1, h2⟩ := asBody_eq cap f (n + 1 - (3 + attrs.length)) (out ++ b!"<td" ++ attrs)
          (p.drop (3 + attrs.length)) (by omega) (by simp; omega) (by simp; omega)
        rw [h1]
        exact ⟨by simp, by simp at h2 ⊢; omega⟩
    split
    · have := afterHead_len (p.drop 8)
      simp at this
      exact ⟨by simp, by simp; omega⟩
    · cases p with
      | nil => simp at hn
      | cons c t =>
        simp only [List.length_cons] at hn hc
        obtain ⟨h1, h2⟩ := asBody_eq cap f n (out ++ [c]) t (by omega) (by omega) (by simp; omega)
        simp only
        rw [put_val (by omega), C.val_bind, h1]
        exact ⟨by simp, by simp; omega⟩

def go : Nat → Bytes → Bytes
  | _, [] => []
  | 0, _ => []
  | f + 1, c :: t =>
    match act (c :: t) with
    | .skip r => go f r
    | .body n =>
      let r := toBody (n + 1) n ((c :: t).drop 7)
      b!"<tbody>" ++ r.1 ++ go f r.2
    | .copy => c :: go f t

theorem act_skip {p r : Bytes} (h : act p = .skip r) : ∃ x, p = b!"<thead>" ++ x ++ b!"</thead>" ++ r ∧ ¬ b!"</thead>" <:+: x := by
  unfold act at h
  split at h
  · rename_i hp
    obtain ⟨z, rfl⟩ := List.isPrefixOf_iff_prefix.1 hp
    have e : (b!"<thead>" ++ z).drop 7 = z := rfl
    simp only [e] at h
    cases hs : strstr z b!"</thead>" with
    | none => rw [hs] at h; cases h
    | some i =>
      rw [hs] at h
      simp only at h
      split at h
      · obtain ⟨⟩ := h
        obtain ⟨h1, h2⟩ := Transforms.strstr_some hs
        refine ⟨z.take i, by conv => lhs; rw [h1]
                             simp, ?_⟩
        rintro ⟨u, v, hv⟩
        have h3 := h2 u (v ++ b!"</thead>" ++ z.drop (i + 8)) (by
          conv => lhs; rw [h1, ← hv]
          simp)
        have h4 := congrArg List.length hv
        simp only [List.length_append, List.length_cons, List.length_nil] at h3 h4
        omega
      · split at h
        · split at h <;> cases h
        · cases h
  · cases h

theorem act_body {p : Bytes} {n : Nat} (h : act p = .body n) : ∃ z, p = b!"<thead>" ++ z ∧ n ≤ z.length := by
  unfold act at h
  split at h
  · rename_i hp
    obtain ⟨z, rfl⟩ := List.isPrefixOf_iff_prefix.1 hp
    have e : (b!"<thead>" ++ z).drop 7 = z := rfl
    simp only [e] at h
    refine ⟨z, rfl, ?_⟩
    cases hs : strstr z b!"</thead>" with
    | none => rw [hs] at h; cases h
    | some i =>
      rw [hs] at h
      have := Transforms.strstr_le hs
      simp only [List.length_cons, List.length_nil] at this
      simp only at h
      split at h
      · cases h
      · split at h
        · split at h
          · obtain ⟨⟩ := h; omega
          · cases h
        · cases h
  · cases h

theorem room_ok {L cap len : Nat} (h2 : 100 ≤ L → L * 2 ≤ cap) (hl : len ≤ L) (hL : 0 < L) :
    L + 1 ≤ room cap len ∧ (100 ≤ L → L * 2 ≤ room cap len) := by
  unfold room
  split
  · split <;> omega
  · omega

theorem loop_eq {L : Nat} (hL : 0 < L) : ∀ (f cap : Nat) (out p : Bytes), p.length ≤ f → out.length + p.length ≤ L → L + 1 ≤ cap →
    (100 ≤ L → L * 2 ≤ cap) → loop f cap out p = .val (out ++ go f p) ∧ (go f p).length ≤ p.length
  | f, cap, out, [], _, h, hc, _ => by
    have h1 : go f [] = [] := by cases f <;> rfl
    have h2 : loop f cap out [] = finish cap out := by cases f <;> rfl
    rw [h1, h2, finish_val (by simp at h; omega), List.append_nil]
    exact ⟨rfl, Nat.le_refl _⟩
  | 0, _, _, _ :: _, hn, _, _, _ => by simp at hn
  | f + 1, cap, out, c :: t, hf, h, hc, hc2 => by
    obtain ⟨r1, r2⟩ := room_ok (len := out.length) hc2 (by omega) hL
    rw [loop, go]
    generalize room cap out.length = cap' at r1 r2
    simp only
    cases ha : act (c :: t) with
    | skip r =>
      obtain ⟨x, hx, _⟩ := act_skip ha
      have hl := congrArg List.length hx
      simp only [List.length_append, List.length_cons, List.length_nil] at hl h hf
      simp only
      obtain ⟨h1, h2⟩ := loop_eq hL f cap' out r (by omega) (by omega) r1 r2
      exact ⟨h1, by simp only [List.length_cons]; omega⟩
    | body n =>
      obtain ⟨z, hz, hn⟩ := act_body ha
      have e : (c :: t).drop 7 = z := by rw [hz]; rfl
      have hl := congrArg List.length hz
      simp only [List.length_append, List.length_cons, List.length_nil] at hl h hf
      simp only [e]
      obtain ⟨h1, h2⟩ := asBody_eq cap' (n + 1) n (out ++ b!"<tbody>") z (by omega) hn (by simp; omega)
      rw [puts_val (by simp; omega), C.val_bind, h1, C.val_bind]
      generalize toBody (n + 1) n z = r at h2
      obtain ⟨h3, h4⟩ := loop_eq hL f cap' (out ++ b!"<tbody>" ++ r.1) r.2 (by omega) (by simp; omega) r1 r2
      exact ⟨by rw [h3]; simp, by simp; omega⟩
    | copy =>
      simp only [List.length_cons] at h hf
      obtain ⟨h1, h2⟩ := loop_eq hL f cap' (out ++ [c]) t (by omega) (by simp; omega) r1 r2
      simp only
      rw [put_val (by omega), C.val_bind, h1]
      exact ⟨by simp, by simpa using h2⟩

theorem convert_eq {html : Bytes} (h : html ≠ []) : convert html = .val (go html.length html) := by
  have := List.length_pos_iff.2 h
  have h1 := (loop_eq this html.length (html.length * 2) [] html (Nat.le_refl _) (by simp) (by omega) (by omega)).1
  exact h1

/-! ### Every page -/

theorem edited_append (a : Bytes) {s o : Bytes} (h : Edited s o) : Edited (a ++ s) (a ++ o) := by
  induction a with
  | nil => exact h
  | cons c a ih => exact .keep ih

theorem afterHead_edited {p o : Bytes} (h : Edited (afterHead p) o) : Edited (b!"</thead>" ++ p) o := by
  unfold afterHead at h
  simp only at h
  split at h
  · rename_i hp
    obtain ⟨z, hz⟩ := List.isPrefixOf_iff_prefix.1 hp
    rw [← hz, show (b!"<tbody>" ++ z).drop 7 = z from rfl] at h
    have hg : ∀ c ∈ p.takeWhile (fun c => c == c!" " || c == c!"\n" || c == c!"\t"), c ∈ b!" \n\t" := by
      intro c hc
      have := List.all_eq_true.1 (List.all_takeWhile (l := p) (p := fun c => c == c!" " || c == c!"\n" || c == c!"\t")) c hc
      simpa [or_assoc] using this
    have := Edited.join hg h
    rw [List.append_assoc, hz, List.append_assoc, List.takeWhile_append_dropWhile] at this
    exact this
  · exact .close h

theorem pre_split {x p : Bytes} (h : x.isPrefixOf p = true) : p = x ++ p.drop x.length := by
  obtain ⟨z, rfl⟩ := List.isPrefixOf_iff_prefix.1 h
  simp

theorem drop_takeWhile (f : Byte → Bool) : ∀ z : Bytes, z.drop (z.takeWhile f).length = z.dropWhile f
  | [] => rfl
  | c :: z => by
    rw [List.takeWhile_cons, List.dropWhile_cons]
    split
    · exact drop_takeWhile f z
    · rfl

theorem toBody_edited : ∀ (f n : Nat) (p o : Bytes), Edited (toBody f n p).2 o → Edited p ((toBody f n p).1 ++ o)
  | 0, _, p, o, h => h
  | f + 1, 0, p, o, h => h
  | f + 1, n + 1, p, o, h => by
    rw [toBody.eq_def] at h ⊢
    simp only [] at h ⊢
    split
    · rename_i hp
      rw [if_pos hp] at h
      simp only at h ⊢
      rw [List.append_assoc]
      conv => lhs; rw [pre_split hp]
      exact .tag (by simp) (toBody_edited f _ _ o h)
    rename_i hn1
    rw [if_neg hn1] at h
    split
    · rename_i hp
      rw [if_pos hp] at h
      simp only at h ⊢
      rw [List.append_assoc]
      conv => lhs; rw [pre_split hp]
      exact .tag (by simp) (toBody_edited f _ _ o h)
    rename_i hn2
    rw [if_neg hn2] at h
    split
    · rename_i hp
      rw [if_pos hp] at h
      obtain ⟨z, rfl⟩ := List.isPrefixOf_iff_prefix.1 hp
      have e3 : (b!"<th " ++ z).drop 3 = c!" " :: z := rfl
      simp only [e3] at h ⊢
      have etw : (c!" " :: z).takeWhile (· ≠ c!">") = c!" " :: z.takeWhile (· ≠ c!">") := rfl
      simp only [etw] at h ⊢
      have ed : (b!"<th " ++ z).drop (3 + (c!" " :: z.takeWhile (· ≠ c!">")).length) = z.dropWhile (· ≠ c!">") := by
        have : 3 + (c!" " :: z.takeWhile (· ≠ c!">")).length = b!"<th ".length + (z.takeWhile (· ≠ c!">")).length := by simp; omega
        rw [this, List.drop_length_add_append]
        exact drop_takeWhile _ z
      rw [ed] at h ⊢
      have ez : b!"<th " ++ z = b!"<th " ++ (z.takeWhile (· ≠ c!">") ++ z.dropWhile (· ≠ c!">")) := by
        rw [List.takeWhile_append_dropWhile]
      rw [ez]
      generalize z.takeWhile (· ≠ c!">") = a at h ⊢
      generalize z.dropWhile (· ≠ c!">") = q at h ⊢
      split
      · rename_i hg
        rw [if_pos hg] at h
        simp only at h ⊢
        cases q with
        | nil => simp at hg
        | cons d q =>
          simp at hg
          subst hg
          have ih := toBody_edited f _ _ o h
          have := Edited.tag (x := b!"<th ") (y := b!"<td ") (by simp) (edited_append a (Edited.keep (c := c!">") ih))
          simpa using this
      · rename_i hg
        rw [if_neg hg] at h
        simp only at h ⊢
        have ih := toBody_edited f _ _ o h
        have := Edited.tag (x := b!"<th ") (y := b!"<td ") (by simp) (edited_append a ih)
        simpa using this
    rename_i hn3
    rw [if_neg hn3] at h
    split
    · rename_i hp
      rw [if_pos hp] at h
      conv => lhs; rw [pre_split hp]
      exact afterHead_edited h
    rename_i hn4
    rw [if_neg hn4] at h
    cases p with
    | nil => exact h
    | cons c t => exact .keep (toBody_edited f n t o h)

theorem go_edited : ∀ (f : Nat) (p : Bytes), p.length ≤ f → Edited p (go f p)
  | 0, [], _ => .nil
  | _ + 1, [], _ => .nil
  | 0, _ :: _, h => by simp at h
  | f + 1, c :: t, h => by
    simp only [List.length_cons] at h
    rw [go]
    cases ha : act (c :: t) with
    | skip r =>
      obtain ⟨x, hx, hn⟩ := act_skip ha
      have hl := congrArg List.length hx
      simp only [List.length_append, List.length_cons, List.length_nil] at hl
      rw [hx]
      exact .drop hn (go_edited f r (by omega))
    | body n =>
      obtain ⟨z, hz, hn⟩ := act_body ha
      have e : (c :: t).drop 7 = z := by rw [hz]; rfl
      have hl := congrArg List.length hz
      simp only [List.length_append, List.length_cons, List.length_nil] at hl
      simp only [e]
      have h2 := (asBody_eq z.length (n + 1) n [] z (by omega) hn (by simp)).2
      rw [hz, List.append_assoc]
      exact .tag (by simp) (toBody_edited _ _ _ _ (go_edited f _ (by omega)))
    | copy => exact .keep (go_edited f t (by omega))

/-! ### Places where a tag does not begin -/

def NoStart (pat s z : Bytes) : Prop := ∀ u v, s = u ++ v → v ≠ [] → ¬ pat <+: v ++ z

theorem ns_nil {pat z : Bytes} : NoStart pat [] z := by
  intro u v e hv
  exact absurd (List.append_eq_nil_iff.1 e.symm).2 hv

theorem ns_cons {pat s z : Bytes} {c : Byte} (h : ¬ pat <+: c :: (s ++ z)) (hs : NoStart pat s z) : NoStart pat (c :: s) z := by
  intro u v e hv
  cases u with
  | nil => simp at e; subst e; exact h
  | cons d u => simp at e; exact hs u v e.2 hv

theorem ns_head {pat s z : Bytes} {c : Byte} (h : NoStart pat (c :: s) z) : ¬ pat <+: c :: (s ++ z) := h [] (c :: s) rfl (by simp)

theorem ns_tail {pat s z : Bytes} {c : Byte} (h : NoStart pat (c :: s) z) : NoStart pat s z :=
  fun u v e hv => h (c :: u) v (by rw [e]; rfl) hv

theorem ns_append {pat t z : Bytes} (ht : NoStart pat t z) : ∀ {s : Bytes}, NoStart pat s (t ++ z) → NoStart pat (s ++ t) z
  | [], _ => ht
  | c :: s, hs => by
    rw [List.cons_append]
    refine ns_cons ?_ (ns_append ht (ns_tail hs))
    rw [List.append_assoc]
    exact ns_head hs

theorem ns_lt {pt s z : Bytes} (h : c!"<" ∉ s) : NoStart (c!"<" :: pt) s z := fun _ _ e hv => no_lt h e hv

theorem ns_tag {pt s w : Bytes} (hpt : c!"<" ∉ pt) (h : ¬ (c!"<" :: pt) <:+: s) : NoStart (c!"<" :: pt) s (c!"<" :: w) :=
  fun _ _ e hv => no_tag hpt h (Or.inr ⟨w, rfl⟩) e hv

theorem strstr_skip {pat z : Bytes} : ∀ {s : Bytes}, NoStart pat s z → strstr (s ++ z) pat = (strstr z pat).map (· + s.length)
  | [], _ => by simp
  | c :: s, h => by
    have h1 : ¬ pat.isPrefixOf (c :: (s ++ z)) = true := by rw [List.isPrefixOf_iff_prefix]; exact ns_head h
    have h2 : strstr (c :: (s ++ z)) pat = (strstr (s ++ z) pat).map (· + 1) := by
      conv => lhs; unfold strstr
      rw [if_neg h1]
    rw [List.cons_append, h2, strstr_skip (ns_tail h), Option.map_map]
    rfl

theorem strstr_here (pat z : Bytes) : strstr (pat ++ z) pat = some 0 := by
  unfold strstr
  rw [if_pos (by rw [List.isPrefixOf_iff_prefix]; exact List.prefix_append _ _)]

theorem strstr_at {pat s : Bytes} (z : Bytes) (h : NoStart pat s (pat ++ z)) : strstr (s ++ (pat ++ z)) pat = some s.length := by
  rw [strstr_skip h, strstr_here]
  simp

theorem not_pre {x p : Bytes} (h : ¬ x <+: p) : x.isPrefixOf p = false := by
  rw [Bool.eq_false_iff, Ne, List.isPrefixOf_iff_prefix]; exact h

/-! ### Is the header empty? -/

theorem ae_step {c : Byte} {p : Bytes} (f n : Nat) (found : Bool) (h : ¬ b!"<th" <+: c :: p) :
    allEmpty (f + 1) (n + 1) found (c :: p) = allEmpty f n found p := by
  have h1 : ∀ x : Byte, ([c!"<", c!"t", c!"h", x]).isPrefixOf (c :: p) = false := fun x =>
    not_pre fun hp => h ((List.prefix_append b!"<th" [x]).trans hp)
  rw [allEmpty]
  simp only [h1 c!">", h1 c!" ", h1 c!"\t", Bool.or_false, Bool.false_eq_true, if_false, List.drop_one, List.tail_cons]

theorem ae_skip {p : Bytes} (f n : Nat) (found : Bool) : ∀ {s : Bytes}, NoStart b!"<th" s p →
    allEmpty (f + s.length) (n + s.length) found (s ++ p) = allEmpty f n found p
  | [], _ => rfl
  | c :: s, h => by
    rw [List.cons_append, List.length_cons, ← Nat.add_assoc, ← Nat.add_assoc, ae_step _ _ _ (ns_head h), ae_skip f n found (ns_tail h)]

def White (s : Bytes) : Prop := ∀ c ∈ s, c ∈ b!" \t\n\r" ∨ c = 11 ∨ c = 12

theorem white_iff (s : Bytes) : s.all isSpace = true ↔ White s := by
  rw [List.all_eq_true]
  have : ∀ c : Byte, isSpace c = true ↔ (c ∈ b!" \t\n\r" ∨ c = 11 ∨ c = 12) := by
    apply forall_byte
    decide +kernel
  exact forall_congr' fun c => forall_congr' fun _ => this c

theorem empty_cell (tag text z : Bytes) (n : Nat) (hn : tag.length + text.length < n) (ht : ¬ b!"</th>" <:+: text) :
    emptyCell n tag.length (tag ++ (text ++ (b!"</th>" ++ z))) = if text.all isSpace then some (tag.length + text.length + 5) else none := by
  unfold emptyCell
  have hs : strstr (text ++ (b!"</th>" ++ z)) b!"</th>" = some text.length := Tags.strstr_first z (by decide) ht
  rw [List.drop_left, hs]
  simp only [List.take_left, hn, true_and]

theorem ae_cell (c : Cell) (hc : c.Ok) (hh : c.head = true) (ha : c.attrs = [] ∨ ∃ a, c.attrs = c!" " :: a) (z : Bytes) (f n : Nat) (found : Bool) :
    allEmpty (f + 1) (n + c.html.length) found (c.html ++ z) = if c.text.all isSpace then allEmpty f n true z else false := by
  obtain ⟨head, attrs, text⟩ := c
  obtain ⟨h1, h2⟩ := hc
  simp only at *
  subst hh
  have ht : ¬ b!"</th>" <:+: text := h2 _ (by simp)
  have e : Cell.html ⟨true, attrs, text⟩ ++ z = (b!"<th" ++ attrs ++ b!">") ++ (text ++ (b!"</th>" ++ z)) := by simp [Cell.html]
  have el : (Cell.html ⟨true, attrs, text⟩).length = (b!"<th" ++ attrs ++ b!">").length + text.length + 5 := by
    simp only [Cell.html, if_true, List.length_append, List.length_cons, List.length_nil]
  have hd : ((b!"<th" ++ attrs ++ b!">") ++ (text ++ (b!"</th>" ++ z))).drop ((b!"<th" ++ attrs ++ b!">").length + text.length + 5) = z := by
    rw [← e, ← el, List.drop_left]
  have hec := empty_cell (b!"<th" ++ attrs ++ b!">") text z (n + (Cell.html ⟨true, attrs, text⟩).length) (by rw [el]; omega) ht
  rw [e]
  generalize hm : n + (Cell.html ⟨true, attrs, text⟩).length = m at hec
  obtain ⟨m, rfl⟩ : ∃ k, m = k + 1 := ⟨m - 1, by omega⟩
  have hsub : m + 1 - ((b!"<th" ++ attrs ++ b!">").length + text.length + 5) = n := by omega
  rw [allEmpty]
  rcases ha with rfl | ⟨a, rfl⟩
  · have hk : (b!"<th" ++ [] ++ b!">").length = 4 := rfl
    rw [if_pos (by simp)]
    rw [hk] at hec hd hsub
    rw [hec]
    by_cases hb : text.all isSpace = true
    · simp only [if_pos hb, hd, hsub]
    · simp only [if_neg hb]
  · have hw : ((b!"<th" ++ c!" " :: a ++ b!">") ++ (text ++ (b!"</th>" ++ z))).takeWhile (· ≠ c!">") = b!"<th" ++ c!" " :: a := by
      have : c!">" ∉ b!"<th" ++ c!" " :: a := by simpa using h1
      have h3 := Tags.takeWhile_stop (z := text ++ (b!"</th>" ++ z)) this
      simpa using h3
    have hk : (b!"<th" ++ c!" " :: a).length + 1 = (b!"<th" ++ c!" " :: a ++ b!">").length := by simp
    rw [if_neg (by simp), if_pos (by simp), if_pos (by simp), hw, hk, hec]
    by_cases hb : text.all isSpace = true
    · simp only [if_pos hb, hd, hsub]
    · simp only [if_neg hb]

theorem ae_row (z last : Bytes) (hlast : c!"<" ∉ last) : ∀ (l : List (Bytes × Cell)),
    (∀ x ∈ l, c!"<" ∉ x.1 ∧ x.2.Ok ∧ x.2.head = true ∧ (x.2.attrs = [] ∨ ∃ a, x.2.attrs = c!" " :: a)) →
    ∀ (f n : Nat) (found : Bool), n + (rowBody l last).length < f →
    ∃ k, n < k ∧ allEmpty f (n + (rowBody l last).length) found (rowBody l last ++ z) =
      if l.all (fun x => x.2.text.all isSpace) then allEmpty k n (found || !l.isEmpty) z else false
  | [], _, f, n, found, hf => by
    have e : rowBody [] last = last := rfl
    rw [e] at hf ⊢
    obtain ⟨k, rfl⟩ : ∃ k, f = k + last.length := ⟨f - last.length, by omega⟩
    refine ⟨k, by omega, ?_⟩
    rw [ae_skip _ _ _ (ns_lt hlast)]
    simp
  | (g, c) :: l, hl, f, n, found, hf => by
    obtain ⟨hg, hc, hh, ha⟩ := hl (g, c) List.mem_cons_self
    have e : rowBody ((g, c) :: l) last ++ z = g ++ (c.html ++ (rowBody l last ++ z)) := by simp [rowBody]
    have el : n + (rowBody ((g, c) :: l) last).length = n + (rowBody l last).length + c.html.length + g.length := by
      simp [rowBody]; omega
    have hpos : 0 < c.html.length := by unfold Cell.html; split <;> simp
    rw [el] at hf
    obtain ⟨k, rfl⟩ : ∃ k, f = k + 1 + g.length := ⟨f - 1 - g.length, by omega⟩
    rw [e, el, ae_skip _ _ _ (ns_lt hg), ae_cell c hc hh ha]
    by_cases hb : c.text.all isSpace = true
    · obtain ⟨k', h1, h2⟩ := ae_row z last hlast l (fun x hx => hl x (List.mem_cons_of_mem _ hx)) k n true (by omega)
      refine ⟨k', h1, ?_⟩
      rw [if_pos hb, h2, List.all_cons, hb, Bool.true_and]
      simp only [List.isEmpty_cons, Bool.not_false, Bool.or_true, Bool.true_or]
    · refine ⟨n + 1, by omega, ?_⟩
      rw [if_neg hb, List.all_cons, Bool.eq_false_iff.2 hb]
      rfl

theorem ns_lit {pt w z : Bytes} (hw : c!"<" ∉ w) (h : ¬ pt <+: w ++ z) : NoStart (c!"<" :: pt) (c!"<" :: w) z :=
  ns_cons (by rw [List.cons_prefix_cons]; exact fun hp => h hp.2) (ns_lt hw)

theorem ae_part {p : Part} (hp : p.Ok) (z : Bytes) :
    allEmpty ((p.before ++ p.head.html ++ p.behind).length + 1) (p.before ++ p.head.html ++ p.behind).length false
      (p.before ++ p.head.html ++ p.behind ++ z) = true ↔ p.Empty := by
  have e : p.before ++ p.head.html ++ p.behind ++ z = p.before ++ (b!"<tr>" ++ (p.head.body ++ (b!"</tr>" ++ (p.behind ++ z)))) := by simp [Row.html]
  have el : (p.before ++ p.head.html ++ p.behind).length = 0 + p.behind.length + b!"</tr>".length + p.head.body.length + b!"<tr>".length + p.before.length := by
    simp [Row.html]; omega
  rw [e, el]
  generalize hb : p.head.body = body
  obtain ⟨f, hf⟩ : ∃ f, 0 + p.behind.length + b!"</tr>".length + body.length + b!"<tr>".length + p.before.length + 1 = f + b!"<tr>".length + p.before.length :=
    ⟨0 + p.behind.length + b!"</tr>".length + body.length + 1, by omega⟩
  rw [hf, ae_skip _ _ _ (ns_lt hp.before), ae_skip _ _ _ (ns_lit (w := b!"tr>") (by decide) (by simp))]
  have hcells : ∀ x ∈ p.head.cells, c!"<" ∉ x.1 ∧ x.2.Ok ∧ x.2.head = true ∧ (x.2.attrs = [] ∨ ∃ a, x.2.attrs = c!" " :: a) :=
    fun x hx => ⟨(hp.head.1 x hx).1, (hp.head.1 x hx).2, hp.cells x hx⟩
  have hrb : body = rowBody p.head.cells p.head.last := hb.symm
  rw [hrb] at hf ⊢
  obtain ⟨k, hk, h2⟩ := ae_row (b!"</tr>" ++ (p.behind ++ z)) p.head.last hp.head.2.1 p.head.cells hcells f (0 + p.behind.length + b!"</tr>".length) false (by omega)
  rw [h2]
  obtain ⟨k, rfl⟩ : ∃ j, k = j + 1 + p.behind.length + b!"</tr>".length := ⟨k - 1 - p.behind.length - b!"</tr>".length, by omega⟩
  rw [ae_skip _ _ _ (ns_lit (w := b!"/tr>") (by decide) (by simp)), ae_skip _ _ _ (ns_lt hp.behind)]
  have h3 : ∀ b, allEmpty (k + 1) 0 b z = b := fun b => by rw [allEmpty]; simp
  rw [h3]
  have h4 : p.head.cells.all (fun x => x.2.text.all isSpace) = true ↔ ∀ x ∈ p.head.cells, ∀ c ∈ x.2.text, c ∈ b!" \t\n\r" ∨ c = 11 ∨ c = 12 := by
    rw [List.all_eq_true]
    exact forall_congr' fun x => forall_congr' fun _ => white_iff x.2.text
  unfold Part.Empty
  rw [← h4]
  cases hl : p.head.cells with
  | nil => simp
  | cons x l =>
    cases hall : (x :: l).all (fun x => x.2.text.all isSpace) <;> simp

/-! ### Is there a separator? -/

theorem cells_row' (z last : Bytes) (hlast : c!"<" ∉ last) : ∀ (l : List (Bytes × Cell)), (∀ x ∈ l, c!"<" ∉ x.1 ∧ x.2.Ok) → ∀ f,
    (rowBody l last).length ≤ f → (cells f (rowBody l last).length (rowBody l last ++ z) = true ↔ ∀ x ∈ l, Dashy x.2.text)
  | [], _, f, hf => by
    have e : rowBody [] last = last := rfl
    rw [e] at hf ⊢
    obtain ⟨k, rfl⟩ : ∃ k, f = k + last.length := ⟨f - last.length, by omega⟩
    have := cells_gap z last k 0 hlast
    rw [Nat.zero_add] at this
    rw [this, cells_zero]
    simp
  | (g, c) :: l, hl, f, hf => by
    obtain ⟨hg, hc⟩ := hl (g, c) List.mem_cons_self
    have hl' : ∀ x ∈ l, c!"<" ∉ x.1 ∧ x.2.Ok := fun x hx => hl x (List.mem_cons_of_mem _ hx)
    have e : rowBody ((g, c) :: l) last ++ z = g ++ (c.html ++ (rowBody l last ++ z)) := by simp [rowBody]
    have el : (rowBody ((g, c) :: l) last).length = (rowBody l last).length + c.html.length + g.length := by simp [rowBody]; omega
    have hpos : 0 < c.html.length := by unfold Cell.html; split <;> simp
    rw [el] at hf
    obtain ⟨k, rfl⟩ : ∃ k, f = k + 1 + g.length := ⟨f - 1 - g.length, by omega⟩
    rw [e, el, cells_gap _ _ _ _ hg]
    obtain ⟨h1, h2⟩ := cells_cell c hc (rowBody l last ++ z) k (rowBody l last).length (by omega)
    by_cases hd : Dashy c.text
    · rw [h1 hd, cells_row' z last hlast l hl' k (by omega)]
      simp [hd]
    · rw [h2 hd]
      simp [hd]

theorem holds_iff (r : Row) : ¬ r.Holds ↔ ∀ x ∈ r.cells, Dashy x.2.text := by
  unfold Row.Holds
  constructor
  · exact fun hn x hx => Classical.byContradiction fun hd => hn ⟨x, hx, hd⟩
  · rintro hall ⟨x, hx, hn⟩
    exact hn (hall x hx)

theorem dr_skip {p : Bytes} (f n : Nat) : ∀ {s : Bytes}, NoStart b!"<tr>" s p →
    dashRow (f + s.length) (n + s.length) (s ++ p) = dashRow f n p
  | [], _ => rfl
  | c :: s, h => by
    rw [List.cons_append, List.length_cons, ← Nat.add_assoc, ← Nat.add_assoc, dashRow, if_neg]
    · rw [List.drop_one, List.tail_cons, dr_skip f n (ns_tail h)]
    · rw [List.isPrefixOf_iff_prefix]; exact ns_head h

theorem dr_row (r : Row) (hr : r.Ok) (z : Bytes) (f n : Nat) :
    dashRow (f + 1) (n + r.html.length) (r.html ++ z) = true ↔ ¬ r.Holds ∨ dashRow f n z = true := by
  obtain ⟨h1, h2, h3⟩ := hr
  have e : r.html ++ z = b!"<tr>" ++ (r.body ++ (b!"</tr>" ++ z)) := by simp [Row.html]
  have el : r.html.length = 4 + r.body.length + 5 := by simp [Row.html]; omega
  have hd : (b!"<tr>" ++ (r.body ++ (b!"</tr>" ++ z))).drop (4 + r.body.length + 5) = z := by rw [← e, ← el, List.drop_left]
  have hs : strstr (r.body ++ (b!"</tr>" ++ z)) b!"</tr>" = some r.body.length := Tags.strstr_first z (by decide) (h3 _ (by simp))
  have hc := cells_row' (b!"</tr>" ++ z) r.last h2 r.cells h1 r.body.length (Nat.le_refl _)
  rw [show rowBody r.cells r.last = r.body from rfl] at hc
  rw [e, el, holds_iff, ← hc]
  obtain ⟨m, hm⟩ : ∃ m, n + (4 + r.body.length + 5) = m + 1 := ⟨n + (4 + r.body.length + 4), rfl⟩
  rw [hm, dashRow, if_pos (by simp)]
  have e4 : (b!"<tr>" ++ (r.body ++ (b!"</tr>" ++ z))).drop 4 = r.body ++ (b!"</tr>" ++ z) := rfl
  have hsub : m + 1 - (4 + r.body.length + 5) = n := by omega
  simp only [e4, hs, hd, hsub]
  rw [if_pos (by omega)]
  simp

theorem dr_zero (f : Nat) (p : Bytes) : dashRow f 0 p = false := by cases f <;> rfl

theorem dr_rows (z last : Bytes) (hlast : c!"<" ∉ last) : ∀ (l : List (Bytes × Row)), (∀ x ∈ l, c!"<" ∉ x.1 ∧ x.2.Ok) → ∀ f,
    (l.flatMap (fun x => x.1 ++ x.2.html) ++ last).length ≤ f →
    (dashRow f (l.flatMap (fun x => x.1 ++ x.2.html) ++ last).length (l.flatMap (fun x => x.1 ++ x.2.html) ++ last ++ z) = true ↔
      ∃ x ∈ l, ¬ x.2.Holds)
  | [], _, f, hf => by
    simp only [List.flatMap_nil, List.nil_append] at hf ⊢
    obtain ⟨k, rfl⟩ : ∃ k, f = k + last.length := ⟨f - last.length, by omega⟩
    have := dr_skip k 0 (ns_lt (pt := b!"tr>") (z := z) hlast)
    rw [Nat.zero_add] at this
    rw [this, dr_zero]
    simp
  | (g, r) :: l, hl, f, hf => by
    obtain ⟨hg, hr⟩ := hl (g, r) List.mem_cons_self
    have e : ((g, r) :: l).flatMap (fun x => x.1 ++ x.2.html) ++ last ++ z = g ++ (r.html ++ (l.flatMap (fun x => x.1 ++ x.2.html) ++ last ++ z)) := by simp
    have el : (((g, r) :: l).flatMap (fun x => x.1 ++ x.2.html) ++ last).length =
        (l.flatMap (fun x => x.1 ++ x.2.html) ++ last).length + r.html.length + g.length := by
      simp only [List.flatMap_cons, List.length_append]; omega
    have hpos : 0 < r.html.length := by simp [Row.html]
    rw [el] at hf
    obtain ⟨k, rfl⟩ : ∃ k, f = k + 1 + g.length := ⟨f - 1 - g.length, by omega⟩
    rw [e, el, dr_skip _ _ (ns_lt hg), dr_row r hr, dr_rows z last hlast l (fun x hx => hl x (List.mem_cons_of_mem _ hx)) k (by omega)]
    simp

/-- The rows of a body with the text before its end. -/
def Inner (p : Part) : Bytes := p.rows.flatMap (fun x => x.1 ++ x.2.html) ++ p.last

theorem ns_row {pt : Bytes} {r : Row} {z : Bytes} (hpt : c!"<" ∉ pt) (h : ¬ (c!"<" :: pt) <:+: r.body) (h1 : ∀ z, ¬ pt <+: b!"tr>" ++ z)
    (h2 : ∀ z, ¬ pt <+: b!"/tr>" ++ z) : NoStart (c!"<" :: pt) r.html z := by
  have e : r.html = (b!"<tr>" ++ r.body) ++ b!"</tr>" := rfl
  rw [e]
  refine ns_append (ns_lit (w := b!"/tr>") (by decide) (h2 _)) (ns_append (ns_tag hpt h) (ns_lit (w := b!"tr>") (by decide) (h1 _)))

theorem ns_inner {pt z last : Bytes} (hpt : c!"<" ∉ pt) (h1 : ∀ z, ¬ pt <+: b!"tr>" ++ z) (h2 : ∀ z, ¬ pt <+: b!"/tr>" ++ z) (hlast : c!"<" ∉ last) :
    ∀ l : List (Bytes × Row), (∀ x ∈ l, c!"<" ∉ x.1 ∧ ¬ (c!"<" :: pt) <:+: x.2.body) →
    NoStart (c!"<" :: pt) (l.flatMap (fun x => x.1 ++ x.2.html) ++ last) z
  | [], _ => ns_lt hlast
  | (g, r) :: l, hl => by
    have e : ((g, r) :: l).flatMap (fun x => x.1 ++ x.2.html) ++ last = g ++ (r.html ++ (l.flatMap (fun x => x.1 ++ x.2.html) ++ last)) := by simp
    obtain ⟨hg, hr⟩ := hl (g, r) List.mem_cons_self
    rw [e]
    exact ns_append (ns_append (ns_inner hpt h1 h2 hlast l fun x hx => hl x (List.mem_cons_of_mem _ hx)) (ns_row hpt hr h1 h2)) (ns_lt hg)

theorem separated_iff {p : Part} (hp : p.Ok) (z : Bytes) : hasDashRow (b!"<tbody>" ++ (p.body ++ z)) = true ↔ p.Separated := by
  have e : b!"<tbody>" ++ (p.body ++ z) = (b!"<tbody>" ++ Inner p) ++ (b!"</tbody>" ++ z) := by simp [Part.body, Inner]
  have hs : ∀ w, NoStart b!"</tbody>" (b!"<tbody>" ++ Inner p) w := fun w =>
    ns_append (ns_inner (by decide) (by simp) (by simp) hp.last _ fun x hx => ⟨(hp.rows x hx).1, (hp.rows x hx).2.2 _ (by simp)⟩)
      (ns_lit (w := b!"tbody>") (by decide) (by simp))
  have ht : ∀ w, NoStart b!"</table>" (b!"<tbody>" ++ Inner p ++ b!"</tbody>") w := fun w =>
    ns_append (ns_lit (w := b!"/tbody>") (by decide) (by simp))
      (ns_append (ns_inner (by decide) (by simp) (by simp) hp.last _ fun x hx => ⟨(hp.rows x hx).1, (hp.rows x hx).2.1.2.2 _ (by simp)⟩)
        (ns_lit (w := b!"tbody>") (by decide) (by simp)))
  have hdr : dashRow (b!"<tbody>" ++ Inner p).length (b!"<tbody>" ++ Inner p).length (b!"<tbody>" ++ Inner p ++ (b!"</tbody>" ++ z)) = true ↔ p.Separated := by
    have e1 : (b!"<tbody>" ++ Inner p).length = (Inner p).length + b!"<tbody>".length := by rw [List.length_append, Nat.add_comm]
    rw [e1, List.append_assoc, dr_skip _ _ (ns_lit (w := b!"tbody>") (by decide) (by simp))]
    exact dr_rows _ _ hp.last _ (fun x hx => ⟨(hp.rows x hx).1, (hp.rows x hx).2.1⟩) _ (Nat.le_refl _)
  have h2 : strstr (b!"<tbody>" ++ Inner p ++ (b!"</tbody>" ++ z)) b!"</table>" =
      (strstr z b!"</table>").map (· + (b!"<tbody>" ++ Inner p ++ b!"</tbody>").length) := by
    rw [← List.append_assoc (b!"<tbody>" ++ Inner p)]
    exact strstr_skip (ht z)
  rw [e]
  unfold hasDashRow
  rw [strstr_at z (hs _), h2]
  cases strstr z b!"</table>" with
  | none => exact hdr
  | some i =>
    simp only [Option.map_some]
    rw [Bool.and_eq_true, hdr, decide_eq_true_iff]
    exact ⟨fun h => h.2, fun h => ⟨by simp only [List.length_append, List.length_cons, List.length_nil]; omega, h⟩⟩

/-! ### The header as a row of the body -/

theorem toBody_fuel : ∀ (f k n : Nat) (p : Bytes), n < f → n < k → toBody f n p = toBody k n p
  | 0, _, _, _, h, _ => by omega
  | _, 0, _, _, _, h => by omega
  | f + 1, k + 1, 0, p, _, _ => by simp [toBody]
  | f + 1, k + 1, n + 1, p, hf, hk => by
    rw [toBody.eq_def, toBody.eq_def (k + 1)]
    simp only []
    rw [toBody_fuel f k (n + 1 - 4) _ (by omega) (by omega), toBody_fuel f k (n + 1 - 5) _ (by omega) (by omega),
      toBody_fuel f k (n + 1 - (3 + ((p.drop 3).takeWhile (· ≠ c!">")).length + 1)) _ (by omega) (by omega),
      toBody_fuel f k (n + 1 - (3 + ((p.drop 3).takeWhile (· ≠ c!">")).length)) _ (by omega) (by omega)]
    cases p with
    | nil => rfl
    | cons c t => simp only [toBody_fuel f k n t (by omega) (by omega)]

def tb (n : Nat) (p : Bytes) : Bytes × Bytes := toBody (n + 1) n p

theorem tb_skip {p : Bytes} (n : Nat) : ∀ {s : Bytes}, NoStart b!"<th>" s p → NoStart b!"</th>" s p → NoStart b!"<th " s p →
    NoStart b!"</thead>" s p → tb (n + s.length) (s ++ p) = (s ++ (tb n p).1, (tb n p).2)
  | [], _, _, _, _ => rfl
  | c :: s, h1, h2, h3, h4 => by
    have ih := tb_skip n (ns_tail h1) (ns_tail h2) (ns_tail h3) (ns_tail h4)
    unfold tb at ih ⊢
    rw [List.cons_append, List.length_cons, ← Nat.add_assoc, toBody.eq_def]
    simp only []
    rw [not_pre (ns_head h1), not_pre (ns_head h2), not_pre (ns_head h3), not_pre (ns_head h4)]
    simp only [Bool.false_eq_true, if_false, ih]
    rfl

theorem tb_lt {s : Bytes} (p : Bytes) (n : Nat) (h : c!"<" ∉ s) : tb (n + s.length) (s ++ p) = (s ++ (tb n p).1, (tb n p).2) :=
  tb_skip n (ns_lt h) (ns_lt h) (ns_lt h) (ns_lt h)

theorem tb_th (n : Nat) (p : Bytes) : tb (n + 4) (b!"<th>" ++ p) = (b!"<td>" ++ (tb n p).1, (tb n p).2) := by
  unfold tb
  rw [toBody.eq_def]
  simp only []
  rw [if_pos (by simp)]
  have e : (b!"<th>" ++ p).drop 4 = p := rfl
  simp only [e]
  rw [toBody_fuel (n + 4) (n + 1) _ p (by omega) (by omega)]
  rfl

theorem tb_end (n : Nat) (p : Bytes) : tb (n + 5) (b!"</th>" ++ p) = (b!"</td>" ++ (tb n p).1, (tb n p).2) := by
  unfold tb
  rw [toBody.eq_def]
  simp only []
  rw [if_neg (by simp), if_pos (by simp)]
  have e : (b!"</th>" ++ p).drop 5 = p := rfl
  simp only [e]
  rw [toBody_fuel (n + 5) (n + 1) _ p (by omega) (by omega)]
  rfl

theorem tb_attrs (n : Nat) (a p : Bytes) (ha : c!">" ∉ a) : tb (n + (b!"<th " ++ a ++ b!">").length) (b!"<th " ++ a ++ b!">" ++ p) =
    (b!"<td " ++ a ++ b!">" ++ (tb n p).1, (tb n p).2) := by
  obtain ⟨m, hm⟩ : ∃ m, n + (b!"<th " ++ a ++ b!">").length = m + 1 := ⟨n + (b!"<th " ++ a).length, by simp; omega⟩
  unfold tb
  rw [hm, toBody.eq_def]
  simp only []
  rw [if_neg (by simp), if_neg (by simp), if_pos (by simp)]
  have ew : ((b!"<th " ++ a ++ b!">" ++ p).drop 3).takeWhile (· ≠ c!">") = c!" " :: a := by
    have h1 : (b!"<th " ++ a ++ b!">" ++ p).drop 3 = (c!" " :: a) ++ c!">" :: p := by simp
    rw [h1]
    exact Tags.takeWhile_stop (by simpa using ha)
  have ed : (b!"<th " ++ a ++ b!">" ++ p).drop (3 + (c!" " :: a).length) = c!">" :: p := by
    have h1 : b!"<th " ++ a ++ b!">" ++ p = (b!"<th" ++ c!" " :: a) ++ c!">" :: p := by simp
    have h2 : 3 + (c!" " :: a).length = (b!"<th" ++ c!" " :: a).length := by simp; omega
    rw [h1, h2, List.drop_left]
  simp only [ew, ed, List.head?_cons, if_true, List.drop_one, List.tail_cons]
  have hs : m + 1 - (3 + (c!" " :: a).length + 1) = n := by
    simp only [List.length_append, List.length_cons, List.length_nil] at hm ⊢; omega
  rw [hs, toBody_fuel (m + 1) (n + 1) n p (by simp only [List.length_append, List.length_cons, List.length_nil] at hm; omega) (by omega)]
  simp

theorem tb_thead {g w : Bytes} (n : Nat) (hg : ∀ c ∈ g, c ∈ b!" \n\t") : tb (n + 1) (b!"</thead>" ++ (g ++ (b!"<tbody>" ++ w))) = ([], w) := by
  unfold tb
  rw [toBody.eq_def]
  simp only []
  rw [if_neg (by simp), if_neg (by simp), if_neg (by simp), if_pos (by simp)]
  have e : (b!"</thead>" ++ (g ++ (b!"<tbody>" ++ w))).drop 8 = g ++ (b!"<tbody>" ++ w) := rfl
  rw [e]
  unfold afterHead
  have hd : ∀ g : Bytes, (∀ c ∈ g, c ∈ b!" \n\t") → (g ++ (b!"<tbody>" ++ w)).dropWhile (fun c => c == c!" " || c == c!"\n" || c == c!"\t") = b!"<tbody>" ++ w := by
    intro g
    induction g with
    | nil => intro _; rfl
    | cons c g ih =>
      intro h
      have hc := h c List.mem_cons_self
      rw [List.cons_append, List.dropWhile_cons, if_pos (by simpa [or_assoc] using hc), ih fun d hd => h d (List.mem_cons_of_mem _ hd)]
  simp only [hd g hg]
  rw [if_pos (by simp)]
  rfl

theorem tb_cell (c : Cell) (hc : c.Ok) (hh : c.head = true) (ha : c.attrs = [] ∨ ∃ a, c.attrs = c!" " :: a) (ht : ¬ b!"</thead>" <:+: c.text)
    (n : Nat) (z : Bytes) :
    tb (n + c.html.length) (c.html ++ z) = ((⟨false, c.attrs, c.text⟩ : Cell).html ++ (tb n z).1, (tb n z).2) := by
  obtain ⟨head, attrs, text⟩ := c
  obtain ⟨h1, h2⟩ := hc
  simp only at *
  subst hh
  have hth : ∀ x : Byte, ¬ [c!"<", c!"t", c!"h", x] <:+: text := fun x hi =>
    h2 b!"<th" (by simp) ((List.prefix_append b!"<th" [x]).isInfix.trans hi)
  have htext : tb (n + 5 + text.length) (text ++ (b!"</th>" ++ z)) = (text ++ (b!"</td>" ++ (tb n z).1), (tb n z).2) := by
    rw [tb_skip (p := b!"</th>" ++ z) (n + 5) (ns_tag (by decide) (hth _)) (ns_tag (by decide) (h2 _ (by simp))) (ns_tag (by decide) (hth _)) (ns_tag (by decide) ht), tb_end]
  have e : Cell.html ⟨true, attrs, text⟩ ++ z = b!"<th" ++ attrs ++ b!">" ++ (text ++ (b!"</th>" ++ z)) := by simp [Cell.html]
  have el : n + (Cell.html ⟨true, attrs, text⟩).length = n + 5 + text.length + (b!"<th" ++ attrs ++ b!">").length := by
    simp only [Cell.html, if_true, List.length_append, List.length_cons, List.length_nil]; omega
  rw [e, el]
  rcases ha with rfl | ⟨a, rfl⟩
  · have := tb_th (n + 5 + text.length) (text ++ (b!"</th>" ++ z))
    rw [htext] at this
    refine Eq.trans this ?_
    simp [Cell.html]
  · have := tb_attrs (n + 5 + text.length) a (text ++ (b!"</th>" ++ z)) (by simp at h1; exact h1)
    rw [htext] at this
    refine Eq.trans (Eq.trans ?_ this) ?_
    · simp
    · simp [Cell.html]

theorem tb_row (z last : Bytes) (n : Nat) (hlast : c!"<" ∉ last) : ∀ l : List (Bytes × Cell),
    (∀ x ∈ l, c!"<" ∉ x.1 ∧ x.2.Ok ∧ (x.2.head = true ∧ (x.2.attrs = [] ∨ ∃ a, x.2.attrs = c!" " :: a)) ∧ ¬ b!"</thead>" <:+: x.2.text) →
    tb (n + (rowBody l last).length) (rowBody l last ++ z) = ((asData ⟨l, last⟩).body ++ (tb n z).1, (tb n z).2)
  | [], _ => by
    have e : rowBody [] last = last := rfl
    rw [e, tb_lt z n hlast]
    rfl
  | (g, c) :: l, hl => by
    obtain ⟨hg, hc, ⟨hh, ha⟩, ht⟩ := hl (g, c) List.mem_cons_self
    have e : rowBody ((g, c) :: l) last ++ z = g ++ (c.html ++ (rowBody l last ++ z)) := by simp [rowBody]
    have el : n + (rowBody ((g, c) :: l) last).length = n + (rowBody l last).length + c.html.length + g.length := by simp [rowBody]; omega
    rw [e, el, tb_lt _ _ hg, tb_cell c hc hh ha ht, tb_row z last n hlast l fun x hx => hl x (List.mem_cons_of_mem _ hx)]
    simp [asData, Row.body]

theorem text_infix {r : Row} {x : Bytes × Cell} (hx : x ∈ r.cells) : x.2.text <:+: r.body := by
  obtain ⟨a, b, h⟩ := List.append_of_mem hx
  have : ∃ u v, x.2.html = u ++ x.2.text ++ v := by
    unfold Cell.html
    split
    · exact ⟨b!"<th" ++ x.2.attrs ++ b!">", b!"</th>", by simp⟩
    · exact ⟨b!"<td" ++ x.2.attrs ++ b!">", b!"</td>", by simp⟩
  obtain ⟨u, v, huv⟩ := this
  refine ⟨a.flatMap (fun x => x.1 ++ x.2.html) ++ x.1 ++ u, v ++ b.flatMap (fun x => x.1 ++ x.2.html) ++ r.last, ?_⟩
  unfold Row.body
  rw [h, List.flatMap_append, List.flatMap_cons, huv]
  simp

theorem tb_part {p : Part} (hp : p.Ok) (z : Bytes) :
    tb ((p.before ++ p.head.html ++ p.behind).length + 8) (p.before ++ p.head.html ++ p.behind ++ (b!"</thead>" ++ (p.between ++ (b!"<tbody>" ++ z)))) =
      (p.before ++ (asData p.head).html ++ p.behind, z) := by
  generalize hw : b!"</thead>" ++ (p.between ++ (b!"<tbody>" ++ z)) = w
  have e : p.before ++ p.head.html ++ p.behind ++ w = p.before ++ (b!"<tr>" ++ (rowBody p.head.cells p.head.last ++ (b!"</tr>" ++ (p.behind ++ w)))) := by
    simp [Row.html, Row.body, rowBody]
  have el : (p.before ++ p.head.html ++ p.behind).length + 8 =
      8 + p.behind.length + b!"</tr>".length + (rowBody p.head.cells p.head.last).length + b!"<tr>".length + p.before.length := by
    simp [Row.html, Row.body, rowBody]; omega
  have hcells : ∀ x ∈ p.head.cells, c!"<" ∉ x.1 ∧ x.2.Ok ∧ (x.2.head = true ∧ (x.2.attrs = [] ∨ ∃ a, x.2.attrs = c!" " :: a)) ∧ ¬ b!"</thead>" <:+: x.2.text :=
    fun x hx => ⟨(hp.head.1 x hx).1, (hp.head.1 x hx).2, hp.cells x hx, fun hi => hp.tags _ (by simp) (hi.trans (text_infix hx))⟩
  have hl : ∀ (m : Nat) (s q : Bytes), c!"<" ∉ s → (∀ y, y ∈ [b!"th>", b!"/th>", b!"th ", b!"/thead>"] → ¬ y <+: s ++ q) →
      tb (m + (c!"<" :: s).length) (c!"<" :: s ++ q) = (c!"<" :: s ++ (tb m q).1, (tb m q).2) := fun m s q hs hy =>
    tb_skip m (ns_lit hs (hy _ (by simp))) (ns_lit hs (hy _ (by simp))) (ns_lit hs (hy _ (by simp))) (ns_lit hs (hy _ (by simp)))
  rw [e, el, tb_lt _ _ hp.before, hl _ b!"tr>" _ (by decide) (by simp), tb_row _ _ _ hp.head.2.1 _ hcells, hl _ b!"/tr>" _ (by decide) (by simp),
    tb_lt _ _ hp.behind, ← hw, tb_thead 7 hp.between]
  simp [Row.html]

/-! ### Pages -/

theorem go_fuel : ∀ (f k : Nat) (p : Bytes), p.length ≤ f → p.length ≤ k → go f p = go k p
  | 0, 0, [], _, _ => rfl
  | 0, _ + 1, [], _, _ => rfl
  | _ + 1, 0, [], _, _ => rfl
  | _ + 1, _ + 1, [], _, _ => rfl
  | 0, _, _ :: _, h, _ => by simp at h
  | _, 0, _ :: _, _, h => by simp at h
  | f + 1, k + 1, c :: t, hf, hk => by
    simp only [List.length_cons] at hf hk
    rw [go, go]
    cases ha : act (c :: t) with
    | skip r =>
      obtain ⟨x, hx, _⟩ := act_skip ha
      have hl := congrArg List.length hx
      simp only [List.length_append, List.length_cons, List.length_nil] at hl
      exact go_fuel f k r (by omega) (by omega)
    | body n =>
      obtain ⟨z, hz, hn⟩ := act_body ha
      have e : (c :: t).drop 7 = z := by rw [hz]; rfl
      have hl := congrArg List.length hz
      simp only [List.length_append, List.length_cons, List.length_nil] at hl
      have h2 := (asBody_eq z.length (n + 1) n [] z (by omega) hn (by simp)).2
      simp only [e]
      rw [go_fuel f k _ (by omega) (by omega)]
    | copy =>
      simp only
      rw [go_fuel f k t (by omega) (by omega)]

def run (p : Bytes) : Bytes := go p.length p

theorem run_skip {c : Byte} {t r : Bytes} (h : act (c :: t) = .skip r) : run (c :: t) = run r := by
  obtain ⟨x, hx, _⟩ := act_skip h
  have hl := congrArg List.length hx
  simp only [List.length_append, List.length_cons, List.length_nil] at hl
  unfold run
  rw [List.length_cons, go, h]
  exact go_fuel _ _ r (by omega) (Nat.le_refl _)

theorem run_body {z : Bytes} {n : Nat} (h : act (b!"<thead>" ++ z) = .body n) : run (b!"<thead>" ++ z) = b!"<tbody>" ++ (tb n z).1 ++ run (tb n z).2 := by
  obtain ⟨z', hz, hn⟩ := act_body h
  have hzz : z = z' := List.append_cancel_left hz
  subst hzz
  have h2 := (asBody_eq z.length (n + 1) n [] z (by omega) hn (by simp)).2
  have e : b!"<thead>" ++ z = c!"<" :: (b!"thead>" ++ z) := rfl
  rw [e] at h ⊢
  unfold run
  rw [List.length_cons, go, h]
  have e2 : (c!"<" :: (b!"thead>" ++ z)).drop 7 = z := rfl
  simp only [e2]
  rw [show toBody (n + 1) n z = tb n z from rfl] at h2 ⊢
  rw [go_fuel _ _ (tb n z).2 (by simp; omega) (Nat.le_refl _)]

theorem run_copy {c : Byte} {t : Bytes} (h : act (c :: t) = .copy) : run (c :: t) = c :: run t := by
  unfold run
  rw [List.length_cons, go, h]

theorem act_copy {p : Bytes} (h : ¬ b!"<thead>" <+: p) : act p = .copy := by
  unfold act
  rw [not_pre h]
  rfl

theorem run_text {z : Bytes} : ∀ {s : Bytes}, NoStart b!"<thead>" s z → run (s ++ z) = s ++ run z
  | [], _ => rfl
  | c :: s, h => by
    rw [List.cons_append, run_copy (act_copy (ns_head h)), run_text (ns_tail h)]
    rfl

theorem ns_body {p : Part} (hp : p.Ok) (z : Bytes) : NoStart b!"<thead>" p.body z :=
  ns_append (ns_lit (w := b!"/tbody>") (by decide) (by simp))
    (ns_inner (by decide) (by simp) (by simp) hp.last _ fun x hx => ⟨(hp.rows x hx).1, (hp.rows x hx).2.2 _ (by simp)⟩)

theorem between_lt {p : Part} (hp : p.Ok) : c!"<" ∉ p.between := fun h => absurd (hp.between _ h) (by decide)

theorem ns_A {p : Part} (hp : p.Ok) {pt : Bytes} (hpt : c!"<" ∉ pt) (h : ¬ (c!"<" :: pt) <:+: p.head.body) (h1 : ∀ z, ¬ pt <+: b!"tr>" ++ z)
    (h2 : ∀ z, ¬ pt <+: b!"/tr>" ++ z) (z : Bytes) : NoStart (c!"<" :: pt) (p.before ++ p.head.html ++ p.behind) z :=
  ns_append (ns_lt hp.behind) (ns_append (ns_row hpt h h1 h2) (ns_lt hp.before))

theorem run_part {p : Part} (hp : p.Ok) (z : Bytes) : ∃ x, Becomes p x ∧ run (p.html ++ z) = x ++ run z := by
  have e : p.html ++ z = b!"<thead>" ++ (p.before ++ p.head.html ++ p.behind ++ (b!"</thead>" ++ (p.between ++ (b!"<tbody>" ++ (p.body ++ z))))) := by
    simp [Part.html]
  have hA := tb_part hp (p.body ++ z)
  have hE := ae_part hp (b!"</thead>" ++ (p.between ++ (b!"<tbody>" ++ (p.body ++ z))))
  have hS := separated_iff hp z
  have n1 : ∀ w, NoStart b!"</thead>" (p.before ++ p.head.html ++ p.behind) w := ns_A hp (by decide) (hp.tags _ (by simp)) (by simp) (by simp)
  have n2 : ∀ w, NoStart b!"<tbody>" (p.before ++ p.head.html ++ p.behind) w := ns_A hp (by decide) (hp.tags _ (by simp)) (by simp) (by simp)
  have n3 : ∀ w, NoStart b!"<thead>" (p.before ++ p.head.html ++ p.behind) w := ns_A hp (by decide) (hp.tags _ (by simp)) (by simp) (by simp)
  have ehtml : p.html = b!"<thead>" ++ (p.before ++ p.head.html ++ p.behind ++ (b!"</thead>" ++ (p.between ++ (b!"<tbody>" ++ p.body)))) := by
    simp [Part.html]
  have edata : b!"<tbody>" ++ p.before ++ (asData p.head).html ++ p.behind ++ p.body =
      b!"<tbody>" ++ (p.before ++ (asData p.head).html ++ p.behind) ++ p.body := by simp
  generalize p.before ++ p.head.html ++ p.behind = A at *
  have s1 : strstr (A ++ (b!"</thead>" ++ (p.between ++ (b!"<tbody>" ++ (p.body ++ z))))) b!"</thead>" = some A.length := strstr_at _ (n1 _)
  have s2 : strstr (A ++ (b!"</thead>" ++ (p.between ++ (b!"<tbody>" ++ (p.body ++ z))))) b!"<tbody>" = some (A ++ (b!"</thead>" ++ p.between)).length := by
    have : A ++ (b!"</thead>" ++ (p.between ++ (b!"<tbody>" ++ (p.body ++ z)))) = (A ++ (b!"</thead>" ++ p.between)) ++ (b!"<tbody>" ++ (p.body ++ z)) := by simp
    rw [this]
    exact strstr_at _ (ns_append (ns_append (ns_lt (between_lt hp)) (ns_lit (w := b!"/thead>") (by decide) (by simp))) (n2 _))
  have d1 : (A ++ (b!"</thead>" ++ (p.between ++ (b!"<tbody>" ++ (p.body ++ z))))).drop (A.length + 8) = p.between ++ (b!"<tbody>" ++ (p.body ++ z)) := by
    have h1 : A ++ (b!"</thead>" ++ (p.between ++ (b!"<tbody>" ++ (p.body ++ z)))) = (A ++ b!"</thead>") ++ (p.between ++ (b!"<tbody>" ++ (p.body ++ z))) := by simp
    have h2 : A.length + 8 = (A ++ b!"</thead>").length := by simp
    rw [h1, h2, List.drop_left]
  have d2 : (A ++ (b!"</thead>" ++ (p.between ++ (b!"<tbody>" ++ (p.body ++ z))))).drop (A ++ (b!"</thead>" ++ p.between)).length = b!"<tbody>" ++ (p.body ++ z) := by
    have : A ++ (b!"</thead>" ++ (p.between ++ (b!"<tbody>" ++ (p.body ++ z)))) = (A ++ (b!"</thead>" ++ p.between)) ++ (b!"<tbody>" ++ (p.body ++ z)) := by simp
    rw [this, List.drop_left]
  have hlt : A.length < (A ++ (b!"</thead>" ++ p.between)).length := by simp
  have hact : act (b!"<thead>" ++ (A ++ (b!"</thead>" ++ (p.between ++ (b!"<tbody>" ++ (p.body ++ z)))))) =
      if allEmpty (A.length + 1) A.length false (A ++ (b!"</thead>" ++ (p.between ++ (b!"<tbody>" ++ (p.body ++ z))))) then
        .skip (p.between ++ (b!"<tbody>" ++ (p.body ++ z)))
      else if hasDashRow (b!"<tbody>" ++ (p.body ++ z)) = false then .body (A.length + 8) else .copy := by
    unfold act
    rw [if_pos (by simp)]
    have e7 : ∀ w, (b!"<thead>" ++ w).drop 7 = w := fun w => rfl
    simp only [e7, s1, s2, d1, d2, hlt, true_and]
  have nb := ns_body hp z
  have tail : run (p.between ++ (b!"<tbody>" ++ (p.body ++ z))) = p.between ++ (b!"<tbody>" ++ (p.body ++ run z)) := by
    rw [run_text (ns_lt (between_lt hp)), run_text (s := b!"<tbody>") (ns_lit (w := b!"tbody>") (by decide) (by simp)), run_text nb]
  rw [e]
  by_cases h1 : p.Empty
  · refine ⟨_, .gone h1, ?_⟩
    rw [if_pos (hE.2 h1)] at hact
    rw [show b!"<thead>" ++ (A ++ (b!"</thead>" ++ (p.between ++ (b!"<tbody>" ++ (p.body ++ z))))) =
      c!"<" :: (b!"thead>" ++ (A ++ (b!"</thead>" ++ (p.between ++ (b!"<tbody>" ++ (p.body ++ z)))))) from rfl] at hact ⊢
    rw [run_skip hact, tail]
    simp
  rw [if_neg (fun h => h1 (hE.1 h))] at hact
  by_cases h2 : p.Separated
  · refine ⟨_, .stays h1 h2, ?_⟩
    rw [if_neg (by rw [hS.2 h2]; simp)] at hact
    rw [show b!"<thead>" ++ (A ++ (b!"</thead>" ++ (p.between ++ (b!"<tbody>" ++ (p.body ++ z))))) =
      c!"<" :: (b!"thead>" ++ (A ++ (b!"</thead>" ++ (p.between ++ (b!"<tbody>" ++ (p.body ++ z)))))) from rfl] at hact ⊢
    rw [run_copy hact, run_text (s := b!"thead>") (ns_lt (by decide)), run_text (n3 _),
      run_text (s := b!"</thead>") (ns_lit (w := b!"/thead>") (by decide) (by simp)), tail, ehtml]
    simp
  · refine ⟨_, .data h1 h2, ?_⟩
    have hf : hasDashRow (b!"<tbody>" ++ (p.body ++ z)) = false := Bool.eq_false_iff.2 fun h => h2 (hS.1 h)
    rw [if_pos hf] at hact
    rw [run_body hact, hA]
    simp only
    rw [run_text nb, edata]
    simp

theorem run_page (tail : Bytes) (ht : plain tail) : ∀ l : List (Bytes × Part), (∀ x ∈ l, plain x.1 ∧ x.2.Ok) →
    Done l tail (run (page l tail))
  | [], _ => by
    have h := run_text (s := tail) (z := []) (fun _ _ e hv => no_tag (by decide) ht (Or.inl rfl) e hv)
    rw [List.append_nil, show run [] = [] from rfl, List.append_nil] at h
    have e : page [] tail = tail := rfl
    rw [e, h]
    exact .nil
  | (a, p) :: l, hl => by
    obtain ⟨h1, h2⟩ := hl (a, p) List.mem_cons_self
    have ih := run_page tail ht l fun x hx => hl x (List.mem_cons_of_mem _ hx)
    have e : page ((a, p) :: l) tail = a ++ (p.html ++ page l tail) := by simp [page]
    have hlt : ∃ w, p.html ++ page l tail = c!"<" :: w := ⟨_, by simp only [Part.html, List.cons_append, List.append_assoc]; rfl⟩
    obtain ⟨x, hx, h3⟩ := run_part h2 (page l tail)
    have h4 : NoStart b!"<thead>" a (p.html ++ page l tail) := fun _ _ e hv => no_tag (by decide) h1 (Or.inr hlt) e hv
    rw [e, run_text h4, h3, ← List.append_assoc]
    exact .cons hx ih

end Verif.RelaxedHeads
