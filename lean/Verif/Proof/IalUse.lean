/-
Lemmas about definitions, references, merging and output of attribute lists.
-/
import Verif.Proof.Ial
import Verif.Proof.DropBuf
import Verif.Proof.Address
import Verif.Proof.SupSub

namespace Verif.Ial
open Spec Transforms.Spec
open Text.Spec (ended)
open Address.Spec (File)

/-! ### Merging -/

theorem replace_none {k v : Bytes} : ∀ {l : List (Bytes × Bytes)}, replace k v l = none → k ∉ l.map (·.1)
  | [], _ => by simp
  | (k', v') :: l, h => by
    rw [replace] at h
    split at h
    · simp at h
    · rename_i hk
      have := replace_none (by simpa using h : replace k v l = none)
      simp only [List.map_cons, List.mem_cons, not_or]
      exact ⟨fun e => hk e.symm, this⟩

theorem replace_some {k v : Bytes} : ∀ {l l' : List (Bytes × Bytes)}, replace k v l = some l' →
    l'.map (·.1) = l.map (·.1) ∧ valueOf l' k = some v ∧ k ∈ l.map (·.1) ∧
    ∀ k', k' ≠ k → l'.filter (fun e => e.1 = k') = l.filter fun e => e.1 = k'
  | [], _, h => by simp [replace] at h
  | (k0, v0) :: l, l', h => by
    rw [replace] at h
    split at h
    · rename_i hk
      simp at h; subst h hk
      refine ⟨by simp, by simp [valueOf], by simp, fun k' hk' => ?_⟩
      simp [Ne.symm hk']
    · rename_i hk
      cases h1 : replace k v l with
      | none => rw [h1] at h; simp at h
      | some l1 =>
        rw [h1] at h; simp at h; subst h
        obtain ⟨a, b, c, d⟩ := replace_some h1
        refine ⟨by simp [a], ?_, ?_, fun k' hk' => ?_⟩
        · unfold valueOf at b ⊢; rw [List.find?_cons_of_neg (by simpa using hk)]; exact b
        · simp only [List.map_cons, List.mem_cons]; exact .inr c
        · rw [List.filter_cons, List.filter_cons, d k' hk']

theorem valueOf_append {l m : List (Bytes × Bytes)} {k : Bytes} :
    valueOf (l ++ m) k = (valueOf l k).or (valueOf m k) := by
  unfold valueOf; rw [List.find?_append]; cases l.find? _ <;> simp

theorem valueOf_none {l : List (Bytes × Bytes)} {k : Bytes} : valueOf l k = none ↔ k ∉ l.map (·.1) := by
  unfold valueOf
  rw [Option.map_eq_none_iff, List.find?_eq_none]
  simp only [decide_eq_true_eq, List.mem_map, not_exists, not_and]

theorem valueOf_filter {l : List (Bytes × Bytes)} {k : Bytes} :
    valueOf l k = (l.filter fun e => e.1 = k).head?.map (·.2) := by
  unfold valueOf; rw [← List.head?_filter]

theorem override_spec (l : List (Bytes × Bytes)) (k v : Bytes) :
    valueOf (override l (k, v)) k = some v ∧
    (∀ k', k' ≠ k → (override l (k, v)).filter (fun e => e.1 = k') = l.filter fun e => e.1 = k') ∧
    (override l (k, v)).map (·.1) = l.map (·.1) ++ (if k ∈ l.map (·.1) then [] else [k]) := by
  unfold override
  cases h : replace k v l with
  | none =>
    have := replace_none h
    simp only [Option.getD_none]
    refine ⟨?_, fun k' hk' => ?_, ?_⟩
    · rw [valueOf_append, valueOf_none.2 this]; simp [valueOf]
    · simp [List.filter_append, Ne.symm hk']
    · rw [if_neg this]; simp
  | some l' =>
    obtain ⟨a, b, c, d⟩ := replace_some h
    simp only [Option.getD_some]
    exact ⟨b, d, by rw [if_pos c, a, List.append_nil]⟩

theorem fold_override : ∀ (over l : List (Bytes × Bytes)),
    (∀ k, valueOf (over.foldl override l) k = (lastValueOf over k).or (valueOf l k)) ∧
    (∀ k, k ∉ over.map (·.1) → (over.foldl override l).filter (fun e => e.1 = k) = l.filter fun e => e.1 = k) ∧
    (∃ more, (over.foldl override l).map (·.1) = l.map (·.1) ++ more ∧ more.Nodup ∧
      (∀ k, k ∈ more ↔ k ∈ over.map (·.1) ∧ k ∉ l.map (·.1)))
  | [], l => ⟨by simp [lastValueOf, valueOf], by simp, [], by simp⟩
  | (k0, v0) :: over, l => by
    obtain ⟨h1, h2, h3⟩ := override_spec l k0 v0
    obtain ⟨i1, i2, more, i3, i4, i5⟩ := fold_override over (override l (k0, v0))
    rw [List.foldl_cons]
    refine ⟨fun k => ?_, fun k hk => ?_, ?_⟩
    · rw [i1 k]
      have e : lastValueOf ((k0, v0) :: over) k = (lastValueOf over k).or (valueOf [(k0, v0)] k) := by
        unfold lastValueOf; rw [List.reverse_cons, valueOf_append]
      rw [e]
      by_cases hk : k = k0
      · subst hk; rw [h1]; cases lastValueOf over k <;> simp [valueOf]
      · rw [valueOf_filter (l := override l (k0, v0)), h2 k hk, ← valueOf_filter]
        have : valueOf [(k0, v0)] k = none := valueOf_none.2 (by simp [hk])
        rw [this]; cases lastValueOf over k <;> simp
    · simp only [List.map_cons, List.mem_cons, not_or] at hk
      rw [i2 k hk.2, h2 k hk.1]
    · rw [i3, h3]
      by_cases hk : k0 ∈ l.map (·.1)
      · rw [if_pos hk] at h3 ⊢
        refine ⟨more, by simp, i4, fun k => ?_⟩
        rw [i5, h3]
        simp only [List.append_nil, List.map_cons, List.mem_cons]
        constructor
        · rintro ⟨a, b⟩; exact ⟨.inr a, b⟩
        · rintro ⟨rfl | a, b⟩
          · exact absurd hk b
          · exact ⟨a, b⟩
      · rw [if_neg hk] at h3 ⊢
        refine ⟨k0 :: more, by simp, ?_, fun k => ?_⟩
        · rw [List.nodup_cons]; refine ⟨fun h => ?_, i4⟩
          have := ((i5 k0).1 h).2
          rw [h3] at this; simp at this
        · rw [List.mem_cons, i5, h3]
          simp only [List.mem_append, List.map_cons, List.mem_cons, not_or]
          constructor
          · rintro (rfl | ⟨a, b, c⟩)
            · exact ⟨.inl rfl, hk⟩
            · exact ⟨.inr a, b⟩
          · rintro ⟨rfl | a, b⟩
            · exact .inl rfl
            · by_cases e : k = k0
              · exact .inl e
              · exact .inr ⟨a, b, e, by simp⟩

theorem merge_empty (a : Attrs) : merge a empty = a := by
  cases a; simp [merge, empty]

/-! ### Definitions -/

theorem span_free {bad : Bytes} {p : Byte → Bool} (hp : ∀ c, p c = true ↔ c ∉ bad) {x : Bytes} {d : Byte} {r : Bytes}
    (hx : Free bad x) (hd : d ∈ bad) : (x ++ d :: r).takeWhile p = x ∧ (x ++ d :: r).dropWhile p = d :: r := by
  have h1 : ∀ c ∈ x, p c = true := fun c hc => (hp c).2 (hx c hc)
  have h2 : p d = false := by
    cases h : p d with
    | false => rfl
    | true => exact absurd hd ((hp d).1 h)
  exact ⟨by rw [List.takeWhile_append_of_pos h1]; simp [h2], by rw [List.dropWhile_append_of_pos h1]; simp [h2]⟩

theorem aldLine_iff {line name content : Bytes} : aldLine line = some (name, content) ↔ Defines line name content := by
  constructor
  · intro h
    unfold aldLine at h
    have hw : Gap (line.takeWhile isSpace) := fun c hc =>
      (Transforms.isSpace_iff c).1 (SupSub.mem_takeWhile hc)
    have el := (List.takeWhile_append_dropWhile (p := isSpace) (l := line)).symm
    split at h
    · rename_i a b t ht
      split at h
      · rename_i hab
        obtain ⟨rfl, rfl⟩ := hab
        simp only at h
        have et := (List.takeWhile_append_dropWhile (p := fun c => decide (c ≠ c!":" ∧ c ≠ c!"}")) (l := t)).symm
        split at h
        · rename_i d u hu
          split at h
          · rename_i hd
            simp only [Option.some.injEq, Prod.mk.injEq] at h
            obtain ⟨rfl, rfl⟩ := h
            obtain ⟨rfl, hn, hm⟩ := hd
            have eu := (List.takeWhile_append_dropWhile (p := fun c => decide (c ≠ c!"}")) (l := u)).symm
            have hdw : ∃ r, u.dropWhile (fun c => decide (c ≠ c!"}")) = c!"}" :: r := by
              cases hq : u.dropWhile (fun c => decide (c ≠ c!"}")) with
              | nil =>
                exfalso
                rw [hq, List.append_nil] at eu
                rw [eu] at hm
                have := (SupSub.mem_takeWhile hm)
                simp at this
              | cons e r =>
                have := List.head?_dropWhile_not (fun c => decide (c ≠ c!"}")) u
                rw [hq] at this
                simp at this
                exact ⟨r, by rw [this]⟩
            obtain ⟨r, hr⟩ := hdw
            refine ⟨_, r, ?_, hw, hn, ?_, ?_⟩
            · rw [hr] at eu
              rw [hu] at et
              rw [ht] at el
              simp only [List.append_assoc]
              conv => lhs; rw [el]
              congr 1
              simp only [List.cons_append, List.nil_append]
              congr 2
              conv => lhs; rw [et]
              congr 2
            · intro c hc
              have := (SupSub.mem_takeWhile hc)
              simp at this; simp [this]
            · intro c hc
              have := (SupSub.mem_takeWhile hc)
              simp at this; simp [this]
          · simp at h
        · simp at h
      · simp at h
    · simp at h
  · rintro ⟨ws, rest, rfl, hw, hn, hf, hc⟩
    unfold aldLine
    have e1 : (ws ++ b!"{:" ++ name ++ b!":" ++ content ++ b!"}" ++ rest).dropWhile isSpace =
        c!"{" :: c!":" :: (name ++ c!":" :: (content ++ c!"}" :: rest)) := by
      simp only [List.append_assoc]
      rw [List.dropWhile_append_of_pos (isSpace_gap hw)]
      have : isSpace 123 = false := by decide
      simp [this]
    rw [e1]
    have h1 := span_free (p := fun c => decide (c ≠ c!":" ∧ c ≠ c!"}")) (by simp) hf (d := c!":")
      (r := content ++ c!"}" :: rest) (by simp)
    have h2 := span_free (p := fun c => decide (c ≠ c!"}")) (by simp) hc (d := c!"}") (r := rest) (by simp)
    simp only [h1, h2, and_self, if_true]
    rw [if_pos ⟨trivial, hn, by simp⟩]

theorem keepLines_run {α : Type} {cap : Nat} {test : Nat → Bytes → C (Option (List α))} : ∀ (x : Bytes) {cur : Bytes}
    {n : Nat} {t : Bytes}, c!"\n" ∉ x → keepLines cap test cur n (x ++ t) = keepLines cap test (cur ++ x) n t
  | [], _, _, _, _ => by simp
  | c :: x, cur, n, t, h => by
    simp only [List.mem_cons, not_or] at h
    rw [List.cons_append, keepLines, if_neg (Ne.symm h.1), keepLines_run x h.2]; simp

theorem keepLines_line {α : Type} {cap : Nat} {test : Nat → Bytes → C (Option (List α))} {x : Bytes} {n : Nat} {t : Bytes}
    (h : c!"\n" ∉ x) (hl : x.length < cap) : keepLines cap test [] n (x ++ c!"\n" :: t) = (do
      match ← test n x with
      | some a => do
        let (o, b) ← keepLines cap test [] (n + 1) t
        .val (o, a ++ b)
      | none => do
        let (o, b) ← keepLines cap test [] (n + 1) t
        .val (x ++ c!"\n" :: o, b)) := by
  rw [keepLines_run x h, keepLines, if_pos rfl, List.nil_append, List.take_of_length_le (by omega)]; rfl

theorem keepLines_last {α : Type} {cap : Nat} {test : Nat → Bytes → C (Option (List α))} {x : Bytes} {n : Nat}
    (h : c!"\n" ∉ x) (hx : x ≠ []) : keepLines cap test [] n x = (do
      match ← test n (x.take (cap - 1)) with
      | some a => .val ([], a)
      | none => .val (x.take (cap - 1), [])) := by
  have := keepLines_run (cap := cap) (test := test) (n := n) (cur := []) (t := []) x h
  rw [List.append_nil] at this
  rw [this, keepLines, List.nil_append, if_neg hx]; rfl

theorem defines_length {l n c : Bytes} (h : Defines l n c) : c.length ≤ l.length := by
  obtain ⟨ws, rest, rfl, -⟩ := h
  simp; omega

theorem aldLine_none {l : Bytes} (h : ∀ n c, ¬ Defines l n c) : aldLine l = none := by
  cases e : aldLine l with
  | none => rfl
  | some p => exact absurd (aldLine_iff.1 e) (h p.1 p.2)

/-- The test of `extractAlds`. -/
def aldTest (after : Nat → Bytes) (n : Nat) (line : Bytes) : C (Option (List (Bytes × Attrs))) :=
  match aldLine line with
  | some (name, content) => do
    let a ← parse content (after n)
    .val (some [(name, a)])
  | none => .val none

theorem aldTest_def {after : Nat → Bytes} {n : Nat} {l name content : Bytes} {items : List Item}
    (h : Defines l name content) (hw : Written content items) (hl : l.length < 2048) :
    aldTest after n l = .val (some [(name, meaning items)]) := by
  unfold aldTest
  have := defines_length h
  rw [aldLine_iff.2 h]
  simp only [parse_written hw (by omega : content.length < 2048)]
  rfl

theorem extract_sorted {after : Nat → Bytes} {last : Bytes} {kl : List Bytes} {dl : List (Bytes × Attrs)}
    (hlast : c!"\n" ∉ last) (hll : last.length < 2048) (hs' : Sorted (if last = [] then [] else [last]) kl dl)
    {ls kept : List Bytes} {defs : List (Bytes × Attrs)} (hs : Sorted ls kept defs)
    (hn : ∀ l ∈ ls, c!"\n" ∉ l) (hl : ∀ l ∈ ls, l.length < 2048) (n : Nat) :
    keepLines 2048 (aldTest after) [] n (ended ls ++ last) = .val (ended kept ++ kl.flatten, defs ++ dl) := by
  induction hs generalizing n with
  | nil =>
    by_cases h : last = []
    · subst h
      rw [if_pos rfl] at hs'
      cases hs'; simp [ended, keepLines]
    · rw [if_neg h] at hs'
      have e : ended ([] : List Bytes) = [] := rfl
      rw [e, List.nil_append, keepLines_last hlast h, List.take_of_length_le (by omega)]
      cases hs' with
      | keep hk hr =>
        cases hr
        simp [aldTest, aldLine_none hk]
      | take hd hw hr =>
        cases hr
        rw [aldTest_def hd hw hll]; simp
  | @keep l ls kept defs hk hr ih =>
    have e : ended (l :: ls) ++ last = l ++ c!"\n" :: (ended ls ++ last) := by simp [ended]
    have ih := ih (fun l h => hn l (by simp [h])) (fun l h => hl l (by simp [h])) (n + 1)
    rw [e, keepLines_line (hn l (by simp)) (hl l (by simp)), ih]
    simp [aldTest, aldLine_none hk, ended]
  | @take l ls kept defs name content items hd hw hr ih =>
    have e : ended (l :: ls) ++ last = l ++ c!"\n" :: (ended ls ++ last) := by simp [ended]
    have ih := ih (fun l h => hn l (by simp [h])) (fun l h => hl l (by simp [h])) (n + 1)
    rw [e, keepLines_line (hn l (by simp)) (hl l (by simp)), ih, aldTest_def hd hw (hl l (by simp))]
    simp

/-! ### References -/

theorem afterLast_append {c : Byte} {t : Bytes} (h : c ∉ t) : ∀ pre : Bytes, afterLast c (pre ++ c :: t) = some t
  | [] => by
    have : ∀ t : Bytes, c ∉ t → afterLast c t = none := by
      intro t
      induction t with
      | nil => intro _; rfl
      | cons d t ih =>
        intro h
        simp only [List.mem_cons, not_or] at h
        simp [afterLast, ih h.2, Ne.symm h.1]
    simp [afterLast, this t h]
  | d :: pre => by rw [List.cons_append, afterLast, afterLast_append h pre]

/-- An attribute list `{:content}` at the end of a text. -/
theorem extract_colon {alds : List (Bytes × Attrs)} {after pre content ws : Bytes} (hc : Free b!"{}" content)
    (hne : content ≠ []) (hw : Gap ws) :
    extractIal alds after (pre ++ b!"{:" ++ content ++ b!"}" ++ ws) = resolve alds after content := by
  unfold extractIal
  have hws : ∀ c ∈ ws, c ≠ c!"{" ∧ isSpace c = true := fun c h => by
    have := isSpace_gap hw c h
    exact ⟨by rintro rfl; revert this; decide, this⟩
  have e : pre ++ b!"{:" ++ content ++ b!"}" ++ ws = pre ++ c!"{" :: (c!":" :: (content ++ c!"}" :: ws)) := by simp
  have h1 := span_free (bad := b!"}") (p := fun c => decide (c ≠ c!"}")) (by simp)
    (x := content) (d := c!"}") (r := ws) (fun c h => by have := hc c h; simp at this; simp [this]) (by simp)
  rw [e, afterLast_append (by
    intro h
    simp only [List.mem_cons, List.mem_append] at h
    rcases h with h | h | h | h
    · exact absurd h (by decide)
    · have := hc _ h; simp at this
    · exact absurd h (by decide)
    · exact (hws _ h).1 rfl)]
  simp only
  rw [if_neg (by simp), if_neg (by simp), if_neg (by simp)]
  have h2 : ((c!":" :: (content ++ c!"}" :: ws)).dropWhile fun c => decide (c ≠ c!"}")) = c!"}" :: ws := by
    rw [List.dropWhile_cons]; simp only [if_pos (show decide ((58 : UInt8) ≠ 125) = true by decide)]; exact h1.2
  rw [h2, if_neg (by simp; exact fun c h => (hws c h).2), if_pos trivial, h1.1, if_neg hne]

theorem trimEnd_gap {x ws : Bytes} (hw : Gap ws) (hx : ∀ c ∈ x.getLast?, isSpace c = false) : trimEnd (x ++ ws) = x := by
  unfold trimEnd
  rw [List.reverse_append, List.dropWhile_append_of_pos (fun c h => isSpace_gap hw c (by simpa using h))]
  cases h : x.reverse with
  | nil => simp at h; simp [h]
  | cons c t =>
    have e : x = t.reverse ++ [c] := by rw [← List.reverse_reverse x, h]; simp
    have := hx c (by rw [e]; simp)
    rw [List.dropWhile_cons]; simp only [this, Bool.false_eq_true, if_false]; rw [e]; simp

/-- A name that can be referred to. -/
theorem name_facts {name : Bytes} (h : Free (blanks ++ b!"#.=") name) (c : Byte) (hc : c ∈ name) :
    isSpace c = false ∧ (!isSpace c && c != c!"#" && c != c!"." && c != c!"=") = true := by
  have := not_blank (h c hc)
  simp at this
  exact ⟨this.2.1, by simp [this]⟩

theorem resolve_name {alds : List (Bytes × Attrs)} {after ws name ws' : Bytes} {a : Attrs} (h1 : Gap ws) (h2 : Gap ws')
    (hn : name ≠ []) (hf : Free (blanks ++ b!"#.=") name) (hl : (ws ++ name ++ ws').length < 2048)
    (ha : findAld alds name = some a) : resolve alds after (ws ++ name ++ ws') = .val (some a) := by
  have hfc := name_facts hf
  have hlead : (ws ++ name ++ ws').dropWhile isSpace = name ++ ws' := by
    rw [List.append_assoc, List.dropWhile_append_of_pos (isSpace_gap h1)]
    cases name with
    | nil => exact absurd rfl hn
    | cons c n => simp [(hfc c (by simp)).1]
  have htok : (name ++ ws').takeWhile (fun c => !isSpace c && c != c!"#" && c != c!"." && c != c!"=") = name := by
    rw [List.takeWhile_append_of_pos (fun c h => (hfc c h).2)]
    cases ws' with
    | nil => simp
    | cons c w => simp [isSpace_gap h2 c (by simp)]
  have htrim : trimEnd (name ++ ws') = name := trimEnd_gap h2 (fun c h => (hfc c (List.mem_of_getLast? h)).1)
  unfold resolve
  rw [List.take_of_length_le (by omega)]
  simp only [hlead, htok, htrim]
  rw [if_neg (by simp [hn])]
  simp only [if_neg hn, ha, List.drop_length, List.dropWhile_nil, if_true, merge_empty]

theorem stray_marker {w : Bytes} (hw : Stray w) : marker w = none := by
  rw [marker_eq]
  cases e : words.lookup w with
  | none => rfl
  | some m =>
    exfalso
    have : (w, m) ∈ words := by
      have : ∀ (l : List (Bytes × Bytes)), l.lookup w = some m → (w, m) ∈ l := by
        intro l
        induction l with
        | nil => intro h; simp at h
        | cons p l ih =>
          intro h
          obtain ⟨p1, p2⟩ := p
          rw [List.lookup_cons] at h
          split at h
          · rename_i hp
            simp at hp h; subst hp h; simp
          · exact List.mem_cons_of_mem _ (ih h)
      exact this _ e
    exact hw.2.2.2 m this

theorem written_nonspace {text : Bytes} {items : List Item} (h : Written text items) (hi : items ≠ []) :
    ∃ c ∈ text, isSpace c = false := by
  cases h with
  | nil => exact absurd rfl hi
  | one hg hok hf hw =>
    obtain ⟨c, t, e, _, hs⟩ := item_head hok
    exact ⟨c, by simp [e], hs⟩
  | cons hg hok ha hw =>
    obtain ⟨c, t, e, _, hs⟩ := item_head hok
    exact ⟨c, by simp [e], hs⟩

theorem run_stray {n : Nat} {a : Attrs} {w : Bytes} (hw : Stray w) {d : Byte} (hd : d = c!" " ∨ d = c!"\t") {r : Bytes} :
    run (n + 1) a (w ++ d :: r) = run n a r := by
  obtain ⟨h1, h2, h3, h4⟩ := hw
  have hs := scan_stop (d := d) (r := r) (key_free h2) (by rcases hd with rfl | rfl <;> decide)
  have hm := stray_marker ⟨h1, h2, h3, h4⟩
  cases w with
  | nil => exact absurd rfl h1
  | cons c t =>
    have hc := h3 c (by simp)
    have hb := not_blank (h2 c (by simp))
    have s := scan_stop (stop := fun c => !isSpace c) (x := []) (d := c) (r := t ++ d :: r) (by simp) (by simp [hb.2.1])
    simp only [List.nil_append] at s
    simp only [List.cons_append] at hs ⊢
    have hd' : d ≠ c!"=" := by rcases hd with rfl | rfl <;> decide
    simp only [run, s, C.val_bind, if_neg hb.1, item, if_neg hc.1, if_neg hc.2, hs, if_neg hd', hm]

/-- A stray word before a list adds nothing. -/
theorem parse_stray {w : Bytes} (hw : Stray w) {d : Byte} (hd : d = c!" " ∨ d = c!"\t") {ws more : Bytes} {items : List Item}
    (h1 : Gap ws) (hm : Written more items) (hl : (ws ++ w ++ d :: more).length < 2048) (after : Bytes) :
    parse (ws ++ w ++ d :: more) after = .val (meaning items) := by
  have e := parse_written hm (by simp at hl; omega) after
  unfold parse at e ⊢
  rw [List.take_of_length_le (by simp at hl; omega)] at e
  rw [List.take_of_length_le (by omega)]
  have hlen := written_length hm
  have e2 : ws ++ w ++ d :: more ++ 0 :: after = ws ++ (w ++ d :: (more ++ 0 :: after)) := by simp
  simp only [e2, run_gap h1]
  have hw1 := List.length_pos_iff.2 hw.1
  rw [run_stray hw hd]
  refine Eq.trans ?_ e
  exact run_fuel _ _ _ _ (by simp; omega) (by simp)

theorem findAld_none {alds : List (Bytes × Attrs)} {name : Bytes} (h : ∀ e ∈ alds, e.1 ≠ name) : findAld alds name = none := by
  unfold findAld
  rw [Option.map_eq_none_iff, List.find?_eq_none]
  simpa using h

/-- When no definition has the whole content as its name, the content is parsed by itself. -/
theorem resolve_plain {alds : List (Bytes × Attrs)} {after content : Bytes} (hl : content.length < 2048)
    (hne : ∃ c ∈ content, isSpace c = false) (ha : ∀ e ∈ alds, e.1 ≠ trimEnd (content.dropWhile isSpace)) :
    resolve alds after content = (do let a ← parse content after; .val (some a)) := by
  unfold resolve
  rw [List.take_of_length_le (by omega)]
  have : content.dropWhile isSpace ≠ [] := by
    intro h
    obtain ⟨c, hc, hs⟩ := hne
    have := List.takeWhile_append_dropWhile (p := isSpace) (l := content)
    rw [h, List.append_nil] at this
    rw [← this] at hc
    have := (SupSub.mem_takeWhile hc)
    rw [hs] at this; exact absurd this (by simp)
  simp only [if_neg this]
  rw [findAld_none ha]
  simp only [ite_self]

/-! ### Output -/

theorem pixels_some {v n : Bytes} (h : pixels v = some n) : Pixels v n := by
  unfold pixels at h
  split at h
  · rename_i hs
    obtain ⟨t, rfl⟩ := hs
    have : (t ++ b!"px").take ((t ++ b!"px").length - 2) = t := by simp
    rw [this] at h
    split at h
    · rename_i ht
      simp at h; subst h
      exact ⟨.inr rfl, by simpa using ht⟩
    · simp at h
  · split at h
    · rename_i ht
      simp at h; subst h
      exact ⟨.inl rfl, by simpa using ht⟩
    · simp at h

theorem pixels_of {v n : Bytes} (h : Pixels v n) : pixels v = some n := by
  obtain ⟨h | h, hd⟩ := h
  · subst h
    unfold pixels
    rw [if_neg ?_, if_pos (by simpa using hd)]
    rintro ⟨t, rfl⟩
    have := hd c!"x" (by simp)
    revert this; decide
  · subst h
    unfold pixels
    have : (n ++ b!"px").take ((n ++ b!"px").length - 2) = n := by simp
    rw [if_pos ⟨n, rfl⟩, this, if_pos (by simpa using hd)]

theorem pixels_none {v : Bytes} (h : ∀ n, ¬ Pixels v n) : pixels v = none := by
  cases e : pixels v with
  | none => rfl
  | some n => exact absurd (pixels_some e) (h n)

theorem pair_eq (first : Bool) (k v : Bytes) : pair first k v = (if first then [] else b!" ") ++ written k v := by
  simp [pair, written]

theorem snp_eq {n : Nat} {s : Bytes} (h : s.length < n) : snp n s = s := by
  unfold snp; exact List.take_of_length_le (by omega)

/-- Texts with a blank before each, but not before the first. -/
def spaced (first : Bool) : List Bytes → List Bytes
  | [] => []
  | p :: ps => ((if first then [] else b!" ") ++ p) :: spaced false ps

theorem spaced_append (first : Bool) (p q : List Bytes) :
    spaced first (p ++ q) = spaced first p ++ spaced (first && p.isEmpty) q := by
  induction p generalizing first with
  | nil => simp [spaced]
  | cons x p ih => simp [spaced, ih]

theorem spaced_flatten (ps : List Bytes) : (spaced true ps).flatten = between b!" " ps := by
  have h : ∀ ps : List Bytes, ∀ x, x ++ (spaced false ps).flatten = between b!" " (x :: ps) := by
    intro ps
    induction ps with
    | nil => intro x; simp [spaced, between]
    | cons y ps ih =>
      intro x
      rw [between, ← ih y]; simp [spaced]
  cases ps with
  | nil => rfl
  | cons x ps => simpa [spaced] using h ps x

theorem between_append (sep : Bytes) : ∀ (x : List Bytes) (y : Bytes), x ≠ [] →
    between sep (x ++ [y]) = between sep x ++ sep ++ y
  | [x], y, _ => rfl
  | x :: z :: r, y, _ => by
    have := between_append sep (z :: r) y (by simp)
    simp only [List.cons_append, between] at this ⊢
    rw [this]; simp

theorem classToks_flatten (first : Bool) (a : Attrs) : (classToks first a).flatten =
    (spaced first (classPiece a)).flatten := by
  unfold classToks classPiece
  cases h : a.classes with
  | nil => simp [spaced]
  | cons c cs =>
    simp only [List.cons_ne_nil, if_false, spaced]
    have : ∀ (cs : List Bytes) (c : Bytes), c ++ (cs.flatMap fun d => [b!" ", d]).flatten = between b!" " (c :: cs) := by
      intro cs
      induction cs with
      | nil => intro c; simp [between]
      | cons d cs ih => intro c; rw [between, ← ih d]; simp
    rw [← this cs c]
    cases first <;> simp [written]

/-- `sizes` collects the sizes and the declarations. -/
theorem sizes_spec {l : List (Bytes × Bytes)} {sized decls : List Bytes} (h : Sizes l sized decls) :
    ∀ (z : Sz) (old : List Bytes), z.style = between b!"; " old → z.has = !old.isEmpty →
    (∀ p ∈ sized, p.length < 1000) → (between b!"; " (old ++ decls)).length < 1000 →
    sizes z l = .val (Sz.mk (z.first && sized.isEmpty) (z.toks ++ spaced z.first sized)
      (between b!"; " (old ++ decls)) (!(old ++ decls).isEmpty)) := by
  induction h with
  | nil =>
    intro z old h1 h2 _ _
    cases z; simp at h1 h2; simp [sizes, spaced, h1, h2]
  | other hk1 hk2 _ ih =>
    intro z old h1 h2 h3 h4
    rw [sizes, size, if_neg (by simp; exact ⟨hk1, hk2⟩)]
    exact ih z old h1 h2 h3 h4
  | @number k v l p d n hk hp hn _ ih =>
    intro z old h1 h2 h3 h4
    rw [sizes, size, if_pos hk]
    simp only [pixels_of hp]
    rw [if_neg (by omega)]
    have hlen := h3 (written k n) (by simp)
    have : snp 1024 (pair z.first k n) = (if z.first then [] else b!" ") ++ written k n := by
      rw [snp_eq, pair_eq]
      rw [pair_eq]; split <;> simp <;> omega
    rw [this]
    simp only [C.val_bind]
    rw [ih { z with first := false, toks := _ } old h1 h2 (fun q hq => h3 q (by simp [hq])) h4]
    simp [spaced]
  | @css k v l p d hk hp _ ih =>
    intro z old h1 h2 h3 h4
    rw [sizes, size, if_pos hk]
    simp only [pixels_none hp]
    have e : z.style ++ (if z.has then b!"; " else []) ++ k ++ b!": " ++ v = between b!"; " (old ++ [k ++ b!": " ++ v]) := by
      cases old with
      | nil => simp [h1, h2, between]
      | cons x r => rw [between_append _ _ _ (by simp), h1]; simp [h2]
    have e2 : old ++ (k ++ b!": " ++ v) :: d = (old ++ [k ++ b!": " ++ v]) ++ d := by simp
    rw [e2] at h4 ⊢
    have hle : ∀ (x y : List Bytes), (between b!"; " x).length ≤ (between b!"; " (x ++ y)).length := by
      intro x y
      induction x with
      | nil => simp [between]
      | cons a x ih =>
        cases x with
        | nil => cases y <;> simp [between]
        | cons b x => simp only [List.cons_append, between, List.length_append] at ih ⊢; omega
    have := hle (old ++ [k ++ b!": " ++ v]) d
    rw [e, if_pos (by omega)]
    simp only [C.val_bind]
    exact ih { z with style := _, has := true } (old ++ [k ++ b!": " ++ v]) rfl (by simp) h3 h4

theorem special_hidden (k : Bytes) : k ∈ special ↔ k ∈ hidden := by
  have : special = hidden := by decide +kernel
  rw [this]

theorem otherToks_spec : ∀ (l : List (Bytes × Bytes)) (first : Bool), (∀ p ∈ otherPieces l, p.length < 1000) →
    otherToks first l = spaced first (otherPieces l)
  | [], _, _ => rfl
  | (k, v) :: l, first, h => by
    rw [otherToks]
    by_cases hk : k ∈ hidden
    · have hk' := (special_hidden k).2 hk
      have e : otherPieces ((k, v) :: l) = otherPieces l := by
        unfold otherPieces; rw [List.filter_cons_of_neg (by simp [hk'])]
      rw [if_pos hk, e]
      rw [e] at h
      exact otherToks_spec l first h
    · have hk' : k ∉ special := fun e => hk ((special_hidden k).1 e)
      have e : otherPieces ((k, v) :: l) = written k v :: otherPieces l := by
        unfold otherPieces; rw [List.filter_cons_of_pos (by simp [hk'])]; rfl
      rw [e] at h
      have hlen := h (written k v) (by simp)
      rw [if_neg hk, e, otherToks_spec l false (fun p hp => h p (by simp [hp]))]
      simp only [spaced]
      rw [snp_eq, pair_eq]
      rw [pair_eq]; split <;> simp <;> omega

theorem chunks_out (ts : List Bytes) : (ts.map DropBuf.Tok.chunk).flatMap DropBuf.Tok.out = ts.flatten := by
  induction ts with
  | nil => rfl
  | cons t ts ih => simp [DropBuf.Tok.out, ih]

theorem isEmpty_app {α : Type} (x y : List α) : (x ++ y).isEmpty = (x.isEmpty && y.isEmpty) := by
  cases x <;> simp

theorem idToks_spec {a : Attrs} (h : ∀ p ∈ idPiece a, p.length ≤ 500) : idToks a = spaced true (idPiece a) := by
  unfold idToks idPiece at *
  cases e : a.id with
  | none => rfl
  | some i =>
    rw [e] at h
    have := h (written b!"id" i) (by simp)
    simp only [spaced]
    rw [snp_eq (by rw [pair_eq]; simp; omega), pair_eq]
    simp

theorem style0_spec {a : Attrs} (h : ∀ s ∈ styleGiven a, s.length ≤ 500) :
    style0 a = between b!"; " (styleGiven a) ∧ (!(style0 a).isEmpty) = !(styleGiven a).isEmpty := by
  unfold style0 styleGiven valueOf at *
  cases e : a.attrs.find? (fun kv => decide (kv.1 = b!"style")) with
  | none => simp [between]
  | some kv =>
    rw [e] at h
    simp only [Option.map_some] at h ⊢
    by_cases he : kv.2 = []
    · simp [he, between]
    · rw [if_neg he] at h
      have := h kv.2 (by simp)
      simp only [List.take_of_length_le (show kv.2.length ≤ 1023 by omega), if_neg he, between, true_and]
      cases e2 : kv.2 with
      | nil => exact absurd e2 he
      | cons c t => rfl

theorem between_mem {sep x : Bytes} : ∀ {l : List Bytes}, x ∈ l → x.length ≤ (between sep l).length
  | [y], h => by simp at h; simp [h, between]
  | y :: z :: r, h => by
    simp only [between, List.length_append]
    rcases List.mem_cons.1 h with rfl | h
    · omega
    · have := between_mem (sep := sep) h; omega

theorem toHtml_pieces {a : Attrs} {sized decls : List Bytes} (hs : Sizes a.attrs sized decls)
    (hp : ∀ p ∈ pieces a sized decls, p.length ≤ 500)
    (ht : (between b!" " (pieces a sized decls)).length < 4096) :
    toHtml a = .val (between b!" " (pieces a sized decls)) := by
  have hpc := hp
  unfold pieces at hpc
  simp only [List.mem_append] at hpc
  have ids := idToks_spec (a := a) fun p h => hpc p (.inl (.inl (.inl (.inl h))))
  have hsty : (between b!"; " (styleGiven a ++ decls)).length < 500 := by
    by_cases h : styleGiven a ++ decls = []
    · rw [h]; simp [between]
    · have := hpc (written b!"style" (between b!"; " (styleGiven a ++ decls))) (.inl (.inr (by
        unfold stylePiece; rw [if_neg h]; simp)))
      simp [written] at this; omega
  have hst := style0_spec (a := a) fun s h => by
    have := between_mem (sep := b!"; ") (List.mem_append.2 (.inl h : s ∈ styleGiven a ∨ s ∈ decls)); omega
  have hne : decide (style0 a ≠ []) = !(style0 a).isEmpty := by cases style0 a <;> simp
  have hsz := sizes_spec hs (Sz.mk (idToks a ++ classToks (idToks a).isEmpty a).isEmpty [] (style0 a) (decide (style0 a ≠ [])))
    (styleGiven a) hst.1 (by rw [hne]; exact hst.2) (fun p h => by have := hpc p (.inl (.inl (.inr h))); omega) (by omega)
  have hoth := fun b => otherToks_spec a.attrs b (fun p h => by have := hpc p (.inr h); omega)
  have hf1 : (idToks a).isEmpty = (idPiece a).isEmpty := by
    unfold idToks idPiece; cases a.id <;> rfl
  have hf2 : ∀ b, (classToks b a).isEmpty = (classPiece a).isEmpty := by
    intro b; unfold classToks classPiece; cases a.classes <;> simp
  have hflag : (idToks a ++ classToks (idToks a).isEmpty a).isEmpty = (idPiece a ++ classPiece a).isEmpty := by
    rw [isEmpty_app, isEmpty_app, hf1, hf2]
  unfold toHtml
  rw [hflag] at hsz
  simp only []
  rw [hflag, hsz]
  simp only [C.val_bind, hoth]
  generalize hall : styleGiven a ++ decls = all at *
  have key : (idToks a ++ classToks (idToks a).isEmpty a ++ ([] ++ spaced (idPiece a ++ classPiece a).isEmpty sized) ++
      (if (!all.isEmpty) = true then
        [snp 1024 (pair ((idPiece a ++ classPiece a).isEmpty && sized.isEmpty) b!"style" (between b!"; " all))] else []) ++
      spaced ((idPiece a ++ classPiece a).isEmpty && sized.isEmpty && !!all.isEmpty) (otherPieces a.attrs)).flatten =
      between b!" " (pieces a sized decls) := by
    rw [← spaced_flatten]
    unfold pieces
    rw [hall]
    simp only [spaced_append, List.flatten_append, Bool.true_and, List.nil_append]
    congr 1
    · congr 1
      · congr 1
        congr 1
        · rw [ids]
        · rw [classToks_flatten, hf1]
      · unfold stylePiece
        cases all with
        | nil => simp [spaced]
        | cons x r =>
          simp only [List.isEmpty_cons, Bool.not_false, if_true, spaced, reduceCtorEq, if_false]
          rw [snp_eq, pair_eq]
          · simp [isEmpty_app, and_assoc]
          · rw [pair_eq]; simp only [written, List.length_append]; split <;> simp <;> omega
    · congr 1
      congr 1
      unfold stylePiece
      cases all <;> simp [isEmpty_app, Bool.and_assoc]
  rw [DropBuf.run_fits]
  · rw [chunks_out]; congr 1
  · intro t ht n e
    obtain ⟨x, _, rfl⟩ := List.mem_map.1 ht
    simp
  · rw [chunks_out, key]; exact ht

end Verif.Ial
