import Verif.Spec.TableSpans
import Verif.Proof.ElemAttrs
import Verif.Proof.Index
import Verif.Proof.Toc

namespace Verif.TableSpans
open Embed (find)
open ElemAttrs (has has_iff has_not)
open ImgCaptions (trim)
open Spec (Blank Padded Rule words word Colon Colonless Holds Clean Dash At Sound Lefts Ups attr mark Kept Covers Tiles RuleRow Aligned)

/-! ### Words with blanks around them -/

theorem trim_split (s : Bytes) : ∃ a b, s = a ++ trim s ++ b ∧ Blank a ∧ Blank b ∧ a = s.takeWhile isSpace ∧
    (trim s = [] ∨ b = (s.reverse.takeWhile isSpace).reverse ∧ (∃ c y, trim s = c :: y ∧ isSpace c = false) ∧ ∃ y d, trim s = y ++ [d] ∧ isSpace d = false) := by
  obtain ⟨a, r, e, ha, hr, h1, h2⟩ := Index.span_split isSpace s
  obtain ⟨b, q, e', hb, hq, h3, h4⟩ := Index.span_split isSpace r.reverse
  have er : r = q.reverse ++ b.reverse := by rw [← List.reverse_reverse r, e', List.reverse_append]
  have ht : trim s = q.reverse := by unfold trim; rw [h2, h4]
  refine ⟨a, b.reverse, ?_, ha, fun c hc => hb c (by simpa using hc), h1.symm, ?_⟩
  · rw [ht, List.append_assoc, ← er, ← e]
  · rcases hq with rfl | ⟨d, q', rfl, hd⟩
    · exact .inl (by rw [ht]; rfl)
    · right
      refine ⟨?_, ?_, ⟨q'.reverse, d, by rw [ht, List.reverse_cons], hd⟩⟩
      · rw [e, List.reverse_append, e', List.append_assoc, List.cons_append, (Index.span_stop hb hd).1]
      · rw [ht]
        rcases hr with rfl | ⟨c, y, rfl, hc⟩
        · simp at e'
        · rw [List.reverse_cons] at er ⊢
          cases hq' : q'.reverse with
          | nil => rw [hq'] at er; simp only [List.nil_append, List.cons_append, List.cons.injEq] at er; exact ⟨d, [], rfl, hd⟩
          | cons x z =>
            rw [hq'] at er
            simp only [List.cons_append, List.cons.injEq] at er
            exact ⟨x, z ++ [d], rfl, by rw [← er.1]; exact hc⟩

theorem padded_of_trim {w s : Bytes} (h : trim s = w) : Padded w s := by
  obtain ⟨a, b, e, ha, hb, -⟩ := trim_split s
  exact ⟨a, b, by rw [← h]; exact e, ha, hb⟩

theorem trim_of_padded {w s : Bytes} {c d : Byte} {y z : Bytes} (h : Padded w s) (hc : w = c :: y) (hd : w = z ++ [d])
    (hcs : isSpace c = false) (hds : isSpace d = false) : trim s = w := by
  obtain ⟨a, b, rfl, ha, hb⟩ := h
  unfold trim
  rw [hc, List.append_assoc, List.cons_append, (Index.span_stop ha hcs).2, ← List.cons_append, ← hc, hd, List.reverse_append, List.reverse_append,
    List.reverse_cons, List.reverse_nil, List.nil_append, List.singleton_append,
    (Index.span_stop (fun c hc => hb c (by simpa using hc)) hds).2, List.reverse_cons, List.reverse_reverse]

theorem trim_left {s : Bytes} : trim s = b!"<<" ↔ Padded b!"<<" s :=
  ⟨padded_of_trim, fun h => trim_of_padded (z := b!"<") h rfl rfl (by decide) (by decide)⟩

theorem trim_up {s : Bytes} : trim s = b!"^^" ↔ Padded b!"^^" s :=
  ⟨padded_of_trim, fun h => trim_of_padded (z := b!"^") h rfl rfl (by decide) (by decide)⟩

theorem trim_nil {s : Bytes} : trim s = [] ↔ Blank s := by
  constructor
  · intro h
    obtain ⟨a, b, e, ha, hb, -⟩ := trim_split s
    rw [h, List.append_nil] at e
    rw [e]
    intro c hc
    rcases List.mem_append.1 hc with h | h
    · exact ha c h
    · exact hb c h
  · intro h
    unfold trim
    rw [(Index.span_all h).2]; rfl

mutual
theorem word_eq : ∀ k : Inl, word k = fullText k
  | .text _ => by simp [word, fullText]
  | .code _ => by simp [word, fullText]
  | .html _ => by simp [word, fullText]
  | .para _ ks => by simp [word, fullText, words_eq ks]
  | .other ks => by simp [word, fullText, words_eq ks]
theorem words_eq : ∀ ks : List Inl, words ks = fullTexts ks
  | [] => by simp [words, fullTexts]
  | k :: ks => by simp [words, fullTexts, word_eq k, words_eq ks]
end

/-! ### Marks -/

theorem decimal_length (n k : Nat) (hk : 1 ≤ k) (h : n < 10 ^ k) : (Man.decimal n).length ≤ k := by
  induction k generalizing n with
  | zero => omega
  | succ k ih =>
    rw [Man.decimal]
    split
    · simp
    · rename_i hn
      have hk1 : 1 ≤ k := by
        rcases Nat.eq_zero_or_pos k with rfl | h'
        · simp at h; omega
        · exact h'
      have := ih (n / 10) hk1 (by rw [Nat.pow_succ] at h; omega)
      simp only [List.length_append, List.length_cons, List.length_nil]
      omega

theorem digit_not {n : Nat} {c : Byte} (hc : isDigit c = false) : c ∉ Man.decimal n := fun h => by
  rw [Plugins.decimal_digits n c h] at hc; exact absurd hc (by decide)

theorem int_nat (n : Nat) : int ((n : Int) + 1) = Man.decimal (n + 1) := by
  unfold int
  rw [if_neg (by omega)]
  congr 1

theorem not_infix_of_not_mem {c : Byte} {w s : Bytes} (hc : c ∈ w) (h : c ∉ s) : ¬ w <:+: s := fun hi => h (hi.subset hc)

theorem find_absent {c : Byte} {w s : Bytes} (hc : c ∈ w) (h : c ∉ s) : find w s = none :=
  (Embed.find_none (fun e => by simp [e] at hc)).2 (not_infix_of_not_mem hc h)

theorem attr_not {w : Bytes} {n : Nat} {c : Byte} (hw : c ∉ w) (hd : isDigit c = false) (h1 : c ≠ c!" ") (h2 : c ≠ c!"=") (h3 : c ≠ c!"\"") :
    c ∉ attr w n := by
  unfold attr
  simp only [List.mem_append, List.mem_cons, List.not_mem_nil, or_false, not_or]
  exact ⟨⟨⟨⟨h1, hw⟩, h2, h3⟩, digit_not hd⟩, h3⟩

/-- A number read in an attribute. -/
theorem number_attr {d : Byte} {w x : Bytes} (n : Nat) (hd : d ∉ w ++ b!"=") (hx : d ∉ x) (hs : d ≠ c!" ") :
    number (d :: w ++ b!"=") (some (x ++ attr (d :: w) n)) = n := by
  have e : x ++ attr (d :: w) n = (x ++ b!" ") ++ d :: (w ++ b!"=") ++ (c!"\"" :: (Man.decimal n ++ b!"\"")) := by
    unfold attr; simp
  have hf : find (d :: w ++ b!"=") (x ++ attr (d :: w) n) = some (x ++ b!" ", c!"\"" :: (Man.decimal n ++ b!"\"")) := by
    rw [e, List.cons_append]
    refine (Embed.find_eq hd _ _).2 ?_
    refine not_infix_of_not_mem (c := d) (by simp) ?_
    simp only [List.mem_append, List.mem_cons, List.not_mem_nil, or_false, not_or]
    exact ⟨hx, hs⟩
  unfold number
  simp only [hf]
  rw [if_pos trivial]
  obtain ⟨c, r, hc, hcd⟩ := Toc.decimal_cons n
  obtain ⟨h1, h2, h3, _⟩ := Toc.digit_char c hcd
  have hat : Plugins.atoi (Man.decimal n ++ b!"\"") = n := Toc.atoi_front n (by decide) []
  rw [hc] at hat ⊢
  rw [List.cons_append, List.dropWhile_cons_of_neg (by simp [h1])]
  simp only []
  rw [if_neg (by simp [h2, h3])]
  simp only [hcd, if_true]
  rw [List.cons_append] at hat
  exact hat

theorem number_absent {w s : Bytes} (h : find w s = none) : number w (some s) = 1 := by
  unfold number; simp only [h]

/-- The mark of a cell before: none, or a text that looks like no mark. -/
def Fresh (d : Option Bytes) : Prop := d = none ∨ ∃ s, d = some s ∧ Clean s

theorem attr_eq (n : Nat) (w : Bytes) : attr w n = b!" " ++ w ++ b!"=\"" ++ Man.decimal n ++ b!"\"" := rfl

theorem attr_length (w : Bytes) (n : Nat) (h : n < 10 ^ 10) : (attr w n).length ≤ w.length + 14 := by
  have := decimal_length n 10 (by omega) h
  unfold attr
  simp only [List.length_append, List.length_cons, List.length_nil]
  omega

theorem style_none {s : Bytes} (h : c!"y" ∉ s) : style (some s) = [] := by
  unfold style; simp only [find_absent (c := c!"y") (w := b!"style=") (by decide) h]

theorem style_fresh {d : Option Bytes} (h : Fresh d) : style d = [] := by
  rcases h with rfl | ⟨s, rfl, hs⟩
  · rfl
  · unfold style; simp only [find_absent (c := c!"=") (w := b!"style=") (by decide) hs.1]

theorem number_fresh {d : Option Bytes} {w : Bytes} (h : Fresh d) (hw : c!"=" ∈ w) : number w d = 1 := by
  rcases h with rfl | ⟨s, rfl, hs⟩
  · rfl
  · exact number_absent (find_absent hw hs.1)

theorem colspan_y (n : Nat) : c!"y" ∉ attr b!"colspan" n := attr_not (by decide) (by decide) (by decide) (by decide) (by decide)
theorem colspan_r (n : Nat) : c!"r" ∉ attr b!"colspan" n := attr_not (by decide) (by decide) (by decide) (by decide) (by decide)

theorem cut_all {n : Nat} {s : Bytes} (h : s.length < n) : cut n s = s := List.take_of_length_le (by omega)

theorem addLeft_fresh {d : Option Bytes} (h : Fresh d) : addLeft d = attr b!"colspan" 2 := by
  unfold addLeft
  rw [style_fresh h, number_fresh h (by decide)]
  decide +kernel

theorem addLeft_attr {n : Nat} (hn : n < 10 ^ 9) : addLeft (some (attr b!"colspan" n)) = attr b!"colspan" (n + 1) := by
  have h := number_attr (d := c!"c") (w := b!"olspan") (x := []) n (by decide) (by simp) (by decide)
  unfold addLeft
  rw [style_none (colspan_y n)]
  have h' : number b!"colspan=" (some (attr b!"colspan" n)) = n := h
  rw [h', int_nat, if_neg (by simp), List.nil_append]
  have e : b!" colspan=\"" ++ Man.decimal (n + 1) ++ b!"\"" = attr b!"colspan" (n + 1) := rfl
  rw [e]
  refine cut_all ?_
  have := attr_length b!"colspan" (n + 1) (by omega)
  have h7 : (b!"colspan").length = 7 := rfl
  omega

/-- So many joined on the right. -/
def lefts : Nat → Option Bytes → Option Bytes
  | 0, d => d
  | k + 1, d => some (addLeft (lefts k d))
/-- So many joined below. -/
def ups : Nat → Option Bytes → Option Bytes
  | 0, d => d
  | k + 1, d => some (addUp (ups k d))

theorem lefts_succ {d : Option Bytes} (h : Fresh d) (k : Nat) (hk : k < 10 ^ 8) : lefts (k + 1) d = some (attr b!"colspan" (k + 2)) := by
  induction k with
  | zero => show some (addLeft d) = _; rw [addLeft_fresh h]
  | succ k ih =>
    show some (addLeft (lefts (k + 1) d)) = _
    rw [ih (by omega), addLeft_attr (by omega)]

theorem addUp_fresh {d : Option Bytes} (h : Fresh d) : addUp d = attr b!"rowspan" 2 := by
  have hn := number_fresh h (w := b!"rowspan=") (by decide)
  unfold addUp
  rw [hn]
  rcases h with rfl | ⟨s, rfl, hs⟩
  · decide +kernel
  · simp only []
    rw [if_neg (fun h => hs.1 h.1)]
    decide +kernel

theorem infix_attr (w : Bytes) (n : Nat) (x : Bytes) : w ++ b!"=" <:+: x ++ attr w n :=
  ⟨x ++ b!" ", b!"\"" ++ Man.decimal n ++ b!"\"", by unfold attr; simp⟩

theorem addUp_rowspan {x : Bytes} {n : Nat} (hx : c!"r" ∉ x) (hn : n < 10 ^ 9 * 4) : addUp (some (x ++ attr b!"rowspan" n)) = attr b!"rowspan" (n + 1) := by
  have h := number_attr (d := c!"r") (w := b!"owspan") (x := x) n (by decide) hx (by decide)
  have h' : number b!"rowspan=" (some (x ++ attr b!"rowspan" n)) = n := h
  have hh : has b!"rowspan=" (x ++ attr b!"rowspan" n) = true := (has_iff (by simp)).2 (infix_attr b!"rowspan" n x)
  unfold addUp
  simp only [h', hh]
  rw [if_neg (by simp), int_nat, List.nil_append]
  have e : b!" rowspan=\"" ++ Man.decimal (n + 1) ++ b!"\"" = attr b!"rowspan" (n + 1) := rfl
  rw [e]
  refine cut_all ?_
  have := attr_length b!"rowspan" (n + 1) (by omega)
  have h7 : (b!"rowspan").length = 7 := rfl
  omega

theorem addUp_colspan {n : Nat} (hn : n < 10 ^ 9) : addUp (some (attr b!"colspan" n)) = attr b!"colspan" n ++ attr b!"rowspan" 2 := by
  have hf : find b!"rowspan=" (attr b!"colspan" n) = none := find_absent (c := c!"r") (by decide) (colspan_r n)
  have hh : has b!"rowspan=" (attr b!"colspan" n) = false := by unfold has; rw [hf]; rfl
  have hm : c!"=" ∈ attr b!"colspan" n := by unfold attr; simp
  unfold addUp
  simp only [number_absent hf, hh]
  rw [if_pos ⟨hm, trivial⟩]
  have e : attr b!"colspan" n ++ b!" rowspan=\"" ++ int (1 + 1) ++ b!"\"" = attr b!"colspan" n ++ attr b!"rowspan" 2 := by
    have : int (1 + 1) = Man.decimal 2 := rfl
    rw [this]; simp only [attr_eq, List.append_assoc]; rfl
  rw [e]
  refine cut_all ?_
  have := attr_length b!"colspan" n (by omega)
  have := attr_length b!"rowspan" 2 (by omega)
  have h7 : (b!"rowspan").length = 7 := rfl
  have h8 : (b!"colspan").length = 7 := rfl
  rw [List.length_append]
  omega

theorem ups_succ {d : Option Bytes} (h : Fresh d) (m : Nat) (hm : m < 2 ^ 31) : ups (m + 1) d = some (attr b!"rowspan" (m + 2)) := by
  induction m with
  | zero => show some (addUp d) = _; rw [addUp_fresh h]
  | succ m ih =>
    show some (addUp (ups (m + 1) d)) = _
    rw [ih (by omega)]
    have := addUp_rowspan (x := []) (n := m + 2) (by simp) (by omega)
    rw [List.nil_append] at this
    rw [this]

theorem ups_colspan {n : Nat} (hn : n < 10 ^ 9) (m : Nat) (hm : m < 2 ^ 31) :
    ups (m + 2) (some (attr b!"colspan" n)) = some (attr b!"rowspan" (m + 3)) := by
  induction m with
  | zero =>
    show some (addUp (some (addUp (some _)))) = _
    rw [addUp_colspan hn, addUp_rowspan (colspan_r n) (by omega)]
  | succ m ih =>
    show some (addUp (ups (m + 2) _)) = _
    rw [ih (by omega)]
    have := addUp_rowspan (x := []) (n := m + 3) (by simp) (by omega)
    rw [List.nil_append] at this
    rw [this]

theorem mark_eq {d : Option Bytes} (h : Fresh d) {n m : Nat} (hn : n < 10 ^ 8) (hm : m < 2 ^ 31) : ups m (lefts n d) = mark d n m := by
  match n, m with
  | 0, 0 => rfl
  | n + 1, 0 => show lefts (n + 1) d = _; rw [lefts_succ h n (by omega)]; rfl
  | 0, m + 1 => show ups (m + 1) d = _; rw [ups_succ h m (by omega)]; rfl
  | n + 1, 1 =>
    show some (addUp (lefts (n + 1) d)) = _
    rw [lefts_succ h n (by omega), addUp_colspan (by omega)]; rfl
  | n + 1, m + 2 =>
    rw [lefts_succ h n (by omega), ups_colspan (by omega) m (by omega)]; rfl

theorem removed_some {s : Bytes} : removed (some s) = true ↔ b!"data-remove" <:+: s := has_iff (by simp)

theorem fresh_shown {d : Option Bytes} (h : Fresh d) : removed d = false := by
  rcases h with rfl | ⟨s, rfl, hs⟩
  · rfl
  · refine has_not (by simp) fun hi => hs.2.2.2 ?_
    exact List.IsInfix.trans ⟨[], b!"remove", rfl⟩ hi

theorem lefts_shown {d : Option Bytes} (h : Fresh d) (k : Nat) (hk : k < 10 ^ 8) : removed (lefts k d) = false := by
  cases k with
  | zero => exact fresh_shown h
  | succ k =>
    rw [lefts_succ h k (by omega)]
    exact has_not (by simp) (not_infix_of_not_mem (c := c!"v") (by decide) (attr_not (by decide) (by decide) (by decide) (by decide) (by decide)))

/-! ### Reading a cell -/

theorem direct_mem {ks a b : List Inl} {s : Bytes} (h : direct ks = some (a, s, b)) : .text s ∈ ks := by
  induction ks generalizing a with
  | nil => simp [direct] at h
  | cons k r ih =>
    have rest : (direct r).map (fun p => (k :: p.1, p.2)) = some (a, s, b) → .text s ∈ k :: r := by
      intro h
      cases hd : direct r with
      | none => rw [hd] at h; simp at h
      | some p =>
        rw [hd] at h
        simp only [Option.map_some, Option.some.injEq, Prod.mk.injEq] at h
        obtain ⟨p1, p2, p3⟩ := p
        simp only [Prod.mk.injEq] at h
        rw [h.2.1, h.2.2] at hd
        exact List.mem_cons_of_mem _ (ih hd)
    cases k with
    | text t => simp only [direct, Option.some.injEq, Prod.mk.injEq] at h; rw [h.2.1]; exact List.mem_cons_self
    | code t => exact rest h
    | html t => exact rest h
    | para q t => exact rest h
    | other t => exact rest h

theorem firstText_mem {ks : List Inl} {s : Bytes} {f : Bytes → List Inl} (h : firstText ks = some (s, f)) :
    .text s ∈ ks ∨ ∃ k ∈ ks, .text s ∈ Spec.children k := by
  induction ks generalizing f with
  | nil => simp [firstText] at h
  | cons k r ih =>
    have rest : ∀ g : Bytes × (Bytes → List Inl) → Bytes × (Bytes → List Inl), (∀ q, (g q).1 = q.1) → (firstText r).map g = some (s, f) →
        .text s ∈ k :: r ∨ ∃ k' ∈ k :: r, .text s ∈ Spec.children k' := by
      intro g hg h
      cases hd : firstText r with
      | none => rw [hd] at h; simp at h
      | some q =>
        rw [hd] at h
        simp only [Option.map_some, Option.some.injEq] at h
        have e := hg q
        rw [h] at e
        obtain ⟨q1, q2⟩ := q
        simp only [] at e
        rw [← e] at hd
        rcases ih hd with h | ⟨k', h1, h2⟩
        · exact .inl (List.mem_cons_of_mem _ h)
        · exact .inr ⟨k', List.mem_cons_of_mem _ h1, h2⟩
    cases k with
    | text t => simp only [firstText, Option.some.injEq, Prod.mk.injEq] at h; rw [h.1]; exact .inl List.mem_cons_self
    | code t => exact rest (fun q => (q.1, fun u => .code t :: q.2 u)) (fun _ => rfl) h
    | html t => exact rest (fun q => (q.1, fun u => .html t :: q.2 u)) (fun _ => rfl) h
    | para q t =>
      unfold firstText at h
      cases hd : direct t with
      | none => simp only [hd] at h; exact rest (fun v => (v.1, fun u => .para q t :: v.2 u)) (fun _ => rfl) h
      | some p =>
        obtain ⟨a, x, b⟩ := p
        simp only [hd, Option.some.injEq, Prod.mk.injEq] at h
        rw [h.1] at hd
        exact .inr ⟨_, List.mem_cons_self, direct_mem hd⟩
    | other t =>
      unfold firstText at h
      cases hd : direct t with
      | none => simp only [hd] at h; exact rest (fun v => (v.1, fun u => .other t :: v.2 u)) (fun _ => rfl) h
      | some p =>
        obtain ⟨a, x, b⟩ := p
        simp only [hd, Option.some.injEq, Prod.mk.injEq] at h
        rw [h.1] at hd
        exact .inr ⟨_, List.mem_cons_self, direct_mem hd⟩

theorem alignText_none {s : Bytes} (h : ¬ Colon s) : alignText s = none := by
  obtain ⟨a, b, e, ha, hb, -⟩ := trim_split s
  have h1 : (trim s).head? ≠ some c!":" := by
    intro hh
    cases ht : trim s with
    | nil => rw [ht] at hh; simp at hh
    | cons c y =>
      rw [ht] at hh e
      simp only [List.head?_cons, Option.some.injEq] at hh
      exact h (.inl ⟨a, y ++ b, by rw [e, hh]; simp, ha⟩)
  have h2 : (trim s).getLast? ≠ some c!":" := by
    intro hh
    rw [List.getLast?_eq_some_iff] at hh
    obtain ⟨y, hy⟩ := hh
    rw [hy] at e
    exact h (.inr ⟨a ++ y, b, by rw [e]; simp, hb⟩)
  unfold alignText
  simp only [h1, h2, if_false, ite_self]

theorem aligned_none {x : Cell} (h : Colonless x.kids) : aligned x = none := by
  unfold aligned
  cases hf : firstText x.kids with
  | none => rfl
  | some q =>
    obtain ⟨s, f⟩ := q
    simp only [alignText_none (h s (firstText_mem hf))]

theorem stepCell_plain {al : Bool} {x : Cell} (h : al = true → Colonless x.kids) (prev : Option Nat) (st : St) :
    stepCell al prev st x = spanCell prev st (rawOf x.data) x := by
  unfold stepCell
  by_cases ha : (al && !removed x.data) = true
  · rw [if_pos ha, aligned_none (h (by simp only [Bool.and_eq_true] at ha; exact ha.1))]
  · rw [if_neg ha]

theorem rawOf_clean {s : Bytes} (h1 : ¬ b!"colspan" <:+: s) (h2 : ¬ b!"rowspan" <:+: s) (h3 : ¬ b!"data-" <:+: s) : rawOf (some s) = s := by
  unfold rawOf
  simp only [has_not (w := b!"colspan") (by simp) h1, has_not (w := b!"rowspan") (by simp) h2, has_not (w := b!"data-") (by simp) h3]
  rfl

theorem padded_mem {w s : Bytes} (h : Padded w s) {c : Byte} (hw : c ∉ w) (hs : isSpace c = false) : c ∉ s := by
  obtain ⟨a, b, rfl, ha, hb⟩ := h
  simp only [List.mem_append, not_or]
  exact ⟨⟨fun h => absurd (ha c h) (by rw [hs]; decide), hw⟩, fun h => absurd (hb c h) (by rw [hs]; decide)⟩

/-- A cell of one word: the text looked at. -/
theorem holds_raw {w : Bytes} {x : Cell} {s : Bytes} (hk : x.kids = [.text s]) (hw : Padded w s) (hsrc : x.src = []) (hd : x.data = none ∨ x.data = some s)
    (hp : c!"p" ∉ w) (hm : c!"-" ∉ w) :
    (if raw (rawOf x.data) x ≠ [] then raw (rawOf x.data) x else fullTexts x.kids) = s := by
  have hft : fullTexts x.kids = s := by rw [hk]; simp [fullTexts, fullText]
  rcases hd with hd | hd
  · have : raw (rawOf x.data) x = [] := by rw [hd]; unfold raw; simp [rawOf, hd, hsrc, hk]
    rw [this, hft]; simp
  · have h0 : rawOf x.data = s := by
      rw [hd]
      exact rawOf_clean (not_infix_of_not_mem (c := c!"p") (by decide) (padded_mem hw hp (by decide)))
        (not_infix_of_not_mem (c := c!"p") (by decide) (padded_mem hw hp (by decide)))
        (not_infix_of_not_mem (c := c!"-") (by decide) (padded_mem hw hm (by decide)))
    rw [h0, hft]
    by_cases hs : s = []
    · rw [hs]; simp [raw, hd, hs, rawOf, hsrc, hk]
    · have : raw s x = s := by unfold raw; rw [if_pos hs]
      rw [this, if_pos hs]

theorem holds_colonless {w : Bytes} {x : Cell} {s : Bytes} (hk : x.kids = [.text s]) (hw : Padded w s) (hc : c!":" ∉ w) : Colonless x.kids := by
  rw [hk]
  intro t ht
  have e : t = s := by
    rcases ht with h | ⟨k, h, h'⟩
    · simpa using h
    · rw [List.mem_singleton.1 h] at h'; simp [Spec.children] at h'
  have := padded_mem hw hc (by decide)
  rw [e]
  rintro (⟨a, m, rfl, -⟩ | ⟨m, b, rfl, -⟩) <;> simp at this

theorem left_isLeft {x : Cell} (h : Spec.Left x) : isLeft (rawOf x.data) x = true := by
  obtain ⟨s, hk, hw, hsrc, hd⟩ := h
  have ht := trim_left.2 hw
  have hft : fullTexts x.kids = s := by rw [hk]; simp [fullTexts, fullText]
  have hc : countLitss x.kids ≤ 1 := by rw [hk]; simp only [countLitss, countLits]; split <;> omega
  unfold isLeft
  rw [holds_raw hk hw hsrc hd (by decide) (by decide), hft, ht, hsrc]
  simp [hc]

theorem up_isUp {x : Cell} (h : Spec.Up x) : isUp x = true := by
  obtain ⟨s, hk, hw, -⟩ := h
  unfold isUp
  rw [hk]
  simp [trim_up.2 hw]

theorem up_isLeft {x : Cell} (h : Spec.Up x) : isLeft (rawOf x.data) x = false := by
  obtain ⟨s, hk, hw, hsrc, hd⟩ := h
  unfold isLeft
  rw [holds_raw hk hw hsrc hd (by decide) (by decide), trim_up.2 hw]
  simp

theorem left_isUp {x : Cell} (h : Spec.Left x) : isUp x = false := by
  obtain ⟨s, hk, hw, -⟩ := h
  unfold isUp
  rw [hk]
  simp [trim_left.2 hw]

theorem text_isUp {al : Bool} {x : Cell} (h : Spec.Text al x) : isUp x = false := by
  unfold isUp
  split
  · rename_i s ks hk
    exact decide_eq_false fun e => (h.up s ks hk).1 (trim_up.1 e)
  · rfl

theorem text_fresh {al : Bool} {x : Cell} (h : Spec.Text al x) : Fresh x.data := by
  rcases h.data with h | ⟨s, h1, h2, -⟩
  · exact .inl h
  · exact .inr ⟨s, h1, h2⟩

theorem text_isLeft {al : Bool} {x : Cell} (h : Spec.Text al x) : isLeft (rawOf x.data) x = false := by
  have hw : trim (fullTexts x.kids) ≠ b!"<<" := fun e => h.left (trim_left.1 (by rw [words_eq]; exact e))
  have key : trim (if raw (rawOf x.data) x ≠ [] then raw (rawOf x.data) x else fullTexts x.kids) ≠ b!"<<" := by
    have hnone : ∀ d, x.data = d → rawOf d = [] → raw (rawOf x.data) x = [] := by
      intro d e hd
      unfold raw
      rw [e, hd]
      simp only [ne_eq, not_true_eq_false, if_false, h.src]
      split
      · rename_i t ks hk
        exact absurd hk (h.inl _ _)
      · rfl
    rcases h.data with hd | ⟨s, hd, hc, hn⟩
    · rw [hnone none hd rfl]; simpa using hw
    · have hr := rawOf_clean hc.2.1 hc.2.2.1 hc.2.2.2
      by_cases hs : s = []
      · rw [hnone (some s) hd (by rw [hr, hs])]; simpa using hw
      · have : raw (rawOf x.data) x = s := by unfold raw; rw [hd, hr, if_pos hs]
        rw [this, if_pos hs]
        exact fun e => hn (trim_left.1 e)
  unfold isLeft
  simp only [key, decide_false, Bool.and_false, Bool.false_and]

theorem rule_of {s : Bytes} (h : b!"===".isPrefixOf (s.dropWhile isSpace) && (((s.dropWhile isSpace).drop 3).dropWhile (· = c!"=")).all isSpace) : Rule s := by
  simp only [Bool.and_eq_true, List.isPrefixOf_iff_prefix] at h
  obtain ⟨⟨r, hr⟩, h2⟩ := h
  obtain ⟨a, t, e, ha, -, -, h4⟩ := Index.span_split isSpace s
  rw [h4] at hr h2
  obtain ⟨q, z, e2, hq, -, -, h6⟩ := Index.span_split (fun c => decide (c = c!"=")) (t.drop 3)
  rw [h6] at h2
  have hq' : q = List.replicate q.length c!"=" := by
    rw [List.eq_replicate_iff]
    exact ⟨rfl, fun b hb => by simpa using hq b hb⟩
  refine ⟨3 + q.length, by omega, a, z, ?_, ha, fun c hc => by simpa using List.all_eq_true.1 h2 c hc⟩
  have et : t = b!"===" ++ t.drop 3 := by rw [← hr]; simp
  rw [e, et, e2, ← List.replicate_append_replicate, ← hq', List.append_assoc, List.append_assoc]
  rfl

theorem rule_iff {s : Bytes} : (b!"===".isPrefixOf (s.dropWhile isSpace) && (((s.dropWhile isSpace).drop 3).dropWhile (· = c!"=")).all isSpace) = true ↔ Rule s := by
  refine ⟨rule_of, ?_⟩
  rintro ⟨n, hn, a, b, rfl, ha, hb⟩
  obtain ⟨k, rfl⟩ : ∃ k, n = 3 + k := ⟨n - 3, by omega⟩
  have e : a ++ List.replicate (3 + k) c!"=" ++ b = a ++ c!"=" :: (b!"==" ++ (List.replicate k c!"=" ++ b)) := by
    rw [← List.replicate_append_replicate, List.append_assoc, List.append_assoc]; rfl
  rw [e, (Index.span_stop ha (by decide)).2]
  simp only [Bool.and_eq_true]
  refine ⟨by simp [List.isPrefixOf], ?_⟩
  have e2 : (c!"=" :: (b!"==" ++ (List.replicate k c!"=" ++ b))).drop 3 = List.replicate k c!"=" ++ b := rfl
  rw [e2]
  have : ∀ k, (List.replicate k c!"=" ++ b).dropWhile (fun c => decide (c = c!"=")) = b := by
    intro k
    induction k with
    | zero =>
      rw [List.replicate_zero, List.nil_append]
      cases b with
      | nil => rfl
      | cons c b =>
        refine List.dropWhile_cons_of_neg ?_
        intro h
        have := hb c List.mem_cons_self
        rw [of_decide_eq_true h] at this
        exact absurd this (by decide)
    | succ k ih => rw [List.replicate_succ, List.cons_append, List.dropWhile_cons_of_pos (by simp)]; exact ih
  rw [this]
  exact List.all_eq_true.2 hb

theorem isRule_iff {x : Cell} : isRule x = true ↔ ∃ s ks, x.kids = .text s :: ks ∧ Rule s := by
  unfold isRule
  split
  · rename_i s ks hk
    refine ⟨fun h => ⟨s, ks, hk, rule_iff.1 h⟩, ?_⟩
    rintro ⟨s', ks', hk', h⟩
    rw [hk] at hk'
    simp only [List.cons.injEq, Inl.text.injEq] at hk'
    rw [← hk'.1] at h
    exact rule_iff.2 h
  · rename_i hk
    refine ⟨fun h => absurd h (by simp), ?_⟩
    rintro ⟨s', ks', hk', -⟩
    exact absurd hk' (hk _ _)

theorem holds_rule {w : Bytes} {x : Cell} (h : Holds w x) (hw : c!"=" ∉ w) : isRule x = false := by
  obtain ⟨s, hk, hp, -⟩ := h
  cases hr : isRule x with
  | false => rfl
  | true =>
    obtain ⟨s', ks, hk', n, hn, a, b, rfl, -, -⟩ := isRule_iff.1 hr
    rw [hk] at hk'
    simp only [List.cons.injEq, Inl.text.injEq] at hk'
    have := padded_mem hp hw (by decide)
    rw [hk'.1] at this
    simp only [List.mem_append, List.mem_replicate, not_or, not_and, ne_eq] at this
    exact (this.1.2 (by omega) trivial).elim

theorem text_rule {al : Bool} {x : Cell} (h : Spec.Text al x) : isRule x = false := by
  cases hr : isRule x with
  | false => rfl
  | true =>
    obtain ⟨s, ks, hk, h'⟩ := isRule_iff.1 hr
    exact absurd h' (h.up s ks hk).2

theorem isDash_iff {x : Cell} : isDash x = true ↔ Dash x := by
  unfold isDash Dash
  split
  · rename_i hk; simp [hk]
  · rename_i s ks hk
    simp only [hk, decide_eq_true_eq, List.cons.injEq, Inl.text.injEq, reduceCtorEq, false_or]
    exact ⟨fun h => ⟨ks, h, rfl⟩, fun ⟨_, h, _⟩ => h⟩
  · rename_i h1 h2
    refine ⟨fun h => absurd h (by simp), ?_⟩
    rintro (h | ⟨ks, h⟩)
    · exact absurd h h1
    · exact absurd h (h2 _ _)

/-! ### The cells of a row -/

/-- The cell joins the one on its left. -/
def lf (x : Cell) : Bool := isLeft (rawOf x.data) x

/-- A cell after its row, with so many joined. -/
def out (k : Nat) (x : Cell) : Cell := if lf x || isUp x then { x with data := some gone } else { x with data := lefts k x.data }

/-- The cells joined at the front of a list, when so many come after it. -/
def trail : Nat → List Cell → Nat
  | k, [] => k
  | k, x :: r => if lf x then trail k r + 1 else 0

/-- The cells after their row. -/
def outs (k : Nat) : List Cell → List Cell
  | [] => []
  | x :: r => out (trail k r) x :: outs k r

theorem trail_snoc (k : Nat) (q : List Cell) (x : Cell) : trail k (q ++ [x]) = trail (if lf x then k + 1 else 0) q := by
  induction q with
  | nil => simp only [List.nil_append, trail]
  | cons y q ih => simp only [List.cons_append, trail, ih]

theorem outs_snoc (k : Nat) (q : List Cell) (x : Cell) : outs k (q ++ [x]) = outs (if lf x then k + 1 else 0) q ++ [out k x] := by
  induction q with
  | nil => simp only [List.nil_append, outs, trail]
  | cons y q ih => simp only [List.cons_append, outs, ih, trail_snoc]

theorem outs_length (k : Nat) (q : List Cell) : (outs k q).length = q.length := by
  induction q with
  | nil => rfl
  | cons y q ih => simp only [outs, List.length_cons, ih]

theorem outs_get (k : Nat) (q : List Cell) (i : Nat) : (outs k q)[i]? = q[i]?.map (out (trail k (q.drop (i + 1)))) := by
  induction q generalizing i with
  | nil => simp [outs]
  | cons y q ih =>
    cases i with
    | zero => simp [outs]
    | succ i => simp [outs, ih]

theorem trail_spec (q : List Cell) : (∀ j < trail 0 q, ∃ y, q[j]? = some y ∧ lf y = true) ∧ ∀ y, q[trail 0 q]? = some y → lf y = false := by
  induction q with
  | nil => simp [trail]
  | cons x q ih =>
    by_cases hx : lf x = true
    · simp only [trail, hx, if_true]
      refine ⟨fun j hj => ?_, fun y hy => ih.2 y (by simpa using hy)⟩
      cases j with
      | zero => exact ⟨x, rfl, hx⟩
      | succ j =>
        obtain ⟨y, h1, h2⟩ := ih.1 j (by omega)
        exact ⟨y, by simpa using h1, h2⟩
    · simp only [trail, hx]
      refine ⟨fun j hj => ?_, fun y hy => ?_⟩
      · simp at hj
      · simp at hy; rw [← hy]; simpa using hx

theorem removed_gone : removed (some gone) = true := by decide +kernel

theorem merge_outs {p : List Cell} {y : Cell} (hy1 : lf y = false) (hy2 : isUp y = false) (hy3 : Fresh y.data) (n : Nat) (ls : List Cell) (hn : ls.length = n)
    (hl : ∀ z ∈ ls, lf z = true) (k : Nat) (hk : k + ls.length < 10 ^ 8) :
    mergeLeft (outs k (p ++ y :: ls)).reverse = some (outs (k + 1) (p ++ y :: ls)).reverse := by
  induction n generalizing ls k with
  | zero =>
    rw [List.length_eq_zero_iff.1 hn]
    have h1 : ∀ k, out k y = { y with data := lefts k y.data } := fun k => by unfold out; rw [hy1, hy2]; rfl
    simp only [outs_snoc, hy1, Bool.false_eq_true, if_false, List.reverse_append, List.reverse_cons, List.reverse_nil, List.nil_append, List.singleton_append, h1]
    unfold mergeLeft
    rw [if_neg (by rw [lefts_shown hy3 k (by omega)]; decide)]
    rfl
  | succ n ih =>
    rcases List.eq_nil_or_concat ls with rfl | ⟨ls', z, rfl⟩
    · simp at hn
    · rw [List.concat_eq_append] at hl hn hk ⊢
      have hz : lf z = true := hl z (by simp)
      have ho : ∀ k, out k z = { z with data := some gone } := fun k => by unfold out; rw [hz]; rfl
      have e : p ++ y :: (ls' ++ [z]) = (p ++ y :: ls') ++ [z] := by simp
      simp only [List.length_append, List.length_cons, List.length_nil] at hn hk
      rw [e, outs_snoc, outs_snoc, hz, if_pos rfl, if_pos rfl, List.reverse_append, List.reverse_append, ho, ho]
      simp only [List.reverse_cons, List.reverse_nil, List.nil_append, List.singleton_append]
      rw [mergeLeft, if_pos removed_gone, ih ls' (by omega) (fun z hz => hl z (by simp [hz])) (k + 1) (by omega)]
      rfl

theorem cellAt_modData (f : Option Bytes → Bytes) (t : List Row) (r c r' c' : Nat) :
    cellAt (modData f t r c) r' c' = if r = r' ∧ c = c' then (cellAt t r' c').map fun x => { x with data := some (f x.data) } else cellAt t r' c' := by
  unfold cellAt modData
  rw [List.getElem?_modify]
  cases ht : t[r']? with
  | none => simp
  | some row =>
    by_cases hr : r = r'
    · simp only [hr, if_true, Option.map_eq_map, Option.map_some, Option.bind_some, List.getElem?_modify, true_and]
      by_cases hc : c = c' <;> simp [hc]
    · simp [hr]

theorem modData_data (f : Option Bytes → Bytes) (t : List Row) (r c : Nat) : (modData f t r c).map Row.data = t.map Row.data := by
  apply List.ext_getElem?
  intro i
  unfold modData
  simp only [List.getElem?_map, List.getElem?_modify]
  cases t[i]? with
  | none => rfl
  | some row => by_cases h : r = i <;> simp [h]

/-- The last rows of the columns after a row. -/
def newActive (n : Nat) (cells : List Cell) (a : List (Option Nat)) (c : Nat) : Option (Option Nat) :=
  match cells[c]? with
  | some x => if lf x || isUp x then a[c]? else some (some n)
  | none => a[c]?

/-- The cells above after a row. -/
def newCell (above : List Row) (cells : List Cell) (a : List (Option Nat)) (r c : Nat) : Option Cell :=
  match cells[c]? with
  | some x => if lf x = false ∧ isUp x = true ∧ a[c]? = some (some r) then (cellAt above r c).map fun x => { x with data := some (addUp x.data) } else cellAt above r c
  | none => cellAt above r c

/-- A row that can be read: what each cell is, and that those that join find a cell. -/
structure RowOk (al : Bool) (a : List (Option Nat)) (cells : List Cell) : Prop where
  wide : cells.length ≤ 50
  reads : ∀ (c : Nat) (x : Cell), cells[c]? = some x → Spec.Text al x ∨
    (Spec.Left x ∧ ∃ c' < c, (∃ y, cells[c']? = some y ∧ Spec.Text al y) ∧ ∀ j, c' < j → j < c → ∃ y, cells[j]? = some y ∧ Spec.Left y) ∨
    (Spec.Up x ∧ ∃ r, a[c]? = some (some r))

theorem left_colonless {x : Cell} (h : Spec.Left x) : Colonless x.kids := by
  obtain ⟨s, hk, hw, -⟩ := h
  exact holds_colonless hk hw (by decide)

theorem up_colonless {x : Cell} (h : Spec.Up x) : Colonless x.kids := by
  obtain ⟨s, hk, hw, -⟩ := h
  exact holds_colonless hk hw (by decide)

theorem get_prefix {α : Type} {p r : List α} {x : α} : (p ++ x :: r)[p.length]? = some x := by simp

/-- The cells of a row. -/
theorem stepCells_ok {al : Bool} {prev : Option Nat} {a : List (Option Nat)} {above : List Row} {cells : List Cell} (ok : RowOk al a cells) (ha : a.length = 50) :
    ∀ (rest p : List Cell) (st : St), cells = p ++ rest → st.left = (outs 0 p).reverse → st.active.length = 50 →
      (∀ c, st.active[c]? = if c < p.length then newActive above.length cells a c else a[c]?) →
      (∀ r c, cellAt st.above r c = if c < p.length then newCell above cells a r c else cellAt above r c) →
      st.above.map Row.data = above.map Row.data →
      ∃ st', stepCells al prev st rest = .val st' ∧ st'.left = (outs 0 cells).reverse ∧ st'.active.length = 50 ∧
        (∀ c, st'.active[c]? = newActive above.length cells a c) ∧ (∀ r c, cellAt st'.above r c = newCell above cells a r c) ∧
        st'.above.map Row.data = above.map Row.data := by
  intro rest
  induction rest with
  | nil =>
    intro p st hp hl hlen hact hab hd
    rw [List.append_nil] at hp
    subst hp
    refine ⟨st, rfl, hl, hlen, fun c => ?_, fun r c => ?_, hd⟩
    · rw [hact]
      split
      · rfl
      · rename_i h
        unfold newActive
        rw [List.getElem?_eq_none (l := cells) (by omega)]
    · rw [hab]
      split
      · rfl
      · rename_i h
        unfold newCell
        rw [List.getElem?_eq_none (l := cells) (by omega)]
  | cons x rest ih =>
    intro p st hp hl hlen hact hab hd
    have hx : cells[p.length]? = some x := by rw [hp]; exact get_prefix
    have hn : p.length < 50 := by have := ok.wide; rw [hp] at this; simp at this; omega
    have hll : st.left.length = p.length := by rw [hl, List.length_reverse, outs_length]
    have hR : st.above.length = above.length := by
      have := congrArg List.length hd
      simpa using this
    have hp' : cells = (p ++ [x]) ++ rest := by rw [hp]; simp
    have hlt : ∀ c, c < (p ++ [x]).length ↔ c < p.length ∨ c = p.length := by intro c; simp; omega
    -- the way a step goes on
    have go : ∀ st1 : St, stepCell al prev st x = .val st1 → st1.left = (outs 0 (p ++ [x])).reverse → st1.active.length = 50 →
        (∀ c, st1.active[c]? = if c = p.length then newActive above.length cells a c else st.active[c]?) →
        (∀ r c, cellAt st1.above r c = if c = p.length then newCell above cells a r c else cellAt st.above r c) →
        st1.above.map Row.data = st.above.map Row.data →
        ∃ st', stepCells al prev st (x :: rest) = .val st' ∧ st'.left = (outs 0 cells).reverse ∧ st'.active.length = 50 ∧
          (∀ c, st'.active[c]? = newActive above.length cells a c) ∧ (∀ r c, cellAt st'.above r c = newCell above cells a r c) ∧
          st'.above.map Row.data = above.map Row.data := by
      intro st1 h1 h2 h3 h4 h5 h6
      have := ih (p ++ [x]) st1 hp' h2 h3 ?_ ?_ (h6.trans hd)
      · rw [stepCells, h1, C.val_bind]; exact this
      · intro c
        rw [h4, hact]
        by_cases e1 : c = p.length
        · rw [if_pos e1, if_pos ((hlt c).2 (.inr e1))]
        · rw [if_neg e1]
          by_cases e2 : c < p.length
          · rw [if_pos e2, if_pos ((hlt c).2 (.inl e2))]
          · rw [if_neg e2, if_neg (by rw [hlt]; omega)]
      · intro r c
        rw [h5, hab]
        by_cases e1 : c = p.length
        · rw [if_pos e1, if_pos ((hlt c).2 (.inr e1))]
        · rw [if_neg e1]
          by_cases e2 : c < p.length
          · rw [if_pos e2, if_pos ((hlt c).2 (.inl e2))]
          · rw [if_neg e2, if_neg (by rw [hlt]; omega)]
    have hact0 : st.active[p.length]? = a[p.length]? := by rw [hact, if_neg (by omega)]
    have hab0 : ∀ r, cellAt st.above r p.length = cellAt above r p.length := fun r => by rw [hab, if_neg (by omega)]
    rcases ok.reads _ _ hx with ht | ⟨hleft, c', hc', ⟨y, hy, hty⟩, hbetween⟩ | ⟨hup, r0, hr0⟩
    · -- a cell of its own
      have h1 : lf x = false := text_isLeft ht
      have h2 := text_isUp ht
      refine go ⟨st.above, st.active.set p.length (some above.length), x :: st.left⟩ ?_ ?_ ?_ ?_ ?_ rfl
      · rw [stepCell_plain ht.colons]
        unfold spanCell keep
        rw [show isLeft (rawOf x.data) x = false from h1, h2, fresh_shown (text_fresh ht), hll, hR]
        simp [hn]
      · rw [outs_snoc, h1, if_neg (by simp), List.reverse_append, hl]
        have : out 0 x = x := by unfold out; rw [h1, h2]; rfl
        rw [this]; rfl
      · simp [hlen]
      · intro c
        rw [List.getElem?_set]
        by_cases e : c = p.length
        · rw [if_pos e.symm, if_pos e, if_pos (by rw [hlen]; exact hn)]
          unfold newActive
          rw [e, hx]; simp only [h1, h2]; rfl
        · rw [if_neg (fun h => e h.symm), if_neg e]
      · intro r c
        by_cases e : c = p.length
        · rw [if_pos e, e]
          unfold newCell
          rw [hx]; simp only [h1, h2, Bool.false_eq_true, false_and, and_false, if_false]
          exact hab0 r
        · rw [if_neg e]
    · -- joined to the left
      have h1 : lf x = true := left_isLeft hleft
      have hyl : lf y = false := text_isLeft hty
      -- the cells since the one of its own
      have hsplit : ∃ q ls, p = q ++ y :: ls ∧ ∀ z ∈ ls, lf z = true := by
        have hpc : p[c']? = some y := by
          rw [hp, List.getElem?_append_left (by omega)] at hy; exact hy
        refine ⟨p.take c', p.drop (c' + 1), ?_, ?_⟩
        · have hlt' : c' < p.length := hc'
          rw [List.getElem?_eq_getElem hlt'] at hpc
          simp only [Option.some.injEq] at hpc
          rw [← hpc, List.getElem_cons_drop, List.take_append_drop]
        · intro z hz
          obtain ⟨i, hi⟩ := List.mem_iff_getElem?.1 hz
          rw [List.getElem?_drop] at hi
          have hlt' : c' + 1 + i < p.length := by
            rcases Nat.lt_or_ge (c' + 1 + i) p.length with h | h
            · exact h
            · rw [List.getElem?_eq_none h] at hi; simp at hi
          obtain ⟨w, hw1, hw2⟩ := hbetween (c' + 1 + i) (by omega) hlt'
          rw [hp, List.getElem?_append_left hlt', hi] at hw1
          simp only [Option.some.injEq] at hw1
          rw [hw1]; exact left_isLeft hw2
      obtain ⟨q, ls, hpe, hls⟩ := hsplit
      have hm : mergeLeft st.left = some (outs 1 p).reverse := by
        rw [hl, hpe]
        refine merge_outs hyl (text_isUp hty) (text_fresh hty) _ ls rfl hls 0 ?_
        have : ls.length ≤ p.length := by rw [hpe]; simp; omega
        omega
      have hne : ∃ z zs, st.left = z :: zs := by
        cases hs : st.left with
        | nil => rw [hs] at hll; simp at hll; omega
        | cons z zs => exact ⟨z, zs, rfl⟩
      obtain ⟨z, zs, hzs⟩ := hne
      refine go ⟨st.above, st.active, { x with data := some gone } :: (outs 1 p).reverse⟩ ?_ ?_ hlen ?_ ?_ rfl
      · rw [stepCell_plain (fun _ => left_colonless hleft)]
        unfold spanCell
        rw [if_pos (show isLeft (rawOf x.data) x = true from h1), hzs]
        simp only []
        rw [← hzs, hm]
      · rw [outs_snoc, h1, if_pos rfl, List.reverse_append]
        have : out 0 x = { x with data := some gone } := by unfold out; rw [h1]; rfl
        rw [this]; rfl
      · intro c
        by_cases e : c = p.length
        · rw [if_pos e]
          unfold newActive
          rw [e, hx]; simp only [h1, Bool.true_or, if_true]; exact hact0
        · rw [if_neg e]
      · intro r c
        by_cases e : c = p.length
        · rw [if_pos e, e]
          unfold newCell
          rw [hx]; simp only [h1, Bool.true_eq_false, false_and, if_false]
          exact hab0 r
        · rw [if_neg e]
    · -- joined to the one above
      have h1 : lf x = false := up_isLeft hup
      have h2 := up_isUp hup
      have htar : target prev st = some r0 := by unfold target; rw [hll, hact0, hr0]
      refine go ⟨modData addUp st.above r0 p.length, st.active.set p.length (some r0), { x with data := some gone } :: st.left⟩ ?_ ?_ ?_ ?_ ?_ (modData_data ..)
      · rw [stepCell_plain (fun _ => up_colonless hup)]
        unfold spanCell
        rw [if_neg (by rw [show isLeft (rawOf x.data) x = false from h1]; decide), hll, h2, if_pos (by simp [hn]), htar]
      · rw [outs_snoc, h1, if_neg (by simp), List.reverse_append, hl]
        have : out 0 x = { x with data := some gone } := by unfold out; rw [h2]; simp
        rw [this]; rfl
      · simp [hlen]
      · intro c
        rw [List.getElem?_set]
        by_cases e : c = p.length
        · rw [if_pos e.symm, if_pos e, if_pos (by rw [hlen]; exact hn)]
          unfold newActive
          rw [e, hx]; simp only [h1, h2, Bool.or_true, if_true, hr0]
        · rw [if_neg (fun h => e h.symm), if_neg e]
      · intro r c
        rw [cellAt_modData]
        by_cases e : c = p.length
        · rw [if_pos e, e]
          unfold newCell
          rw [hx]; simp only [h1, h2, hr0, true_and, and_true, hab0, Option.some.injEq]
        · rw [if_neg e, if_neg (fun h => e h.2.symm)]

/-! ### The rows of a table -/

/-- So many rows under a row join, of those before row `n`. -/
def Run (u : Nat → Prop) (r n m : Nat) : Prop := (∀ i, r < i → i ≤ r + m → u i) ∧ r + m < n ∧ (r + m + 1 < n → ¬ u (r + m + 1))

theorem text_not_up {al : Bool} {x : Cell} (h : Spec.Text al x) (h' : Spec.Up x) : False := by
  have := text_isUp h; rw [up_isUp h'] at this; cases this

theorem text_not_left {al : Bool} {x : Cell} (h : Spec.Text al x) (h' : Spec.Left x) : False := by
  have := text_isLeft h; rw [left_isLeft h'] at this; cases this

/-- What is true after `n` rows of a table. -/
structure Inv (al : Bool) (t : List Row) (n : Nat) (s : Rows) : Prop where
  data : s.above.map Row.data = (t.take n).map Row.data
  active : s.active.length = 50
  foot : s.inFoot = false
  none : ∀ r c, r < n → cellAt t r c = none → cellAt s.above r c = none
  gone : ∀ r c x, r < n → cellAt t r c = some x → lf x = true ∨ isUp x = true → cellAt s.above r c = some { x with data := some gone }
  text : ∀ r c x, r < n → cellAt t r c = some x → Spec.Text al x → ∃ row m, t[r]? = some row ∧ Run (fun i => At t Spec.Up i c) r n m ∧
    cellAt s.above r c = some { x with data := ups m (lefts (trail 0 (row.cells.drop (c + 1))) x.data) }
  last : ∀ r c x, r < n → cellAt t r c = some x → Spec.Text al x → (∀ i, r < i → i < n → At t Spec.Up i c) → s.active[c]? = some (some r)

theorem cellAt_some {t : List Row} {r c : Nat} {row : Row} (h : t[r]? = some row) : cellAt t r c = row.cells[c]? := by
  unfold cellAt; rw [h]; rfl

theorem cellAt_append {t : List Row} {row : Row} {r c : Nat} : cellAt (t ++ [row]) r c = if r < t.length then cellAt t r c else if r = t.length then row.cells[c]? else none := by
  unfold cellAt
  by_cases h : r < t.length
  · rw [if_pos h, List.getElem?_append_left h]
  · rw [if_neg h]
    by_cases h' : r = t.length
    · rw [if_pos h', h']; simp
    · rw [if_neg h', List.getElem?_eq_none (by simp; omega)]; rfl

theorem footRow_plain {row : Row} (h : ∀ x ∈ row.cells, isRule x = false) : footRow false row = row ∧ isFoot row = false := by
  have h1 : isFoot row = false := by
    unfold isFoot
    rw [List.any_eq_false]
    intro x hx
    rw [h x hx]; decide
  refine ⟨?_, h1⟩
  unfold footRow
  rw [h1]
  have : row.cells.map (fun c => if isRule c then { c with data := some gone } else c) = row.cells := by
    rw [List.map_congr_left (g := id)]
    · simp
    · intro x hx; rw [h x hx]; rfl
  rw [this]; rfl

theorem reads_of {al : Bool} {t : List Row} (hs : Sound al t) {r c : Nat} {x : Cell} (h : cellAt t r c = some x) :
    (Spec.Text al x ∧ lf x = false ∧ isUp x = false) ∨ (Spec.Left x ∧ lf x = true) ∨ (Spec.Up x ∧ lf x = false ∧ isUp x = true) := by
  rcases hs.reads r c x h with h | h | h
  · exact .inl ⟨h, text_isLeft h, text_isUp h⟩
  · exact .inr (.inl ⟨h, left_isLeft h⟩)
  · exact .inr (.inr ⟨h, up_isLeft h, up_isUp h⟩)

theorem rowOk_of {al : Bool} {t : List Row} (hs : Sound al t) {n : Nat} {s : Rows} (hi : Inv al t n s) {row : Row} (hr : t[n]? = some row) :
    RowOk al s.active row.cells where
  wide := hs.wide row (List.mem_of_getElem? hr)
  reads := by
    intro c x hx
    rw [← cellAt_some hr] at hx
    rcases hs.reads n c x hx with h | h | h
    · exact .inl h
    · obtain ⟨c', h1, ⟨y, h2, h3⟩, h4⟩ := hs.left n c ⟨x, hx, h⟩
      refine .inr (.inl ⟨h, c', h1, ⟨y, by rw [← cellAt_some hr]; exact h2, h3⟩, fun j hj hj' => ?_⟩)
      obtain ⟨z, h5, h6⟩ := h4 j hj hj'
      exact ⟨z, by rw [← cellAt_some hr]; exact h5, h6⟩
    · obtain ⟨r', h1, ⟨y, h2, h3⟩, h4⟩ := hs.up n c ⟨x, hx, h⟩
      exact .inr (.inr ⟨h, r', hi.last r' c y h1 h2 h3 h4⟩)

theorem stepRow_ok {al : Bool} {t : List Row} (hs : Sound al t) {n : Nat} {s : Rows} (hi : Inv al t n s) {row : Row} (hr : t[n]? = some row) :
    ∃ s', stepRow al s row = .val s' ∧ Inv al t (n + 1) s' := by
  have hnt : n < t.length := by
    rcases Nat.lt_or_ge n t.length with h | h
    · exact h
    · rw [List.getElem?_eq_none h] at hr; simp at hr
  have hlen : s.above.length = n := by
    have := congrArg List.length hi.data
    simp only [List.length_map, List.length_take] at this
    omega
  have hrule : ∀ x ∈ row.cells, isRule x = false := by
    intro x hx
    obtain ⟨c, hc⟩ := List.mem_iff_getElem?.1 hx
    rw [← cellAt_some hr] at hc
    rcases hs.reads n c x hc with h | h | h
    · exact text_rule h
    · exact holds_rule h (by decide)
    · exact holds_rule h (by decide)
  obtain ⟨hf1, hf2⟩ := footRow_plain hrule
  have hdash : ¬ (row.cells ≠ [] ∧ row.cells.all isDash = true) := by
    rintro ⟨h1, h2⟩
    obtain ⟨x, hx, hx'⟩ := hs.shown row (List.mem_of_getElem? hr) h1
    exact hx' (isDash_iff.1 (List.all_eq_true.1 h2 x hx))
  obtain ⟨st', e1, e2, e3, e4, e5, e6⟩ := stepCells_ok (prev := s.prev) (above := s.above) (rowOk_of hs hi hr) hi.active row.cells [] ⟨s.above, s.active, []⟩ rfl rfl hi.active
    (fun c => by simp) (fun r c => by simp) rfl
  have hstlen : st'.above.length = n := by
    have := congrArg List.length e6
    simpa [hlen] using this
  refine ⟨⟨st'.above ++ [{ row with cells := st'.left.reverse }], st'.active, some st'.above.length, false⟩, ?_, ?_⟩
  · unfold stepRow
    simp only [hi.foot, hf1, hf2]
    rw [if_neg hdash, e1, C.val_bind]
    rfl
  have hcell : ∀ r c, cellAt (st'.above ++ [{ row with cells := st'.left.reverse }]) r c =
      if r < n then newCell s.above row.cells s.active r c else if r = n then row.cells[c]?.map (out (trail 0 (row.cells.drop (c + 1)))) else none := by
    intro r c
    rw [cellAt_append, hstlen, e5]
    simp only [e2, List.reverse_reverse, outs_get]
  rw [hlen] at e4
  refine ⟨?_, e3, rfl, ?_, ?_, ?_, ?_⟩
  · simp only [List.map_append, List.map_cons, List.map_nil, e6, hi.data]
    have : t.take (n + 1) = t.take n ++ [row] := by rw [List.take_succ, hr]; rfl
    rw [this]; simp
  · intro r c hrn hc
    rw [hcell]
    by_cases h : r < n
    · rw [if_pos h]
      have := hi.none r c h hc
      unfold newCell
      split
      · rw [this]; simp
      · exact this
    · have : r = n := by omega
      rw [if_neg h, if_pos this]
      rw [this, cellAt_some hr] at hc
      rw [hc]; rfl
  · intro r c x hrn hc hx
    rw [hcell]
    by_cases h : r < n
    · rw [if_pos h]
      have hg := hi.gone r c x h hc hx
      unfold newCell
      cases hz : row.cells[c]? with
      | none => exact hg
      | some z =>
        simp only []
        rw [if_neg, hg]
        rintro ⟨h1, h2, h3⟩
        rw [← cellAt_some hr] at hz
        have hzu : At t Spec.Up n c := by
          rcases reads_of hs hz with ⟨_, _, h'⟩ | ⟨_, h'⟩ | ⟨h', _⟩
          · rw [h2] at h'; cases h'
          · rw [h1] at h'; cases h'
          · exact ⟨z, hz, h'⟩
        obtain ⟨r', hr', ⟨y, hy, hty⟩, hb⟩ := hs.up n c hzu
        have := hi.last r' c y hr' hy hty hb
        rw [h3] at this
        simp only [Option.some.injEq] at this
        rw [← this, hc] at hy
        simp only [Option.some.injEq] at hy
        rw [← hy] at hty
        rcases hx with h' | h'
        · rw [show lf x = false from text_isLeft hty] at h'; cases h'
        · rw [text_isUp hty] at h'; cases h'
    · have : r = n := by omega
      rw [if_neg h, if_pos this]
      rw [this, cellAt_some hr] at hc
      rw [hc]
      simp only [Option.map_some, Option.some.injEq]
      unfold out
      rw [if_pos (by simpa using hx)]
  · intro r c x hrn hc hx
    rw [hcell]
    by_cases h : r < n
    · rw [if_pos h]
      obtain ⟨row0, m, h1, ⟨h2, h3, h4⟩, h5⟩ := hi.text r c x h hc hx
      unfold newCell
      cases hz : row.cells[c]? with
      | none =>
        refine ⟨row0, m, h1, ⟨h2, by omega, fun h6 hu => ?_⟩, h5⟩
        by_cases h7 : r + m + 1 < n
        · exact h4 h7 hu
        · obtain ⟨z, hz', -⟩ := hu
          rw [show r + m + 1 = n by omega, cellAt_some hr, hz] at hz'
          cases hz'
      | some z =>
        have hz0 := hz
        rw [← cellAt_some hr] at hz
        simp only []
        by_cases hup : lf z = false ∧ isUp z = true ∧ s.active[c]? = some (some r)
        · rw [if_pos hup, h5]
          have hzu : Spec.Up z := by
            rcases reads_of hs hz with ⟨_, _, h'⟩ | ⟨_, h'⟩ | ⟨h', _⟩
            · rw [hup.2.1] at h'; cases h'
            · rw [hup.1] at h'; cases h'
            · exact h'
          obtain ⟨r', hr', ⟨y, hy, hty⟩, hb⟩ := hs.up n c ⟨z, hz, hzu⟩
          have := hi.last r' c y hr' hy hty hb
          rw [hup.2.2] at this
          simp only [Option.some.injEq] at this
          rw [← this] at hb
          have hm : r + m + 1 = n := by
            by_cases h7 : r + m + 1 < n
            · exact absurd (hb _ (by omega) h7) (h4 h7)
            · omega
          refine ⟨row0, m + 1, h1, ⟨fun i hi1 hi2 => ?_, by omega, by omega⟩, rfl⟩
          by_cases h8 : i ≤ r + m
          · exact h2 i hi1 h8
          · rw [show i = n by omega]; exact ⟨z, hz, hzu⟩
        · rw [if_neg hup]
          refine ⟨row0, m, h1, ⟨h2, by omega, fun h6 hu => ?_⟩, h5⟩
          by_cases h7 : r + m + 1 < n
          · exact h4 h7 hu
          · have e : r + m + 1 = n := by omega
            rw [e] at hu
            obtain ⟨z', hz', hu'⟩ := hu
            rw [hz] at hz'
            simp only [Option.some.injEq] at hz'
            rw [← hz'] at hu'
            exact hup ⟨up_isLeft hu', up_isUp hu', hi.last r c x h hc hx (fun i h8 h9 => h2 i h8 (by omega))⟩
    · have : r = n := by omega
      rw [if_neg h, if_pos this]
      rw [this, cellAt_some hr] at hc
      refine ⟨row, 0, by rw [this]; exact hr, ⟨fun i h1 h2 => absurd h1 (by omega), by omega, by omega⟩, ?_⟩
      rw [hc]
      simp only [Option.map_some, Option.some.injEq]
      unfold out
      rw [show lf x = false from text_isLeft hx, text_isUp hx]
      rfl
  · intro r c x hrn hc hx hb
    rw [e4]
    unfold newActive
    by_cases h : r < n
    · obtain ⟨z, hz, hu⟩ := hb n h (by omega)
      rw [cellAt_some hr] at hz
      rw [hz]
      simp only [up_isUp hu, Bool.or_true, if_true]
      exact hi.last r c x h hc hx fun i h1 h2 => hb i h1 (by omega)
    · have : r = n := by omega
      rw [this, cellAt_some hr] at hc
      rw [hc]
      simp only [show lf x = false from text_isLeft hx, text_isUp hx, this]
      rfl

theorem stepRows_ok {al : Bool} {t : List Row} (hs : Sound al t) (rest : List Row) : ∀ (n : Nat) (s : Rows), t.drop n = rest → Inv al t n s →
    ∃ s', stepRows al s rest = .val s' ∧ ∃ n', t.length ≤ n' ∧ Inv al t n' s' := by
  induction rest with
  | nil =>
    intro n s hd hi
    exact ⟨s, rfl, n, List.drop_eq_nil_iff.1 hd, hi⟩
  | cons row rest ih =>
    intro n s hd hi
    have hr : t[n]? = some row := by
      have := congrArg List.head? hd
      rwa [List.head?_drop] at this
    obtain ⟨s1, h1, h2⟩ := stepRow_ok hs hi hr
    have hd' : t.drop (n + 1) = rest := by
      have := congrArg List.tail hd
      rwa [List.tail_drop] at this
    obtain ⟨s2, h3, h4⟩ := ih (n + 1) s1 hd' h2
    exact ⟨s2, by rw [stepRows, h1, C.val_bind]; exact h3, h4⟩

theorem sound_inv {al : Bool} {t : List Row} (hs : Sound al t) : ∃ s n, t.length ≤ n ∧ Inv al t n s ∧ spans al t = .val s.above := by
  obtain ⟨s', h1, n, h2, h3⟩ := stepRows_ok hs t 0 ⟨[], List.replicate 50 none, none, false⟩ rfl
    ⟨by simp, by simp, rfl, fun _ _ h => absurd h (by omega), fun _ _ _ h => absurd h (by omega), fun _ _ _ h => absurd h (by omega), fun _ _ _ h => absurd h (by omega)⟩
  exact ⟨s', n, h2, h3, by unfold spans; rw [h1, C.val_bind]⟩

end Verif.TableSpans
