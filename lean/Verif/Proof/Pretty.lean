import Verif.Model.Pretty
import Verif.Spec.Pretty
import Verif.Proof.DropBuf
import Verif.Proof.Transforms
import Verif.Proof.SupSub

namespace Verif.Pretty
open Spec
open DropBuf (Tok)
open Transforms.Spec (White)

/-! ### Newlines -/

theorem collapse_other (s : Bytes) : ∀ run, (collapse run s).filter (fun c => decide (c ≠ c!"\n")) =
    s.filter fun c => decide (c ≠ c!"\n") := by
  induction s with
  | nil => intro run; rfl
  | cons c t ih =>
    intro run
    rw [collapse]
    split
    · rename_i hc
      subst hc
      split
      · rw [List.filter_cons_of_neg (by simp), List.filter_cons_of_neg (by simp), ih]
      · rw [ih]; simp
    · rename_i hc
      rw [List.filter_cons_of_pos (by simpa using hc), List.filter_cons_of_pos (by simpa using hc), ih]

/-- `k` newlines may still be written. -/
def Few : Nat → Bytes → Prop
  | _, [] => True
  | k, c :: t => if c = c!"\n" then 0 < k ∧ Few (k - 1) t else Few 2 t

theorem few_mono {s : Bytes} : ∀ {k l : Nat}, k ≤ l → Few k s → Few l s := by
  induction s with
  | nil => intros; trivial
  | cons c t ih =>
    intro k l h
    rw [Few, Few]
    split
    · rintro ⟨h1, h2⟩
      exact ⟨by omega, ih (by omega) h2⟩
    · exact id

theorem few_noGap {s : Bytes} : ∀ {k : Nat}, k ≤ 2 → Few k s → NoGap s := by
  induction s with
  | nil => intro k _ _ h; simpa using List.eq_nil_of_infix_nil h
  | cons c t ih =>
    intro k hk h hx
    rw [List.infix_cons_iff] at hx
    rcases hx with hp | hi
    · obtain ⟨r, hr⟩ := hp
      simp at hr
      obtain ⟨rfl, rfl⟩ := hr
      simp [Few] at h
      omega
    · rw [Few] at h
      split at h
      · exact ih (by omega) h.2 hi
      · exact ih (Nat.le_refl _) h hi

theorem noGap_few {s : Bytes} (h : NoGap s) : ∀ (pre : Nat), NoGap (List.replicate pre c!"\n" ++ s) → pre ≤ 2 → Few (2 - pre) s := by
  induction s with
  | nil => intros; trivial
  | cons c t ih =>
    intro pre hp hle
    have ht : NoGap t := fun hx => h (hx.trans ⟨[c], [], by simp⟩)
    rw [Few]
    split
    · rename_i hc
      subst hc
      have hlt : pre < 2 := by
        rcases Nat.lt_or_ge pre 2 with h | h
        · exact h
        · exfalso
          have : pre = 2 := by omega
          subst this
          exact hp ⟨[], t, by simp [List.replicate]⟩
      refine ⟨by omega, ?_⟩
      have := ih ht (pre + 1) (by
        have e : List.replicate (pre + 1) c!"\n" ++ t = List.replicate pre c!"\n" ++ c!"\n" :: t := by
          rw [List.replicate_succ']; simp
        rw [e]; exact hp) (by omega)
      rwa [show 2 - pre - 1 = 2 - (pre + 1) from by omega]
    · exact ih ht 0 (by simpa using ht) (by omega)

theorem collapse_few (s : Bytes) : ∀ run, Few (2 - run) (collapse run s) := by
  induction s with
  | nil => intro run; trivial
  | cons c t ih =>
    intro run
    rw [collapse]
    split
    · rename_i hc
      subst hc
      split
      · rw [Few, if_pos rfl]
        exact ⟨by omega, by have := ih (run + 1); rwa [show 2 - run - 1 = 2 - (run + 1) from by omega]⟩
      · have := ih (run + 1)
        exact few_mono (by omega) this
    · rename_i hc
      rw [Few, if_neg hc]
      exact ih 0

theorem collapse_id {s : Bytes} : ∀ {run}, Few (2 - run) s → collapse run s = s := by
  induction s with
  | nil => intros; rfl
  | cons c t ih =>
    intro run h
    rw [Few] at h
    rw [collapse]
    split
    · rename_i hc
      rw [if_pos hc] at h
      rw [if_pos (by omega), ih (by rw [show 2 - (run + 1) = 2 - run - 1 from by omega]; exact h.2)]
    · rename_i hc
      rw [if_neg hc] at h
      rw [ih (run := 0) h]

theorem ink_collapse (s : Bytes) : ink (collapse 0 s) = ink s := by
  have : ∀ x : Bytes, ink x = ink (x.filter fun c => decide (c ≠ c!"\n")) := by
    intro x
    unfold ink
    rw [List.filter_filter]
    apply List.filter_congr
    intro c _
    by_cases h : c = c!"\n"
    · subst h; decide
    · simp [h]
  rw [this, collapse_other, ← this]

/-! ### One turn -/

theorem tagText_append (s : Bytes) : s = tagText s ++ s.drop (tagText s).length := by
  have h : tagText s <+: s := by
    unfold tagText
    have h1 := (List.takeWhile_append_dropWhile (p := fun c => decide (c ≠ c!">")) (l := s)).symm
    have h2 := (List.take_append_drop 1 (s.dropWhile fun c => decide (c ≠ c!">"))).symm
    refine ⟨(s.dropWhile fun c => decide (c ≠ c!">")).drop 1, ?_⟩
    rw [List.append_assoc, ← h2, ← h1]
  obtain ⟨r, hr⟩ := h
  conv => lhs; rw [← hr]
  conv => rhs; arg 2; arg 2; rw [← hr]
  simp

theorem ink_append (a b : Bytes) : ink (a ++ b) = ink a ++ ink b := by simp [ink]

theorem ink_white {w : Bytes} (h : ∀ c ∈ w, White c) : ink w = [] := by
  unfold ink
  rw [List.filter_eq_nil_iff]
  intro c hc
  simp [h c hc]

theorem ink_chunks (n : Nat) : ink ((List.replicate n (Tok.chunk b!"  ")).flatMap Tok.out) = [] := by
  apply ink_white
  intro c hc
  rw [List.mem_flatMap] at hc
  obtain ⟨t, ht, hc⟩ := hc
  rw [(List.mem_replicate.1 ht).2] at hc
  simp [Tok.out] at hc
  exact .inl hc

theorem indent_ink (st : St) : ink ((indent st).1.flatMap Tok.out) = [] := by
  unfold indent
  split
  · exact ink_chunks _
  · rfl

theorem rowGap_prefix (r : Bytes) : ∃ v, r = rowGap r ++ v ∧ ∀ c ∈ rowGap r, White c := by
  unfold rowGap
  simp only []
  split
  · refine ⟨r.dropWhile fun c => decide (c = c!" " ∨ c = c!"\t" ∨ c = c!"\n" ∨ c = c!"\r"),
      (List.takeWhile_append_dropWhile).symm, fun c hc => ?_⟩
    have := SupSub.mem_takeWhile hc
    simp only [decide_eq_true_eq] at this
    rcases this with h | h | h | h <;> simp [White, h]
  · exact ⟨r, rfl, by simp⟩

theorem out_append (a b : List Tok) : (a ++ b).flatMap Tok.out = a.flatMap Tok.out ++ b.flatMap Tok.out := by simp

theorem blockTag_ink (st : St) (name : Bytes) (cl sc : Bool) (s : Bytes) :
    ink ((blockTag st name cl sc s).1.flatMap Tok.out) ++ ink (s.drop (blockTag st name cl sc s).2.2) = ink s := by
  unfold blockTag
  simp only []
  obtain ⟨v, hv, hw⟩ := rowGap_prefix (s.drop (tagText s).length)
  have hs := tagText_append s
  have hgap : ∀ g : Bytes, (g = [] ∨ g = rowGap (s.drop (tagText s).length)) →
      ink (tagText s) ++ ink (s.drop ((tagText s).length + g.length)) = ink s := by
    intro g hg
    conv => rhs; rw [hs]
    rw [ink_append, ← List.drop_drop]
    rcases hg with rfl | rfl
    · simp
    · conv => rhs; rw [hv]
      rw [ink_append, ink_white hw]
      conv => lhs; rw [hv]
      simp only [List.nil_append]
      congr 1
      congr 1
      conv => lhs; arg 1; rw [← hv]
      simp
  have hnl : ink [10] = [] := by decide
  have key : ∀ (nl : List Tok) (st' : St), (nl = [] ∨ nl = [.byte c!"\n"]) →
      ink ((nl ++ (indent st').1 ++ [Tok.chunk (tagText s), Tok.byte c!"\n"]).flatMap Tok.out) = ink (tagText s) := by
    intro nl st' h
    rw [out_append, out_append, ink_append, ink_append, indent_ink]
    have e : ink (nl.flatMap Tok.out) = [] := by
      rcases h with rfl | rfl
      · rfl
      · simpa [Tok.out] using hnl
    rw [e]
    simp [Tok.out, ink_append, hnl]
  rw [key]
  · refine hgap _ ?_
    split
    · exact .inr rfl
    · exact .inl rfl
  · split
    · split
      · exact .inr rfl
      · exact .inl rfl
    · split
      · exact .inr rfl
      · exact .inl rfl

theorem step_ink (st : St) (c : Byte) (t : Bytes) :
    ink ((step st c t).1.flatMap Tok.out) ++ ink ((c :: t).drop (step st c t).2.2) = ink (c :: t) := by
  unfold step
  split
  · split
    · exact blockTag_ink _ _ _ _ _
    · have := tagText_append (c :: t)
      conv => rhs; rw [this]
      rw [ink_append]
      simp [Tok.out]
  · simp only []
    rw [out_append, ink_append]
    have e : ink ((indentByte st c).1.flatMap Tok.out) = [] := by
      unfold indentByte
      split
      · exact indent_ink st
      · rfl
    rw [e]
    show [] ++ ink [c] ++ ink t = _
    rw [List.nil_append, ← ink_append]
    rfl

theorem tagText_pos (c : Byte) (t : Bytes) : 0 < (tagText (c :: t)).length := by
  unfold tagText
  rw [List.takeWhile_cons, List.dropWhile_cons]
  split <;> simp

theorem step_pos (st : St) (c : Byte) (t : Bytes) : 0 < (step st c t).2.2 := by
  unfold step
  split
  · split
    · unfold blockTag
      have := tagText_pos c t
      simp only []
      omega
    · exact tagText_pos c t
  · simp

theorem groups_ink : ∀ n st s, s.length ≤ n → ink ((groups n st s).flatten.flatMap Tok.out) = ink s
  | 0, _, s, h => by
    have : s = [] := List.length_eq_zero_iff.1 (by omega)
    subst this; rfl
  | _ + 1, _, [], _ => rfl
  | n + 1, st, c :: t, h => by
    rw [groups, List.flatten_cons, out_append, ink_append,
      groups_ink n _ _ (by have := step_pos st c t; simp at h ⊢; omega), step_ink]

/-! ### Room -/

/-- What a turn writes. -/
def size (g : List Tok) : Nat := (g.flatMap Tok.out).length

/-- Only bytes and chunks are written. -/
def Plain (g : List Tok) : Prop := ∀ t ∈ g, ∀ a b, t ≠ .reserve a b

theorem indent_plain (st : St) : Plain (indent st).1 := by
  unfold indent
  split
  · intro t ht; simp at ht; simp [ht.2]
  · intro t ht; simp at ht

theorem plain_append {a b : List Tok} (ha : Plain a) (hb : Plain b) : Plain (a ++ b) := by
  intro t ht
  simp at ht
  rcases ht with h | h
  · exact ha t h
  · exact hb t h

theorem blockTag_plain (st : St) (name : Bytes) (cl sc : Bool) (s : Bytes) : Plain (blockTag st name cl sc s).1 := by
  unfold blockTag
  simp only []
  refine plain_append (plain_append ?_ (indent_plain _)) (by intro t ht; simp at ht; rcases ht with rfl | rfl <;> simp)
  split <;> split <;> intro t ht <;> simp at ht <;> simp [ht]

theorem step_plain (st : St) (c : Byte) (t : Bytes) : Plain (step st c t).1 := by
  unfold step
  split
  · split
    · exact blockTag_plain _ _ _ _ _
    · intro t ht; simp at ht; simp [ht]
  · simp only []
    refine plain_append ?_ (by intro t ht; simp at ht; simp [ht])
    unfold indentByte
    split
    · exact indent_plain st
    · intro t ht; simp at ht

theorem groups_plain : ∀ n st s, ∀ g ∈ groups n st s, Plain g
  | 0, _, _, g, h => by simp [groups] at h
  | _ + 1, _, [], g, h => by simp [groups] at h
  | n + 1, st, c :: t, g, h => by
    rw [groups] at h
    rcases List.mem_cons.1 h with rfl | h
    · exact step_plain st c t
    · exact groups_plain n _ _ g h

theorem writeGroup_fits {b : DropBuf.St} {g : List Tok} (hp : Plain g)
    (h : size g < (if b.cap - b.out.length < 100 then b.cap * 2 else b.cap) - b.out.length) :
    writeGroup b g = ⟨if b.cap - b.out.length < 100 then b.cap * 2 else b.cap, b.out ++ g.flatMap Tok.out⟩ := by
  unfold writeGroup
  unfold size at h
  split
  · rename_i hc
    rw [if_pos hc] at h
    exact DropBuf.fold_fits g b.out hp (by omega)
  · rename_i hc
    rw [if_neg hc] at h
    exact DropBuf.fold_fits g b.out hp (by omega)

/-- When every turn writes little, everything is written. -/
theorem write_all (N : Nat) : ∀ (gs : List (List Tok)) (b : DropBuf.St) (i : Nat), (∀ g ∈ gs, Plain g) →
    (∀ j g, gs[j]? = some g → size g < 100 ∧ size g < N * 2 ^ (i + j)) → b.out.length ≤ b.cap →
    (100 ≤ b.cap ∨ N * 2 ^ i ≤ b.cap) → (gs = [] → b.out.length < b.cap) →
    ∃ cap, gs.foldl writeGroup b = ⟨cap, b.out ++ gs.flatten.flatMap Tok.out⟩ ∧
      b.out.length + (gs.flatten.flatMap Tok.out).length < cap := by
  intro gs
  induction gs with
  | nil => intro b i _ _ _ _ h; exact ⟨b.cap, by simp, by simpa using h rfl⟩
  | cons g gs ih =>
    intro b i hp hs ho hc _
    obtain ⟨h1, h2⟩ := hs 0 g rfl
    rw [Nat.add_zero] at h2
    have hfit : size g < (if b.cap - b.out.length < 100 then b.cap * 2 else b.cap) - b.out.length := by
      split
      · rcases hc with h | h <;> omega
      · omega
    have e := writeGroup_fits (hp g (by simp)) hfit
    have e2 : N * 2 ^ (i + 1) = 2 * (N * 2 ^ i) := by rw [Nat.pow_succ]; ac_rfl
    obtain ⟨cap, h3, h4⟩ := ih ⟨if b.cap - b.out.length < 100 then b.cap * 2 else b.cap, b.out ++ g.flatMap Tok.out⟩
      (i + 1) (fun g h => hp g (by simp [h]))
      (fun j g h => by rw [show i + 1 + j = i + (j + 1) from by omega]; exact hs (j + 1) g (by simpa using h))
      (by simp only [List.length_append]; unfold size at hfit; omega)
      (by
        simp only []
        rw [e2]
        split
        · rcases hc with h | h
          · left; omega
          · right; omega
        · left; omega)
      (fun _ => by simp only [List.length_append]; unfold size at hfit; omega)
    refine ⟨cap, ?_, ?_⟩
    · rw [List.foldl_cons, e, h3]
      simp
    · simp only [List.length_append, List.flatten_cons, List.flatMap_append] at h4 ⊢; omega

/-! ### The size of a turn -/

theorem indent_size (st : St) : size (indent st).1 ≤ 2 * st.level := by
  unfold indent size
  split
  · simp [Tok.out]; omega
  · simp

theorem size_append (a b : List Tok) : size (a ++ b) = size a + size b := by simp [size]

theorem indent_level (st : St) : (indent st).2.level = st.level := by unfold indent; split <;> rfl

theorem blockTag_size (st : St) (name : Bytes) (cl sc : Bool) (s : Bytes) :
    size (blockTag st name cl sc s).1 ≤ 2 * st.level + (tagText s).length + 1 + (if st.atStart then 0 else 1) ∧
    (blockTag st name cl sc s).2.1.level ≤ st.level + 1 := by
  unfold blockTag
  simp only []
  have hlast : size [Tok.chunk (tagText s), .byte c!"\n"] = (tagText s).length + 1 := by simp [size, Tok.out]
  have h1 : size [Tok.byte c!"\n"] = 1 := rfl
  have h0 : size ([] : List Tok) = 0 := rfl
  rw [size_append, size_append, hlast]
  cases cl
  · simp only [Bool.false_eq_true, if_false, Bool.not_false, Bool.true_and]
    split
    · rename_i h
      simp only [Bool.and_eq_true, Bool.not_eq_true'] at h
      have := indent_size { st with atStart := true }
      rw [h1, h.1]
      constructor
      · simp only [] at this; simp; omega
      · rw [indent_level]; split <;> simp
    · have := indent_size st
      rw [h0]
      constructor
      · simp only []; omega
      · rw [indent_level]; simp only []; split <;> omega
  · simp only [if_true, Bool.not_true, Bool.false_and]
    split
    · rename_i h
      simp only [Bool.and_eq_true, Bool.not_eq_true'] at h
      have := indent_size { level := st.level - 1, atStart := true, inPre := st.inPre, inInline := st.inInline }
      rw [h1, h.1.1]
      constructor
      · simp only [] at this; simp; omega
      · rw [indent_level]; simp; omega
    · have := indent_size { level := st.level - 1, atStart := st.atStart, inPre := st.inPre, inInline := st.inInline }
      rw [h0]
      constructor
      · simp only [] at this ⊢; omega
      · rw [indent_level]; simp; omega

/-- A turn at a tag: bounds with the text of the tag; a turn at another byte: no change of level. -/
theorem step_size (st : St) (c : Byte) (t : Bytes) :
    (size (step st c t).1 ≤ 2 * st.level + (tagText (c :: t)).length + 1 + (if st.atStart then 0 else 1) ∧
      (step st c t).2.1.level ≤ st.level + 1 ∧ (tagName t).isSome ∧ c = c!"<") ∨
    (size (step st c t).1 ≤ 2 * st.level + 1 ∧ (step st c t).2.1.level = st.level) := by
  unfold step
  split
  · rename_i name cl sc hn
    have hc : c = c!"<" := by
      by_cases h : c = c!"<"
      · exact h
      · rw [if_neg h] at hn; simp at hn
    have hn' : (tagName t).isSome = true := by rw [if_pos hc] at hn; rw [hn]; rfl
    left
    split
    · have := blockTag_size (enterPre st name cl) name cl sc (c :: t)
      have e1 : (enterPre st name cl).level = st.level := by unfold enterPre; split <;> rfl
      have e2 : (enterPre st name cl).atStart = st.atStart := by unfold enterPre; split <;> rfl
      rw [e1, e2] at this
      exact ⟨this.1, this.2, hn', hc⟩
    · refine ⟨?_, ?_, hn', hc⟩
      · simp [size, Tok.out]; omega
      · unfold enterInline enterPre; split <;> split <;> simp
  · right
    simp only []
    rw [size_append]
    have h1 : size [Tok.byte c] = 1 := rfl
    have h2 : (indentByte st c).2.level = st.level := by
      unfold indentByte; split
      · exact indent_level st
      · rfl
    constructor
    · have : size (indentByte st c).1 ≤ 2 * st.level := by
        unfold indentByte; split
        · exact indent_size st
        · simp [size]
      omega
    · unfold afterByte
      split
      · exact h2
      · split
        · exact h2
        · exact h2

theorem tagText_length (s : Bytes) : (tagText s).length ≤ s.length := by
  have := congrArg List.length (tagText_append s)
  simp at this; omega

theorem groups_size : ∀ n st s j g, (groups n st s)[j]? = some g →
    size g ≤ 2 * (st.level + j) + s.length - j + 2 ∧ j < s.length
  | 0, _, _, _, _, h => by simp [groups] at h
  | _ + 1, _, [], _, _, h => by simp [groups] at h
  | n + 1, st, c :: t, 0, g, h => by
    rw [groups] at h
    simp at h
    subst h
    have := tagText_length (c :: t)
    rcases step_size st c t with ⟨h1, _⟩ | ⟨h1, _⟩
    · constructor
      · split at h1 <;> omega
      · simp
    · exact ⟨by omega, by simp⟩
  | n + 1, st, c :: t, j + 1, g, h => by
    rw [groups] at h
    simp only [List.getElem?_cons_succ] at h
    obtain ⟨h1, h2⟩ := groups_size n _ _ j g h
    have hp := step_pos st c t
    have hl : (step st c t).2.1.level ≤ st.level + 1 := by
      rcases step_size st c t with ⟨_, h, _⟩ | ⟨_, h⟩ <;> omega
    simp only [List.length_drop, List.length_cons] at h1 h2 ⊢
    constructor <;> omega

theorem tagName_pos {t : Bytes} (h : (tagName t).isSome) : 0 < t.length := by
  cases t with
  | nil => simp [tagName] at h
  | cons c t => simp

theorem first_size {n : Nat} {s : Bytes} {g : List Tok} (h : (groups n start s)[0]? = some g) : size g < s.length * 2 := by
  cases n with
  | zero => simp [groups] at h
  | succ n =>
    cases s with
    | nil => simp [groups] at h
    | cons c t =>
      rw [groups] at h
      simp at h
      subst h
      have := tagText_length (c :: t)
      rcases step_size start c t with ⟨h1, _, h3, _⟩ | ⟨h1, _⟩
      · have := tagName_pos h3
        simp only [start, if_true, List.length_cons] at *
        omega
      · simp [start] at h1 ⊢; omega

theorem pretty_fits {html : Bytes} (hne : html ≠ []) (h : ∀ g ∈ groups html.length start html, size g < 100) :
    pretty html = .val (collapse 0 ((groups html.length start html).flatten.flatMap Tok.out)) := by
  have hpos : 0 < html.length := List.length_pos_iff.2 hne
  obtain ⟨cap, h1, h2⟩ := write_all (html.length * 2) (groups html.length start html) ⟨html.length * 2, []⟩ 0
    (groups_plain _ _ _) (fun j g hg => by
      refine ⟨h g (List.mem_of_getElem? hg), ?_⟩
      cases j with
      | zero => simpa using first_size hg
      | succ j =>
        obtain ⟨h3, h4⟩ := groups_size _ _ _ _ _ hg
        simp only [start] at h3
        have hk : j + 2 ≤ 2 ^ (j + 1) := by
          have : ∀ j, j + 2 ≤ 2 ^ (j + 1) := by
            intro j
            induction j with
            | zero => decide
            | succ j ih => rw [Nat.pow_succ]; omega
          exact this j
        rw [Nat.zero_add]
        have h5 : html.length * 2 * (j + 2) ≤ html.length * 2 * 2 ^ (j + 1) := Nat.mul_le_mul_left _ hk
        have h6 : html.length * 2 * (j + 2) = html.length * 2 * j + html.length * 4 := by
          rw [Nat.mul_add]; omega
        have h7 : 2 * j ≤ html.length * 2 * j := Nat.mul_le_mul_right _ (by omega)
        omega) (by simp) (.inr (by simp)) (fun _ => by simp; omega)
  unfold pretty
  rw [h1]
  simp only [List.nil_append]
  rw [finish_val (by simpa using h2)]
  rfl

/-- Short tags and few of them. -/
theorem groups_small {T : Nat} : ∀ n st s, (∀ u v, s = u ++ c!"<" :: v → (tagText (c!"<" :: v)).length < T) → 
    ∀ g ∈ groups n st s, size g ≤ 2 * (st.level + s.count c!"<") + T + 1
  | 0, _, _, _, g, h => by simp [groups] at h
  | _ + 1, _, [], _, g, h => by simp [groups] at h
  | n + 1, st, c :: t, hT, g, h => by
    rw [groups] at h
    have hdrop : (c :: t).drop (step st c t).2.2 <:+ t := by
      have hp := step_pos st c t
      obtain ⟨k, hk⟩ : ∃ k, (step st c t).2.2 = k + 1 := ⟨(step st c t).2.2 - 1, by omega⟩
      rw [hk, List.drop_succ_cons]
      exact List.drop_suffix _ _
    obtain ⟨w, hw⟩ := hdrop
    rcases List.mem_cons.1 h with rfl | h
    · rcases step_size st c t with ⟨h1, _, _, rfl⟩ | ⟨h1, _⟩
      · have := hT [] t rfl
        have hc : (c!"<" :: t).count c!"<" = t.count c!"<" + 1 := by simp
        split at h1 <;> omega
      · omega
    · have ih := groups_small n _ _ (fun u v e => hT (c :: (w ++ u)) v (by
        rw [List.cons_append, List.append_assoc, ← e, hw])) g h
      have hcount : ((c :: t).drop (step st c t).2.2).count c!"<" ≤ t.count c!"<" := by
        have := congrArg (List.count c!"<") hw
        rw [List.count_append] at this
        omega
      rcases step_size st c t with ⟨_, h2, _, rfl⟩ | ⟨_, h2⟩
      · have hc : (c!"<" :: t).count c!"<" = t.count c!"<" + 1 := by simp
        omega
      · have : t.count c!"<" ≤ (c :: t).count c!"<" := by simp [List.count_cons]
        omega

theorem tagText_of {x y : Bytes} (h : c!">" ∉ x) : tagText (x ++ c!">" :: y) = x ++ b!">" := by
  unfold tagText
  have h1 : (x ++ c!">" :: y).takeWhile (fun c => decide (c ≠ c!">")) = x :=
    SupSub.takeWhile_append_stop (fun c hc => by simp; rintro rfl; exact h hc) (.inr ⟨_, _, rfl, by simp⟩)
  have h2 : (x ++ c!">" :: y).dropWhile (fun c => decide (c ≠ c!">")) = c!">" :: y := by
    rw [List.dropWhile_append_of_pos (fun c hc => by simp; rintro rfl; exact h hc)]
    simp
  rw [h1, h2]
  rfl

theorem tagsBelow_text {n : Nat} {s : Bytes} (h : TagsBelow n s) :
    ∀ u v, s = u ++ c!"<" :: v → (tagText (c!"<" :: v)).length < n := by
  intro u v e
  obtain ⟨x, y, rfl, hx, hl⟩ := h u v e
  have := tagText_of (x := c!"<" :: x) (y := y) (by simp [hx])
  rw [List.cons_append] at this
  rw [this]
  simp; omega

/-! ### Locality -/

theorem groups_fuel : ∀ n st s, s.length ≤ n → groups n st s = groups s.length st s
  | 0, _, s, h => by
    have : s = [] := List.length_eq_zero_iff.1 (by omega)
    subst this; rfl
  | _ + 1, _, [], _ => by simp [groups]
  | n + 1, st, c :: t, h => by
    have hp := step_pos st c t
    rw [List.length_cons, groups, groups]
    rw [groups_fuel n _ _ (by simp at h ⊢; omega), groups_fuel t.length _ _ (by simp; omega)]

/-- The turns for a text. -/
def turns (st : St) (s : Bytes) : List (List Tok) := groups s.length st s

theorem turns_cons (st : St) (c : Byte) (t : Bytes) :
    turns st (c :: t) = (step st c t).1 :: turns (step st c t).2.1 ((c :: t).drop (step st c t).2.2) := by
  have hp := step_pos st c t
  unfold turns
  rw [List.length_cons, groups, groups_fuel t.length _ _ (by simp; omega)]

theorem takeWhile_cut {f : Byte → Bool} (hf : f c!">" = false) (u q q' : Bytes) :
    (u ++ c!">" :: q).takeWhile f = (u ++ c!">" :: q').takeWhile f ∧
    ∃ v, (u ++ c!">" :: q).dropWhile f = v ++ c!">" :: q ∧ (u ++ c!">" :: q').dropWhile f = v ++ c!">" :: q' := by
  induction u with
  | nil => exact ⟨by simp [hf], [], by simp [hf]⟩
  | cons c u ih =>
    simp only [List.cons_append, List.takeWhile_cons, List.dropWhile_cons]
    by_cases h : f c = true
    · simp only [h, if_true]
      exact ⟨by rw [ih.1], ih.2⟩
    · simp only [h]
      exact ⟨by simp, c :: u, by simp⟩

theorem tagName_cut (u q q' : Bytes) : tagName (u ++ c!">" :: q) = tagName (u ++ c!">" :: q') := by
  have hn : nameByte c!">" = false := by decide
  have hs : isSpace c!">" = false := by decide
  have key : ∀ u : Bytes,
      ((u ++ c!">" :: q).takeWhile nameByte = (u ++ c!">" :: q').takeWhile nameByte) ∧
      ((((u ++ c!">" :: q).dropWhile nameByte).dropWhile isSpace).head? =
        (((u ++ c!">" :: q').dropWhile nameByte).dropWhile isSpace).head?) := by
    intro u
    obtain ⟨h1, v, h2, h3⟩ := takeWhile_cut hn u q q'
    obtain ⟨_, w, h4, h5⟩ := takeWhile_cut hs v q q'
    refine ⟨h1, ?_⟩
    rw [h2, h3, h4, h5]
    cases w <;> rfl
  have hh : (u ++ c!">" :: q).head? = (u ++ c!">" :: q').head? := by cases u <;> rfl
  unfold tagName
  simp only [hh]
  by_cases hc : (u ++ c!">" :: q').head? = some c!"/"
  · have hu : ∃ w, u = c!"/" :: w := by
      cases u with
      | nil => simp at hc
      | cons c u => simp at hc; exact ⟨u, by rw [hc]⟩
    obtain ⟨w, rfl⟩ := hu
    simp only [List.cons_append, List.head?_cons, decide_true, if_true, List.drop_succ_cons, List.drop_zero]
    rw [(key w).1, (key w).2]
  · simp only [hc, decide_false, if_false]
    rw [(key u).1, (key u).2]

theorem first_close {t : Bytes} (h : c!">" ∈ t) : ∃ p q, t = p ++ c!">" :: q ∧ c!">" ∉ p := by
  induction t with
  | nil => simp at h
  | cons c t ih =>
    by_cases hc : c = c!">"
    · exact ⟨[], t, by rw [hc]; rfl, by simp⟩
    · have : c!">" ∈ t := by simpa [Ne.symm hc] using h
      obtain ⟨p, q, rfl, hp⟩ := ih this
      exact ⟨c :: p, q, rfl, by simp [hp, Ne.symm hc]⟩

theorem closed_suffix {u v : Bytes} (h : Closed (u ++ v)) : Closed v :=
  fun a b e => h (u ++ a) b (by rw [e]; simp)

/-- What may follow a text without changing how it is read. -/
def Sharp (x : Bytes) : Prop := ¬ b!"<tr" <+: x ∧ ¬ b!"</tbody>" <+: x ∧ ∃ y, x = c!"<" :: y

theorem prefix_cut {P r x : Bytes} (hr : c!">" ∈ r) (hP : c!">" ∉ P.dropLast) : P <+: r ++ x ↔ P <+: r := by
  constructor
  · intro h
    rcases Nat.lt_or_ge r.length P.length with hl | hl
    · exfalso
      obtain ⟨y, hy⟩ := h
      have : r = P.take r.length := by
        have := congrArg (List.take r.length) hy
        rw [List.take_append_of_le_length (by omega), List.take_left] at this
        exact this.symm
      have h2 : P.dropLast = P.take (P.length - 1) := List.dropLast_eq_take
      apply hP
      rw [h2]
      have h3 : r <+: P.take (P.length - 1) := by
        rw [this]
        exact List.take_prefix_take_left (by omega)
      exact h3.subset hr
    · obtain ⟨y, hy⟩ := h
      have := congrArg (List.take P.length) hy
      rw [List.take_left, List.take_append_of_le_length hl] at this
      rw [this]
      exact List.take_prefix _ _
  · intro h
    exact h.trans (List.prefix_append _ _)

theorem rowGap_cut {r x : Bytes} (hr : Closed r) (hx : Sharp x) : rowGap (r ++ x) = rowGap r := by
  obtain ⟨h1, h2, y, rfl⟩ := hx
  unfold rowGap
  simp only []
  have span : ∀ r : Bytes, (r ++ c!"<" :: y).takeWhile (fun c => decide (c = c!" " ∨ c = c!"\t" ∨ c = c!"\n" ∨ c = c!"\r")) =
      r.takeWhile fun c => decide (c = c!" " ∨ c = c!"\t" ∨ c = c!"\n" ∨ c = c!"\r") := by
    intro r
    induction r with
    | nil => simp
    | cons c r ih => simp only [List.cons_append, List.takeWhile_cons]; split <;> simp_all
  rw [span]
  have hlen : (r.takeWhile fun c => decide (c = c!" " ∨ c = c!"\t" ∨ c = c!"\n" ∨ c = c!"\r")).length ≤ r.length :=
    (List.takeWhile_prefix _).length_le
  rw [List.drop_append_of_le_length hlen]
  generalize hd : r.drop (r.takeWhile fun c => decide (c = c!" " ∨ c = c!"\t" ∨ c = c!"\n" ∨ c = c!"\r")).length = d
  have hcd : Closed d := by
    rw [← hd]
    exact closed_suffix (u := r.take _) (by rw [List.take_append_drop]; exact hr)
  have key : ∀ P : Bytes, P.head? = some c!"<" → c!">" ∉ P.dropLast → ¬ P <+: c!"<" :: y → (P <+: d ++ c!"<" :: y ↔ P <+: d) := by
    intro P hP hdl hno
    cases d with
    | nil =>
      constructor
      · intro h; exact absurd h hno
      · intro h; rw [List.prefix_nil] at h; rw [h] at hP; simp at hP
    | cons e d =>
      by_cases he : e = c!"<"
      · subst he
        exact prefix_cut (by simp [hcd [] d rfl]) hdl
      · constructor
        · rintro ⟨z, hz⟩
          cases P with
          | nil => simp at hP
          | cons p P => simp at hz hP; exact absurd (hz.1.symm.trans hP) he
        · rintro ⟨z, hz⟩
          cases P with
          | nil => simp at hP
          | cons p P => simp at hz hP; exact absurd (hz.1.symm.trans hP) he
  have k1 := key b!"<tr" rfl (by decide) h1
  have k2 := key b!"</tbody>" rfl (by decide) h2
  simp only [k1, k2]

theorem step_cut {st : St} {c : Byte} {t x : Bytes} (ht : Closed (c :: t)) (hx : Sharp x) :
    step st c (t ++ x) = step st c t ∧ (step st c t).2.2 ≤ (c :: t).length := by
  by_cases hc : c = c!"<"
  · subst hc
    obtain ⟨p, q, rfl, hp⟩ := first_close (ht [] t rfl)
    have e1 : tagName (p ++ c!">" :: q ++ x) = tagName (p ++ c!">" :: q) := by
      rw [List.append_assoc, List.cons_append]; exact tagName_cut p (q ++ x) q
    have e2 : ∀ q, tagText (c!"<" :: (p ++ c!">" :: q)) = c!"<" :: p ++ b!">" := fun q => by
      have := tagText_of (x := c!"<" :: p) (y := q) (by simp [hp])
      simpa using this
    have e3 : tagText (c!"<" :: (p ++ c!">" :: q ++ x)) = tagText (c!"<" :: (p ++ c!">" :: q)) := by
      rw [e2 q, List.append_assoc, List.cons_append, e2]
    have hle : (tagText (c!"<" :: (p ++ c!">" :: q))).length ≤ (c!"<" :: (p ++ c!">" :: q)).length := tagText_length _
    have hcq : Closed q := by
      have : c!"<" :: (p ++ c!">" :: q) = (c!"<" :: p ++ b!">") ++ q := by simp
      rw [this] at ht
      exact closed_suffix ht
    have hd : (c!"<" :: (p ++ c!">" :: q)).drop (tagText (c!"<" :: (p ++ c!">" :: q))).length = q := by
      rw [e2]; simp
    have hd' : (c!"<" :: (p ++ c!">" :: q ++ x)).drop (tagText (c!"<" :: (p ++ c!">" :: q))).length = q ++ x := by
      rw [e2]; simp
    have hb : ∀ st name cl sc, blockTag st name cl sc (c!"<" :: (p ++ c!">" :: q ++ x)) =
        blockTag st name cl sc (c!"<" :: (p ++ c!">" :: q)) ∧
        (blockTag st name cl sc (c!"<" :: (p ++ c!">" :: q))).2.2 ≤ (c!"<" :: (p ++ c!">" :: q)).length := by
      intro st name cl sc
      constructor
      · unfold blockTag
        rw [e3]
        simp only []
        rw [hd, hd', rowGap_cut hcq hx]
      · unfold blockTag
        simp only []
        rw [hd]
        obtain ⟨v, hv, _⟩ := rowGap_prefix q
        have : (rowGap q).length ≤ q.length := by
          have := congrArg List.length hv; simp at this; omega
        have hl : (c!"<" :: (p ++ c!">" :: q)).length = (tagText (c!"<" :: (p ++ c!">" :: q))).length + q.length := by
          rw [e2]; simp; omega
        rw [hl]
        split
        · omega
        · rw [List.length_nil]; omega
    unfold step
    rw [if_pos rfl, if_pos rfl, e1]
    cases tagName (p ++ c!">" :: q) with
    | none => exact ⟨rfl, by simp⟩
    | some y =>
      obtain ⟨name, cl, sc⟩ := y
      simp only []
      rw [e3]
      split
      · exact ⟨(hb _ _ _ _).1, (hb _ _ _ _).2⟩
      · exact ⟨rfl, hle⟩
  · unfold step
    rw [if_neg hc, if_neg hc]
    exact ⟨rfl, by simp⟩

/-- A text whose tags are closed is read independently of what follows. -/
theorem turns_append : ∀ n (a x : Bytes) (st : St), a.length ≤ n → Closed a → Sharp x →
    ∃ st', turns st (a ++ x) = turns st a ++ turns st' x := by
  intro n
  induction n with
  | zero =>
    intro a x st h _ _
    have : a = [] := List.length_eq_zero_iff.1 (by omega)
    subst this
    exact ⟨st, by simp [turns, groups]⟩
  | succ n ih =>
    intro a x st h ha hx
    cases a with
    | nil => exact ⟨st, by simp [turns, groups]⟩
    | cons c t =>
      obtain ⟨h1, h2⟩ := step_cut (st := st) ha hx
      have hp := step_pos st c t
      have hcl : Closed ((c :: t).drop (step st c t).2.2) :=
        closed_suffix (u := (c :: t).take (step st c t).2.2) (by rw [List.take_append_drop]; exact ha)
      obtain ⟨st', e⟩ := ih ((c :: t).drop (step st c t).2.2) x (step st c t).2.1 (by simp at h ⊢; omega) hcl hx
      refine ⟨st', ?_⟩
      rw [List.cons_append, turns_cons, turns_cons, h1, ← List.cons_append, List.drop_append_of_le_length h2, e]
      rfl

theorem turns_ink (st : St) (s : Bytes) : ink ((turns st s).flatten.flatMap Tok.out) = ink s :=
  groups_ink _ _ _ (Nat.le_refl _)

theorem turns_code (code b : Bytes) (hc : c!"<" ∉ code) : ∀ (st : St), st.inPre = true →
    ∃ st', st'.inPre = true ∧ (turns st (code ++ b)).flatten.flatMap Tok.out = code ++ (turns st' b).flatten.flatMap Tok.out := by
  induction code with
  | nil => intro st h; exact ⟨st, h, rfl⟩
  | cons c code ih =>
    intro st h
    simp only [List.mem_cons, not_or] at hc
    have hs : step st c (code ++ b) = ([.byte c], afterByte st c, 1) := by
      unfold step
      rw [if_neg (Ne.symm hc.1)]
      have : indentByte st c = ([], st) := by
        unfold indentByte indent
        simp [h]
      simp only [this, List.nil_append]
    have hpre : (afterByte st c).inPre = true := by unfold afterByte; (repeat' split) <;> exact h
    obtain ⟨st', h1, h2⟩ := ih hc.2 _ hpre
    refine ⟨st', h1, ?_⟩
    rw [List.cons_append, turns_cons, hs]
    simp only [List.drop_succ_cons, List.drop_zero, List.flatten_cons, List.flatMap_append, h2]
    simp [Tok.out]

theorem turns_tag {st : St} {p q : Bytes} (hp : c!">" ∉ p) {name : Bytes} {cl sc : Bool}
    (hn : tagName (p ++ b!">") = some (name, cl, sc)) (hb : ¬ (name ∈ blockTags ∧ (enterPre st name cl).inPre = false)) :
    (turns st (c!"<" :: (p ++ c!">" :: q))).flatten.flatMap Tok.out =
      c!"<" :: p ++ b!">" ++ (turns (enterInline (enterPre st name cl) name cl) q).flatten.flatMap Tok.out := by
  have e1 : tagName (p ++ c!">" :: q) = some (name, cl, sc) := by rw [tagName_cut p q []]; exact hn
  have e2 : tagText (c!"<" :: (p ++ c!">" :: q)) = c!"<" :: p ++ b!">" := by
    have := tagText_of (x := c!"<" :: p) (y := q) (by simp [hp])
    simpa using this
  have hs : step st c!"<" (p ++ c!">" :: q) =
      ([.chunk (c!"<" :: p ++ b!">")], enterInline (enterPre st name cl) name cl, (c!"<" :: p ++ b!">").length) := by
    unfold step
    rw [if_pos rfl, e1]
    simp only []
    rw [if_neg hb, e2]
  rw [turns_cons, hs]
  have : (c!"<" :: (p ++ c!">" :: q)).drop (c!"<" :: p ++ b!">").length = q := by simp
  simp only [this]
  simp [Tok.out]

theorem turns_block (code b : Bytes) (hc : c!"<" ∉ code) (st : St) : ∃ st',
    (turns st (b!"<pre><code>" ++ code ++ b!"</code>" ++ b)).flatten.flatMap Tok.out =
      b!"<pre><code>" ++ code ++ b!"</code>" ++ (turns st' b).flatten.flatMap Tok.out := by
  have e : b!"<pre><code>" ++ code ++ b!"</code>" ++ b =
      c!"<" :: (b!"pre" ++ c!">" :: (c!"<" :: (b!"code" ++ c!">" :: (code ++ (c!"<" :: (b!"/code" ++ c!">" :: b)))))) := by
    simp
  have h1 := turns_tag (st := st) (p := b!"pre") (name := b!"pre") (cl := false) (sc := false)
    (q := c!"<" :: (b!"code" ++ c!">" :: (code ++ (c!"<" :: (b!"/code" ++ c!">" :: b))))) (by decide) (by decide)
    (by rintro ⟨_, h⟩; simp [enterPre] at h)
  generalize hs1 : enterInline (enterPre st b!"pre" false) b!"pre" false = st1 at h1
  have h2 := turns_tag (st := st1) (p := b!"code") (name := b!"code") (cl := false) (sc := false)
    (q := code ++ (c!"<" :: (b!"/code" ++ c!">" :: b))) (by decide) (by decide)
    (by rintro ⟨h, _⟩; revert h; decide)
  have hp : (enterInline (enterPre st1 b!"code" false) b!"code" false).inPre = true := by
    unfold enterInline enterPre; simp; split <;> rfl
  obtain ⟨st3, hp3, h3⟩ := turns_code code (c!"<" :: (b!"/code" ++ c!">" :: b)) hc _ hp
  have h4 := turns_tag (st := st3) (p := b!"/code") (name := b!"code") (cl := true) (sc := false) (q := b)
    (by decide) (by decide) (by rintro ⟨h, _⟩; revert h; decide)
  refine ⟨enterInline (enterPre st3 b!"code" true) b!"code" true, ?_⟩
  rw [e, h1, h2, h3, h4]
  simp

/-- Newlines are dropped locally. -/
theorem collapse_keep {x : Bytes} (hx : NoGap x) (hh : x.head? ≠ some c!"\n") (hl : x.getLast? ≠ some c!"\n") (hne : x ≠ []) :
    ∀ (A B : Bytes) (run : Nat), ∃ A' B', collapse run (A ++ (x ++ B)) = A' ++ x ++ B' ∧
      ink A' = ink A ∧ ink B' = ink B := by
  have whole : ∀ (s : Bytes) run, ink (collapse run s) = ink s := by
    intro s run
    have : ∀ x : Bytes, ink x = ink (x.filter fun c => decide (c ≠ c!"\n")) := by
      intro x
      unfold ink
      rw [List.filter_filter]
      apply List.filter_congr
      intro c _
      by_cases h : c = c!"\n"
      · subst h; decide
      · simp [h]
    rw [this, collapse_other, ← this]
  have inner : ∀ (x B : Bytes) run, Few (2 - run) x → x.getLast? ≠ some c!"\n" → x ≠ [] →
      collapse run (x ++ B) = x ++ collapse 0 B := by
    intro x
    induction x with
    | nil => intro B run _ _ h; exact absurd rfl h
    | cons c x ih =>
      intro B run hf hl _
      rw [Few] at hf
      rw [List.cons_append, collapse]
      cases x with
      | nil =>
        simp at hl
        rw [if_neg hl]; simp
      | cons d x =>
        have hl' : (d :: x).getLast? ≠ some c!"\n" := by simpa [List.getLast?_cons_cons] using hl
        split
        · rename_i hc
          rw [if_pos hc] at hf
          rw [if_pos (by omega), ih B (run + 1) (by rw [show 2 - (run + 1) = 2 - run - 1 from by omega]; exact hf.2) hl' (by simp)]
          rfl
        · rename_i hc
          rw [if_neg hc] at hf
          rw [ih B 0 hf hl' (by simp)]
          rfl
  have hfew : ∀ run, Few (2 - run) x := by
    intro run
    cases x with
    | nil => trivial
    | cons c x =>
      have hc : c ≠ c!"\n" := by simpa using hh
      have := noGap_few hx 0 (by simpa using hx) (by omega)
      rw [Few, if_neg hc] at this ⊢
      exact this
  intro A
  induction A with
  | nil =>
    intro B run
    exact ⟨[], collapse 0 B, by rw [List.nil_append, inner x B run (hfew run) hl hne]; simp, rfl, whole _ _⟩
  | cons c A ih =>
    intro B run
    rw [List.cons_append, collapse]
    split
    · rename_i hc
      obtain ⟨A', B', h1, h2, h3⟩ := ih B (run + 1)
      have hw : ink (c :: A) = ink A := by subst hc; simp [ink, show White 10 from by decide]
      split
      · refine ⟨c :: A', B', by rw [h1]; rfl, ?_, h3⟩
        rw [hw, ← h2]; subst hc; simp [ink, show White 10 from by decide]
      · exact ⟨A', B', h1, by rw [hw, h2], h3⟩
    · obtain ⟨A', B', h1, h2, h3⟩ := ih B 0
      refine ⟨c :: A', B', by rw [h1]; rfl, ?_, h3⟩
      have : ∀ y : Bytes, ink (c :: y) = ink [c] ++ ink y := fun y => ink_append [c] y
      rw [this A', this A, h2]

/-! ### Lines of text -/

theorem phrase_suffix {u v : Bytes} (h : Phrase (u ++ v)) : Phrase v :=
  ⟨fun hn => h.1 (by simp [hn]), fun a b e => h.2 (u ++ a) b (by rw [e]; simp)⟩

theorem phraseTag_name {y : Bytes} (h : PhraseTag y) (z : Bytes) :
    ∃ n cl sc, tagName (y ++ c!">" :: z) = some (n, cl, sc) ∧ n ∈ phrasing := by
  obtain ⟨n, hn, w, hy, hw⟩ := h
  have hall : ∀ n ∈ phrasing, n ≠ [] ∧ ∀ c ∈ n, nameByte c = true := by decide +kernel
  have hslash : ∀ n ∈ phrasing, n.head? ≠ some c!"/" := by decide +kernel
  have htw : (n ++ (w ++ c!">" :: z)).takeWhile nameByte = n := by
    refine SupSub.takeWhile_append_stop (hall n hn).2 (.inr ?_)
    rcases hw with rfl | ⟨d, r, rfl, hd⟩
    · exact ⟨_, _, rfl, by decide⟩
    · refine ⟨d, r ++ c!">" :: z, rfl, ?_⟩
      rcases hd with hd | rfl
      · unfold nameByte; rw [(Transforms.isSpace_iff d).2 hd]; rfl
      · decide
  obtain ⟨e, n', rfl⟩ : ∃ e n', n = e :: n' := by
    cases n with
    | nil => exact absurd rfl (hall _ hn).1
    | cons e n' => exact ⟨e, n', rfl⟩
  rcases hy with rfl | rfl
  · refine ⟨e :: n', false, decide ((((e :: n' ++ (w ++ c!">" :: z)).dropWhile nameByte).dropWhile isSpace).head? = some c!"/"), ?_, hn⟩
    unfold tagName
    have hh : ((e :: n') ++ w ++ c!">" :: z).head? ≠ some c!"/" := by simpa using hslash _ hn
    simp only [hh, decide_false, if_false, Bool.false_eq_true]
    rw [List.append_assoc, htw, if_neg (by simp)]
  · refine ⟨e :: n', true, decide ((((e :: n' ++ (w ++ c!">" :: z)).dropWhile nameByte).dropWhile isSpace).head? = some c!"/"), ?_, hn⟩
    unfold tagName
    have hh : (c!"/" :: (e :: n') ++ w ++ c!">" :: z).head? = some c!"/" := rfl
    simp only [hh, decide_true, if_true]
    have hd : (c!"/" :: (e :: n') ++ w ++ c!">" :: z).drop 1 = (e :: n') ++ (w ++ c!">" :: z) := by simp
    rw [hd, htw, if_neg (by simp)]

theorem enter_atStart (st : St) (n : Bytes) (cl : Bool) : (enterInline (enterPre st n cl) n cl).atStart = st.atStart := by
  unfold enterInline enterPre
  split <;> split <;> rfl

theorem turns_phrase (b : Bytes) : ∀ (n : Nat) (x : Bytes), x.length ≤ n → Phrase x → ∀ (st : St), st.atStart = false →
    ∃ st', (turns st (x ++ b)).flatten.flatMap Tok.out = x ++ (turns st' b).flatten.flatMap Tok.out := by
  intro n
  induction n with
  | zero =>
    intro x hl _ st _
    have : x = [] := List.length_eq_zero_iff.1 (by omega)
    subst this
    exact ⟨st, rfl⟩
  | succ n ih =>
    intro x hl hx st hst
    cases x with
    | nil => exact ⟨st, rfl⟩
    | cons c t =>
      by_cases hc : c = c!"<"
      · subst hc
        obtain ⟨y, z, rfl, hy, ht⟩ := hx.2 [] t rfl
        obtain ⟨m, cl, sc, hm, hmem⟩ := phraseTag_name ht []
        have hnb : ∀ m ∈ phrasing, m ∉ blockTags := by decide +kernel
        have h1 := turns_tag (st := st) (p := y) (name := m) (cl := cl) (sc := sc) (q := z ++ b) hy hm
          (by rintro ⟨h, _⟩; exact hnb m hmem h)
        have hz : Phrase z := phrase_suffix (u := c!"<" :: y ++ b!">") (by simpa using hx)
        obtain ⟨st', h2⟩ := ih z (by simp at hl; omega) hz _ ((enter_atStart st m cl).trans hst)
        refine ⟨st', ?_⟩
        have e : c!"<" :: (y ++ c!">" :: z) ++ b = c!"<" :: (y ++ c!">" :: (z ++ b)) := by simp
        rw [e, h1, h2]
        simp
      · have hnl : c ≠ c!"\n" := by rintro rfl; exact hx.1 (by simp)
        have hi : indentByte st c = ([], st) := by
          unfold indentByte indent
          simp [hst]
        have hs : step st c (t ++ b) = ([.byte c], afterByte st c, 1) := by
          unfold step
          rw [if_neg hc]
          simp [hi]
        have ha : (afterByte st c).atStart = false := by
          unfold afterByte
          rw [if_neg hnl]
          split <;> simp [hst]
        obtain ⟨st', h2⟩ := ih t (by simp at hl; omega) (phrase_suffix (u := [c]) hx) _ ha
        refine ⟨st', ?_⟩
        rw [List.cons_append, turns_cons, hs]
        simp only [List.drop_succ_cons, List.drop_zero, List.flatten_cons, List.flatMap_append, h2]
        rfl

/-- The first byte of a line. -/
theorem turns_first {c : Byte} (hc : c ≠ c!"<" ∧ ¬ White c) (st : St) (t : Bytes) : ∃ w st', ink w = [] ∧ st'.atStart = false ∧
    (turns st (c :: t)).flatten.flatMap Tok.out = w ++ [c] ++ (turns st' t).flatten.flatMap Tok.out := by
  have hs : step st c t = ((indentByte st c).1 ++ [.byte c], afterByte (indentByte st c).2 c, 1) := by
    unfold step
    rw [if_neg hc.1]
  refine ⟨(indentByte st c).1.flatMap Tok.out, afterByte (indentByte st c).2 c, ?_, ?_, ?_⟩
  · unfold indentByte
    split
    · exact indent_ink st
    · rfl
  · unfold afterByte
    have h1 : c ≠ c!"\n" := by rintro rfl; exact hc.2 (by decide)
    have h2 : isSpace c = false := by
      rw [Bool.eq_false_iff]; intro e; exact hc.2 ((Transforms.isSpace_iff c).1 e)
    rw [if_neg h1, h2]
    rfl
  · rw [turns_cons, hs]
    simp [Tok.out]

/-- The tag in front. -/
theorem turns_holder {n : Bytes} (hn : n ∈ holders) (st : St) (q : Bytes) : ∃ w st', ink w = c!"<" :: n ++ b!">" ∧
    (turns st (c!"<" :: n ++ c!">" :: q)).flatten.flatMap Tok.out = w ++ (turns st' q).flatten.flatMap Tok.out := by
  have hall : ∀ n ∈ holders, c!">" ∉ n ∧ (∀ c ∈ n, ¬ White c) := by decide +kernel
  have hname : ∀ n ∈ holders, tagName (n ++ c!">" :: []) = some (n, false, false) := by decide +kernel
  have hname : tagName (n ++ c!">" :: q) = some (n, false, false) := (tagName_cut n q []).trans (hname n hn)
  have htext : tagText (c!"<" :: (n ++ c!">" :: q)) = c!"<" :: n ++ b!">" := by
    have := tagText_of (x := c!"<" :: n) (y := q) (by simp [(hall n hn).1])
    simpa using this
  have hcons : (step st c!"<" (n ++ c!">" :: q)).2.2 = n.length + 2 := by
    unfold step
    rw [if_pos rfl, hname]
    simp only []
    split
    · unfold blockTag
      simp [htext]
    · simp [htext]
  have hi := step_ink st c!"<" (n ++ c!">" :: q)
  rw [hcons] at hi
  have hd : (c!"<" :: (n ++ c!">" :: q)).drop (n.length + 2) = q := by
    rw [List.drop_succ_cons]
    have : n ++ c!">" :: q = (n ++ b!">") ++ q := by simp
    rw [this, List.drop_append_of_le_length (by simp)]
    simp
  rw [hd] at hi
  refine ⟨(step st c!"<" (n ++ c!">" :: q)).1.flatMap Tok.out, (step st c!"<" (n ++ c!">" :: q)).2.1, ?_, ?_⟩
  · have e : ink (c!"<" :: (n ++ c!">" :: q)) = (c!"<" :: n ++ b!">") ++ ink q := by
      have e1 : c!"<" :: (n ++ c!">" :: q) = (c!"<" :: n ++ b!">") ++ q := by simp
      rw [e1, ink_append]
      congr 1
      unfold ink
      rw [List.filter_eq_self]
      intro c hc
      simp only [List.cons_append, List.mem_cons, List.mem_append, List.not_mem_nil, or_false] at hc
      rcases hc with rfl | hc | rfl
      · decide
      · simpa using (hall n hn).2 c hc
      · decide
    rw [e] at hi
    exact List.append_cancel_right hi
  · rw [List.cons_append, turns_cons, hcons, hd]
    simp

theorem noGap_of_not_mem {x : Bytes} (h : c!"\n" ∉ x) : NoGap x := by
  rintro ⟨u, v, e⟩
  apply h
  rw [← e]
  simp

end Verif.Pretty
