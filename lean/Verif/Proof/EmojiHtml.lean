/- Proofs about emoji in pages. -/
import Verif.Model.EmojiHtml
import Verif.Spec.EmojiHtml
import Verif.Proof.Emoji
import Verif.Proof.Liquid

namespace Verif.EmojiHtml

open Emoji (Entry find normalize alignment candidate blanks copyIf copyByte pattern)
open Emoji.Spec (IsName Align folded)
open Spec (Free Open InAttr InImg Picture AtMark Html Images Headings)

/-! ### Tags -/

theorem infix_snoc {w y : Bytes} {c : Byte} (h : w <:+: y ++ [c]) : w <:+: y ∨ w <:+ y ++ [c] := by
  obtain ⟨a, b, e⟩ := h
  rcases List.eq_nil_or_concat b with rfl | ⟨b', x, rfl⟩
  · right
    exact ⟨a, by simpa using e⟩
  · left
    rw [List.concat_eq_append, ← List.append_assoc] at e
    exact ⟨a, b', (List.append_inj' e rfl).1⟩

/-- The four bytes of an entity. -/
def ent (k : Byte) : Bytes := [c!"&", k, c!"t", c!";"]

theorem free_snoc {y : Bytes} {next : Byte} (hy : Free y) (h1 : next ≠ c!"<") (h2 : next ≠ c!">") (h : ∀ k, k = c!"l" ∨ k = c!"g" → ¬ ent k <:+ y ++ [next]) :
    Free (y ++ [next]) := by
  obtain ⟨f1, f2, f3, f4⟩ := hy
  refine ⟨?_, ?_, ?_, ?_⟩
  · simp only [List.mem_append, List.mem_singleton, not_or]; exact ⟨f1, Ne.symm h1⟩
  · simp only [List.mem_append, List.mem_singleton, not_or]; exact ⟨f2, Ne.symm h2⟩
  · intro hi
    rcases infix_snoc hi with hi | hi
    · exact f3 hi
    · exact h _ (Or.inl rfl) hi
  · intro hi
    rcases infix_snoc hi with hi | hi
    · exact f4 hi
    · exact h _ (Or.inr rfl) hi

theorem free_one {c : Byte} (h1 : c ≠ c!"<") (h2 : c ≠ c!">") : Free [c] := by
  refine free_snoc (y := []) ⟨by simp, by simp, ?_, ?_⟩ h1 h2 ?_
  · intro h; have := h.length_le; simp at this
  · intro h; have := h.length_le; simp at this
  · intro k _ h; have := h.length_le; simp [ent] at this

theorem free_nil : Free [] := by
  refine ⟨by simp, by simp, ?_, ?_⟩ <;> (intro h; have := h.length_le; simp at this)

theorem free_suffix {a b : Bytes} (h : Free (a ++ b)) : Free b :=
  ⟨fun hm => h.1 (List.mem_append_right _ hm), fun hm => h.2.1 (List.mem_append_right _ hm),
    fun hi => h.2.2.1 (hi.trans (List.suffix_append a b).isInfix), fun hi => h.2.2.2 (hi.trans (List.suffix_append a b).isInfix)⟩

theorem free_prefix {a b : Bytes} (h : Free (a ++ b)) : Free a :=
  ⟨fun hm => h.1 (List.mem_append_left _ hm), fun hm => h.2.1 (List.mem_append_left _ hm),
    fun hi => h.2.2.1 (hi.trans (List.prefix_append a b).isInfix), fun hi => h.2.2.2 (hi.trans (List.prefix_append a b).isInfix)⟩

theorem entity_iff (k next x : Byte) (t : Bytes) : entity k next x t = true ↔ x = c!"t" ∧ next = c!";" ∧ ∃ a, a ≠ [] ∧ t = k :: c!"&" :: a := by
  unfold entity
  simp only [Bool.and_eq_true, beq_iff_eq, decide_eq_true_eq, List.isPrefixOf_iff_prefix]
  constructor
  · rintro ⟨⟨⟨rfl, rfl⟩, h⟩, ⟨a, rfl⟩⟩
    refine ⟨rfl, rfl, a, ?_, rfl⟩
    rintro rfl
    simp at h
  · rintro ⟨rfl, rfl, a, h, rfl⟩
    refine ⟨⟨⟨rfl, rfl⟩, ?_⟩, ⟨a, rfl⟩⟩
    have := List.length_pos_iff.2 h
    simp only [List.length_cons]
    omega

/-- What the search backwards finds. -/
def Found (next : Byte) (pre tag : Bytes) : Prop :=
  (∃ a, pre = tag ++ c!"<" :: a ∧ Free (tag.reverse ++ [next])) ∨
  (∃ a u v, a ≠ [] ∧ pre = u ++ c!"t" :: c!"l" :: c!"&" :: a ∧ tag = u ++ b!"tl" ∧ u.reverse ++ [next] = c!";" :: v ∧ Free v)

theorem suffix_two {y : Bytes} {x next k : Byte} (h : ent k <:+ y.reverse ++ [x] ++ [next]) : x = c!"t" ∧ next = c!";" ∧ ∃ z, y = k :: c!"&" :: z := by
  rw [← List.reverse_prefix] at h
  obtain ⟨r, hr⟩ := h
  simp [ent] at hr
  exact ⟨hr.2.1.symm, hr.1.symm, r, hr.2.2.symm⟩

theorem tagOpen_found {next : Byte} {pre tag : Bytes} (h1 : next ≠ c!"<") (h2 : next ≠ c!">") (h : tagOpen next pre = some tag) : Found next pre tag := by
  induction pre generalizing next tag with
  | nil => simp [tagOpen] at h
  | cons x t ih =>
    rw [tagOpen] at h
    split at h
    · cases h
    · rename_i hx1
      split at h
      · rename_i hx2
        simp only [Option.some.injEq] at h
        subst h
        left
        refine ⟨t, by simp at hx2; simp [hx2], free_one h1 h2⟩
      · rename_i hx2
        have hx1 : x ≠ c!">" := by simpa using hx1
        have hx2 : x ≠ c!"<" := by simpa using hx2
        split at h
        · rename_i he
          obtain ⟨rfl, rfl, a, ha, rfl⟩ := (entity_iff _ _ _ _).1 he
          simp only [Option.some.injEq] at h
          subst h
          exact Or.inr ⟨a, [], [], ha, rfl, rfl, rfl, free_nil⟩
        · rename_i he1
          split at h
          · cases h
          · rename_i he2
            cases hr : tagOpen x t with
            | none => rw [hr] at h; cases h
            | some tg =>
              rw [hr] at h
              simp only [Option.map_some, Option.some.injEq] at h
              subst h
              have hbad : ∀ k z, k = c!"l" ∨ k = c!"g" → x = c!"t" → next = c!";" → z ≠ [] → t ≠ k :: c!"&" :: z := by
                intro k z hk hx hn hz ht
                have : entity k next x t = true := (entity_iff _ _ _ _).2 ⟨hx, hn, z, hz, ht⟩
                rcases hk with rfl | rfl
                · exact he1 this
                · exact he2 this
              rcases ih hx2 hx1 hr with ⟨a, rfl, hf⟩ | ⟨a, u, v, ha, rfl, rfl, huv, hf⟩
              · left
                refine ⟨a, rfl, ?_⟩
                rw [List.reverse_cons]
                refine free_snoc hf h1 h2 fun k hk hs => ?_
                obtain ⟨rfl, rfl, z, rfl⟩ := suffix_two hs
                exact hbad k (z ++ c!"<" :: a) hk rfl rfl (by simp) rfl
              · right
                refine ⟨a, x :: u, v ++ [next], ha, rfl, rfl, by rw [List.reverse_cons, huv]; rfl, ?_⟩
                refine free_snoc hf h1 h2 fun k hk hs => ?_
                have hs' : ent k <:+ u.reverse ++ [x] ++ [next] := by
                  rw [huv]
                  exact hs.trans (List.suffix_cons _ _)
                obtain ⟨rfl, rfl, z, rfl⟩ := suffix_two hs'
                exact hbad k (z ++ c!"t" :: c!"l" :: c!"&" :: a) hk rfl rfl (by simp) rfl

theorem infix_ent {k : Byte} {s : Bytes} (hk : k = c!"l" ∨ k = c!"g") (h : Free s) : ¬ ent k <:+: s := by
  rcases hk with rfl | rfl
  · exact h.2.2.1
  · exact h.2.2.2

theorem tagOpen_cons {next x : Byte} {t tag : Bytes} (h1 : x ≠ c!">") (h2 : x ≠ c!"<") (h : ∀ k, k = c!"l" ∨ k = c!"g" → entity k next x t = false)
    (hr : tagOpen x t = some tag) : tagOpen next (x :: t) = some (x :: tag) := by
  rw [tagOpen, if_neg (by simpa using h1), if_neg (by simpa using h2), h _ (Or.inl rfl), if_neg (by simp), h _ (Or.inr rfl), if_neg (by simp), hr]
  rfl

theorem found_tagOpen {next : Byte} {pre tag : Bytes} (h : Found next pre tag) : tagOpen next pre = some tag := by
  rcases h with ⟨a, rfl, hf⟩ | ⟨a, u, v, ha, rfl, rfl, huv, hf⟩
  · induction tag generalizing next with
    | nil => rfl
    | cons x tg ih =>
      rw [List.reverse_cons] at hf
      have hf' := free_prefix hf
      refine tagOpen_cons (fun e => hf'.2.1 (by simp [e])) (fun e => hf'.1 (by simp [e])) ?_ (ih hf')
      intro k hk
      rw [Bool.eq_false_iff]
      intro he
      obtain ⟨rfl, rfl, z, hz, ht⟩ := (entity_iff _ _ _ _).1 he
      refine infix_ent hk hf ?_
      cases tg with
      | nil =>
        simp at ht
        rcases hk with rfl | rfl <;> exact absurd ht.1 (by decide)
      | cons y tg =>
        cases tg with
        | nil => simp at ht
        | cons y' tg =>
          simp at ht
          obtain ⟨rfl, rfl, -⟩ := ht
          exact ⟨tg.reverse, [], by simp [ent]⟩
  · induction u generalizing next v with
    | nil =>
      simp at huv
      obtain ⟨rfl, rfl⟩ := huv
      show tagOpen c!";" (c!"t" :: c!"l" :: c!"&" :: a) = _
      rw [tagOpen, if_neg (by decide), if_neg (by decide), if_pos ((entity_iff _ _ _ _).2 ⟨rfl, rfl, a, ha, rfl⟩)]
      rfl
    | cons x u ih =>
      rw [List.reverse_cons] at huv
      obtain ⟨v', rfl⟩ : ∃ v', v = v' ++ [next] := by
        rcases List.eq_nil_or_concat v with rfl | ⟨v', y, rfl⟩
        · have := congrArg List.length huv
          simp at this
        · rw [List.concat_eq_append] at huv ⊢
          have := List.append_inj' (show u.reverse ++ [x] ++ [next] = (c!";" :: v') ++ [y] from huv) rfl
          exact ⟨v', by rw [this.2]⟩
      have huv' : u.reverse ++ [x] = c!";" :: v' := (List.append_inj' (show u.reverse ++ [x] ++ [next] = (c!";" :: v') ++ [next] from huv) rfl).1
      have hxm : x ∈ c!";" :: v' := by rw [← huv']; simp
      refine tagOpen_cons ?_ ?_ ?_ (ih v' huv' (free_prefix hf))
      · rintro rfl
        rcases List.mem_cons.1 hxm with h | h
        · exact absurd h (by decide)
        · exact hf.2.1 (List.mem_append_left _ h)
      · rintro rfl
        rcases List.mem_cons.1 hxm with h | h
        · exact absurd h (by decide)
        · exact hf.1 (List.mem_append_left _ h)
      · intro k hk
        rw [Bool.eq_false_iff]
        intro he
        obtain ⟨rfl, rfl, z, hz, ht⟩ := (entity_iff _ _ _ _).1 he
        cases u with
        | nil =>
          simp at ht
        | cons y u =>
          cases u with
          | nil => simp at ht
          | cons y' u =>
            simp at ht
            obtain ⟨rfl, rfl, -⟩ := ht
            rcases List.eq_nil_or_concat u with rfl | ⟨u', q, rfl⟩
            · simp at huv
            · refine infix_ent (s := v' ++ [c!";"]) hk hf ?_
              simp at huv
              rw [← huv.2]
              exact ⟨u'.reverse, [], by simp [ent]⟩

theorem open_tag {b tag : Bytes} (h : tagOpen c!":" b.reverse = some tag) : ∃ inside z, Open b inside ∧ tag = inside.reverse ++ z ∧ c!"=" ∉ z := by
  rcases tagOpen_found (by decide) (by decide) h with ⟨a, hp, hf⟩ | ⟨a, u, v, ha, hp, rfl, huv, hf⟩
  · refine ⟨tag.reverse, [], ⟨free_prefix hf, Or.inl ⟨a.reverse, ?_⟩⟩, by simp, by simp⟩
    have := congrArg List.reverse hp
    simpa using this
  · obtain ⟨v', rfl⟩ : ∃ v', v = v' ++ [c!":"] := by
      rcases List.eq_nil_or_concat v with rfl | ⟨v', y, rfl⟩
      · have := congrArg List.getLast? huv
        simp at this
      · rw [List.concat_eq_append] at huv ⊢
        have := List.append_inj' (show u.reverse ++ [c!":"] = (c!";" :: v') ++ [y] from huv) rfl
        exact ⟨v', by rw [this.2]⟩
    have hu : u.reverse = c!";" :: v' := (List.append_inj' (show u.reverse ++ [c!":"] = (c!";" :: v') ++ [c!":"] from huv) rfl).1
    have hu' : u = v'.reverse ++ [c!";"] := by
      have := congrArg List.reverse hu
      simpa using this
    refine ⟨v', b!";tl", ⟨free_prefix hf, Or.inr ⟨a.reverse, by simpa using ha, ?_⟩⟩, by rw [hu']; simp, by decide⟩
    have := congrArg List.reverse hp
    simp [hu] at this
    simpa using this

theorem free_colon {s : Bytes} (h : Free s) : Free (s ++ b!":") := by
  refine free_snoc h (by decide) (by decide) fun k hk hs => ?_
  obtain ⟨r, hr⟩ := hs
  have := congrArg List.getLast? hr
  rw [List.getLast?_append, List.getLast?_append] at this
  simp [ent] at this

theorem tag_open {b inside : Bytes} (h : Open b inside) : ∃ z, c!"=" ∉ z ∧ tagOpen c!":" b.reverse = some (inside.reverse ++ z) := by
  obtain ⟨hf, ⟨a, rfl⟩ | ⟨a, ha, rfl⟩⟩ := h
  · refine ⟨[], by simp, found_tagOpen (Or.inl ⟨a.reverse, by simp, ?_⟩)⟩
    simpa using free_colon hf
  · refine ⟨b!";tl", by decide, found_tagOpen (Or.inr ⟨a.reverse, inside.reverse ++ b!";", inside ++ b!":", by simpa using ha, by simp, by simp, by simp, free_colon hf⟩)⟩

theorem takeWhile_split {x z : Bytes} {p : Byte → Bool} (y : Bytes) (hx : ∀ c ∈ x, p c = true) (d : Byte) (hd : p d = false) :
    (x ++ d :: y ++ z).takeWhile p = x := by
  induction x with
  | nil => simp [hd]
  | cons c x ih =>
    rw [List.cons_append, List.cons_append, List.takeWhile_cons_of_pos (hx c (by simp))]
    rw [ih fun c hc => hx c (by simp [hc])]

theorem dropWhile_pre {x y : Bytes} {p : Byte → Bool} (hx : ∀ c ∈ x, p c = true) (hy : ∀ c, y.head? = some c → p c = false) :
    (x ++ y).dropWhile p = y := by
  induction x with
  | nil => exact FencedDivs.dropWhile_head hy
  | cons c x ih =>
    rw [List.cons_append, List.dropWhile_cons_of_pos (hx c (by simp))]
    exact ih fun c hc => hx c (by simp [hc])

theorem inAttr_iff (b : Bytes) : inAttr b.reverse = true ↔ InAttr b := by
  constructor
  · intro h
    unfold inAttr at h
    cases ht : tagOpen c!":" b.reverse with
    | none => rw [ht] at h; cases h
    | some tag =>
      rw [ht] at h
      simp only at h
      obtain ⟨inside, z, ho, rfl, hz⟩ := open_tag ht
      split at h
      · rename_i hc
        have hm : c!"=" ∈ inside := by
          simp only [List.contains_eq_mem, decide_eq_true_eq, List.mem_append, List.mem_reverse] at hc
          exact hc.resolve_right hz
        -- the last equals sign
        obtain ⟨y, x, hxy, hy⟩ : ∃ y x, inside.reverse = y ++ c!"=" :: x ∧ c!"=" ∉ y := by
          obtain ⟨i, hi⟩ := List.append_of_mem (List.mem_reverse.2 hm)
          have := List.takeWhile_append_dropWhile (p := fun c : Byte => c != c!"=") (l := inside.reverse)
          cases hd : inside.reverse.dropWhile (fun c : Byte => c != c!"=") with
          | nil =>
            rw [hd, List.append_nil] at this
            have hm' := List.mem_reverse.2 hm
            rw [← this] at hm'
            have := List.all_eq_true.1 List.all_takeWhile _ hm'
            simp at this
          | cons d x =>
            have hd' := FencedDivs.head_dropWhile (p := fun c : Byte => c != c!"=") (s := inside.reverse) (c := d) (by rw [hd]; rfl)
            simp at hd'
            subst hd'
            rw [hd] at this
            refine ⟨_, x, this.symm, fun hm => ?_⟩
            have := List.all_eq_true.1 List.all_takeWhile _ hm
            simp at this
        rw [hxy, takeWhile_split x (fun c hc => by simp; rintro rfl; exact hy hc) _ (by simp)] at h
        have hin : inside = x.reverse ++ b!"=" ++ y.reverse := by
          have := congrArg List.reverse hxy
          simpa using this
        have hsp := List.takeWhile_append_dropWhile (p := isSpace) (l := y.reverse)
        split at h
        · cases h
        · rename_i q v hq
          rw [hq] at hsp
          refine ⟨x.reverse, y.reverse.takeWhile isSpace, q :: v, ?_, fun c hc => List.all_eq_true.1 List.all_takeWhile c hc, ?_, ?_⟩
          · rw [List.append_assoc, hsp, ← hin]
            exact ho
          · intro hm
            refine hy (List.mem_reverse.1 ?_)
            rw [← hsp]
            exact List.mem_append_right _ hm
          · split at h
            · rename_i hqq
              simp only [Bool.or_eq_true, beq_iff_eq] at hqq
              exact Or.inl ⟨q, v, hqq, rfl, by simpa using h⟩
            · rename_i hqq
              simp only [Bool.or_eq_true, beq_iff_eq, not_or] at hqq
              refine Or.inr ⟨q, v, rfl, hqq.1, hqq.2, fun c hc => ?_⟩
              have := List.all_eq_true.1 h c hc
              simpa using this
      · cases h
  · rintro ⟨key, ws, value, ho, hws, hval, hcase⟩
    obtain ⟨z, hz, ht⟩ := tag_open ho
    unfold inAttr
    rw [ht]
    simp only
    have e : (key ++ b!"=" ++ ws ++ value).reverse ++ z = (ws ++ value).reverse ++ c!"=" :: key.reverse ++ z := by simp
    have hno : ∀ c ∈ (ws ++ value).reverse, (c != c!"=") = true := by
      intro c hc
      rw [List.mem_reverse, List.mem_append] at hc
      simp
      rintro rfl
      rcases hc with hc | hc
      · exact absurd (hws _ hc) (by decide)
      · exact hval hc
    rw [e, if_pos (by simp), takeWhile_split _ hno _ (by simp), List.reverse_reverse]
    rcases hcase with ⟨q, v, hq, rfl, hv⟩ | ⟨c, v, rfl, h1, h2, h3⟩
    · rw [dropWhile_pre hws (by
        intro c hc
        simp at hc
        subst hc
        rcases hq with rfl | rfl <;> decide)]
      simp only
      rw [if_pos (by simpa using hq)]
      simpa using hv
    · rw [dropWhile_pre hws (by
        intro x hx
        simp at hx
        subst hx
        exact h3 _ (by simp))]
      simp only
      rw [if_neg (by simp [h1, h2])]
      rw [List.all_eq_true]
      intro x hx
      simp [h3 x hx]

theorem inImg_some {d k : Nat} {pre w : Bytes} (hw : w.length + 1 = d) (h1 : c!"<" ∉ w) (h2 : c!">" ∉ w) (h : inImg d (w ++ b!":") pre = some k) :
    InImg (pre.reverse ++ w) := by
  induction pre generalizing d w with
  | nil => simp [inImg] at h
  | cons x t ih =>
    rw [inImg] at h
    split at h
    · cases h
    · rename_i hd
      split at h
      · cases h
      · rename_i hx1
        split at h
        · rename_i hx2
          simp at hx2
          subst hx2
          split at h
          · rename_i hi
            simp only [Bool.and_eq_true, decide_eq_true_eq] at hi
            obtain ⟨hi1, hi2⟩ := hi
            match w, hw, h1, h2, hi2 with
            | i :: m :: g :: s :: v, hw, h1, h2, hi2 =>
              simp only [imgTag, List.cons_append, Bool.and_eq_true, Bool.or_eq_true, beq_iff_eq] at hi2
              obtain ⟨⟨⟨k1, k2⟩, k3⟩, k4⟩ := hi2
              simp only [List.length_cons] at hw
              refine ⟨t.reverse, i, m, g, s, v, by simp, ?_, ?_, ?_, ?_, by omega, ?_, ?_⟩
              · rcases k1 with rfl | rfl <;> decide
              · rcases k2 with rfl | rfl <;> decide
              · rcases k3 with rfl | rfl <;> decide
              · exact k4.resolve_right fun e => h2 (by simp [e])
              · exact fun hm => h1 (by simp [hm])
              · exact fun hm => h2 (by simp [hm])
            | [], hw, _, _, _ => simp at hw; omega
            | [_], hw, _, _, _ => simp at hw; omega
            | [_, _], hw, _, _, _ => simp at hw; omega
            | [_, _, _], hw, _, _, _ => simp at hw; omega
          · cases h
        · rename_i hx2
          split at h
          · cases h
          · have := ih (d := d + 1) (w := x :: w) (by simp; omega) (by
              simp only [List.mem_cons, not_or]; exact ⟨fun e => hx2 (by simp [← e]), h1⟩) (by
              simp only [List.mem_cons, not_or]; exact ⟨fun e => hx1 (by simp [← e]), h2⟩) h
            simpa using this

theorem inHeader_false {c : Byte} {b : Bytes} (hc : c ≠ c!">") (h : Headings b) : inHeader (c :: b.reverse) = false := by
  have key : ∀ pre : Bytes, inHeader pre = true → ∃ d h, (c!"1" ≤ d ∧ d ≤ c!"6") ∧ (h = c!"h" ∨ h = c!"H") ∧ [c!">", h, d, c!"<"] <:+: pre := by
    intro pre
    induction pre with
    | nil => intro h; cases h
    | cons x t ih =>
      intro h
      rw [inHeader] at h
      have hrec : inHeader t = true → ∃ d h, (c!"1" ≤ d ∧ d ≤ c!"6") ∧ (h = c!"h" ∨ h = c!"H") ∧ [c!">", h, d, c!"<"] <:+: x :: t := by
        intro h
        obtain ⟨d, k, h1, h2, h3⟩ := ih h
        exact ⟨d, k, h1, h2, h3.trans (List.suffix_cons _ _).isInfix⟩
      split at h
      · rename_i hx
        simp only [Bool.and_eq_true, beq_iff_eq, decide_eq_true_eq] at hx
        obtain ⟨rfl, hl⟩ := hx
        split at h
        · split at h
          · cases h
          · exact hrec h
        · split at h
          · rename_i hh
            simp only [Bool.and_eq_true, Bool.or_eq_true, beq_iff_eq, decide_eq_true_eq] at hh
            match t, hl, hh with
            | a :: b :: c :: r, _, hh =>
              obtain ⟨⟨h1, h2⟩, h3⟩ := hh
              simp at h1 h2 h3
              exact ⟨b, a, h2, h1, ⟨[], r, by simp [h3]⟩⟩
          · exact hrec h
      · exact hrec h
  rw [Bool.eq_false_iff]
  intro ht
  rw [inHeader, if_neg (by simp [hc])] at ht
  obtain ⟨d, k, h1, h2, h3⟩ := key _ ht
  refine h d k h1 h2 ?_
  have := List.reverse_infix.2 h3
  simpa using this

/-! ### Names -/

/-- What a name is replaced by. -/
def pic (tab : List Entry) (name : Bytes) : Option Bytes :=
  if alignment name then some (pattern name)
  else
    match find tab (folded name) with
    | none => some (pattern name)
    | some e =>
      match e.unicode with
      | some u => some u
      | none => e.image.map fun url => Spec.image url e.name

theorem find_at {tab pre post : List Entry} {e : Entry} {n : Bytes} (ht : tab = pre ++ e :: post) (h : e.name = n) (hp : ∀ e' ∈ pre, e'.name ≠ n) :
    find tab n = some e := by
  unfold find
  rw [List.find?_eq_some_iff_append]
  exact ⟨by simp [h], pre, post, ht, fun a ha => by simp [hp a ha]⟩

theorem pic_iff {tab : List Entry} {name u : Bytes} (hn : IsName blanks name) : pic tab name = some u ↔ Picture tab name u := by
  have ha := Emoji.alignment_iff hn.noColon
  constructor
  · intro h
    unfold pic at h
    split at h
    · rename_i hal
      cases h
      exact .align (ha.1 hal)
    · rename_i hal
      have hal' : ¬ Align name := fun h => hal (ha.2 h)
      split at h
      · rename_i hf
        cases h
        exact .unknown hal' (Emoji.find_none hf)
      · rename_i e hf
        obtain ⟨pre, post, h1, h2, h3⟩ := Emoji.find_split hf
        split at h
        · rename_i w hu
          cases h
          exact .emoji hal' h1 h2 h3 hu
        · rename_i hu
          cases hi : e.image with
          | none => rw [hi] at h; cases h
          | some url =>
            rw [hi] at h
            cases h
            exact .image hal' h1 h2 h3 hu hi
  · intro h
    unfold pic
    cases h with
    | align h => rw [if_pos (ha.2 h)]
    | emoji h h1 h2 h3 h4 =>
      rw [if_neg fun hal => h (ha.1 hal), find_at h1 h2 h3]
      simp [h4]
    | image h h1 h2 h3 h4 h5 =>
      rw [if_neg fun hal => h (ha.1 hal), find_at h1 h2 h3]
      simp [h4, h5]
    | unknown h h1 =>
      rw [if_neg fun hal => h (ha.1 hal)]
      have : find tab (folded name) = none := by
        unfold find
        rw [List.find?_eq_none]
        intro e he
        simp
        intro hen
        exact h1 (List.mem_map.2 ⟨e, he, hen⟩)
      rw [this]

theorem named_eq {tab : List Entry} {cap : Nat} {out b name u : Bytes} (hn : IsName blanks name) (hb : Headings b) (hp : pic tab name = some u)
    (hcap : out.length + u.length < cap) : named tab cap out b.reverse name (pattern name) = some (.val (out ++ u)) := by
  unfold pic at hp
  unfold named
  rw [Emoji.take63 hn.short, Emoji.normalize_eq hn.noColon]
  split at hp
  · rename_i hal
    cases hp
    rw [if_pos hal, Emoji.copyIf_val hcap]
  · rename_i hal
    rw [if_neg hal]
    split at hp
    · rename_i hf
      cases hp
      rw [hf]
      simp only
      rw [Emoji.copyIf_val hcap]
    · rename_i e hf
      rw [hf]
      simp only
      split at hp
      · rename_i w hu
        cases hp
        rw [hu]
        simp only
        rw [if_pos (by omega), puts_val (by omega)]
      · rename_i hu
        rw [hu]
        cases hi : e.image with
        | none => rw [hi] at hp; cases hp
        | some url =>
          rw [hi] at hp
          obtain rfl : Spec.image url e.name = u := by simpa using hp
          simp only
          have : image (inHeader ((pattern name).headD 0 :: b.reverse)) url e.name = Spec.image url e.name := by
            rw [inHeader_false (c := (pattern name).headD 0) (by simp [pattern]) hb]
            rfl
          rw [this, if_pos (by omega), puts_val (by omega)]

theorem named_none {tab : List Entry} {cap : Nat} {out pre name source : Bytes} (hn : IsName blanks name) (hp : pic tab name = none) :
    named tab cap out pre name source = none := by
  unfold pic at hp
  unfold named
  rw [Emoji.take63 hn.short, Emoji.normalize_eq hn.noColon]
  split at hp
  · cases hp
  · rename_i hal
    rw [if_neg hal]
    split at hp
    · cases hp
    · rename_i e hf
      rw [hf]
      simp only
      split at hp
      · cases hp
      · rename_i hu
        rw [hu]
        cases hi : e.image with
        | none => rfl
        | some url => rw [hi] at hp; cases hp

theorem copyByte_ok {cap : Nat} {out : Bytes} {c : Byte} (h : out.length < cap) : copyByte cap out c = .val (out ++ [c]) := by
  unfold copyByte
  rw [if_pos (by omega), put_val h]

/-! ### Marks -/

theorem mark_iff (b s : Bytes) : (b!"XDI--!<".isPrefixOf b.reverse && s.head? == some c!":") = true ↔ (∃ a, b = a ++ b!"<!--IDX") ∧ s.head? = some c!":" := by
  rw [Bool.and_eq_true, List.isPrefixOf_iff_prefix, beq_iff_eq]
  refine and_congr_left fun _ => ?_
  constructor
  · rintro ⟨t, ht⟩
    refine ⟨t.reverse, ?_⟩
    have := congrArg List.reverse ht
    simp at this
    simpa using this.symm
  · rintro ⟨a, rfl⟩
    exact ⟨a.reverse, by simp⟩

theorem placeholder_some {cap : Nat} {out b x rest : Bytes} (h : AtMark b (x ++ b!"-->" ++ rest)) (hx : ¬ b!"-->" <:+: x)
    (hcap : out.length + x.length + 3 ≤ cap) : placeholder cap out b.reverse (x ++ b!"-->" ++ rest) = some (x.length + 3) := by
  unfold placeholder
  rw [if_pos ((mark_iff _ _).2 ⟨h.1, h.2.1⟩), Liquid.find_free (by decide) (by decide) _ _ hx]
  simp only
  rw [if_pos (by omega)]

theorem placeholder_none {cap : Nat} {out b s : Bytes} (h : ¬ AtMark b s) : placeholder cap out b.reverse s = none := by
  unfold placeholder
  split
  · rename_i hm
    have hm := (mark_iff _ _).1 hm
    rw [(Embed.find_none (by decide)).2 fun hi => h ⟨hm.1, hm.2, hi⟩]
  · rfl

/-! ### Pages -/

theorem piece_name {tab : List Entry} {cap : Nat} {out b name u rest : Bytes} (hn : IsName blanks name) (hb : Headings b) (hp : Picture tab name u)
    (hcap : out.length + u.length < cap) : piece tab cap out b.reverse (pattern name ++ rest) = (.val (out ++ u), name.length + 2) := by
  unfold piece
  have e : c!":" :: (pattern name ++ rest).tail = pattern name ++ rest := by simp [pattern]
  rw [e, Emoji.candidate_some hn]
  simp only
  have : (pattern name ++ rest).take (name.length + 2) = pattern name := by rw [← Emoji.pattern_length, List.take_left]
  rw [this, named_eq hn hb ((pic_iff hn).2 hp) hcap]

theorem piece_byte {tab : List Entry} {cap : Nat} {out pre t : Bytes}
    (h : ¬ ∃ name u rest, IsName blanks name ∧ Picture tab name u ∧ c!":" :: t = pattern name ++ rest) (hcap : out.length < cap) :
    piece tab cap out pre (c!":" :: t) = (.val (out ++ b!":"), 1) := by
  unfold piece
  rw [List.tail_cons]
  cases hc : candidate blanks (c!":" :: t) with
  | none => simp only [List.headD_cons]; rw [copyByte_ok hcap]
  | some r =>
    obtain ⟨name, rest⟩ := r
    obtain ⟨h1, h2⟩ := Emoji.candidate_spec hc
    simp only
    cases hp : pic tab name with
    | some u => exact absurd ⟨name, u, rest, h2, (pic_iff h2).1 hp, h1⟩ h
    | none =>
      rw [named_none h2 hp]
      simp only [List.headD_cons]
      rw [copyByte_ok hcap]

theorem colon_eq {tab : List Entry} {cap k : Nat} {out out' b s : Bytes} (himg : ¬ InImg b) (h : piece tab cap out b.reverse s = (.val out', k)) :
    colon tab cap out b.reverse s = .val (out', k) := by
  unfold colon
  cases hi : inImg 1 [c!":"] b.reverse with
  | some d =>
    have := inImg_some (w := []) rfl (by simp) (by simp) hi
    simp at this
    exact absurd this himg
  | none => simp only; rw [h]; rfl

theorem images_at {b t : Bytes} (h : Images (b ++ c!":" :: t)) (ha : ¬ InAttr b) : ¬ InImg b := fun hi => ha (h b t rfl hi)

theorem headings_pre {b s : Bytes} (h : Headings (b ++ s)) : Headings b := fun d k h1 h2 hi =>
  h d k h1 h2 (hi.trans (List.prefix_append b s).isInfix)

theorem loop_html {tab : List Entry} {b s o : Bytes} (h : Html tab b s o) (himg : Images (b ++ s)) (hh : Headings (b ++ s)) {cap : Nat} :
    ∀ (n : Nat) (out : Bytes), s.length < n → out.length + o.length < cap → loop tab cap n out b.reverse s = .val (out ++ o) := by
  induction h with
  | nil =>
    intro n out hn hcap
    obtain ⟨n, rfl⟩ : ∃ m, n = m + 1 := ⟨n - 1, by omega⟩
    rw [loop, if_pos rfl, finish_val (by simpa using hcap), List.append_nil]
  | @mark b x rest o hm hx _ ih =>
    intro n out hn hcap
    obtain ⟨n, rfl⟩ : ∃ m, n = m + 1 := ⟨n - 1, by omega⟩
    simp only [List.length_append] at hn hcap
    have e3 : (b!"-->").length = 3 := rfl
    rw [loop, if_neg (by simp), step, placeholder_some hm hx (by omega)]
    simp only
    have ht : (x ++ b!"-->" ++ rest).take (x.length + 3) = x ++ b!"-->" := by
      rw [show x.length + 3 = (x ++ b!"-->").length by simp [e3], List.take_left]
    have hd : (x ++ b!"-->" ++ rest).drop (x.length + 3) = rest := by
      rw [show x.length + 3 = (x ++ b!"-->").length by simp [e3], List.drop_left]
    rw [ht, puts_val (by simp; omega)]
    simp only [C.val_bind]
    rw [ht, hd, ← List.reverse_append, ih (by simpa using himg) (by simpa using hh) _ _ (by omega) (by simp; omega)]
    simp
  | @name b name u rest o hm ha hn hp _ ih =>
    intro n out hl hcap
    obtain ⟨n, rfl⟩ : ∃ m, n = m + 1 := ⟨n - 1, by omega⟩
    simp only [List.length_append, Emoji.pattern_length] at hl hcap
    rw [loop, if_neg (by simp [pattern]), step, placeholder_none hm]
    simp only
    rw [if_pos (by simp [pattern]), if_neg (by rw [inAttr_iff]; exact ha),
      colon_eq (images_at (by simpa [pattern] using himg) ha) (piece_name hn (headings_pre hh) hp (by omega))]
    simp only [C.val_bind]
    rw [← Emoji.pattern_length, List.take_left, List.drop_left, ← List.reverse_append, ih (by simpa using himg) (by simpa using hh) _ _ (by omega) (by simp; omega)]
    simp
  | @byte b c t o hm hc _ ih =>
    intro n out hl hcap
    obtain ⟨n, rfl⟩ : ∃ m, n = m + 1 := ⟨n - 1, by omega⟩
    simp only [List.length_cons] at hl hcap
    have hs : step tab cap out b.reverse (c :: t) = .val (out ++ [c], 1) := by
      rw [step, placeholder_none hm]
      simp only
      by_cases hcc : c = c!":"
      · subst hcc
        rw [if_pos (by simp)]
        by_cases ha : InAttr b
        · rw [if_pos ((inAttr_iff b).2 ha), copyByte_ok (by omega)]; rfl
        · rw [if_neg (by rw [inAttr_iff]; exact ha), colon_eq (images_at himg ha) (piece_byte (hc.resolve_left ha) (by omega))]
      · rw [if_neg (by simpa using hcc), List.headD_cons, copyByte_ok (by omega)]; rfl
    rw [loop, if_neg (by simp), hs]
    simp only [C.val_bind]
    have := ih (by simpa using himg) (by simpa using hh) n (out ++ [c]) (by omega) (by simp; omega)
    simpa using this

theorem replace_html {tab : List Entry} {html o : Bytes} (h : Html tab [] html o) (himg : Images html) (hh : Headings html) (hcap : o.length < 3 * html.length) :
    replace tab html = .val o := by
  unfold replace
  rw [show ([] : Bytes) = ([] : Bytes).reverse from rfl]
  have := loop_html (cap := html.length * 3) h (by simpa using himg) (by simpa using hh) (html.length + 1) [] (by omega) (by simp; omega)
  simpa using this

theorem exists_html (tab : List Entry) (s : Bytes) : ∀ b, ∃ o, Html tab b s o := by
  have key : ∀ n s, s.length < n → ∀ b, ∃ o, Html tab b s o := by
    intro n
    induction n with
    | zero => intro s h; omega
    | succ n ih =>
      intro s hs b
      cases s with
      | nil => exact ⟨[], .nil⟩
      | cons c t =>
        by_cases hm : AtMark b (c :: t)
        · cases hf : Embed.find b!"-->" (c :: t) with
          | none => exact absurd hm.2.2 ((Embed.find_none (by decide)).1 hf)
          | some r =>
            obtain ⟨x, rest⟩ := r
            have he := Embed.find_some hf
            have hx := Liquid.find_first hf (by decide)
            rw [he] at hm hs ⊢
            obtain ⟨o, ho⟩ := ih rest (by simp at hs; omega) (b ++ (x ++ b!"-->"))
            exact ⟨_, .mark hm hx ho⟩
        · by_cases hc : InAttr b ∨ ¬ ∃ name u rest, IsName blanks name ∧ Picture tab name u ∧ c :: t = pattern name ++ rest
          · obtain ⟨o, ho⟩ := ih t (by simp at hs; omega) (b ++ [c])
            exact ⟨_, .byte hm hc ho⟩
          · rw [not_or, Classical.not_not] at hc
            obtain ⟨ha, name, u, rest, hn, hp, he⟩ := hc
            rw [he] at hm hs ⊢
            obtain ⟨o, ho⟩ := ih rest (by simp [pattern] at hs; omega) (b ++ pattern name)
            exact ⟨_, .name hm ha hn hp ho⟩
  exact key (s.length + 1) s (by omega)

theorem html_unique {tab : List Entry} {b s o : Bytes} (h : Html tab b s o) : ∀ {o'}, Html tab b s o' → o' = o := by
  induction h with
  | nil =>
    intro o' h'
    generalize hs : ([] : Bytes) = s at h'
    cases h' with
    | nil => rfl
    | mark => simp at hs
    | name => simp [pattern] at hs
    | byte => cases hs
  | @mark b x rest o hm hx _ ih =>
    intro o' h'
    generalize hs : x ++ b!"-->" ++ rest = s at h' hm
    cases h' with
    | nil => simp at hs
    | @mark _ x' rest' o'' hm' hx' h'' =>
      have e1 := Liquid.find_free (w := b!"-->") (by decide) (by decide) x rest hx
      rw [hs, Liquid.find_free (by decide) (by decide) x' rest' hx'] at e1
      cases e1
      rw [ih h'']
    | name hm' => exact absurd hm hm'
    | byte hm' => exact absurd hm hm'
  | @name b name u rest o hm ha hn hp _ ih =>
    intro o' h'
    generalize hs : pattern name ++ rest = s at h' hm
    cases h' with
    | nil => simp [pattern] at hs
    | mark hm' => exact absurd hm' hm
    | @name _ name' u' rest' o'' hm' ha' hn' hp' h'' =>
      have e1 := Emoji.candidate_some hn rest
      rw [hs, Emoji.candidate_some hn' rest'] at e1
      cases e1
      rw [ih h'']
      have := (pic_iff hn).2 hp
      rw [(pic_iff hn).2 hp'] at this
      cases this
      rfl
    | byte hm' hc =>
      exact absurd ⟨name, u, rest, hn, hp, hs.symm⟩ (hc.resolve_left ha)
  | @byte b c t o hm hc _ ih =>
    intro o' h'
    generalize hs : c :: t = s at h' hm
    cases h' with
    | nil => simp at hs
    | mark hm' => exact absurd hm' hm
    | @name _ name' u' rest' o'' hm' ha' hn' hp' h'' =>
      exact absurd ⟨name', u', rest', hn', hp', hs⟩ (hc.resolve_left ha')
    | byte hm' hc' h'' =>
      cases hs
      rw [ih h'']

theorem html_length {tab : List Entry} (ht : ∀ e ∈ tab, ∀ u, e.unicode = some u → u.length < 3 * (e.name.length + 2)) {b s o : Bytes} (h : Html tab b s o)
    (hs : ∀ name, pattern name <:+: s → ∀ e ∈ tab, e.name = folded name → e.unicode ≠ none) : s ≠ [] → o.length < 3 * s.length := by
  have key : o.length ≤ 3 * s.length ∧ (s ≠ [] → o.length < 3 * s.length) := by
    induction h with
    | nil => simp
    | @mark b x rest o hm hx _ ih =>
      have := (ih fun name hi => hs name (hi.trans (List.suffix_append _ _).isInfix)).1
      simp only [List.length_append]
      have e3 : (b!"-->").length = 3 := rfl
      omega
    | @name b name u rest o hm ha hn hp _ ih =>
      have h1 := (ih fun name hi => hs name (hi.trans (List.suffix_append _ _).isInfix)).1
      have h2 : u.length < 3 * (name.length + 2) := by
        cases hp with
        | align h => rw [Emoji.pattern_length]; omega
        | emoji h h1 h2 h3 h4 =>
          have := ht _ (by rw [h1]; simp) _ h4
          rwa [h2, Emoji.folded_length] at this
        | @image pre post e url h h1 h2 h3 h4 h5 => exact absurd h4 (hs name (List.prefix_append _ _).isInfix e (by rw [h1]; simp) h2)
        | unknown h h1 => rw [Emoji.pattern_length]; omega
      simp only [List.length_append, Emoji.pattern_length]
      omega
    | @byte b c t o hm hc _ ih =>
      have := (ih fun name hi => hs name (hi.trans (List.suffix_cons _ _).isInfix)).1
      simp only [List.length_cons]
      omega
  exact key.2

/-! ### Names of emoji -/

/-- What `best_match` stands for. -/
def Good (u : Bytes) (pre : List Entry) : Option Bytes → Prop
  | none => ∀ e ∈ pre, e.unicode ≠ some u
  | some m => Spec.Longest pre u m

theorem nameLoop_spec (u : Bytes) (es : List Entry) : ∀ (pre : List Entry) (best : Option Bytes), Good u pre best → Good u (pre ++ es) (nameLoop u best es) := by
  induction es with
  | nil => intro pre best h; simpa [nameLoop] using h
  | cons e es ih =>
    intro pre best h
    have e1 : pre ++ e :: es = (pre ++ [e]) ++ es := by simp
    rw [e1]
    by_cases hu : e.unicode = some u
    · cases best with
      | none =>
        rw [nameLoop.eq_def]
        simp only [hu, if_true]
        refine ih _ (some e.name) ?_
        exact ⟨pre, e, [], by simp, hu, rfl, fun e' he' hu' => absurd hu' (h e' he'), by simp⟩
      | some m =>
        rw [nameLoop.eq_def]
        simp only [hu, if_true]
        obtain ⟨p, x, q, rfl, h1, h2, h3, h4⟩ := h
        split
        · rename_i hl
          refine ih _ (some e.name) ⟨_, e, [], rfl, hu, rfl, ?_, by simp⟩
          intro e' he' hu'
          rw [List.mem_append, List.mem_cons] at he'
          rcases he' with he' | rfl | he'
          · have := h3 e' he' hu'; omega
          · rw [h2]; exact hl
          · have := h4 e' he' hu'; omega
        · rename_i hl
          refine ih _ (some m) ⟨p, x, q ++ [e], by simp, h1, h2, h3, ?_⟩
          intro e' he' hu'
          rw [List.mem_append, List.mem_singleton] at he'
          rcases he' with he' | rfl
          · exact h4 e' he' hu'
          · omega
    · have hn : nameLoop u best (e :: es) = nameLoop u best es := by
        conv => lhs; rw [nameLoop.eq_def]
        simp only [if_neg hu]
      rw [hn]
      refine ih _ best ?_
      cases best with
      | none =>
        intro e' he'
        rw [List.mem_append, List.mem_singleton] at he'
        rcases he' with he' | rfl
        · exact h e' he'
        · exact hu
      | some m =>
        obtain ⟨p, x, q, rfl, h1, h2, h3, h4⟩ := h
        refine ⟨p, x, q ++ [e], by simp, h1, h2, h3, ?_⟩
        intro e' he' hu'
        rw [List.mem_append, List.mem_singleton] at he'
        rcases he' with he' | rfl
        · exact h4 e' he' hu'
        · exact absurd hu' hu

theorem longest_unique {tab : List Entry} {u m m' : Bytes} (h : Spec.Longest tab u m) (h' : Spec.Longest tab u m') : m' = m := by
  obtain ⟨p, x, q, e1, h1, rfl, h3, h4⟩ := h
  obtain ⟨p', x', q', e2, h1', rfl, h3', h4'⟩ := h'
  rw [e1] at e2
  rcases List.append_eq_append_iff.1 e2 with ⟨w, rfl, hw⟩ | ⟨w, rfl, hw⟩
  · cases w with
    | nil => simp at hw; rw [hw.1]
    | cons y w =>
      simp at hw
      obtain ⟨rfl, rfl⟩ := hw
      have := h3' x (by simp) h1
      have := h4 x' (by simp) h1'
      omega
  · cases w with
    | nil => simp at hw; rw [hw.1]
    | cons y w =>
      simp at hw
      obtain ⟨rfl, rfl⟩ := hw
      have := h3 x' (by simp) h1'
      have := h4' x (by simp) h1
      omega

/-! ### A check for images -/

/-- An image starts somewhere in `a` and does not end there. -/
def near (a : Bytes) : Bool := (List.range a.length).any fun j => (b!"<img").isPrefixOf ((a.drop j).map toLower) && !((a.drop j).drop 5).contains c!">"

theorem near_of {a : Bytes} (h : InImg a) : near a = true := by
  obtain ⟨x, i, m, g, s, v, rfl, h1, h2, h3, _, _, _, h4⟩ := h
  unfold near
  rw [List.any_eq_true]
  refine ⟨x.length, by simp, ?_⟩
  rw [List.drop_left]
  simp [h1, h2, h3, h4]
  decide

theorem images_of {html : Bytes} (h : ∀ k < html.length, html[k]? = some c!":" → near (html.take k) = true → inAttr (html.take k).reverse = true) : Images html := by
  intro a t e hi
  rw [← inAttr_iff]
  have := h a.length (by rw [e]; simp) (by rw [e]; simp)
  rw [e, List.take_left] at this
  exact this (near_of hi)

theorem headings_of {html : Bytes} (h : ∀ d ∈ b!"123456", ∀ k ∈ b!"hH", ¬ [c!"<", d, k, c!">"] <:+: html) : Headings html := by
  intro d k hd hk
  refine h d ?_ k (by rcases hk with rfl | rfl <;> decide)
  revert d
  exact forall_byte (by decide +kernel)

end Verif.EmojiHtml
