/-
Lemmas about figures with captions.
-/
import Verif.Model.ImgCaptions
import Verif.Spec.ImgCaptions
import Verif.Proof.AutoMedia
import Verif.Proof.Index

namespace Verif.ImgCaptions
open Embed (find)
open AutoMedia (attr begins)
open Spec (Piece Attr plain page Turned Trimmed Other)
open Index (span_stop span_all)

/-! ### The room -/

/-- The loop without the room. -/
def pass (on titles : Bool) : Nat → Bytes → Bytes → Bytes
  | 0, _, _ => []
  | _ + 1, _, [] => []
  | n + 1, pre, c :: t =>
    let img : Bytes :=
      if opensImage (c :: t) then
        match tagStop none ((c :: t).drop 4) with
        | none => c :: t
        | some (inside, rest) => image on titles pre ((c :: t).take 4) inside ++ pass on titles n (pre ++ ((c :: t).take 4 ++ inside ++ b!">")) rest
      else c :: pass on titles n (pre ++ [c]) t
    if opensPicture (c :: t) then
      match find b!"</picture>" (c :: t) with
      | some (body, rest) =>
        (if pictureCaption on (body ++ b!"</picture>") = [] then body ++ b!"</picture>" else figure (body ++ b!"</picture>") (pictureCaption on (body ++ b!"</picture>"))) ++
          pass on titles n (pre ++ (body ++ b!"</picture>")) rest
      | none => img
    else img

theorem reserve_val (need used room : Nat) : ∃ r, reserve need used room = .val r := by
  unfold reserve
  simp only []
  split
  · rw [if_neg (by omega)]
    exact ⟨_, rfl⟩
  · rw [if_neg (by omega)]
    exact ⟨_, rfl⟩

theorem go_pass (on titles : Bool) : ∀ (n used room : Nat) (pre s : Bytes), go on titles n used room pre s = .val (pass on titles n pre s) := by
  intro n
  induction n with
  | zero => intros; rfl
  | succ n ih =>
    intro used room pre s
    cases s with
    | nil => rfl
    | cons c t =>
      have hcopy : ∀ r : Nat, (if (if r < 1 then (used + 64) * 2 - used else r) < 1 then C.ub else do
          let o ← go on titles n (used + 1) ((if r < 1 then (used + 64) * 2 - used else r) - 1) (pre ++ [c]) t
          .val (c :: o)) = .val (c :: pass on titles n (pre ++ [c]) t) := by
        intro r
        rw [if_neg (by split <;> omega), ih]
        rfl
      have hwrite : ∀ src new rest : Bytes, (do
          let room ← reserve new.length used room
          let o ← go on titles n (used + new.length) room (pre ++ src) rest
          C.val (new ++ o)) = .val (new ++ pass on titles n (pre ++ src) rest) := by
        intro src new rest
        obtain ⟨r, hr⟩ := reserve_val new.length used room
        rw [hr, C.val_bind, ih]
        rfl
      have himg : (if opensImage (c :: t) then
          match tagStop none ((c :: t).drop 4) with
          | none => (do
            let _ ← reserve (c :: t).length used room
            C.val (c :: t))
          | some (inside, rest) => (do
            let room ← reserve (image on titles pre ((c :: t).take 4) inside).length used room
            let o ← go on titles n (used + (image on titles pre ((c :: t).take 4) inside).length) room (pre ++ ((c :: t).take 4 ++ inside ++ b!">")) rest
            C.val (image on titles pre ((c :: t).take 4) inside ++ o))
        else (if (if room < 1 then (used + 64) * 2 - used else room) < 1 then C.ub else do
          let o ← go on titles n (used + 1) ((if room < 1 then (used + 64) * 2 - used else room) - 1) (pre ++ [c]) t
          .val (c :: o))) = .val (if opensImage (c :: t) then
            match tagStop none ((c :: t).drop 4) with
            | none => c :: t
            | some (inside, rest) => image on titles pre ((c :: t).take 4) inside ++ pass on titles n (pre ++ ((c :: t).take 4 ++ inside ++ b!">")) rest
          else c :: pass on titles n (pre ++ [c]) t) := by
        split
        · split
          · obtain ⟨r, hr⟩ := reserve_val (c :: t).length used room
            rw [hr]
            rfl
          · rw [hwrite]
        · exact hcopy room
      rw [go, pass]
      split
      · cases find b!"</picture>" (c :: t) with
        | none => exact himg
        | some p => exact hwrite _ _ _
      · exact himg

theorem convert_pass (on titles : Bool) (html : Bytes) : convert on titles html = .val (pass on titles html.length [] html) := go_pass ..

/-! ### Tags -/

theorem tagStop_some : ∀ (s : Bytes) (q : Option Byte) {a r : Bytes}, tagStop q s = some (a, r) → s = a ++ c!">" :: r := by
  intro s
  induction s with
  | nil => intro q a r h; cases q <;> simp [tagStop] at h
  | cons c s ih =>
    intro q a r h
    have key : ∀ q', (tagStop q' s).map (fun r => (c :: r.1, r.2)) = some (a, r) → c :: s = a ++ c!">" :: r := by
      intro q' h
      cases hs : tagStop q' s with
      | none => rw [hs] at h; simp at h
      | some p =>
        rw [hs] at h
        simp only [Option.map_some, Option.some.injEq, Prod.mk.injEq] at h
        rw [← h.1, ← h.2, ih q' (a := p.1) (r := p.2) hs]
        rfl
    cases q with
    | some q => rw [tagStop] at h; exact key _ h
    | none =>
      rw [tagStop] at h
      split at h
      · exact key _ h
      · split at h
        · rename_i hc
          simp only [Option.some.injEq, Prod.mk.injEq] at h
          rw [← h.1, ← h.2, hc]
          rfl
        · exact key _ h

theorem take_drop4 {s : Bytes} (h : opensImage s = true) : s = s.take 4 ++ s.drop 4 := (List.take_append_drop 4 s).symm

/-! ### Attributes -/

theorem drop_suffix {p : Byte → Bool} (s : Bytes) : s.dropWhile p <:+ s := List.dropWhile_suffix p

theorem trim_infix (s : Bytes) : trim s <:+: s := by
  unfold trim
  have h1 : (s.dropWhile isSpace).reverse.dropWhile isSpace <:+ (s.dropWhile isSpace).reverse := List.dropWhile_suffix _
  have h2 := List.reverse_prefix.2 h1
  rw [List.reverse_reverse] at h2
  exact h2.isInfix.trans (List.dropWhile_suffix _).isInfix

/-- What is found is in the tag. -/
structure Within (whole : Bytes) (f : Found) : Prop where
  title : f.title <:+: whole
  alt : f.alt <:+: whole
  caption : f.caption <:+: whole
  cut : ∀ a b, f.cut = some (a, b) → ∃ m, whole = a ++ m ++ b ∧ Spec.Removed m

theorem note_within {whole : Bytes} {f : Found} (h : Within whole f) {name value rest s : Bytes} (hv : value <:+: whole) (hs : s <:+ whole)
    (hr : ∃ sp v, s = name ++ sp ++ b!"=" ++ v ++ rest ∧ ∀ c ∈ sp, isSpace c = true) :
    Within whole (note f (whole.take (whole.length - s.length)) name value rest) := by
  unfold note
  split
  · exact ⟨hv, h.alt, h.caption, h.cut⟩
  · split
    · exact ⟨h.title, hv, h.caption, h.cut⟩
    · split
      · rename_i hcap
        refine ⟨h.title, h.alt, hv, ?_⟩
        intro a b hab
        simp only [Option.some.injEq, Prod.mk.injEq] at hab
        obtain ⟨p, rfl⟩ := hs
        obtain ⟨sp, v, rfl, hsp⟩ := hr
        have hp : (p ++ (name ++ sp ++ b!"=" ++ v ++ rest)).take ((p ++ (name ++ sp ++ b!"=" ++ v ++ rest)).length - (name ++ sp ++ b!"=" ++ v ++ rest).length) = p := by
          rw [List.length_append, Nat.add_sub_cancel, List.take_left]
        rw [hp] at hab
        obtain ⟨h1, rfl⟩ := hab
        split at h1
        · rename_i hlast
          subst h1
          rcases List.eq_nil_or_concat p with rfl | ⟨p', d, rfl⟩
          · simp at hlast
          · rw [List.concat_eq_append, List.getLast?_concat] at hlast
            rw [List.concat_eq_append]
            refine ⟨d :: (name ++ sp ++ b!"=" ++ v), by simp, Or.inr ⟨[d], name, sp, v, by simp, by simp, ?_, hcap⟩⟩
            intro c hc
            rcases List.mem_append.1 hc with hc | hc
            · rw [List.mem_singleton] at hc
              rw [hc]
              simpa using hlast
            · exact hsp c hc
        · subst h1
          exact ⟨name ++ sp ++ b!"=" ++ v, by simp, Or.inr ⟨[], name, sp, v, by simp, by simp, by simpa using hsp, hcap⟩⟩
      · exact h

theorem parse_within {whole : Bytes} : ∀ (n : Nat) (s : Bytes) (f : Found), s <:+ whole → Within whole f → Within whole (parse whole n s f) := by
  intro n
  induction n with
  | zero => intro s f _ h; exact h
  | succ n ih =>
    intro s f hs h
    rw [parse]
    simp only []
    have h1 : s.dropWhile isSpace <:+ whole := (drop_suffix s).trans hs
    generalize s.dropWhile isSpace = s1 at *
    split
    · exact h
    · have h2 : (s1.dropWhile nameByte).dropWhile isSpace <:+ s1 := (drop_suffix _).trans (drop_suffix _)
      have hsplit : s1 = s1.takeWhile nameByte ++ (s1.dropWhile nameByte).takeWhile isSpace ++ (s1.dropWhile nameByte).dropWhile isSpace := by
        rw [List.append_assoc, List.takeWhile_append_dropWhile, List.takeWhile_append_dropWhile]
      have hblank : ∀ c ∈ (s1.dropWhile nameByte).takeWhile isSpace, isSpace c = true := by
        intro c hc
        have := List.all_takeWhile (p := isSpace) (l := s1.dropWhile nameByte)
        exact List.all_eq_true.1 this c hc
      generalize (s1.dropWhile nameByte).dropWhile isSpace = t at *
      split
      · rename_i heq
        obtain ⟨u, hu⟩ : ∃ u, t = c!"=" :: u := by
          cases t with
          | nil => simp at heq
          | cons c u => exact ⟨u, by simpa using heq⟩
        have hrest : ∀ r, r <:+ (t.drop 1).dropWhile isSpace → ∃ sp v, s1 = s1.takeWhile nameByte ++ sp ++ b!"=" ++ v ++ r ∧ ∀ c ∈ sp, isSpace c = true := by
          intro r hr
          obtain ⟨v, hv⟩ := hr.trans (drop_suffix (t.drop 1))
          refine ⟨_, v, ?_, hblank⟩
          conv => lhs; rw [hsplit]
          rw [hu] at hv ⊢
          simp only [List.drop_succ_cons, List.drop_zero] at hv
          rw [← hv]
          simp
        split
        · exact h
        · rename_i q v hqv
          rw [hqv] at hrest
          have h3 : q :: v <:+ s1 := by
            rw [← hqv]
            exact ((drop_suffix _).trans (List.drop_suffix 1 t)).trans h2
          have h4 : v <:+ s1 := (List.suffix_cons q v).trans h3
          split
          · have h5 : (v.dropWhile (· != q)).drop 1 <:+ s1 := ((List.drop_suffix 1 _).trans (drop_suffix _)).trans h4
            refine ih _ _ (h5.trans h1) (note_within h ?_ h1 (hrest _ (((List.drop_suffix 1 _).trans (drop_suffix _)).trans (List.suffix_cons q v))))
            exact ((List.takeWhile_prefix _).isInfix).trans (h4.trans h1).isInfix
          · have h5 : (q :: v).dropWhile valueByte <:+ s1 := (drop_suffix _).trans h3
            refine ih _ _ (h5.trans h1) (note_within h ?_ h1 (hrest _ (drop_suffix _)))
            exact ((List.takeWhile_prefix _).isInfix).trans (h3.trans h1).isInfix
      · exact ih _ _ ((drop_suffix _).trans (h2.trans h1)) h

theorem within_nil (whole : Bytes) : Within whole {} := ⟨List.nil_infix, List.nil_infix, List.nil_infix, by simp⟩

theorem caption_within {whole : Bytes} {f : Found} (h : Within whole f) (on titles : Bool) : captionOf on titles f <:+: whole := by
  unfold captionOf
  split
  · exact (trim_infix _).trans h.caption
  · split
    · exact List.nil_infix
    · split
      · exact (trim_infix _).trans h.title
      · split
        · exact List.nil_infix
        · exact (trim_infix _).trans h.alt

theorem image_turned (on titles : Bool) (pre head inside : Bytes) (hs : head.map toLower = b!"<img") : Turned (head ++ inside ++ b!">") (image on titles pre head inside) := by
  unfold image
  simp only []
  have hw := parse_within inside.length inside {} (List.suffix_refl _) (within_nil inside)
  generalize parse inside inside.length inside {} = f at *
  split
  · exact Or.inl rfl
  · rename_i h
    right
    have hc : captionOf on titles f <:+: head ++ inside ++ b!">" := by
      refine (caption_within hw on titles).trans ⟨head, b!">", rfl⟩
    have hne : captionOf on titles f ≠ [] := by
      intro e
      rw [e] at h
      simp at h
    have hst : Spec.Starts (head ++ inside ++ b!">") := by
      left
      have hl : head.length = 4 := by
        have := congrArg List.length hs
        simpa using this
      rw [List.append_assoc, ← hl, List.take_left, hs]
    cases hcut : f.cut with
    | none =>
      exact ⟨head ++ inside ++ b!">", [], [], _, hst, by simp, Or.inl rfl, by simp [figure, Spec.figure], hc, hne⟩
    | some p =>
      obtain ⟨a, b⟩ := p
      obtain ⟨m, hm, hrm⟩ := hw.cut a b hcut
      exact ⟨head ++ a, m, b ++ b!">", _, hst, by rw [hm]; simp, hrm, by simp [figure, Spec.figure], hc, hne⟩

theorem attr_infix {name : Bytes} : ∀ (s : Bytes) (st : Bool) {v : Bytes}, attr name st s = some v → v <:+: s := by
  intro s
  induction s with
  | nil => intro st v h; simp [attr] at h
  | cons c s ih =>
    intro st v h
    rw [attr] at h
    split at h
    · obtain ⟨q, b, hb, _⟩ := AutoMedia.quoted_iff.1 h
      have h1 : (c :: s).drop (name.length + 1) <:+ c :: s := List.drop_suffix ..
      refine List.IsInfix.trans ?_ h1.isInfix
      rw [hb]
      exact ⟨[q], q :: b, by simp⟩
    · exact (ih _ h).trans (List.suffix_cons c s).isInfix

theorem pictureCaption_infix (on : Bool) (block : Bytes) : pictureCaption on block <:+: block := by
  unfold pictureCaption
  split
  · split
    · exact List.nil_infix
    · rename_i p t hf
      split
      · rename_i hgt
        have hb := Embed.find_some hf
        have htag : b!"<img" ++ t.takeWhile (· != c!">") ++ b!">" <:+: block := by
          have hs : t = t.takeWhile (· != c!">") ++ t.dropWhile (· != c!">") := (List.takeWhile_append_dropWhile ..).symm
          have hd : ∃ r, t.dropWhile (· != c!">") = c!">" :: r := by
            clear hs hb hf
            induction t with
            | nil => simp at hgt
            | cons d t ih =>
              rw [List.dropWhile_cons]
              by_cases e : d = c!">"
              · rw [if_neg (by simp [e]), e]; exact ⟨t, rfl⟩
              · rw [if_pos (by simp [e])]
                exact ih (by simpa [Ne.symm e] using hgt)
          obtain ⟨r, hr⟩ := hd
          rw [hr] at hs
          refine ⟨p, r, ?_⟩
          rw [hb]
          conv => rhs; rw [hs]
          simp
        simp only []
        split
        · rename_i c v hv
          exact (attr_infix _ _ hv).trans htag
        · cases ha : attr b!"alt" true (b!"<img" ++ t.takeWhile (· != c!">") ++ b!">") with
          | none => exact List.nil_infix
          | some v => exact (attr_infix _ _ ha).trans htag
      · exact List.nil_infix
  · exact List.nil_infix

/-- Any page: parts that stay and parts that become figures. -/
theorem pass_turned (on titles : Bool) : ∀ (n : Nat) (pre s : Bytes), s.length ≤ n →
    ∃ l : List (Bytes × Bytes), s = l.flatMap (·.1) ∧ pass on titles n pre s = l.flatMap (·.2) ∧ ∀ p ∈ l, Turned p.1 p.2 := by
  intro n
  induction n with
  | zero =>
    intro pre s hs
    rw [List.eq_nil_of_length_eq_zero (by omega : s.length = 0)]
    exact ⟨[], rfl, rfl, by simp⟩
  | succ n ih =>
    intro pre s hs
    cases s with
    | nil => exact ⟨[], rfl, rfl, by simp⟩
    | cons c t =>
      have key : ∀ (src new rest pre' : Bytes), c :: t = src ++ rest → src ≠ [] → Turned src new →
          ∃ l : List (Bytes × Bytes), c :: t = l.flatMap (·.1) ∧ new ++ pass on titles n pre' rest = l.flatMap (·.2) ∧ ∀ p ∈ l, Turned p.1 p.2 := by
        intro src new rest pre' he hne ht
        have hl := congrArg List.length he
        have := List.length_pos_iff.2 hne
        simp only [List.length_append, List.length_cons] at hl hs
        obtain ⟨l, h1, h2, h3⟩ := ih pre' rest (by omega)
        refine ⟨(src, new) :: l, by rw [he]; simp [← h1], by simp [h2], ?_⟩
        intro p hp
        rcases List.mem_cons.1 hp with rfl | hp
        · exact ht
        · exact h3 p hp
      have himg : ∃ l : List (Bytes × Bytes), c :: t = l.flatMap (·.1) ∧ (if opensImage (c :: t) then
            match tagStop none ((c :: t).drop 4) with
            | none => c :: t
            | some (inside, rest) => image on titles pre ((c :: t).take 4) inside ++ pass on titles n (pre ++ ((c :: t).take 4 ++ inside ++ b!">")) rest
          else c :: pass on titles n (pre ++ [c]) t) = l.flatMap (·.2) ∧ ∀ p ∈ l, Turned p.1 p.2 := by
        split
        · rename_i hopen
          split
          · exact ⟨[(c :: t, c :: t)], by simp, by simp, by simp [Turned]⟩
          · rename_i inside rest hst
            have e := tagStop_some _ _ hst
            refine key ((c :: t).take 4 ++ inside ++ b!">") _ rest _ ?_ (by simp) (image_turned _ _ _ _ _ (by unfold opensImage begins at hopen; simp only [Bool.and_eq_true, beq_iff_eq] at hopen; exact hopen.1))
            conv => lhs; rw [← List.take_append_drop 4 (c :: t), e]
            simp
        · exact key [c] [c] t _ rfl (by simp) (Or.inl rfl)
      rw [pass]
      split
      · rename_i hopen
        split
        · rename_i body rest hf
          refine key (body ++ b!"</picture>") _ rest _ (Embed.find_some hf) (by simp) ?_
          split
          · exact Or.inl rfl
          · rename_i hne
            right
            have hst : Spec.Starts (body ++ b!"</picture>") := by
              right
              unfold opensPicture begins at hopen
              simp only [Bool.and_eq_true, beq_iff_eq] at hopen
              have hb := hopen.1
              rw [Embed.find_some hf, List.take_append_of_le_length (by simp only [List.length_append, List.length_cons]; show 8 ≤ _; omega)] at hb
              exact hb
            exact ⟨body ++ b!"</picture>", [], [], _, hst, by simp, Or.inl rfl, by simp [figure, Spec.figure], pictureCaption_infix .., hne⟩
        · exact himg
      · exact himg

/-! ### Nothing asked for -/

theorem note_caption {f : Found} {before name value rest : Bytes} (h : name.map toLower ≠ b!"caption") : (note f before name value rest).caption = f.caption := by
  unfold note
  rw [if_neg h]
  split
  · rfl
  · split <;> rfl

theorem parse_caption {whole : Bytes} (h : ¬ b!"caption" <:+: whole.map toLower) : ∀ (n : Nat) (s : Bytes) (f : Found), s <:+ whole → f.caption = [] → (parse whole n s f).caption = [] := by
  intro n
  induction n with
  | zero => intro s f _ hf; exact hf
  | succ n ih =>
    intro s f hs hf
    rw [parse]
    simp only []
    have h1 : s.dropWhile isSpace <:+ whole := (drop_suffix s).trans hs
    generalize s.dropWhile isSpace = s1 at *
    split
    · exact hf
    · have h2 : (s1.dropWhile nameByte).dropWhile isSpace <:+ s1 := (drop_suffix _).trans (drop_suffix _)
      have hname : (s1.takeWhile nameByte).map toLower ≠ b!"caption" := by
        intro e
        have : s1.takeWhile nameByte <:+: whole := (List.takeWhile_prefix _).isInfix.trans h1.isInfix
        have := this.map toLower
        rw [e] at this
        exact h this
      generalize (s1.dropWhile nameByte).dropWhile isSpace = t at *
      split
      · split
        · exact hf
        · rename_i q v hqv
          have h3 : q :: v <:+ s1 := by
            rw [← hqv]
            exact ((drop_suffix _).trans (List.drop_suffix 1 t)).trans h2
          split
          · exact ih _ _ (((List.drop_suffix 1 _).trans (drop_suffix _)).trans ((List.suffix_cons q v).trans (h3.trans h1))) (by rw [note_caption hname]; exact hf)
          · exact ih _ _ ((drop_suffix _).trans (h3.trans h1)) (by rw [note_caption hname]; exact hf)
      · exact ih _ _ ((drop_suffix _).trans (h2.trans h1)) hf

theorem image_off {titles : Bool} {pre head inside : Bytes} (h : ¬ b!"caption" <:+: inside.map toLower) : image false titles pre head inside = head ++ inside ++ b!">" := by
  unfold image
  simp only []
  have hc := parse_caption h inside.length inside {} (List.suffix_refl _) rfl
  rw [show captionOf false titles (parse inside inside.length inside {}) = [] from ?_]
  · simp
  · unfold captionOf
    rw [if_neg (by simp [hc])]
    rfl

theorem pass_off (titles : Bool) : ∀ (n : Nat) (pre s : Bytes), s.length ≤ n → ¬ b!"caption" <:+: s.map toLower → pass false titles n pre s = s := by
  intro n
  induction n with
  | zero => intro pre s hs _; rw [List.eq_nil_of_length_eq_zero (by omega : s.length = 0)]; rfl
  | succ n ih =>
    intro pre s hs h
    cases s with
    | nil => rfl
    | cons c t =>
      have hsub : ∀ {r : Bytes}, r <:+: c :: t → ¬ b!"caption" <:+: r.map toLower := fun hr hc => h (hc.trans (hr.map toLower))
      simp only [List.length_cons] at hs
      have himg : (if opensImage (c :: t) then
            match tagStop none ((c :: t).drop 4) with
            | none => c :: t
            | some (inside, rest) => image false titles pre ((c :: t).take 4) inside ++ pass false titles n (pre ++ ((c :: t).take 4 ++ inside ++ b!">")) rest
          else c :: pass false titles n (pre ++ [c]) t) = c :: t := by
        split
        · split
          · rfl
          · rename_i inside rest hst
            have e := tagStop_some _ _ hst
            have e2 : c :: t = (c :: t).take 4 ++ inside ++ b!">" ++ rest := by
              conv => lhs; rw [← List.take_append_drop 4 (c :: t), e]
              simp
            have hl : inside.length + 1 + rest.length ≤ n := by
              have := congrArg List.length e
              simp only [List.length_drop, List.length_append, List.length_cons] at this
              omega
            have hi1 : inside <:+: c :: t := ⟨(c :: t).take 4, b!">" ++ rest, by rw [← List.append_assoc]; exact e2.symm⟩
            have hi2 : rest <:+: c :: t := ⟨(c :: t).take 4 ++ inside ++ b!">", [], by rw [List.append_nil]; exact e2.symm⟩
            rw [image_off (hsub hi1), ih _ rest (by omega) (hsub hi2)]
            exact e2.symm
        · rw [ih _ t (by omega) (hsub (List.suffix_cons c t).isInfix)]
      rw [pass]
      split
      · split
        · rename_i body rest hf
          have e := Embed.find_some hf
          have hl := congrArg List.length e
          simp only [List.length_cons, List.length_append, List.length_nil] at hl
          rw [show pictureCaption false (body ++ b!"</picture>") = [] from rfl, if_pos rfl, ih _ rest (by omega) (hsub ⟨body ++ b!"</picture>", [], by rw [e]; simp⟩)]
          exact e.symm
        · exact himg
      · exact himg

/-! ### Pages of tags -/

/-- The end of a page, or the next tag. -/
def Edge (r : Bytes) : Prop := r = [] ∨ ∃ t, r = c!"<" :: t

theorem lower_lt (c : Byte) : toLower c = c!"<" ↔ c = c!"<" := forall_byte (p := fun c => toLower c = c!"<" ↔ c = c!"<") (by decide +kernel) c

/-- What a text in front of a tag begins with. -/
theorem begins_edge {w x r : Bytes} (hw : c!"<" ∉ w) (hr : Edge r) (h : begins w (x ++ r) = true) : ∃ a b, x = a ++ b ∧ a.map toLower = w := by
  unfold begins at h
  rw [beq_iff_eq] at h
  refine ⟨x.take w.length, x.drop w.length, (List.take_append_drop _ _).symm, ?_⟩
  by_cases hl : w.length ≤ x.length
  · rw [List.take_append_of_le_length hl] at h
    exact h
  · rcases hr with rfl | ⟨t, rfl⟩
    · rw [List.append_nil] at h
      exact h
    · exfalso
      apply hw
      rw [← h]
      obtain ⟨k, hk⟩ : ∃ k, w.length = x.length + (k + 1) := ⟨w.length - x.length - 1, by omega⟩
      rw [hk, List.take_append, List.take_of_length_le (by omega), Nat.add_sub_cancel_left, List.take_succ_cons]
      simp only [List.map_append, List.map_cons, List.mem_append, List.mem_cons]
      right; left
      decide

theorem begins_cons {c : Byte} {w s : Bytes} : begins (c!"<" :: w) (c :: s) = (decide (c = c!"<") && begins w s) := by
  unfold begins
  simp only [List.length_cons, List.take_succ_cons, List.map_cons]
  rw [Bool.eq_iff_iff]
  simp only [beq_iff_eq, List.cons.injEq, Bool.and_eq_true, decide_eq_true_eq, lower_lt]

theorem depth_text {x : Bytes} (h : c!"<" ∉ x) (d : Nat) (r : Bytes) : depth d (x ++ r) = depth d r := by
  induction x generalizing d with
  | nil => rfl
  | cons c x ih =>
    simp only [List.mem_cons, not_or] at h
    rw [List.cons_append, depth, begins_cons, begins_cons, decide_eq_false (Ne.symm h.1)]
    simp only [Bool.false_and, Bool.false_eq_true, if_false]
    exact ih h.2 d

theorem opens_not {c : Byte} (h : c ≠ c!"<") (t : Bytes) : opensPicture (c :: t) = false ∧ opensImage (c :: t) = false := by
  unfold opensPicture opensImage
  rw [begins_cons, begins_cons, decide_eq_false h]
  simp

theorem inPicture_text {x : Bytes} (h : c!"<" ∉ x) (st : Bool) (r : Bytes) : inPicture st (x ++ r) = inPicture st r := by
  induction x generalizing st with
  | nil => rfl
  | cons c x ih =>
    simp only [List.mem_cons, not_or] at h
    rw [List.cons_append, inPicture, (opens_not (Ne.symm h.1) _).1, if_neg (by simp), if_neg, ih h.2]
    rintro ⟨k, hk⟩
    simp only [List.cons_append, List.cons.injEq] at hk
    exact h.1 hk.1

theorem other_begins {x r : Bytes} (h : Other x) (hr : Edge r) {w : Bytes} (hw : w ∈ Spec.words) : begins w (x ++ r) = false := by
  cases hb : begins w (x ++ r) with
  | false => rfl
  | true =>
    have hlt : ∀ w ∈ Spec.words, c!"<" ∉ w := by decide
    obtain ⟨a, b, e1, e2⟩ := begins_edge (hlt w hw) hr hb
    exact absurd e2 (h.2 w hw a b e1)

theorem prefix_begins {w s : Bytes} (h : w <+: s) (hw : w.map toLower = w) : begins w s = true := by
  obtain ⟨t, rfl⟩ := h
  unfold begins
  rw [List.take_left, hw, beq_self_eq_true]

/-- A tag of another kind changes nothing. -/
theorem other_depth {x : Bytes} (h : Other x) {r : Bytes} (hr : Edge r) (d : Nat) : depth d (c!"<" :: x ++ r) = depth d r := by
  rw [List.cons_append, depth, begins_cons, begins_cons, other_begins h hr (w := b!"figure") (by decide), other_begins h hr (w := b!"/figure") (by decide)]
  simp only [Bool.and_false, Bool.false_and, Bool.false_eq_true, if_false]
  exact depth_text h.1 d r

theorem other_opens {x : Bytes} (h : Other x) {r : Bytes} (hr : Edge r) : opensPicture (c!"<" :: (x ++ r)) = false ∧ opensImage (c!"<" :: (x ++ r)) = false ∧
    ¬ b!"</picture>" <+: c!"<" :: (x ++ r) := by
  refine ⟨?_, ?_, ?_⟩
  · unfold opensPicture
    rw [begins_cons, other_begins h hr (w := b!"picture") (by decide)]
    simp
  · unfold opensImage
    rw [begins_cons, other_begins h hr (w := b!"img") (by decide)]
    simp
  · intro hc
    have : b!"</picture" <+: c!"<" :: (x ++ r) := List.IsPrefix.trans (by exact ⟨b!">", rfl⟩) hc
    have := prefix_begins this (by decide)
    rw [begins_cons, other_begins h hr (w := b!"/picture") (by decide)] at this
    simp at this

theorem other_picture {x : Bytes} (h : Other x) {r : Bytes} (hr : Edge r) (st : Bool) : inPicture st (c!"<" :: x ++ r) = inPicture st r := by
  obtain ⟨h1, _, h3⟩ := other_opens h hr
  rw [List.cons_append, inPicture, h1, if_neg (by simp), if_neg h3]
  exact inPicture_text h.1 st r

/-- Text is copied. -/
theorem pass_text (on titles : Bool) {x : Bytes} (h : c!"<" ∉ x) : ∀ (n : Nat) (pre s : Bytes), x.length ≤ n → pass on titles n pre (x ++ s) = x ++ pass on titles (n - x.length) (pre ++ x) s := by
  induction x with
  | nil => intro n pre s _; simp
  | cons c x ih =>
    intro n pre s hn
    simp only [List.mem_cons, not_or] at h
    simp only [List.length_cons] at hn
    obtain ⟨n, rfl⟩ : ∃ m, n = m + 1 := ⟨n - 1, by omega⟩
    rw [List.cons_append, pass, (opens_not (Ne.symm h.1) _).1, (opens_not (Ne.symm h.1) _).2, if_neg (by simp), if_neg (by simp), ih h.2 n _ s (by omega)]
    simp

theorem trim_eq {s t : Bytes} (h : Trimmed s t) : trim s = t := by
  obtain ⟨a, b, rfl, h1, h2, h3⟩ := h
  have ha : ∀ c ∈ a, isSpace c = true := fun c hc => h1 c (List.mem_append_left _ hc)
  have hb : ∀ c ∈ b, isSpace c = true := fun c hc => h1 c (List.mem_append_right _ hc)
  have hrev : ∀ c ∈ b.reverse, isSpace c = true := fun c hc => hb c (List.mem_reverse.1 hc)
  unfold trim
  cases t with
  | nil =>
    rw [List.append_nil, (span_all h1).2]
    rfl
  | cons c t =>
    rw [List.append_assoc, List.cons_append, (span_stop ha (h2 c rfl)).2, ← List.cons_append, List.reverse_append]
    rcases List.eq_nil_or_concat (c :: t) with h | ⟨u, d, h⟩
    · simp at h
    · rw [List.concat_eq_append] at h
      rw [h, List.reverse_append, List.reverse_singleton, List.singleton_append, (span_stop hrev (h3 d (by rw [h]; simp))).2]
      simp

/-! ### The attributes of an image -/

/-- The attributes, read one by one. -/
def absorb (tl : Bytes) : Bytes → List Attr → Found → Found
  | _, [], f => f
  | done, a :: as, f => absorb tl (done ++ a.text) as (note f (done ++ a.sp) a.name a.value (as.flatMap Attr.text ++ tl))

theorem name_byte {c : Byte} (h : isSpace c = false ∧ c ∉ b!"=>/\"'<") : nameByte c = true := by
  revert h
  exact forall_byte (p := fun c => isSpace c = false ∧ c ∉ b!"=>/\"'<" → nameByte c = true) (by decide +kernel) c

theorem blank_space {c : Byte} (h : c ∈ b!" \t\r\n") : isSpace c = true := by
  revert h
  exact forall_byte (p := fun c => c ∈ b!" \t\r\n" → isSpace c = true) (by decide +kernel) c

theorem parse_tail {whole sp slash : Bytes} (hsp : ∀ c ∈ sp, c ∈ b!" \t\r\n") (hsl : slash = [] ∨ slash = b!"/") (n : Nat) (f : Found) : parse whole n (sp ++ slash) f = f := by
  cases n with
  | zero => rfl
  | succ n =>
    have hs : (sp ++ slash).dropWhile isSpace = slash := by
      rcases hsl with rfl | rfl
      · rw [List.append_nil, (span_all fun c hc => blank_space (hsp c hc)).2]
      · exact (span_stop (fun c hc => blank_space (hsp c hc)) (by decide)).2
    rw [parse]
    simp only [hs]
    rw [if_pos]
    rcases hsl with rfl | rfl <;> simp

theorem parse_absorb {tl : Bytes} (htl : ∀ whole n f, parse whole n tl f = f) : ∀ (as : List Attr) (done whole : Bytes) (n : Nat) (f : Found), (∀ a ∈ as, a.Ok) →
    whole = done ++ as.flatMap Attr.text ++ tl → as.length ≤ n → parse whole n (as.flatMap Attr.text ++ tl) f = absorb tl done as f := by
  intro as
  induction as with
  | nil => intro done whole n f _ _ _; exact htl ..
  | cons a as ih =>
    intro done whole n f hok hw hn
    simp only [List.length_cons] at hn
    obtain ⟨n, rfl⟩ : ∃ m, n = m + 1 := ⟨n - 1, by omega⟩
    obtain ⟨h1, h2, h3, h4, h5, h6, h7⟩ := hok a (List.mem_cons_self ..)
    obtain ⟨sp, name, q, v⟩ := a
    simp only at h1 h2 h3 h4 h5 h6 h7
    obtain ⟨d, name', rfl⟩ : ∃ d t, name = d :: t := by
      cases name with
      | nil => exact absurd rfl h3
      | cons d t => exact ⟨d, t, rfl⟩
    have hd := h4 d (List.mem_cons_self ..)
    have hdn : d ≠ c!"/" ∧ d ≠ c!">" := by
      constructor <;> (rintro rfl; exact absurd hd.2 (by decide))
    generalize hR : as.flatMap Attr.text ++ tl = R at *
    have e0 : (⟨sp, d :: name', q, v⟩ :: as : List Attr).flatMap Attr.text ++ tl = sp ++ d :: (name' ++ c!"=" :: q :: (v ++ q :: R)) := by
      rw [← hR]; simp [Attr.text]
    have hqs : isSpace q = false := by
      revert h5
      exact forall_byte (p := fun q => q ∈ b!"\"'" → isSpace q = false) (by decide +kernel) q
    have hqq : q = c!"\"" ∨ q = c!"'" := by simpa using h5
    have e1 : (sp ++ d :: (name' ++ c!"=" :: q :: (v ++ q :: R))).dropWhile isSpace = d :: (name' ++ c!"=" :: q :: (v ++ q :: R)) := (span_stop h2 hd.1).2
    have e2 : (d :: (name' ++ c!"=" :: q :: (v ++ q :: R))).takeWhile nameByte = d :: name' ∧
        (d :: (name' ++ c!"=" :: q :: (v ++ q :: R))).dropWhile nameByte = c!"=" :: q :: (v ++ q :: R) := by
      rw [← List.cons_append]
      exact span_stop (fun c hc => name_byte (h4 c hc)) (by decide)
    have e3 : (c!"=" :: q :: (v ++ q :: R)).dropWhile isSpace = c!"=" :: q :: (v ++ q :: R) := by
      rw [List.dropWhile_cons, if_neg (by decide)]
    have e4 : (q :: (v ++ q :: R)).dropWhile isSpace = q :: (v ++ q :: R) := by
      rw [List.dropWhile_cons, if_neg (by rw [hqs]; simp)]
    have e5 := span_stop (p := (· != q)) (a := v) (c := q) (b := R) (fun c hc => bne_iff_ne.2 fun e => h6 (e ▸ hc)) (by simp)
    have e6 : whole.take (whole.length - (d :: (name' ++ c!"=" :: q :: (v ++ q :: R))).length) = done ++ sp := by
      have : whole = (done ++ sp) ++ d :: (name' ++ c!"=" :: q :: (v ++ q :: R)) := by
        rw [hw, List.append_assoc, e0]; simp
      rw [this, List.length_append, Nat.add_sub_cancel, List.take_left]
    rw [e0, parse]
    simp only [e1, e2.1, e2.2, e3]
    rw [if_neg (by simp [hdn.1, hdn.2]), if_pos (by rfl)]
    simp only [List.drop_succ_cons, List.drop_zero, e4]
    rw [if_pos hqq, e6, e5.1, e5.2]
    simp only [List.drop_succ_cons, List.drop_zero]
    rw [absorb, ← ih (done ++ Attr.text ⟨sp, d :: name', q, v⟩) whole n _ (fun b hb => hok b (List.mem_cons_of_mem _ hb)) (by rw [hw]; simp) (by omega), hR]

theorem absorb_title (tl : Bytes) : ∀ (as : List Attr) (done : Bytes) (f : Found),
    (absorb tl done as f).title = (((as.filter fun a => a.name.map toLower == b!"title").getLast?).map (·.value)).getD f.title ∧
    (absorb tl done as f).alt = (((as.filter fun a => a.name.map toLower == b!"alt").getLast?).map (·.value)).getD f.alt ∧
    (absorb tl done as f).caption = (((as.filter fun a => a.name.map toLower == b!"caption").getLast?).map (·.value)).getD f.caption := by
  intro as
  induction as with
  | nil => intro done f; exact ⟨rfl, rfl, rfl⟩
  | cons a as ih =>
    intro done f
    rw [absorb]
    obtain ⟨i1, i2, i3⟩ := ih (done ++ a.text) (note f (done ++ a.sp) a.name a.value (as.flatMap Attr.text ++ tl))
    rw [i1, i2, i3, List.filter_cons, List.filter_cons, List.filter_cons]
    have key : ∀ (l : List Attr) (x : Bytes), ((l.getLast?.map (·.value)).getD a.value) = (((a :: l).getLast?.map (·.value)).getD x) := by
      intro l x
      cases l with
      | nil => rfl
      | cons b l => rw [List.getLast?_cons_cons, List.getLast?_cons]; rfl
    unfold note
    by_cases ht : a.name.map toLower = b!"title"
    · simp only [ht, if_true]
      exact ⟨key _ _, rfl, rfl⟩
    · by_cases ha : a.name.map toLower = b!"alt"
      · simp only [ha, if_true]
        exact ⟨rfl, key _ _, rfl⟩
      · by_cases hc : a.name.map toLower = b!"caption"
        · simp only [hc, if_true]
          exact ⟨rfl, rfl, key _ _⟩
        · rw [if_neg ht, if_neg ha, if_neg hc, if_neg (by simpa using ht), if_neg (by simpa using ha), if_neg (by simpa using hc)]
          exact ⟨rfl, rfl, rfl⟩

theorem absorb_cut (tl : Bytes) : ∀ (as : List Attr) (done : Bytes) (f : Found), (∀ a ∈ as, a.Ok) →
    (as.any Attr.isCaption = false → (absorb tl done as f).cut = f.cut ∧ Spec.uncaptioned as = as.flatMap Attr.text) ∧
    (as.any Attr.isCaption = true → ∃ p q, (absorb tl done as f).cut = some (p, q) ∧ p ++ q = done ++ Spec.uncaptioned as ++ tl) := by
  intro as
  induction as with
  | nil => intro done f _; exact ⟨fun _ => ⟨rfl, rfl⟩, by simp⟩
  | cons a as ih =>
    intro done f hok
    obtain ⟨i1, i2⟩ := ih (done ++ a.text) (note f (done ++ a.sp) a.name a.value (as.flatMap Attr.text ++ tl)) fun b hb => hok b (List.mem_cons_of_mem _ hb)
    rw [absorb, List.any_cons, Spec.uncaptioned]
    constructor
    · intro h
      simp only [Bool.or_eq_false_iff] at h
      obtain ⟨j1, j2⟩ := i1 h.2
      have hc : ¬ a.name.map toLower = b!"caption" := by
        intro e
        have := h.1
        unfold Attr.isCaption at this
        rw [e] at this
        simp at this
      rw [j1, h.1, j2]
      refine ⟨?_, rfl⟩
      unfold note
      rw [if_neg hc]
      split
      · rfl
      · split <;> rfl
    · intro h
      cases hr : as.any Attr.isCaption with
      | true =>
        obtain ⟨p, q, h1, h2⟩ := i2 hr
        refine ⟨p, q, h1, ?_⟩
        rw [h2]
        simp
      | false =>
        obtain ⟨j1, j2⟩ := i1 hr
        rw [hr, Bool.or_false] at h
        have hc : a.name.map toLower = b!"caption" := by
          unfold Attr.isCaption at h
          simpa using h
        obtain ⟨h1, h2, _⟩ := hok a (List.mem_cons_self ..)
        have hlast : ((done ++ a.sp).getLast?).any isSpace = true ∧ (done ++ a.sp).dropLast = done ++ a.sp.dropLast := by
          rcases List.eq_nil_or_concat a.sp with e | ⟨u, d, e⟩
          · exact absurd e h1
          · rw [List.concat_eq_append] at e
            rw [e]
            refine ⟨?_, ?_⟩
            · rw [← List.append_assoc, List.getLast?_concat]
              simpa using h2 d (by rw [e]; simp)
            · rw [← List.append_assoc, List.dropLast_concat, List.dropLast_concat]
        refine ⟨done ++ a.sp.dropLast, as.flatMap Attr.text ++ tl, ?_, ?_⟩
        · rw [j1]
          unfold note
          rw [if_neg (by rw [hc]; decide), if_neg (by rw [hc]; decide), if_pos hc]
          simp only [hlast.1, hlast.2, if_true]
        · rw [h]
          simp

/-! ### Images -/

theorem stop_name {x : Bytes} (h : ∀ c ∈ x, c ∉ b!"\"'>") (s : Bytes) : tagStop none (x ++ s) = (tagStop none s).map fun r => (x ++ r.1, r.2) := by
  induction x with
  | nil => cases h : tagStop none s <;> simp [h]
  | cons c x ih =>
    have hc := h c (List.mem_cons_self ..)
    simp only [List.mem_cons, List.not_mem_nil, or_false, not_or] at hc
    rw [List.cons_append, tagStop, if_neg (by simp [hc.1, hc.2.1]), if_neg hc.2.2, ih fun d hd => h d (List.mem_cons_of_mem _ hd)]
    cases tagStop none s <;> rfl

theorem stop_value {q : Byte} {v : Bytes} (h : q ∉ v) (s : Bytes) : tagStop (some q) (v ++ q :: s) = (tagStop none s).map fun r => (v ++ q :: r.1, r.2) := by
  induction v with
  | nil =>
    rw [List.nil_append, tagStop, if_pos rfl]
    rfl
  | cons c v ih =>
    simp only [List.mem_cons, not_or] at h
    rw [List.cons_append, tagStop, if_neg (Ne.symm h.1), ih h.2]
    cases tagStop none s <;> rfl

theorem space_plain {c : Byte} (h : isSpace c = true) : c ∉ b!"\"'>" ∧ c ≠ c!"<" := by
  revert h
  exact forall_byte (p := fun c => isSpace c = true → c ∉ b!"\"'>" ∧ c ≠ c!"<") (by decide +kernel) c

theorem stop_attrs {s : Bytes} : ∀ {as : List Attr}, (∀ a ∈ as, a.Ok) → tagStop none (as.flatMap Attr.text ++ s) = (tagStop none s).map fun r => (as.flatMap Attr.text ++ r.1, r.2) := by
  intro as
  induction as with
  | nil => intro _; cases h : tagStop none s <;> simp [h]
  | cons a as ih =>
    intro h
    obtain ⟨h1, h2, h3, h4, h5, h6, h7⟩ := h a (List.mem_cons_self ..)
    have e : (a :: as).flatMap Attr.text ++ s = (a.sp ++ a.name ++ b!"=") ++ a.q :: (a.value ++ a.q :: (as.flatMap Attr.text ++ s)) := by simp [Attr.text]
    have hq : a.q = c!"\"" ∨ a.q = c!"'" := by simpa using h5
    rw [e, stop_name, tagStop, if_pos hq, stop_value h6, ih fun b hb => h b (List.mem_cons_of_mem _ hb)]
    · cases tagStop none s with
      | none => rfl
      | some p => simp [Attr.text]
    · intro c hc
      rcases List.mem_append.1 hc with hc | hc
      · rcases List.mem_append.1 hc with hc | hc
        · exact (space_plain (h2 c hc)).1
        · have := (h4 c hc).2
          intro hm
          apply this
          revert hm
          exact forall_byte (p := fun c => c ∈ b!"\"'>" → c ∈ b!"=>/\"'<") (by decide +kernel) c
      · rw [List.mem_singleton] at hc
        rw [hc]
        decide

theorem stop_image {as : List Attr} {sp slash : Bytes} (h : ∀ a ∈ as, a.Ok) (hsp : ∀ c ∈ sp, c ∈ b!" \t\r\n") (hsl : slash = [] ∨ slash = b!"/") (s : Bytes) :
    tagStop none (as.flatMap Attr.text ++ sp ++ slash ++ b!">" ++ s) = some (as.flatMap Attr.text ++ sp ++ slash, s) := by
  have e : as.flatMap Attr.text ++ sp ++ slash ++ b!">" ++ s = as.flatMap Attr.text ++ (sp ++ (slash ++ c!">" :: s)) := by simp
  rw [e, stop_attrs h, stop_name fun c hc => (space_plain (blank_space (hsp c hc))).1, stop_name, tagStop, if_neg (by decide), if_pos rfl]
  · simp
  · intro c hc
    rcases hsl with rfl | rfl
    · simp at hc
    · rw [List.mem_singleton] at hc
      rw [hc]
      decide

theorem attrs_lt {as : List Attr} (h : ∀ a ∈ as, a.Ok) : c!"<" ∉ as.flatMap Attr.text := by
  intro hc
  obtain ⟨a, ha, hc⟩ := List.mem_flatMap.1 hc
  obtain ⟨h1, h2, h3, h4, h5, h6, h7⟩ := h a ha
  unfold Attr.text at hc
  simp only [List.mem_append, List.mem_singleton] at hc
  have hq : c!"<" ≠ a.q := by
    intro e
    rw [← e] at h5
    exact absurd h5 (by decide)
  rcases hc with ((((hc | hc) | hc) | hc) | hc) | hc
  · exact (space_plain (h2 _ hc)).2 rfl
  · exact absurd (h4 _ hc).2 (by decide)
  · exact absurd hc (by decide)
  · exact hq hc
  · exact h7 hc
  · exact hq hc

/-- What is written for an image. -/
theorem image_eq {on titles : Bool} {pre : Bytes} {as : List Attr} {sp slash caption : Bytes} (h : ∀ a ∈ as, a.Ok) (hsp : ∀ c ∈ sp, c ∈ b!" \t\r\n") (hsl : slash = [] ∨ slash = b!"/")
    (hc : Trimmed (Spec.chosen on titles as) caption) (hp : inPicture false pre = false) :
    image on titles pre b!"<img" (as.flatMap Attr.text ++ sp ++ slash) =
      if caption = [] ∨ 0 < depth 0 pre then b!"<img" ++ as.flatMap Attr.text ++ sp ++ slash ++ b!">" else Spec.figure (b!"<img" ++ Spec.uncaptioned as ++ sp ++ slash ++ b!">") caption := by
  have hlen : as.length ≤ (as.flatMap Attr.text ++ sp ++ slash).length := by
    have : ∀ l : List Attr, l.length ≤ (l.flatMap Attr.text).length := by
      intro l
      induction l with
      | nil => simp
      | cons a l ih =>
        simp only [List.flatMap_cons, List.length_append, List.length_cons, Attr.text, List.length_nil]
        omega
    have := this as
    simp only [List.length_append]
    omega
  have hparse := parse_absorb (tl := sp ++ slash) (fun whole n f => parse_tail hsp hsl n f) as [] (as.flatMap Attr.text ++ sp ++ slash) _ {} h (by simp) hlen
  rw [← List.append_assoc] at hparse
  unfold image
  simp only []
  rw [hparse]
  obtain ⟨t1, t2, t3⟩ := absorb_title (sp ++ slash) as [] {}
  have hcap : captionOf on titles (absorb (sp ++ slash) [] as {}) = caption := by
    rw [← trim_eq hc]
    have hnil : trim [] = [] := rfl
    unfold captionOf Spec.chosen
    rw [t1, t2, t3]
    change (if Spec.value b!"caption" as ≠ [] then trim (Spec.value b!"caption" as) else if (!on) = true then [] else if Spec.value b!"title" as ≠ [] then trim (Spec.value b!"title" as) else if titles = true then [] else trim (Spec.value b!"alt" as)) = _
    split
    · rfl
    · cases on with
      | false => rfl
      | true =>
        simp only [Bool.not_true, Bool.false_eq_true, if_false, if_true]
        split
        · rfl
        · split <;> rfl
  rw [hcap, hp]
  by_cases hcc : caption = [] ∨ 0 < depth 0 pre
  · rw [if_pos hcc, if_pos]
    · simp
    · rcases hcc with h | h
      · simp [h]
      · simp [h]
  · rw [if_neg hcc, if_neg]
    · obtain ⟨c1, c2⟩ := absorb_cut (sp ++ slash) as [] {} h
      cases hany : as.any Attr.isCaption with
      | false =>
        obtain ⟨d1, d2⟩ := c1 hany
        rw [d1, d2]
        simp [figure, Spec.figure]
      | true =>
        obtain ⟨p, q, d1, d2⟩ := c2 hany
        rw [d1]
        simp only []
        rw [List.append_assoc (b!"<img") p q, d2]
        simp [figure, Spec.figure]
    · simp only [not_or] at hcc
      simp [hcc.1, hcc.2]

/-! ### Pieces -/

theorem begins_head {w c : Byte} {ws s : Bytes} : begins (w :: ws) (c :: s) = (toLower c == w && begins ws s) := by
  unfold begins
  simp only [List.length_cons, List.take_succ_cons, List.map_cons]
  rfl

/-- A tag that is neither the start nor the end of a figure. -/
theorem chunk_depth {x r : Bytes} (hx : c!"<" ∉ x) (h1 : begins b!"figure" (x ++ r) = false) (h2 : begins b!"/figure" (x ++ r) = false) (d : Nat) : depth d (c!"<" :: (x ++ r)) = depth d r := by
  rw [depth, begins_cons, begins_cons, h1, h2]
  simp only [Bool.and_false, Bool.false_and, Bool.false_eq_true, if_false]
  exact depth_text hx d r

/-- A tag that is neither the start nor the end of a picture. -/
theorem chunk_picture {x r : Bytes} (hx : c!"<" ∉ x) (h1 : begins b!"picture" (x ++ r) = false) (h2 : ¬ b!"/picture>" <+: x ++ r) (st : Bool) : inPicture st (c!"<" :: (x ++ r)) = inPicture st r := by
  rw [inPicture, if_neg, if_neg]
  · exact inPicture_text hx st r
  · intro h
    exact h2 (List.cons_prefix_cons.1 h).2
  · unfold opensPicture
    rw [begins_cons, h1]
    simp

/-- In front of `d` open figures, outside of pictures. -/
def Inv (pre : Bytes) (d : Nat) : Prop := ∀ r, Edge r → depth 0 (pre ++ r) = depth d r ∧ inPicture false (pre ++ r) = inPicture false r

theorem inv_now {pre : Bytes} {d : Nat} (h : Inv pre d) : depth 0 pre = d ∧ inPicture false pre = false := by
  have := h [] (Or.inl rfl)
  rw [List.append_nil] at this
  exact this

theorem inv_step {pre x : Bytes} {d e : Nat} (h : Inv pre d) (hx : ∃ y, x = c!"<" :: y) (hs : ∀ r, Edge r → depth d (x ++ r) = depth e r ∧ inPicture false (x ++ r) = inPicture false r) : Inv (pre ++ x) e := by
  intro r hr
  have h1 := h (x ++ r) (Or.inr (by obtain ⟨y, rfl⟩ := hx; exact ⟨y ++ r, rfl⟩))
  have h2 := hs r hr
  rw [List.append_assoc, h1.1, h1.2]
  exact h2

/-- A tag that is neither an image nor a picture is copied. -/
theorem pass_chunk (on titles : Bool) {x r : Bytes} (hx : c!"<" ∉ x) (h1 : opensPicture (c!"<" :: (x ++ r)) = false) (h2 : opensImage (c!"<" :: (x ++ r)) = false) (n : Nat) (pre : Bytes)
    (hn : x.length + 1 ≤ n) : pass on titles n pre (c!"<" :: (x ++ r)) = c!"<" :: x ++ pass on titles (n - (x.length + 1)) (pre ++ c!"<" :: x) r := by
  obtain ⟨n, rfl⟩ : ∃ m, n = m + 1 := ⟨n - 1, by omega⟩
  rw [pass, h1, h2, if_neg (by simp), if_neg (by simp), pass_text on titles hx n _ r (by omega)]
  rw [show n + 1 - (x.length + 1) = n - x.length by omega]
  simp

theorem infix_text {w x s : Bytes} (hx : c!"<" ∉ x) (h : c!"<" :: w <:+: x ++ s) : c!"<" :: w <:+: s := by
  induction x with
  | nil => exact h
  | cons c x ih =>
    simp only [List.mem_cons, not_or] at hx
    rw [List.cons_append, List.infix_cons_iff] at h
    rcases h with h | h
    · exact absurd (List.cons_prefix_cons.1 h).1 hx.1
    · exact ih hx.2 h

theorem prefix_edge {w x r : Bytes} (hw : c!"<" ∉ w) (hr : Edge r) (h : w <+: x ++ r) : w <+: x := by
  by_cases hl : w.length ≤ x.length
  · exact List.prefix_of_prefix_length_le h (List.prefix_append x r) hl
  · exfalso
    obtain ⟨u, hu⟩ := List.prefix_of_prefix_length_le (List.prefix_append x r) h (by omega)
    subst hu
    rw [List.prefix_append_right_inj] at h
    rcases hr with rfl | ⟨t, rfl⟩
    · rw [List.prefix_nil] at h
      rw [h] at hl
      simp at hl
    · cases u with
      | nil => simp at hl
      | cons c u =>
        rw [(List.cons_prefix_cons.1 h).1] at hw
        simp at hw

theorem edge_chunks (cs : List Bytes) : Edge (cs.flatMap (b!"<" ++ ·)) := by
  cases cs with
  | nil => exact Or.inl rfl
  | cons x cs => exact Or.inr ⟨_, rfl⟩

/-- Where a tag is found. -/
theorem infix_chunks {w : Bytes} (hw : c!"<" ∉ w) : ∀ (cs : List Bytes), (∀ x ∈ cs, c!"<" ∉ x) → c!"<" :: w <:+: cs.flatMap (b!"<" ++ ·) → ∃ x ∈ cs, w <+: x := by
  intro cs
  induction cs with
  | nil => intro _ h; simp at h
  | cons x cs ih =>
    intro hx h
    rw [List.flatMap_cons, List.append_assoc, List.singleton_append, List.infix_cons_iff] at h
    rcases h with h | h
    · exact ⟨x, List.mem_cons_self .., prefix_edge hw (edge_chunks cs) (List.cons_prefix_cons.1 h).2⟩
    · obtain ⟨y, hy, h2⟩ := ih (fun y hy => hx y (List.mem_cons_of_mem _ hy)) (infix_text (hx x (List.mem_cons_self ..)) h)
      exact ⟨y, List.mem_cons_of_mem _ hy, h2⟩

theorem other_prefix {x w : Bytes} (h : Other x) (hw : w ∈ Spec.words) : ¬ w <+: x := by
  intro hc
  have := other_begins h (r := []) (Or.inl rfl) hw
  rw [List.append_nil, prefix_begins hc] at this
  · cases this
  · have : ∀ w ∈ Spec.words, w.map toLower = w := by decide
    exact this w hw

theorem chunks_depth : ∀ (cs : List Bytes), (∀ x ∈ cs, Other x) → ∀ r, Edge r → ∀ d st, depth d (cs.flatMap (b!"<" ++ ·) ++ r) = depth d r ∧ inPicture st (cs.flatMap (b!"<" ++ ·) ++ r) = inPicture st r := by
  intro cs
  induction cs with
  | nil => intro _ r _ d st; exact ⟨rfl, rfl⟩
  | cons x cs ih =>
    intro h r hr d st
    have he : Edge (cs.flatMap (b!"<" ++ ·) ++ r) := by
      rcases edge_chunks cs with e | ⟨t, e⟩
      · rw [e]; exact hr
      · rw [e]; exact Or.inr ⟨_, rfl⟩
    obtain ⟨i1, i2⟩ := ih (fun y hy => h y (List.mem_cons_of_mem _ hy)) r hr d st
    have hx := h x (List.mem_cons_self ..)
    rw [List.flatMap_cons, List.append_assoc]
    exact ⟨(other_depth hx he d).trans i1, (other_picture hx he st).trans i2⟩

theorem figure_opens {x r : Bytes} (hx : c!"<" ∉ x) (h : ∃ c, x.head? = some c ∧ (c = c!">" ∨ isSpace c = true)) (d : Nat) :
    depth d (b!"<figure" ++ x ++ r) = depth (d + 1) r ∧ depth d (b!"</figure" ++ x ++ r) = depth (d - 1) r := by
  obtain ⟨c, h1, h2⟩ := h
  obtain ⟨y, rfl⟩ : ∃ y, x = c :: y := by
    cases x with
    | nil => simp at h1
    | cons a y => exact ⟨y, by simpa using h1⟩
  have hg : (c == c!">" || isSpace c) = true := by
    rcases h2 with rfl | h2
    · rfl
    · rw [h2, Bool.or_true]
  have hb : ∀ s : Bytes, begins [] s = true := fun s => rfl
  constructor
  · have e : b!"<figure" ++ (c :: y) ++ r = c!"<" :: (b!"figure" ++ (c :: y) ++ r) := by simp
    rw [e, depth, if_pos]
    · rw [show b!"figure" ++ (c :: y) ++ r = (b!"figure" ++ (c :: y)) ++ r from rfl]
      apply depth_text
      simp only [List.mem_append, not_or]
      exact ⟨by decide, hx⟩
    · rw [← e]
      have hbb : begins b!"<figure" (b!"<figure" ++ (c :: y) ++ r) = true := prefix_begins ⟨(c :: y) ++ r, by simp⟩ (by decide)
      rw [hbb]
      simpa using hg
  · have e : b!"</figure" ++ (c :: y) ++ r = c!"<" :: (b!"/figure" ++ (c :: y) ++ r) := by simp
    rw [e, depth, if_neg, if_pos]
    · apply depth_text
      simp only [List.mem_append, not_or]
      exact ⟨by decide, hx⟩
    · rw [← e]
      have hbb : begins b!"</figure" (b!"</figure" ++ (c :: y) ++ r) = true := prefix_begins ⟨(c :: y) ++ r, by simp⟩ (by decide)
      rw [hbb]
      simpa using hg
    · have hbb : begins b!"<figure" (c!"<" :: (b!"/figure" ++ (c :: y) ++ r)) = false := by
        simp only [List.cons_append, begins_head]
        rfl
      rw [hbb]
      simp

theorem image_chunk {x : Bytes} (hx : c!"<" ∉ x) (r : Bytes) (d : Nat) (st : Bool) : depth d (b!"<img" ++ x ++ r) = depth d r ∧ inPicture st (b!"<img" ++ x ++ r) = inPicture st r := by
  have e : b!"<img" ++ x ++ r = c!"<" :: ((b!"img" ++ x) ++ r) := by simp
  have hx' : c!"<" ∉ b!"img" ++ x := by
    simp only [List.mem_append, not_or]
    exact ⟨by decide, hx⟩
  rw [e]
  constructor
  · apply chunk_depth hx'
    · simp only [List.cons_append, begins_head]; rfl
    · simp only [List.cons_append, begins_head]; rfl
  · apply chunk_picture hx'
    · simp only [List.cons_append, begins_head]; rfl
    · intro h
      simp only [List.cons_append] at h
      exact absurd (List.cons_prefix_cons.1 h).1 (by decide)

theorem picture_chunk {x : Bytes} (hx : c!"<" ∉ x) (r : Bytes) (d : Nat) (st : Bool) :
    depth d (b!"<picture>" ++ x ++ r) = depth d r ∧ inPicture st (b!"<picture>" ++ x ++ r) = inPicture true r ∧
    depth d (b!"</picture>" ++ x ++ r) = depth d r ∧ inPicture st (b!"</picture>" ++ x ++ r) = inPicture false r := by
  have e1 : b!"<picture>" ++ x ++ r = c!"<" :: ((b!"picture>" ++ x) ++ r) := by simp
  have e2 : b!"</picture>" ++ x ++ r = c!"<" :: ((b!"/picture>" ++ x) ++ r) := by simp
  have hx1 : c!"<" ∉ b!"picture>" ++ x := by
    simp only [List.mem_append, not_or]
    exact ⟨by decide, hx⟩
  have hx2 : c!"<" ∉ b!"/picture>" ++ x := by
    simp only [List.mem_append, not_or]
    exact ⟨by decide, hx⟩
  refine ⟨?_, ?_, ?_, ?_⟩
  · rw [e1]
    apply chunk_depth hx1
    · simp only [List.cons_append, begins_head]; rfl
    · simp only [List.cons_append, begins_head]; rfl
  · have ho : opensPicture (b!"<picture>" ++ x ++ r) = true := by
      unfold opensPicture
      have hbb : begins b!"<picture" (b!"<picture>" ++ x ++ r) = true := prefix_begins ⟨b!">" ++ x ++ r, by simp⟩ (by decide)
      rw [hbb]
      simp
    rw [e1] at ho ⊢
    rw [inPicture, ho, if_pos rfl]
    exact inPicture_text hx1 true r
  · rw [e2]
    apply chunk_depth hx2
    · simp only [List.cons_append, begins_head]; rfl
    · simp only [List.cons_append, begins_head]; rfl
  · have ho : opensPicture (b!"</picture>" ++ x ++ r) = false := by
      unfold opensPicture
      have hbb : begins b!"<picture" (b!"</picture>" ++ x ++ r) = false := by
        simp only [List.cons_append, begins_head]; rfl
      rw [hbb]
      simp
    have hp : b!"</picture>" <+: b!"</picture>" ++ x ++ r := ⟨x ++ r, by simp⟩
    rw [e2] at ho hp ⊢
    rw [inPicture, ho, if_neg (by simp), if_pos hp]
    exact inPicture_text hx2 false r

/-- The text of a picture up to its end. -/
def block (t : Bytes) (pre : List Bytes) (img : Bytes) (post : List Bytes) : Bytes :=
  b!"<picture>" ++ t ++ pre.flatMap (b!"<" ++ ·) ++ b!"<img" ++ img ++ b!">" ++ post.flatMap (b!"<" ++ ·)

theorem picture_found {t img : Bytes} {pre post : List Bytes} (ht : c!"<" ∉ t) (ho : ∀ x ∈ pre ++ post, Other x) (hi : c!"<" ∉ img) (s : Bytes) :
    find b!"</picture>" (block t pre img post ++ b!"</picture>" ++ s) = some (block t pre img post, s) := by
  have h := (Embed.find_eq (d := c!"<") (w := b!"/picture>") (by decide) (block t pre img post) s).2
  apply h
  intro hc
  have e : block t pre img post = ((b!"picture>" ++ t) :: (pre ++ (b!"img" ++ img ++ b!">") :: post)).flatMap (b!"<" ++ ·) := by
    unfold block
    simp
  rw [e] at hc
  obtain ⟨x, hx, hw⟩ := infix_chunks (by decide) _ (by
    intro x hx
    simp only [List.mem_cons, List.mem_append] at hx
    rcases hx with rfl | hx | rfl | hx
    · simp only [List.mem_append, not_or]; exact ⟨by decide, ht⟩
    · exact (ho x (List.mem_append_left _ hx)).1
    · simp only [List.mem_append, not_or]; exact ⟨⟨by decide, hi⟩, by decide⟩
    · exact (ho x (List.mem_append_right _ hx)).1) hc
  simp only [List.mem_cons, List.mem_append] at hx
  have hsub : b!"/picture" <+: b!"/picture>" := ⟨b!">", rfl⟩
  rcases hx with rfl | hx | rfl | hx
  · simp only [List.cons_append] at hw
    exact absurd (List.cons_prefix_cons.1 hw).1 (by decide)
  · exact other_prefix (ho x (List.mem_append_left _ hx)) (by decide) (hsub.trans hw)
  · simp only [List.cons_append] at hw
    exact absurd (List.cons_prefix_cons.1 hw).1 (by decide)
  · exact other_prefix (ho x (List.mem_append_right _ hx)) (by decide) (hsub.trans hw)

theorem picture_caption {on : Bool} {t img title alt : Bytes} {pre post : List Bytes} (ht : c!"<" ∉ t) (ho : ∀ x ∈ pre ++ post, Other x) (hg : c!">" ∉ img)
    (h1 : AutoMedia.Spec.Value b!"title" (b!"<img" ++ img ++ b!">") title) (h2 : AutoMedia.Spec.Value b!"alt" (b!"<img" ++ img ++ b!">") alt) :
    pictureCaption on (block t pre img post ++ b!"</picture>") = if on then (if title ≠ [] then title else alt) else [] := by
  unfold pictureCaption
  cases on with
  | false => rfl
  | true =>
    have hf := (Embed.find_eq (d := c!"<") (w := b!"img") (by decide) (b!"<picture>" ++ t ++ pre.flatMap (b!"<" ++ ·)) (img ++ c!">" :: (post.flatMap (b!"<" ++ ·) ++ b!"</picture>"))).2 (by
      intro hc
      have e : b!"<picture>" ++ t ++ pre.flatMap (b!"<" ++ ·) = ((b!"picture>" ++ t) :: pre).flatMap (b!"<" ++ ·) := by simp
      rw [e] at hc
      obtain ⟨x, hx, hw⟩ := infix_chunks (by decide) _ (by
        intro x hx
        simp only [List.mem_cons] at hx
        rcases hx with rfl | hx
        · simp only [List.mem_append, not_or]; exact ⟨by decide, ht⟩
        · exact (ho x (List.mem_append_left _ hx)).1) hc
      simp only [List.mem_cons] at hx
      rcases hx with rfl | hx
      · simp only [List.cons_append] at hw
        exact absurd (List.cons_prefix_cons.1 hw).1 (by decide)
      · exact other_prefix (ho x (List.mem_append_left _ hx)) (by decide) hw)
    have e : block t pre img post ++ b!"</picture>" = b!"<picture>" ++ t ++ pre.flatMap (b!"<" ++ ·) ++ b!"<img" ++ (img ++ c!">" :: (post.flatMap (b!"<" ++ ·) ++ b!"</picture>")) := by
      unfold block
      simp
    have hs := span_stop (p := (· != c!">")) (a := img) (c := c!">") (b := post.flatMap (b!"<" ++ ·) ++ b!"</picture>") (fun c hc => bne_iff_ne.2 fun e => hg (e ▸ hc)) (by simp)
    rw [if_pos rfl, if_pos rfl, e, hf]
    simp only []
    rw [if_pos (by simp), hs.1]
    have g1 := AutoMedia.value_iff h1
    have g2 := AutoMedia.value_iff h2
    rw [g2]
    cases ha : attr b!"title" true (b!"<img" ++ img ++ b!">") with
    | none =>
      rw [ha] at g1
      simp only [Option.getD_none] at g1
      rw [← g1]
      rfl
    | some v =>
      rw [ha] at g1
      simp only [Option.getD_some] at g1
      subst g1
      cases v with
      | nil => rfl
      | cons c v => rfl

theorem opens_image {as : List Attr} {sp slash s : Bytes} (h : ∀ a ∈ as, a.Ok) (hv : ∀ a ∈ as.head?, a.sp.head? ≠ some c!"\x0b" ∧ a.sp.head? ≠ some c!"\x0c")
    (hsp : ∀ c ∈ sp, c ∈ b!" \t\r\n") (hsl : slash = [] ∨ slash = b!"/") : opensImage (b!"<img" ++ (as.flatMap Attr.text ++ sp ++ slash ++ b!">" ++ s)) = true := by
  unfold opensImage
  have hbb : begins b!"<img" (b!"<img" ++ (as.flatMap Attr.text ++ sp ++ slash ++ b!">" ++ s)) = true := prefix_begins ⟨_, rfl⟩ (by decide)
  rw [hbb, Bool.true_and]
  have hx : ∃ c y, as.flatMap Attr.text ++ sp ++ slash ++ b!">" ++ s = c :: y ∧ c ∈ b!" \t\r\n>/" := by
    cases as with
    | nil =>
      cases sp with
      | nil =>
        rcases hsl with rfl | rfl
        · exact ⟨_, _, rfl, by decide⟩
        · exact ⟨_, _, rfl, by decide⟩
      | cons c sp =>
        have := hsp c (List.mem_cons_self ..)
        refine ⟨c, sp ++ slash ++ b!">" ++ s, by simp, ?_⟩
        revert this
        exact forall_byte (p := fun c => c ∈ b!" \t\r\n" → c ∈ b!" \t\r\n>/") (by decide +kernel) c
    | cons a as =>
      obtain ⟨h1, h2, _⟩ := h a (List.mem_cons_self ..)
      have hva := hv a rfl
      cases hasp : a.sp with
      | nil => exact absurd hasp h1
      | cons c y =>
        refine ⟨c, (y ++ a.name ++ b!"=" ++ [a.q] ++ a.value ++ [a.q]) ++ as.flatMap Attr.text ++ sp ++ slash ++ b!">" ++ s, ?_, ?_⟩
        · simp [Attr.text, hasp]
        · rw [hasp] at hva h2
          have := h2 c (List.mem_cons_self ..)
          simp only [List.head?_cons, ne_eq, Option.some.injEq] at hva
          revert this
          revert hva
          exact forall_byte (p := fun c => ¬ c = c!"\x0b" ∧ ¬ c = c!"\x0c" → isSpace c = true → c ∈ b!" \t\r\n>/") (by decide +kernel) c
  obtain ⟨c, y, e, hc⟩ := hx
  rw [e]
  simp only [List.mem_cons, List.not_mem_nil, or_false] at hc
  rcases hc with rfl | rfl | rfl | rfl | rfl | rfl <;> rfl

/-- A page is handled piece by piece. -/
theorem pass_pieces (on titles : Bool) : ∀ (ps : List Piece) (n : Nat) (pre : Bytes) (d : Nat), (∀ p ∈ ps, p.Ok on titles) → Inv pre d → (Spec.plain ps).length ≤ n →
    pass on titles n pre (Spec.plain ps) = Spec.page on d ps := by
  intro ps
  induction ps with
  | nil =>
    intro n pre d _ _ _
    cases n <;> rfl
  | cons p ps ih =>
    intro n pre d hok hinv hn
    have hp := hok p (List.mem_cons_self ..)
    have hedge : Edge (Spec.plain ps) := by
      cases ps with
      | nil => exact Or.inl rfl
      | cons q qs =>
        refine Or.inr ?_
        cases q with
        | other x => exact ⟨_, rfl⟩
        | opens x => exact ⟨_, rfl⟩
        | closes x => exact ⟨_, rfl⟩
        | image as sp slash text caption => exact ⟨_, rfl⟩
        | picture t pre img post text title alt => exact ⟨_, rfl⟩
    have hplain : Spec.plain (p :: ps) = p.bare ++ Spec.plain ps := rfl
    rw [hplain] at hn ⊢
    rw [List.length_append] at hn
    have step : ∀ m pre' e, Inv pre' e → (Spec.plain ps).length ≤ m → pass on titles m pre' (Spec.plain ps) = Spec.page on e ps :=
      fun m pre' e hi hm => ih m pre' e (fun q hq => hok q (List.mem_cons_of_mem _ hq)) hi hm
    cases p with
    | other x =>
      have hx : Other x := hp
      obtain ⟨o1, o2, _⟩ := other_opens hx hedge
      simp only [Piece.bare, List.length_append, List.length_cons, List.length_nil] at hn
      rw [show Piece.bare (.other x) ++ Spec.plain ps = c!"<" :: (x ++ Spec.plain ps) from rfl, pass_chunk on titles hx.1 o1 o2 n pre (by omega),
        step _ _ d (inv_step hinv ⟨x, rfl⟩ fun r hr => ⟨other_depth hx hr d, other_picture hx hr false⟩) (by omega)]
      rfl
    | opens x =>
      obtain ⟨hx, hc⟩ := hp
      have hx' : c!"<" ∉ b!"figure" ++ x := by
        simp only [List.mem_append, not_or]
        exact ⟨by decide, hx⟩
      simp only [Piece.bare, List.length_append, List.length_cons, List.length_nil] at hn
      have hpc : ∀ r, opensPicture (c!"<" :: (b!"figure" ++ x ++ r)) = false ∧ opensImage (c!"<" :: (b!"figure" ++ x ++ r)) = false := by
        intro r
        unfold opensPicture opensImage
        simp only [List.cons_append, begins_head]
        exact ⟨rfl, rfl⟩
      rw [show Piece.bare (.opens x) ++ Spec.plain ps = c!"<" :: ((b!"figure" ++ x) ++ Spec.plain ps) from rfl, pass_chunk on titles hx' (hpc _).1 (hpc _).2 n pre (by simp only [List.length_append, List.length_cons, List.length_nil]; omega),
        step _ _ (d + 1) (inv_step (x := c!"<" :: (b!"figure" ++ x)) hinv ⟨_, rfl⟩ fun r hr => ⟨(figure_opens hx hc d).1, ?_⟩) (by simp only [List.length_append, List.length_cons, List.length_nil]; omega)]
      · rfl
      · apply chunk_picture hx'
        · simp only [List.cons_append, begins_head]; rfl
        · intro h
          simp only [List.cons_append] at h
          exact absurd (List.cons_prefix_cons.1 h).1 (by decide)
    | closes x =>
      obtain ⟨hx, hc⟩ := hp
      have hx' : c!"<" ∉ b!"/figure" ++ x := by
        simp only [List.mem_append, not_or]
        exact ⟨by decide, hx⟩
      simp only [Piece.bare, List.length_append, List.length_cons, List.length_nil] at hn
      have hpc : ∀ r, opensPicture (c!"<" :: (b!"/figure" ++ x ++ r)) = false ∧ opensImage (c!"<" :: (b!"/figure" ++ x ++ r)) = false := by
        intro r
        unfold opensPicture opensImage
        simp only [List.cons_append, begins_head]
        exact ⟨rfl, rfl⟩
      rw [show Piece.bare (.closes x) ++ Spec.plain ps = c!"<" :: ((b!"/figure" ++ x) ++ Spec.plain ps) from rfl, pass_chunk on titles hx' (hpc _).1 (hpc _).2 n pre (by simp only [List.length_append, List.length_cons, List.length_nil]; omega),
        step _ _ (d - 1) (inv_step (x := c!"<" :: (b!"/figure" ++ x)) hinv ⟨_, rfl⟩ fun r hr => ⟨(figure_opens hx hc d).2, ?_⟩) (by simp only [List.length_append, List.length_cons, List.length_nil]; omega)]
      · rfl
      · apply chunk_picture hx'
        · simp only [List.cons_append, begins_head]; rfl
        · intro h
          simp only [List.cons_append] at h
          have h2 := (List.cons_prefix_cons.1 h).2
          exact absurd (List.cons_prefix_cons.1 h2).1 (by decide)
    | image as sp slash text caption =>
      obtain ⟨h1, h2, h3, h4, h5, h6⟩ := hp
      simp only [Piece.bare, List.length_append, List.length_cons, List.length_nil] at hn
      obtain ⟨n, rfl⟩ : ∃ m, n = m + 1 := ⟨n - 1, by omega⟩
      have e : Piece.bare (.image as sp slash text caption) ++ Spec.plain ps = c!"<" :: (b!"img" ++ (as.flatMap Attr.text ++ sp ++ slash ++ b!">" ++ (text ++ Spec.plain ps))) := by
        simp [Piece.bare]
      have hlt : c!"<" ∉ as.flatMap Attr.text ++ sp ++ slash ++ b!">" ++ text := by
        simp only [List.mem_append, not_or]
        refine ⟨⟨⟨⟨attrs_lt h1, ?_⟩, ?_⟩, by decide⟩, h5⟩
        · intro hc
          exact absurd (h3 _ hc) (by decide)
        · rcases h4 with rfl | rfl <;> decide
      have ho : opensImage (c!"<" :: (b!"img" ++ (as.flatMap Attr.text ++ sp ++ slash ++ b!">" ++ (text ++ Spec.plain ps)))) = true := opens_image h1 h2 h3 h4
      have hop : opensPicture (c!"<" :: (b!"img" ++ (as.flatMap Attr.text ++ sp ++ slash ++ b!">" ++ (text ++ Spec.plain ps)))) = false := by
        unfold opensPicture
        simp only [List.cons_append, begins_head]
        rfl
      have hd : (c!"<" :: (b!"img" ++ (as.flatMap Attr.text ++ sp ++ slash ++ b!">" ++ (text ++ Spec.plain ps)))).drop 4 = as.flatMap Attr.text ++ sp ++ slash ++ b!">" ++ (text ++ Spec.plain ps) := rfl
      have ht : (c!"<" :: (b!"img" ++ (as.flatMap Attr.text ++ sp ++ slash ++ b!">" ++ (text ++ Spec.plain ps)))).take 4 = b!"<img" := rfl
      rw [e, pass, hop, if_neg (by simp), ho, if_pos rfl, hd, stop_image h1 h3 h4]
      simp only [ht]
      rw [image_eq h1 h3 h4 h6 (inv_now hinv).2, (inv_now hinv).1, pass_text on titles h5 n _ _ (by omega),
        show pre ++ (b!"<img" ++ (as.flatMap Attr.text ++ sp ++ slash) ++ b!">") ++ text = pre ++ (b!"<img" ++ (as.flatMap Attr.text ++ sp ++ slash ++ b!">" ++ text)) by simp,
        step _ _ d (inv_step (x := b!"<img" ++ (as.flatMap Attr.text ++ sp ++ slash ++ b!">" ++ text)) hinv ⟨_, rfl⟩ fun r hr => image_chunk hlt r d false) (by omega)]
      show _ = (if caption = [] ∨ 0 < d then Piece.bare (.image as sp slash text caption) else Spec.figure (b!"<img" ++ Spec.uncaptioned as ++ sp ++ slash ++ b!">") caption ++ text) ++ Spec.page on d ps
      split
      · simp [Piece.bare]
      · simp
    | picture t pr img post text title alt =>
      obtain ⟨h1, h2, h3, h4, h5, h6, h7⟩ := hp
      have e : Piece.bare (.picture t pr img post text title alt) ++ Spec.plain ps = block t pr img post ++ b!"</picture>" ++ (text ++ Spec.plain ps) := by
        simp [Piece.bare, block]
      have hl := congrArg List.length e
      simp only [List.length_append] at hl hn
      obtain ⟨y, hy⟩ : ∃ y, block t pr img post ++ b!"</picture>" ++ (text ++ Spec.plain ps) = c!"<" :: y := ⟨_, rfl⟩
      have hlb : 0 < (block t pr img post).length := by
        unfold block
        simp only [List.length_append, List.length_cons]
        omega
      obtain ⟨n, rfl⟩ : ∃ m, n = m + 1 := ⟨n - 1, by omega⟩
      have hop : opensPicture (c!"<" :: y) = true := by
        rw [← hy]
        unfold opensPicture block
        simp only [List.cons_append, begins_head]
        rfl
      have hf := picture_found h1 h2 h3 (text ++ Spec.plain ps)
      rw [e, hy, pass, hop, if_pos rfl, ← hy, hf]
      simp only []
      rw [picture_caption h1 h2 h4 h6 h7, pass_text on titles h5 n _ _ (by omega), step _ _ d (?_) (by omega)]
      · show _ = Piece.shown on d (.picture t pr img post text title alt) ++ Spec.page on d ps
        unfold Piece.shown
        simp only []
        rw [← List.append_assoc]
        congr 1
        congr 1
        cases on with
        | false => simp [block]
        | true =>
          simp only [if_true, true_and]
          generalize (if title ≠ [] then title else alt) = cap
          by_cases hc : cap = []
          · rw [if_pos hc, if_neg (fun h => h hc)]
            rfl
          · rw [if_neg hc, if_pos hc]
            rfl
      · rw [List.append_assoc]
        apply inv_step (x := block t pr img post ++ b!"</picture>" ++ text) hinv ⟨_, rfl⟩
        intro r hr
        have eb : block t pr img post ++ b!"</picture>" ++ text ++ r = b!"<picture>" ++ t ++ (pr.flatMap (b!"<" ++ ·) ++ (b!"<img" ++ (img ++ b!">") ++ (post.flatMap (b!"<" ++ ·) ++ (b!"</picture>" ++ text ++ r)))) := by
          simp [block]
        have hi : c!"<" ∉ img ++ b!">" := by
          simp only [List.mem_append, not_or]
          exact ⟨h3, by decide⟩
        rw [eb]
        obtain ⟨a1, a2, _⟩ := picture_chunk h1 (pr.flatMap (b!"<" ++ ·) ++ (b!"<img" ++ (img ++ b!">") ++ (post.flatMap (b!"<" ++ ·) ++ (b!"</picture>" ++ text ++ r)))) d false
        have b1 := chunks_depth pr (fun x hx => h2 x (List.mem_append_left _ hx)) (b!"<img" ++ (img ++ b!">") ++ (post.flatMap (b!"<" ++ ·) ++ (b!"</picture>" ++ text ++ r))) (Or.inr ⟨_, rfl⟩) d true
        have c1 := image_chunk hi (post.flatMap (b!"<" ++ ·) ++ (b!"</picture>" ++ text ++ r)) d true
        have d1 := chunks_depth post (fun x hx => h2 x (List.mem_append_right _ hx)) (b!"</picture>" ++ text ++ r) (Or.inr ⟨_, rfl⟩) d true
        obtain ⟨_, _, e1, e2⟩ := picture_chunk h5 r d true
        exact ⟨a1.trans (b1.1.trans (c1.1.trans (d1.1.trans e1))), a2.trans (b1.2.trans (c1.2.trans (d1.2.trans e2)))⟩

/-- The whole page. -/
theorem convert_pieces (on titles : Bool) {t0 : Bytes} {ps : List Piece} (h0 : c!"<" ∉ t0) (h : ∀ p ∈ ps, p.Ok on titles) : convert on titles (t0 ++ Spec.plain ps) = .val (t0 ++ Spec.page on 0 ps) := by
  rw [convert_pass, pass_text on titles h0 _ _ _ (by simp), pass_pieces on titles ps _ _ 0 h (fun r _ => ⟨?_, ?_⟩) (by simp)]
  · rw [List.nil_append, depth_text h0]
  · rw [List.nil_append, inPicture_text h0]

end Verif.ImgCaptions
