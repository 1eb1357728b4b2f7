/- Lemmas for definition lists in the tree. -/
import Verif.Spec.DefTree
import Verif.Proof.Images

namespace Verif.DefTree
open Spec

theorem plain_opens {p : Bytes} (h : Plain p) : opens p = false ∧ p.dropWhile (· = c!" ") = p := by
  obtain ⟨c, s, rfl, h1, h2⟩ := h
  constructor
  · have e : (c :: s).takeWhile (· = c!" ") = [] := List.takeWhile_cons_of_neg (by simpa using h2)
    have : defLineText (c :: s) = false := by
      unfold defLineText
      rw [e]
      cases s with
      | nil => rfl
      | cons d s => simp [h1]
    simp [opens, this]
  · exact List.dropWhile_cons_of_neg (by simpa using h2)

theorem attrs_none {s : Bytes} (h : c!"{" ∉ s) : hasAttrs s = false := by
  induction s with
  | nil => rfl
  | cons c s ih =>
    have hc : c ≠ c!"{" := fun e => h (by simp [e])
    unfold hasAttrs
    rw [ih fun hm => h (List.mem_cons_of_mem _ hm)]
    simp [hc]

theorem colons_opens {x : Byte} (hx : x = c!" " ∨ x = c!"\t") {d : Bytes} (h : c!"{" ∉ d) : opens (c!":" :: c!":" :: x :: d) = true := by
  have ha : hasAttrs (c!":" :: c!":" :: x :: d) = false := attrs_none (by rcases hx with rfl | rfl <;> simp [h])
  unfold opens
  rw [ha]
  rcases hx with rfl | rfl <;> rfl

/-- What the parser makes of an item. -/
def tree : Item → List Block
  | .plain p => [.para [] [.text p]]
  | .entry t d => [.para [] [.text t], .list [] [], .para [] [.text (b!":: " ++ d)]]

theorem build_plain {p : Bytes} (h : Plain p) (done : List Block) (l : List Bytes) : build done (p :: l) = build (.para [] [.text p] :: done) l := by
  have := plain_opens h
  show (if (opens p && afterPara done) = true then _ else _) = _
  rw [this.1, this.2]
  rfl

theorem build_colons {x : Byte} (hx : x = c!" " ∨ x = c!"\t") {d : Bytes} (h : c!"{" ∉ d) {done : List Block} (hd : afterPara done = true) (l : List Bytes) :
    build done ((c!":" :: c!":" :: x :: d) :: l) = build (.para [] [.text (c!":" :: c!":" :: x :: d)] :: .list [] [] :: done) l := by
  have := colons_opens hx h
  show (if (opens (c!":" :: c!":" :: x :: d) && afterPara done) = true then _ else _) = _
  rw [this, hd]
  rfl

theorem build_items {l : List Item} (h : ∀ i ∈ l, i.Ok) (done : List Block) : build done (l.flatMap Item.write) = done.reverse ++ l.flatMap tree := by
  induction l generalizing done with
  | nil => simp [build]
  | cons i l ih =>
    have ih := ih fun x hx => h x (List.mem_cons_of_mem _ hx)
    have hi := h i (by simp)
    cases i with
    | plain p =>
      show build done (p :: l.flatMap Item.write) = _
      rw [build_plain hi, ih]
      simp [tree]
    | entry t d =>
      show build done (t :: (c!":" :: c!":" :: c!" " :: d) :: l.flatMap Item.write) = _
      rw [build_plain hi.1, build_colons (.inl rfl) hi.2.2 rfl, ih]
      simp [tree]

theorem isPrefix_iff {a b : Bytes} : a.isPrefixOf b = true ↔ a <+: b := List.isPrefixOf_iff_prefix

theorem plain_defLine {p : Bytes} (h : Plain p) : defLine [] [.text p] = false := by
  obtain ⟨c, s, rfl, h1, h2⟩ := h
  show ((c!":" == c && _) : Bool) = false
  rw [beq_false_of_ne (Ne.symm h1)]
  rfl

theorem colons_defLine (d : Bytes) : defLine [] [.text (c!":" :: c!":" :: c!" " :: d)] = true := by
  have h : b!":: ".isPrefixOf (c!":" :: c!":" :: c!" " :: d) = true := isPrefix_iff.2 ⟨d, rfl⟩
  simp only [defLine, h, Bool.or_true]

theorem tab_defLine (d : Bytes) : defLine [] [.text (c!":" :: c!":" :: c!"\t" :: d)] = false := rfl

theorem body_dd {d : Bytes} (h : Body d) : dd [] [.text (c!":" :: c!":" :: c!" " :: d)] = [.text d] := by
  obtain ⟨⟨c, s, rfl, hc⟩, _⟩ := h
  have e : strip [.text (c!":" :: c!":" :: c!" " :: c :: s)] = [.text (c :: s)] := by
    have h : b!":: ".isPrefixOf (c!":" :: c!":" :: c!" " :: c :: s) = true := isPrefix_iff.2 ⟨c :: s, rfl⟩
    unfold strip
    simp only
    rw [if_pos h]
    show [Inl.text ((c :: s).dropWhile _)] = _
    rw [List.dropWhile_cons_of_neg (by simpa using hc)]
  unfold dd
  rw [e, if_neg (by simp)]

theorem post_para (c : Bytes) (k : List Inl) (done l : List Block) : post done (.para c k :: l) = post (.para c k :: done) l := by
  conv => lhs; unfold post

theorem post_def {t : List Inl} {rest : List Kid} {c : Bytes} {k : List Inl} (done l : List Block) (hf : (fill t done (.para c k :: l)).2.2 = false) (hd : defLine c k = true) :
    post done (.list t rest :: .para c k :: l) = post (.list (fill t done (.para c k :: l)).1 (.data (dd c k) :: convert rest) :: (fill t done (.para c k :: l)).2.1) l := by
  conv => lhs; unfold post
  simp only [hf, hd, if_true, Bool.false_eq_true, if_false]

theorem post_ndef {t : List Inl} {rest : List Kid} {c : Bytes} {k : List Inl} (done l : List Block) (hf : (fill t done (.para c k :: l)).2.2 = false) (hd : defLine c k = false) :
    post done (.list t rest :: .para c k :: l) = post (.list (fill t done (.para c k :: l)).1 (convert rest) :: (fill t done (.para c k :: l)).2.1) (.para c k :: l) := by
  conv => lhs; unfold post
  simp only [hf, hd, Bool.false_eq_true, if_false]

theorem fill_para {c : Bytes} {k : List Inl} (h : defLine c k = false) (d next : List Block) : fill [] (.para c k :: d) next = (move [] c k, d, false) := by
  show (if defLine c k = true then _ else _) = _
  rw [h]
  rfl

theorem post_items {l : List Item} (h : ∀ i ∈ l, i.Ok) (done : List Block) : post done (l.flatMap tree) = .val (done.reverse ++ l.flatMap Item.means) := by
  induction l generalizing done with
  | nil => simp [post]
  | cons i l ih =>
    have ih := ih fun x hx => h x (List.mem_cons_of_mem _ hx)
    have hi := h i (by simp)
    cases i with
    | plain p =>
      show post done (.para [] [.text p] :: l.flatMap tree) = _
      rw [post_para, ih]
      simp [Item.means]
    | entry t d =>
      show post done (.para [] [.text t] :: .list [] [] :: .para [] [.text (c!":" :: c!":" :: c!" " :: d)] :: l.flatMap tree) = _
      have hf := fill_para (plain_defLine hi.1) done (.para [] [.text (c!":" :: c!":" :: c!" " :: d)] :: l.flatMap tree)
      rw [post_para, post_def _ _ (by rw [hf]) (colons_defLine d), hf, body_dd hi.2, ih]
      simp [Item.means, move, convert]

/-! ### Several definitions -/

/-- What the parser makes of definitions behind a paragraph. -/
def defs (l : List Bytes) : List Block := l.flatMap fun d => [.list [] [], .para [] [.text (b!":: " ++ d)]]

theorem build_defs {l : List Bytes} (h : ∀ d ∈ l, Body d) {done : List Block} (hd : afterPara done = true) : build done (l.map fun d => b!":: " ++ d) = done.reverse ++ defs l := by
  induction l generalizing done with
  | nil => simp [build, defs]
  | cons d l ih =>
    show build done ((c!":" :: c!":" :: c!" " :: d) :: l.map fun d => b!":: " ++ d) = _
    rw [build_colons (.inl rfl) (h d (by simp)).2 hd, ih (fun x hx => h x (List.mem_cons_of_mem _ hx)) rfl]
    simp [defs]

theorem post_defs {l : List Bytes} (h : ∀ d ∈ l, Body d) (done : List Block) (t : List Inl) (rest : List Kid) :
    post (.list t rest :: done) (defs l) = .val (done.reverse ++ .list t rest :: l.map fun d => .list [] [.data [.text d]]) := by
  induction l generalizing done t rest with
  | nil => simp [post, defs]
  | cons d l ih =>
    show post _ (.list [] [] :: .para [] [.text (c!":" :: c!":" :: c!" " :: d)] :: defs l) = _
    have hf : fill [] (.list t rest :: done) (.para [] [.text (c!":" :: c!":" :: c!" " :: d)] :: defs l) = ([], .list t rest :: done, false) := by
      have : fromNext [] (.para [] [.text (c!":" :: c!":" :: c!" " :: d)] :: defs l) = ([], false) := by
        unfold fromNext
        simp only [colons_defLine]
        rfl
      unfold fill
      simp only [this]
      rfl
    rw [post_def _ _ (by rw [hf]) (colons_defLine d), hf, body_dd (h d (by simp)), ih fun x hx => h x (List.mem_cons_of_mem _ hx)]
    simp [convert]

/-! ### What is read -/

theorem bare_of_not {s : Bytes} (h : b!":: ".isPrefixOf s = false) : bare s = s := by
  unfold bare
  rw [if_neg fun hp => by rw [isPrefix_iff.2 hp] at h; cases h]

theorem read_move {c : Bytes} {k : List Inl} (h : defLine c k = false) : move [] c k = readPara c k := by
  unfold defLine at h
  rw [Bool.or_eq_false_iff] at h
  obtain ⟨h1, h2⟩ := h
  unfold move readPara
  rw [List.nil_append]
  cases k with
  | nil => simp only [if_true, bare_of_not h1]
  | cons x k =>
    cases x with
    | text s => simp [bare_of_not h2]
    | brk => simp
    | other s => simp

theorem read_dd {c : Bytes} {k : List Inl} (h : defLine c k = true) : dd c k = readPara c k := by
  unfold defLine at h
  unfold dd readPara
  cases k with
  | nil =>
    have hp : b!":: ".isPrefixOf c = true := by simpa using h
    have hb : bare c = (c.drop 3).dropWhile (· = c!" ") := by
      unfold bare
      rw [if_pos (isPrefix_iff.1 hp)]
    rw [hb, hp]
    simp only [strip, if_true]
    by_cases he : (c.drop 3).dropWhile (· = c!" ") = []
    · simp [he]
    · simp [he]
  | cons x k =>
    cases x with
    | text s =>
      show (if (if b!":: ".isPrefixOf s = true then _ else _) = [] then _ else (if b!":: ".isPrefixOf s = true then _ else _)) = _
      by_cases hp : b!":: ".isPrefixOf s = true
      · simp only [if_pos hp]
        unfold bare
        rw [if_pos (isPrefix_iff.1 hp), if_neg (by simp)]
      · simp only [if_neg hp]
        rw [bare_of_not (Bool.eq_false_iff.2 hp), if_neg (by simp)]
    | brk => simp [strip]
    | other s => simp [strip]

theorem emptyTerm_iff {t : List Inl} : emptyTerm t = true ↔ ∀ x ∈ t, x = .brk := by
  unfold emptyTerm
  rw [List.all_eq_true]
  constructor
  · intro h x hx
    have := h x hx
    cases x with
    | brk => rfl
    | text s => cases this
    | other s => cases this
  · intro h x hx
    rw [h x hx]

/-- The paragraph behind a list is not freed. -/
theorem fill_read {t : List Inl} {done next : List Block} (ht : (∀ x ∈ t, x = .brk) → t = []) (hf : (fill t done next).2.2 = false) :
    (fill t done next).2.1.reverse.flatMap read ++ (fill t done next).1 = done.reverse.flatMap read ++ t := by
  have hnext : ∀ t, (fromNext t next).2 = false → (fromNext t next).1 = t := by
    intro t hf
    unfold fromNext at hf ⊢
    split
    · split
      · rename_i hc
        simp only [hc, if_true] at hf
        cases hf
      · rfl
    · rfl
  unfold fill at hf ⊢
  split
  · rename_i he
    have h0 := ht (emptyTerm_iff.1 he)
    simp only [he, if_true] at hf
    split
    · rename_i c k d
      simp only at hf
      split
      · rename_i hd
        simp only [hd, if_true] at hf
        simp only [hnext t hf]
      · rename_i hd
        subst h0
        simp only [Bool.not_eq_true] at hd
        simp [read_move hd, Spec.read]
    · rename_i hne
      split at hf
      · rename_i c k d
        exact absurd rfl (hne c k d)
      · simp only [hnext t hf]
  · rfl

theorem post_read : ∀ (n : Nat) (done l out : List Block), l.length ≤ n → (∀ b ∈ l, Fresh b) → post done l = .val out → out.flatMap read = done.reverse.flatMap read ++ l.flatMap read
  | _, done, [], out, _, _, h => by
    unfold post at h
    cases h
    simp
  | 0, _, _ :: _, _, hl, _, _ => by simp at hl
  | n + 1, done, b :: l, out, hl, hfr, h => by
    simp only [List.length_cons] at hl
    have hfr' : ∀ x ∈ l, Fresh x := fun x hx => hfr x (List.mem_cons_of_mem _ hx)
    have hb := hfr b (by simp)
    have skip : post (b :: done) l = .val out → out.flatMap read = done.reverse.flatMap read ++ (b :: l).flatMap read := by
      intro h
      rw [post_read n _ l out (by omega) hfr' h]
      simp
    cases b with
    | para c k =>
      rw [post_para] at h
      exact skip h
    | other s =>
      unfold post at h
      exact skip h
    | empty => exact hb.elim
    | list t rest =>
      obtain ⟨rfl, ht⟩ := hb
      have other : (fill t done l).2.2 = false → post (.list (fill t done l).1 [] :: (fill t done l).2.1) l = .val out →
          out.flatMap read = done.reverse.flatMap read ++ (.list t [] :: l).flatMap read := by
        intro hf h
        rw [post_read n _ l out (by omega) hfr' h]
        have := fill_read ht hf
        simp only [List.reverse_cons, List.flatMap_append, List.flatMap_cons, List.flatMap_nil, Spec.read, List.append_nil] at this ⊢
        rw [← List.append_assoc, this]
      have free : (∀ c k r, l ≠ .para c k :: r) → (fill t done l).2.2 = false := by
        intro hne
        unfold fill
        split
        · have : (fromNext t l).2 = false := by
            unfold fromNext
            split
            · rename_i c k r
              exact absurd rfl (hne c k r)
            · rfl
          split
          · split
            · exact this
            · rfl
          · exact this
        · rfl
      cases l with
      | nil =>
        unfold post at h
        exact other (free (by simp)) h
      | cons b l =>
        cases b with
        | para c k =>
          by_cases hf : (fill t done (.para c k :: l)).2.2 = false
          · by_cases hd : defLine c k = true
            · rw [post_def _ _ hf hd] at h
              rw [post_read n _ l out (by simp only [List.length_cons] at hl; omega) (fun x hx => hfr' x (List.mem_cons_of_mem _ hx)) h]
              have := fill_read ht hf
              simp only [List.reverse_cons, List.flatMap_append, List.flatMap_cons, List.flatMap_nil, Spec.read, convert, List.append_nil, read_dd hd] at this ⊢
              rw [← List.append_assoc, ← List.append_assoc, this]
              simp
            · rw [post_ndef _ _ hf (by simpa using hd)] at h
              exact other hf h
          · exfalso
            simp only [Bool.not_eq_false] at hf
            unfold post at h
            simp only [hf, if_true] at h
            cases h
        | list t' r' =>
          unfold post at h
          exact other (free (by simp)) h
        | empty =>
          unfold post at h
          exact other (free (by simp)) h
        | other s =>
          unfold post at h
          exact other (free (by simp)) h

/-- The parser opens only lists that are fresh. -/
theorem build_fresh {l : List Bytes} {done : List Block} (h : ∀ b ∈ done, Fresh b) : ∀ b ∈ build done l, Fresh b := by
  induction l generalizing done with
  | nil =>
    intro b hb
    exact h b (by simpa [build] using hb)
  | cons s l ih =>
    unfold build
    simp only
    split
    · refine ih ?_
      intro b hb
      simp only [List.mem_cons] at hb
      rcases hb with rfl | rfl | hb
      · trivial
      · exact ⟨rfl, fun _ => rfl⟩
      · exact h b hb
    · refine ih ?_
      intro b hb
      simp only [List.mem_cons] at hb
      rcases hb with rfl | hb
      · trivial
      · exact h b hb

theorem build_read {l : List Bytes} {done : List Block} : (build done l).flatMap read = done.reverse.flatMap read ++ l.map fun s => .text (bare (s.dropWhile (· = c!" "))) := by
  induction l generalizing done with
  | nil => simp [build]
  | cons s l ih =>
    unfold build
    simp only
    split <;> (rw [ih]; simp [Spec.read, readPara])

/-! ### Safety -/

theorem careful_tail {b : Block} {l : List Block} (h : Careful (b :: l)) : Careful l := by
  intro pre t rest c k post e
  exact h (b :: pre) t rest c k post (by rw [e]; rfl)

theorem fill_safe {t : List Inl} {rest : List Kid} {c : Bytes} {k : List Inl} {done l : List Block} (h : Careful (.list t rest :: .para c k :: l)) :
    (fill t done (.para c k :: l)).2.2 = false := by
  have h := h [] t rest c k l rfl
  by_cases he : emptyTerm t = true
  · have hn : (fromNext t (.para c k :: l)).2 = false := by
      have : (decide (k ≠ []) && !defLine c k) = false := by
        rcases h with ⟨x, hx, hne⟩ | rfl | hp | ⟨s, ks, rfl, hp⟩
        · exact absurd (emptyTerm_iff.1 he x hx) hne
        · simp
        · simp [defLine, isPrefix_iff.2 hp]
        · simp [defLine, isPrefix_iff.2 hp]
      unfold fromNext
      simp only
      rw [this]
      rfl
    unfold fill
    rw [if_pos he]
    split
    · split
      · exact hn
      · rfl
    · exact hn
  · unfold fill
    rw [if_neg he]

theorem post_safe : ∀ (n : Nat) (done l : List Block), l.length ≤ n → Careful l → post done l ≠ .ub
  | _, done, [], _, _ => by unfold post; intro h; cases h
  | 0, _, _ :: _, hl, _ => by simp at hl
  | n + 1, done, b :: l, hl, hc => by
    simp only [List.length_cons] at hl
    have hc' := careful_tail hc
    cases b with
    | para c k =>
      rw [post_para]
      exact post_safe n _ _ (by omega) hc'
    | other s =>
      unfold post
      exact post_safe n _ _ (by omega) hc'
    | list t rest =>
      cases l with
      | nil =>
        unfold post
        exact post_safe n _ _ (by simp) hc'
      | cons b l =>
        cases b with
        | para c k =>
          have hf := fill_safe (done := done) hc
          by_cases hd : defLine c k = true
          · rw [post_def _ _ hf hd]
            exact post_safe n _ _ (by simp only [List.length_cons] at hl; omega) (careful_tail hc')
          · rw [post_ndef _ _ hf (by simpa using hd)]
            exact post_safe n _ _ (by omega) hc'
        | list t' r' => unfold post; exact post_safe n _ _ (by omega) hc'
        | empty => unfold post; exact post_safe n _ _ (by omega) hc'
        | other s => unfold post; exact post_safe n _ _ (by omega) hc'
    | empty =>
      cases l with
      | nil =>
        unfold post
        exact post_safe n _ _ (by simp) hc'
      | cons b l =>
        cases b with
        | para c k =>
          unfold post
          split
          · split
            · exact post_safe n _ _ (by simp only [List.length_cons] at hl; omega) (careful_tail hc')
            · exact post_safe n _ _ (by omega) hc'
          · exact post_safe n _ _ (by omega) hc'
        | list t' r' => unfold post; exact post_safe n _ _ (by omega) hc'
        | empty => unfold post; exact post_safe n _ _ (by omega) hc'
        | other s => unfold post; exact post_safe n _ _ (by omega) hc'

/-- What is made of lines, the first one behind a paragraph or not. -/
def made (ap : Bool) : List Bytes → List Block
  | [] => []
  | s :: l => (if opens s && ap then [.list [] [], .para [] [.text (s.dropWhile (· = c!" "))]] else [.para [] [.text (s.dropWhile (· = c!" "))]]) ++ made true l

theorem build_made (l : List Bytes) (done : List Block) : build done l = done.reverse ++ made (afterPara done) l := by
  induction l generalizing done with
  | nil => simp [build, made]
  | cons s l ih =>
    unfold build made
    simp only
    split <;> (rw [ih]; simp [afterPara])

theorem careful_para {c : Bytes} {k : List Inl} {l : List Block} (h : Careful l) : Careful (.para c k :: l) := by
  intro pre t rest c' k' post e
  cases pre with
  | nil => cases e
  | cons b pre =>
    injection e with _ e
    exact h pre t rest c' k' post e

theorem careful_list {t : List Inl} {rest : List Kid} {s : Bytes} {l : List Block} (hs : b!":: " <+: s) (h : Careful l) : Careful (.list t rest :: .para [] [.text s] :: l) := by
  intro pre t' rest' c' k' post e
  cases pre with
  | nil =>
    injection e with _ e
    injection e with e _
    injection e with e1 e2
    subst e2
    exact .inr (.inr (.inr ⟨s, [], rfl, hs⟩))
  | cons b pre =>
    injection e with _ e
    exact careful_para h pre t' rest' c' k' post e

theorem made_careful {l : List Bytes} (h : ∀ s ∈ l, opens s = true → b!":: " <+: s.dropWhile (· = c!" ")) (ap : Bool) : Careful (made ap l) := by
  induction l generalizing ap with
  | nil =>
    intro pre t rest c k post e
    cases pre <;> cases e
  | cons s l ih =>
    have ih := ih fun x hx => h x (List.mem_cons_of_mem _ hx)
    unfold made
    split
    · rename_i ho
      rw [Bool.and_eq_true] at ho
      exact careful_list (h s (by simp) ho.1) (ih true)
    · exact careful_para (ih true)

end Verif.DefTree
