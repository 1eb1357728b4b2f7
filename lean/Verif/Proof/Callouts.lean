import Verif.Spec.Callouts
import Verif.Proof.InlineTables

namespace Verif.Callouts
open InlineNotes (takeWhile_stop)
open InlineTables (dropWhile_all)

theorem find_word (k n : Bytes) (h : (k, n) ∈ words) : words.find? (fun w => w.1 == k) = some (k, n) := by
  have : ∀ w ∈ words, words.find? (fun v => v.1 == w.1) = some w := by decide +kernel
  exact this _ h

/-- The table of the program and that of the specification are the same. -/
theorem names_iff {word name : Bytes} : Names word name ↔ (word.map toUpper, name) ∈ words := by
  have h1 : ∀ t ∈ types, ∀ w ∈ t.2, (w, t.1) ∈ words := by decide +kernel
  have h2 : ∀ w ∈ words, ∃ t ∈ types, t.1 = w.2 ∧ w.1 ∈ t.2 := by decide +kernel
  constructor
  · rintro ⟨ws, h, hw⟩
    exact h1 _ h _ hw
  · intro h
    obtain ⟨⟨n, ws⟩, h3, h4, h5⟩ := h2 _ h
    simp only at h4
    subst h4
    exact ⟨ws, h3, h5⟩

theorem word_letters {word name : Bytes} (h : Names word name) : word ≠ [] ∧ word.length < 64 ∧ c!"]" ∉ word := by
  have key : ∀ w ∈ words, w.1 ≠ [] ∧ w.1.length < 64 ∧ c!"]" ∉ w.1 := by decide +kernel
  obtain ⟨h1, h2, h3⟩ := key _ (names_iff.1 h)
  refine ⟨fun e => h1 (by simp [e]), by simpa using h2, fun e => h3 ?_⟩
  have := List.mem_map_of_mem (f := toUpper) e
  rwa [show toUpper c!"]" = c!"]" by decide] at this

theorem typeName_eq {word name : Bytes} (h : Names word name) : typeName word = some name := by
  obtain ⟨_, h2, _⟩ := word_letters h
  rw [typeName, if_neg (by omega), find_word _ _ (names_iff.1 h)]; rfl

theorem typeName_names {word name : Bytes} (h : typeName word = some name) : Names word name := by
  rw [typeName] at h
  split at h
  · cases h
  · obtain ⟨⟨k, n⟩, h1, h2⟩ := Option.map_eq_some_iff.1 h
    have h3 := List.find?_some h1
    have h4 := List.mem_of_find?_eq_some h1
    simp only [beq_iff_eq] at h3
    subst h3
    simp only at h2
    subst h2
    exact names_iff.2 h4

/-- The title as it is shown. -/
def shown (name title : Bytes) : Bytes := if title = [] then name else title

theorem readHead_eq {l : Line} {name : Bytes} (hn : Names l.word name) (hl : l.Ok) (hnl : c!"\n" ∉ l.title) :
    readHead l.source = some { name := name, fold := l.sign, title := if l.title = [] then none else some l.title } := by
  obtain ⟨w1, w2, w3⟩ := word_letters hn
  obtain ⟨l1, l2, l3, l4⟩ := hl
  obtain ⟨word, sign, blanks, title⟩ := l
  simp only at *
  have htw : title.takeWhile (· != c!"\n") = title := by
    have := takeWhile_stop (p := (· != c!"\n")) (a := title) (c := c!"\n") (t := []) (by
      intro x hx
      have : x ≠ c!"\n" := fun e => hnl (e ▸ hx)
      simpa using this) (by decide)
    rw [List.takeWhile_append] at this
    split at this
    · rename_i hlen
      exact (List.takeWhile_sublist _).eq_of_length hlen
    · exact this
  have hdrop : (blanks ++ title).dropWhile (fun c => c == c!" " || c == c!"\t") = title := by
    rw [dropWhile_all _ (by intro c hc; rcases l1 c hc with rfl | rfl <;> rfl)]
    cases title with
    | nil => rfl
    | cons c t =>
      rw [List.dropWhile_cons, if_neg]
      simp at l2 l3
      simp [l2, l3]
  have hsrc : ∀ x : Bytes, readHead (b!"[!" ++ word ++ b!"]" ++ x) = (some name).map fun name =>
      let fold := match x with | c :: _ => if c = c!"+" then some true else if c = c!"-" then some false else none | [] => none
      let rest := if fold.isSome then x.drop 1 else x
      let rest := rest.dropWhile fun c => c == c!" " || c == c!"\t"
      { name := name, fold := fold, title := if rest = [] then none else some (rest.takeWhile (· != c!"\n")) } := by
    intro x
    have hx : b!"[!" ++ word ++ b!"]" ++ x = c!"[" :: c!"!" :: (word ++ c!"]" :: x) := by simp
    have ht : (word ++ c!"]" :: x).takeWhile (· != c!"]") = word := by
      apply takeWhile_stop
      · intro y hy
        have : y ≠ c!"]" := fun e => w3 (e ▸ hy)
        simpa using this
      · decide
    rw [hx, readHead, if_pos (by simp)]
    simp only [List.drop_succ_cons, List.drop_zero, ht, List.drop_left, if_neg w1, typeName_eq hn]
    rfl
  unfold Line.source
  simp only
  match sign with
  | some true =>
    rw [List.append_assoc, List.append_assoc, hsrc]
    simp [hdrop, htw]
  | some false =>
    rw [List.append_assoc, List.append_assoc, hsrc]
    simp [hdrop, htw]
  | none =>
    rw [List.append_assoc, List.append_assoc, hsrc]
    have hfold : (match blanks ++ title with | c :: _ => if c = c!"+" then some true else if c = c!"-" then some false else none | [] => none) = (none : Option Bool) := by
      cases blanks with
      | nil =>
        obtain ⟨m1, m2⟩ := l4 rfl rfl
        cases title with
        | nil => rfl
        | cons c t => simp at m1 m2; simp [m1, m2]
      | cons c b =>
        rcases l1 c (by simp) with rfl | rfl <;> rfl
    simp only [List.nil_append, hfold, Option.isSome_none, Bool.false_eq_true, if_false, hdrop, htw, Option.map_some]

theorem readHead_some {t : Bytes} {h : Head} (e : readHead t = some h) : ∃ word rest, t = b!"[!" ++ word ++ b!"]" ++ rest ∧ Names word h.name := by
  rw [readHead] at e
  split at e
  · rename_i hp
    obtain ⟨s, rfl⟩ := hp
    have hs : (b!"[!" ++ s).drop 2 = s := by simp
    simp only [hs] at e
    split at e
    · cases e
    · rename_i c rest hd
      split at e
      · cases e
      · obtain ⟨name, h1, h2⟩ := Option.map_eq_some_iff.1 e
        refine ⟨s.takeWhile (· != c!"]"), rest, ?_, by rw [← h2]; exact typeName_names h1⟩
        have hsplit : s = s.takeWhile (· != c!"]") ++ s.drop (s.takeWhile (· != c!"]")).length := by
          conv => lhs; rw [← List.take_append_drop (s.takeWhile (· != c!"]")).length s]
          congr 1
          exact (List.prefix_iff_eq_take.1 (List.takeWhile_prefix _)).symm
        have hdw : s.dropWhile (· != c!"]") = c :: rest := by
          have h3 := List.takeWhile_append_dropWhile (p := (· != c!"]")) (l := s)
          rw [hd] at hsplit
          exact List.append_cancel_left (h3.trans hsplit)
        have hc : c = c!"]" := by
          have := List.head?_dropWhile_not (· != c!"]") s
          rw [hdw] at this
          simpa using this
        conv => lhs; rw [hsplit, hd, hc]
        simp
  · cases e

mutual
theorem process_without (n : Node) (h : Without n) : process n = [n] := by
  obtain ⟨kind, lit, kids⟩ := n
  rw [Without] at h
  obtain ⟨h1, h2⟩ := h
  have : (if kind = .quote then callout kids else none) = none := by
    split
    · rename_i hk
      subst hk
      unfold callout
      split
      · rename_i l _ _ _
        cases hr : readHead l with
        | none => rfl
        | some hd =>
          obtain ⟨w, r, e1, e2⟩ := readHead_some hr
          exact absurd ⟨w, _, r, e1, e2⟩ (h1 l rfl)
      · rfl
    · rfl
  rw [process, this]
  simp only
  rw [process_withouts kids h2]
theorem process_withouts (ns : List Node) (h : Withouts ns) : processAll ns = ns := by
  match ns with
  | [] => rfl
  | n :: ns =>
    rw [Withouts] at h
    rw [processAll, process_without n h.1, process_withouts ns h.2]; rfl
end

theorem strip_eq {l : Line} {name : Bytes} (hn : Names l.word name) (hl : l.Ok) (hnl : c!"\n" ∉ l.title) (p : Bytes) (t more rest : List Node) :
    strip (.mk .para p (.mk .text l.source t :: more) :: rest) = .mk .para p more :: rest := by
  have hno : c!"\n" ∉ l.source := by
    have hw : c!"\n" ∉ l.word := by
      intro e
      have key : ∀ w ∈ words, c!"\n" ∉ w.1 := by decide +kernel
      refine key _ (names_iff.1 hn) ?_
      have := List.mem_map_of_mem (f := toUpper) e
      rwa [show toUpper c!"\n" = c!"\n" by decide] at this
    have hb : c!"\n" ∉ l.blanks := fun e => by rcases hl.1 _ e with e | e <;> revert e <;> decide
    unfold Line.source
    simp only [List.mem_append, not_or]
    refine ⟨⟨⟨⟨⟨by decide, hw⟩, by decide⟩, ?_⟩, hb⟩, hnl⟩
    split <;> decide
  have : l.source.dropWhile (· != c!"\n") = [] := by
    rw [← List.append_nil l.source, dropWhile_all]
    · rfl
    · intro x hx
      have : x ≠ c!"\n" := fun e => hno (e ▸ hx)
      simpa using this
  simp only [strip, this, List.drop_nil]

theorem opening_eq (name : Bytes) (sign : Option Bool) (title : Bytes)
    (h : (before name sign (shown name title)).length < 1024) :
    opening { name := name, fold := sign, title := if title = [] then none else some title } = before name sign (shown name title) ∧
    ending { name := name, fold := sign, title := if title = [] then none else some title } = behind sign := by
  have ht : (if title = [] then none else some title).getD name = shown name title := by unfold shown; split <;> rfl
  constructor
  · unfold opening
    simp only [ht]
    unfold before at h ⊢
    match sign with
    | none => simp only at h ⊢; rw [List.take_of_length_le (by omega)]
    | some true => simp only [if_true] at h ⊢; rw [List.take_of_length_le (by simp at h ⊢; omega)]; simp
    | some false => simp only [Bool.false_eq_true, if_false] at h ⊢; rw [List.take_of_length_le (by simp at h ⊢; omega)]; simp
  · unfold ending behind
    match sign with
    | none => rfl
    | some true => rfl
    | some false => rfl

end Verif.Callouts
