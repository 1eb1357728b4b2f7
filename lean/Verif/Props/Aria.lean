/-
C155: attributes for accessibility.
-/
import Verif.Proof.Aria
import Verif.Proof.AriaUnique

namespace Verif.Aria
open Spec

/-- Every page has a result: it never leaves the memory of the page or of the result, and the result has at most the length of
the page, 2048 bytes and ten times the length of an ID of a caption. -/
theorem C155_bounded (page : Bytes) : ∃ o, label page = .val o ∧
    o.length ≤ page.length + 2048 + (match captions page 0 page 0 [] with | c :: _ => c.id.length * 10 | [] => 0) :=
  label_val page

/-- C155, for every page whose tags have no `<` or `>` inside and whose IDs of captions are in double quotation marks, if the
attributes have not more than 2048 bytes: the tables of contents, figures, tables and captions of figures of tables get the
attributes they do not have, and nothing else changes.  The captions must begin less than 200 bytes behind the start of their
figures, and the tables less than 500 bytes. -/
theorem C155_labelled_partial {text : Bytes} {l : Tags} (ht : c!"<" ∉ text) (hg : Good l) (hl : (text ++ html l).length < 2 ^ 64) :
    ∃ ids o, Captions text 0 l ids ∧ Labelled ids text 0 l o ∧
      ((text ++ o).length ≤ (text ++ html l).length + 2048 → label (text ++ html l) = .val (text ++ o)) :=
  label_page ht hg hl

/-- The page determines the attributes: what `C155_labelled_partial` says of the result is said of no other. -/
theorem C155_one_result {text : Bytes} {l : Tags} {ids ids' : List (Bytes × Bytes)} {o o' : Bytes} (h : Captions text 0 l ids)
    (ho : Labelled ids text 0 l o) (h' : Captions text 0 l ids') (ho' : Labelled ids' text 0 l o') : o = o' := by
  obtain rfl := captions_unique h h'
  exact labelled_unique ho ho'

theorem labelled_figures (ids : List (Bytes × Bytes)) (n : Nat) : ∀ pre, Labelled ids pre 0
    (List.replicate n [((b!"figure" : Bytes), ([] : Bytes)), (b!"/figure", [])]).flatten (List.replicate n b!"<figure role=\"figure\"></figure>").flatten := by
  induction n with
  | zero => exact fun _ => .nil
  | succ n ih =>
    intro pre
    rw [List.replicate_succ, List.flatten_cons, List.replicate_succ, List.flatten_cons]
    exact .tag (.figure (by decide) (by decide)) (.tag (as := []) (.other (fun h => absurd h (by decide)) (fun h => absurd h (by decide)) (by decide)
      fun h => absurd h (by decide)) (ih _))

/-- A page may lose what it has: with 147 figures or more, the room for the result is not enough, and what does not fit is left
out without a message. -/
theorem C155_many_figures_refuted (n : Nat) (hn : 147 ≤ n) : ∃ l : Tags, Good l ∧ (∀ ids, Labelled ids [] 0 l
      (List.replicate n b!"<figure role=\"figure\"></figure>").flatten) ∧
    html l = (List.replicate n b!"<figure></figure>").flatten ∧
    label (html l) ≠ .val (List.replicate n b!"<figure role=\"figure\"></figure>").flatten := by
  have hf : ∀ n : Nat, html (List.replicate n [((b!"figure" : Bytes), ([] : Bytes)), (b!"/figure", [])]).flatten = (List.replicate n b!"<figure></figure>").flatten := by
    intro n
    induction n with
    | zero => rfl
    | succ n ih =>
      rw [List.replicate_succ, List.flatten_cons, List.replicate_succ, List.flatten_cons, ← ih]
      simp [html]
  have hg : ∀ n : Nat, Good (List.replicate n [((b!"figure" : Bytes), ([] : Bytes)), (b!"/figure", [])]).flatten := by
    intro n x hx
    obtain ⟨y, hy, hx⟩ := List.mem_flatten.1 hx
    rw [(List.mem_replicate.1 hy).2] at hx
    rcases List.mem_cons.1 hx with rfl | hx
    · exact ⟨by decide, by decide, by decide, fun h => absurd h (by decide)⟩
    · rcases List.mem_cons.1 hx with rfl | hx
      · exact ⟨by decide, by decide, by decide, fun h => absurd h (by decide)⟩
      · cases hx
  have hcap : ∀ (n i k : Nat) (page : Bytes) (acc : List Caption), captions page i (List.replicate n b!"<figure></figure>").flatten k acc = acc := by
    intro n
    induction n with
    | zero => intros; rfl
    | succ n ih =>
      intro i k page acc
      rw [List.replicate_succ, List.flatten_cons]
      have hs : ∀ (t z : Bytes) (i : Nat), (∀ t', t' <:+ t → t' ≠ [] → ¬ b!"<figcaption" <+: t' ++ z) → captions page i (t ++ z) k acc = captions page (i + t.length) z k acc := by
        intro t z
        induction t with
        | nil => intros; rfl
        | cons c t iht =>
          intro i h
          rw [List.cons_append, captions, if_neg fun h' => h (c :: t) (List.suffix_refl _) (by simp) h'.1,
            iht (i + 1) fun t' ht' => h t' (ht'.trans (List.suffix_cons _ _)), List.length_cons, Nat.add_assoc, Nat.add_comm 1]
      rw [hs, ih]
      intro t' ht' hne
      obtain ⟨a, ha⟩ := ht'
      generalize (List.replicate n b!"<figure></figure>").flatten = z
      intro hp
      have h9 : ∀ j < 17, ¬ (b!"<figcaption".take 5 <+: b!"<figure></figure>".drop j ∨ b!"<figure></figure>".drop j <+: b!"<fig") := by decide
      have hj : t' = b!"<figure></figure>".drop a.length := by rw [← ha]; simp
      have hl : a.length < 17 := by
        have := congrArg List.length ha
        rw [List.length_append, show b!"<figure></figure>".length = 17 from rfl] at this
        have : 0 < t'.length := List.length_pos_iff.2 hne
        omega
      have h5 : b!"<figcaption".take 5 <+: t' ++ z := (List.take_prefix 5 _).trans hp
      rcases List.prefix_or_prefix_of_prefix h5 (List.prefix_append t' z) with h | h
      · exact h9 _ hl (Or.inl (hj ▸ h))
      · refine h9 _ hl (Or.inr ?_)
        rw [← hj]
        rcases List.prefix_or_prefix_of_prefix h (show b!"<fig" <+: b!"<figcaption".take 5 by decide) with h' | h'
        · exact h'
        · exfalso
          obtain ⟨q, hq⟩ := h
          obtain ⟨r, hr⟩ := h'
          have h17 : ∀ j < 17, b!"<figure></figure>".drop j ≠ b!"<figc" := by decide
          have := congrArg List.length hq
          rw [List.length_append, ← hr, List.length_append] at this
          have e4 : b!"<fig".length = 4 := rfl
          have e5 : (b!"<figcaption".take 5).length = 5 := rfl
          cases q with
          | nil =>
            rw [List.append_nil] at hq
            exact h17 _ hl (hj ▸ hq)
          | cons q0 q =>
            cases r with
            | nil =>
              rw [List.append_nil] at hr
              have h4 : ∀ j < 17, b!"<figure></figure>".drop j ≠ b!"<fig" := by decide
              exact h4 _ hl (hj ▸ hr.symm)
            | cons r0 r =>
              simp only [List.length_cons] at this
              omega
  have hlen : ∀ (n : Nat) (s : Bytes), ((List.replicate n s).flatten).length = n * s.length := by
    intro n s
    induction n with
    | zero => simp
    | succ n ih => rw [List.replicate_succ, List.flatten_cons, List.length_append, ih, Nat.succ_mul, Nat.add_comm]
  refine ⟨_, hg n, fun ids => labelled_figures ids n [], hf n, fun h => ?_⟩
  obtain ⟨o, ho, hb⟩ := label_val (html (List.replicate n [((b!"figure" : Bytes), ([] : Bytes)), (b!"/figure", [])]).flatten)
  rw [h] at ho
  cases ho
  rw [hf n, hcap] at hb
  simp only [capacity] at hb
  rw [hlen, hlen, show b!"<figure role=\"figure\"></figure>".length = 31 from rfl, show b!"<figure></figure>".length = 17 from rfl] at hb
  omega

/-- A caption below a table gets no ID, and the table no reference to it, if the table has about 200 bytes. -/
theorem C155_caption_below_refuted :
    let cells := List.flatten [b!"<tr><td>0123456789</td></tr>", b!"<tr><td>0123456789</td></tr>", b!"<tr><td>0123456789</td></tr>", b!"<tr><td>0123456789</td></tr>",
      b!"<tr><td>0123456789</td></tr>", b!"<tr><td>0123456789</td></tr>", b!"<tr><td>0123456789</td></tr>"]
    label (b!"<figure class=\"table-figure\"><table>" ++ cells ++ b!"</table><figcaption>T</figcaption></figure>") =
      .val (b!"<figure class=\"table-figure\" role=\"figure\"><table role=\"table\">" ++ cells ++ b!"</table><figcaption>T</figcaption></figure>") ∧
    label b!"<figure class=\"table-figure\"><table><tr><td>0</td></tr></table><figcaption>T</figcaption></figure>" =
      .val (b!"<figure class=\"table-figure\" role=\"figure\"><table role=\"table\" aria-describedby=\"table-caption-1\"><tr><td>0</td></tr></table>" ++
        b!"<figcaption id=\"table-caption-1\">T</figcaption></figure>") := by
  decide +kernel

/-- The ID of a caption in single quotation marks runs on to the next double quotation mark of the page. -/
theorem C155_single_quotes_refuted :
    label b!"<figure class=\"table-figure\"><figcaption id='t'>T</figcaption><table></table><p title=\"a\"></p></figure>" =
      .val (b!"<figure class=\"table-figure\" role=\"figure\"><figcaption id='t'>T</figcaption><table role=\"table\" " ++
        b!"aria-describedby=\"t'>T</figcaption><table></table><p title=\"></table><p title=\"a\"></p></figure>") := by
  decide +kernel

/-- A page that meets the hypotheses of `C155_labelled_partial`, and what becomes of it. -/
example : let l : Tags := [(b!"nav class=\"toc\"", []), (b!"/nav", b!"\n"), (b!"figure class=\"table-figure\"", []), (b!"figcaption", b!"One"), (b!"/figcaption", []),
      (b!"table", b!"x"), (b!"/table", []), (b!"/figure", []), (b!"figure class=\"table-figure\"", []), (b!"figcaption id=\"two\"", b!"Two"), (b!"/figcaption", []),
      (b!"table role=\"grid\"", b!"y"), (b!"/table", []), (b!"/figure", [])]
    Good l ∧ label (b!"Text" ++ html l) = .val (b!"Text<nav class=\"toc\" aria-label=\"Table of contents\"></nav>\n<figure class=\"table-figure\" role=\"figure\">" ++
      b!"<figcaption id=\"table-caption-1\">One</figcaption><table role=\"table\" aria-describedby=\"table-caption-1\">x</table></figure>" ++
      b!"<figure class=\"table-figure\" role=\"figure\"><figcaption id=\"two\">Two</figcaption><table role=\"grid\" aria-describedby=\"two\">y</table></figure>") := by
  refine ⟨?_, by decide +kernel⟩
  intro x hx
  simp only [List.mem_cons, List.not_mem_nil, or_false] at hx
  rcases hx with rfl | rfl | rfl | rfl | rfl | rfl | rfl | rfl | rfl | rfl | rfl | rfl | rfl | rfl
  case inr.inr.inr.inr.inr.inr.inr.inr.inr.inl =>
    refine ⟨by decide, by decide, by decide, fun _ => ⟨by decide, fun a v h => ?_⟩⟩
    have hl := congrArg List.getLast? h
    cases v with
    | nil =>
      have h2 := congrArg List.reverse h
      simp only [List.append_nil, List.reverse_append] at h2
      exact absurd (congrArg (List.take 2) h2) (by simp)
    | cons c v =>
      rw [List.getLast?_append, show ((b!"figcaption id=\"two\"" : Bytes)).getLast? = some c!"\"" from rfl] at hl
      have : (c :: v).getLast? = some c!"\"" := by
        cases hv : (c :: v).getLast? with
        | none => simp at hv
        | some z => rw [hv] at hl; simpa using hl.symm
      exact List.mem_of_getLast? this
  case inr.inr.inr.inl =>
    refine ⟨by decide, by decide, by decide, fun _ => ⟨by decide, fun a v h => ?_⟩⟩
    exact absurd (show b!"id=\"" <:+: b!"figcaption" from ⟨a, v, h.symm⟩) (by decide)
  all_goals exact ⟨by decide, by decide, by decide, fun h => absurd h (by decide)⟩

end Verif.Aria
