/- Theorems about callouts on a terminal. -/
import Verif.Proof.TermCallouts

namespace Verif.TermCallouts
open Term
open Callouts (Head readHead opening ending)
open Embed (find)
open Spec (type)

/-! C263: a callout on a terminal shows its type and its title, and nothing of its HTML. -/

/-- Missing: titles with `<`, of more than 900 bytes or with the words the writer looks for, where it fails. -/
theorem C263_partial {text : Bytes} {h : Head} (hh : readHead text = some h) (h0 : Spec.title h ≠ []) (ht : c!"<" ∉ Spec.title h) (hc : ¬ b!"callout-content" <:+: Spec.title h)
    (hl : (Spec.title h).length ≤ 900) (o : Opt) (indent : Nat) (out : Bytes) :
    htmlBlock o indent out (opening h) = .val (out ++ type o indent h ++ b!" " ++ Spec.title h ++ b!"\n") ∧ htmlBlock o indent out (ending h) = .val (padded out) := by
  have hn := name_of hh
  constructor
  · have hd1 := no_def hn hl ht (.inl rfl)
    have hd2 := no_def hn hl ht (.inr (.inl rfl))
    have hd3 := no_def hn hl ht (.inr (.inr rfl))
    have hs : h.fold = none → find b!"<summary>" (opening h) = none := by
      intro hf
      refine no_tag hn hl ht (w := b!"summary>") (by decide) ?_ ?_ ?_ (by decide)
      · unfold front
        rw [hf]
        simp
      · unfold tag
        rw [hf]
        simp
      · unfold close
        rw [hf]
        simp
    have hcont : calloutContent (opening h) = .val [] := by
      have e : opening h = (first h ++ b!"callout-" ++ (h.name ++ rest h (Spec.title h ++ c!"<" :: (close h ++ c!"<" :: b!"div class=\"")))) ++ b!"callout-content" ++ b!"\">\n" := by
        rw [opening_parts hn hl]
        unfold rest
        cases h.fold <;> simp
      unfold calloutContent
      rw [e, Liquid.find_free (by simp) border_content _ _ (front_content hn (by
        intro hi
        rcases Remote.infix_split (by decide) hi with hi | hi
        · exact hc hi
        · rcases Remote.infix_split (by decide) hi with hi | hi
          · unfold close at hi
            revert hi
            split <;> decide
          · revert hi
            decide))]
      rfl
    have htitle := title_start hn true (Spec.title h ++ b!"<" ++ close h ++ b!"<div class=\"callout-content\">\n") (by rw [← opening_parts hn hl]; exact hs)
    have htype := type_eq hn o indent (Spec.title h ++ b!"<" ++ close h ++ b!"<div class=\"callout-content\">\n")
    have hcal := callout_some h (h.name ++ rest h (Spec.title h ++ b!"<" ++ close h ++ b!"<div class=\"callout-content\">\n"))
    rw [← opening_parts hn hl] at htitle htype hcal
    have hf : ∃ r, find b!"</" (Spec.title h ++ b!"<" ++ close h ++ b!"<div class=\"callout-content\">\n") = some (Spec.title h, r) := by
      have hcl : ∃ r, close h = c!"/" :: r := by
        unfold close
        split <;> exact ⟨_, rfl⟩
      obtain ⟨r, hr⟩ := hcl
      have := (Embed.find_eq (d := c!"<") (w := b!"/") (by decide) (Spec.title h) (r ++ b!"<div class=\"callout-content\">\n")).mpr fun hi => ht (hi.subset (by simp))
      refine ⟨r ++ b!"<div class=\"callout-content\">\n", ?_⟩
      rw [← this, hr]
      simp
    obtain ⟨r, hf⟩ := hf
    rw [hf] at htitle
    obtain ⟨c, u, hu⟩ := List.exists_cons_of_ne_nil h0
    simp only [hu] at htitle
    rw [← hu, title_plain ht] at htitle
    unfold htmlBlock
    rw [hd1, hd2, hd3, hcal, htype]
    simp only [Option.isSome_none, Bool.or_self, Bool.false_eq_true, if_false, if_true, Option.isSome_some, htitle, hcont, C.val_bind, Option.getD_some]
    simp
  · unfold ending
    have h1 : plainHtml false true b!"\n</div>\n</details>" = [] := by decide
    have h2 : plainHtml false true b!"\n</div>\n</div>" = [] := by decide
    unfold htmlBlock
    split
    · rw [if_neg (by decide), if_neg (by decide), h1, List.append_nil]
    · rw [if_neg (by decide), if_neg (by decide), h2, List.append_nil]

theorem C263_case : readHead b!"[!TIP]+ Save often" = some ⟨b!"tip", some true, some b!"Save often"⟩ ∧ readHead b!"[!Note]" = some ⟨b!"note", none, none⟩ ∧
    htmlBlock {} 0 [] (opening ⟨b!"note", none, none⟩) = .val (type {} 0 ⟨b!"note", none, none⟩ ++ b!" note\n") :=
  ⟨by decide +kernel, by decide +kernel, by decide +kernel⟩

/-- Of a title that is too long nothing is seen, and the type is on the line of the text. -/
theorem C263_long_fails {text : Bytes} {h : Head} (hh : readHead text = some h) (ht : c!"<" ∉ Spec.title h) (hc : ¬ b!"callout-content" <:+: Spec.title h)
    (hl : 1023 ≤ (Spec.title h).length) (o : Opt) (indent : Nat) (out : Bytes) : htmlBlock o indent out (opening h) = .val (out ++ type o indent h) := by
  have hn := name_of hh
  have hp := names_plain _ hn
  have e : ∃ t, t <+: Spec.title h ∧ opening h = first h ++ b!"callout-" ++ (h.name ++ rest h t) := by
    unfold opening first rest Spec.title
    cases hf : h.fold with
    | none =>
      refine ⟨(h.title.getD h.name).take (1023 - (b!"<div class=\"callout callout-" ++ h.name ++ b!"\">\n<div class=\"callout-title\">").length), List.take_prefix _ _, ?_⟩
      simp only
      rw [List.append_assoc (_ ++ _) (h.title.getD h.name), List.take_append, List.take_of_length_le (by simp; omega),
        List.take_append_of_le_length (by unfold Spec.title at hl; omega)]
      simp
    | some b =>
      refine ⟨(h.title.getD h.name).take (1023 - (b!"<details class=\"callout callout-" ++ h.name ++ b!"\"" ++ (if b then b!" open" else b!"") ++ b!">\n<summary>").length), List.take_prefix _ _, ?_⟩
      simp only
      rw [List.append_assoc (_ ++ _) (h.title.getD h.name), List.take_append, List.take_of_length_le (by cases b <;> simp <;> omega),
        List.take_append_of_le_length (by unfold Spec.title at hl; omega)]
      simp
  obtain ⟨t, htp, e⟩ := e
  have htl : c!"<" ∉ t := fun hm => ht (htp.subset hm)
  have hch : first h ++ b!"callout-" ++ (h.name ++ rest h t) = (front h ++ [tag h ++ t]).flatMap (b!"<" ++ ·) := by
    unfold first front rest tag
    cases h.fold <;> simp
  have hfl := front_lt hn
  have none_of : ∀ w : Bytes, c!"<" ∉ w → (∀ x ∈ front h, ¬ w <+: x) → ¬ w <+: tag h ++ t → find (c!"<" :: w) (opening h) = none := by
    intro w hw h1 h2
    rw [Embed.find_none (by simp), e, hch]
    intro hi
    obtain ⟨x, hx, hpx⟩ := ImgCaptions.infix_chunks hw _ (by
      intro x hx
      simp only [List.mem_append, List.mem_cons, List.not_mem_nil, or_false] at hx
      rcases hx with hx | rfl
      · exact hfl x hx
      · unfold tag
        cases h.fold <;> simp [htl]) hi
    simp only [List.mem_append, List.mem_cons, List.not_mem_nil, or_false] at hx
    rcases hx with hx | rfl
    · exact h1 x hx hpx
    · exact h2 hpx
  have no : ∀ w : Bytes, w = b!"dl>" ∨ w = b!"dt>" ∨ w = b!"dd>" → find (c!"<" :: w) (opening h) = none := by
    intro w hw
    refine none_of w (by rcases hw with rfl | rfl | rfl <;> decide) ?_ ?_
    · unfold front
      cases h.fold <;> (intro x hx; simp only [List.mem_singleton] at hx; subst hx; rcases hw with rfl | rfl | rfl <;> simp)
    · unfold tag
      cases h.fold <;> (rcases hw with rfl | rfl | rfl <;> simp)
  have hs : h.fold = none → find b!"<summary>" (opening h) = none := by
    intro hf
    refine none_of b!"summary>" (by decide) ?_ ?_
    · unfold front
      rw [hf]
      simp
    · unfold tag
      rw [hf]
      simp
  have htitle := title_start hn true t (by rw [← e]; exact hs)
  have hnt : find b!"</" t = none := (Embed.find_none (by simp)).mpr fun hi => htl (hi.subset (by simp))
  have hcont := content_none (front_content hn (t := t) fun hi => hc (hi.trans htp.isInfix))
  have htype := type_eq hn o indent t
  have hcal := callout_some h (h.name ++ rest h t)
  rw [hnt] at htitle
  rw [← e] at htitle hcont htype hcal
  unfold htmlBlock
  rw [no _ (.inl rfl), no _ (.inr (.inl rfl)), no _ (.inr (.inr rfl)), hcal, htype]
  simp only [Option.isSome_none, Bool.or_self, Bool.false_eq_true, if_false, if_true, Option.isSome_some, htitle, hcont, C.val_bind, Option.getD_some]
  simp

/-- Of a title with `<` only what is in front of it is seen. -/
theorem C263_fails : readHead b!"[!NOTE] For x < 3" = some ⟨b!"note", none, some b!"For x < 3"⟩ ∧
    htmlBlock {} 0 [] (opening ⟨b!"note", none, some b!"For x < 3"⟩) = .val (type {} 0 ⟨b!"note", none, none⟩ ++ b!" For x \n") :=
  ⟨by decide +kernel, by decide +kernel⟩

end Verif.TermCallouts
