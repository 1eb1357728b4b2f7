/- Lemmas about callouts on a terminal. -/
import Verif.Spec.TermCallouts
import Verif.Proof.Embed
import Verif.Proof.Liquid
import Verif.Proof.ImgCaptions
import Verif.Proof.Remote
import Verif.Proof.FencedDivs

namespace Verif.TermCallouts
open Term
open Callouts (Head readHead opening ending)
open Embed (find)
open Spec

/-- The names of the types. -/
def names : List Bytes := Callouts.words.map (·.2)

theorem name_of {text : Bytes} {h : Head} (hh : readHead text = some h) : h.name ∈ names := by
  unfold readHead at hh
  split at hh
  · simp only at hh
    split at hh
    · cases hh
    · split at hh
      · cases hh
      · obtain ⟨n, hn, e⟩ := Option.map_eq_some_iff.mp hh
        rw [← e]
        unfold Callouts.typeName at hn
        split at hn
        · cases hn
        · obtain ⟨w, hw, rfl⟩ := Option.map_eq_some_iff.mp hn
          exact List.mem_map.mpr ⟨w, List.mem_of_find?_eq_some hw, rfl⟩
  · cases hh

theorem names_plain : ∀ n ∈ names, n ≠ [] ∧ n.length ≤ 8 ∧ ∀ c ∈ n, c ≠ c!" " ∧ c ≠ c!"\"" ∧ c ≠ c!">" ∧ c ≠ c!"<" := by decide +kernel

/-- What is between the brackets of tags. -/
def front (h : Head) : List Bytes :=
  match h.fold with
  | some isOpen => [b!"details class=\"callout callout-" ++ h.name ++ b!"\"" ++ (if isOpen then b!" open" else b!"") ++ b!">\n"]
  | none => [b!"div class=\"callout callout-" ++ h.name ++ b!"\">\n"]

/-- The tag in front of the title. -/
def tag (h : Head) : Bytes := if h.fold.isSome then b!"summary>" else b!"div class=\"callout-title\">"

/-- What is behind the title. -/
def close (h : Head) : Bytes := if h.fold.isSome then b!"/summary>\n" else b!"/div>\n"

theorem opening_eq {h : Head} (hn : h.name ∈ names) (hl : (title h).length ≤ 900) :
    opening h = (front h ++ [tag h ++ title h, close h, b!"div class=\"callout-content\">\n"]).flatMap (b!"<" ++ ·) := by
  have hn := (names_plain _ hn).2.1
  unfold opening front tag close
  unfold Spec.title at hl ⊢
  cases h.fold with
  | none =>
    simp only
    rw [List.take_of_length_le]
    · simp
    · simp
      omega
  | some b =>
    simp only
    rw [List.take_of_length_le]
    · simp
    · cases b <;> simp <;> omega

theorem front_lt {h : Head} (hn : h.name ∈ names) : ∀ x ∈ front h, c!"<" ∉ x := by
  have hp := (names_plain _ hn).2.2
  have : c!"<" ∉ h.name := fun hm => (hp _ hm).2.2.2 rfl
  unfold front
  cases h.fold with
  | none =>
    intro x hx
    simp only [List.mem_singleton] at hx
    subst hx
    simp [this]
  | some b =>
    intro x hx
    simp only [List.mem_singleton] at hx
    subst hx
    cases b <;> simp [this]

theorem chunks_lt {h : Head} (hn : h.name ∈ names) (ht : c!"<" ∉ title h) :
    ∀ x ∈ front h ++ [tag h ++ title h, close h, b!"div class=\"callout-content\">\n"], c!"<" ∉ x := by
  intro x hx
  simp only [List.mem_append, List.mem_cons, List.not_mem_nil, or_false] at hx
  rcases hx with hx | rfl | rfl | rfl
  · exact front_lt hn x hx
  · unfold tag
    cases h.fold <;> simp [ht]
  · unfold close
    cases h.fold <;> simp
  · decide

/-- A tag that none of the parts begins with is not found. -/
theorem no_tag {h : Head} (hn : h.name ∈ names) (hl : (title h).length ≤ 900) (ht : c!"<" ∉ title h) {w : Bytes} (hw : c!"<" ∉ w)
    (h1 : ∀ x ∈ front h, ¬ w <+: x) (h2 : ¬ w <+: tag h ++ title h) (h3 : ¬ w <+: close h) (h4 : ¬ w <+: b!"div class=\"callout-content\">\n") :
    find (c!"<" :: w) (opening h) = none := by
  rw [Embed.find_none (by simp), opening_eq hn hl]
  intro hi
  obtain ⟨x, hx, hp⟩ := ImgCaptions.infix_chunks hw _ (chunks_lt hn ht) hi
  simp only [List.mem_append, List.mem_cons, List.not_mem_nil, or_false] at hx
  rcases hx with hx | rfl | rfl | rfl
  · exact h1 x hx hp
  · exact h2 hp
  · exact h3 hp
  · exact h4 hp

/-- A tag of two bytes and a bracket. -/
theorem no_def {h : Head} (hn : h.name ∈ names) (hl : (title h).length ≤ 900) (ht : c!"<" ∉ title h) {w : Bytes} (hw : w = b!"dl>" ∨ w = b!"dt>" ∨ w = b!"dd>") :
    find (c!"<" :: w) (opening h) = none := by
  refine no_tag hn hl ht ?_ ?_ ?_ ?_ ?_
  · rcases hw with rfl | rfl | rfl <;> decide
  · unfold front
    cases h.fold <;> (intro x hx; simp only [List.mem_singleton] at hx; subst hx; rcases hw with rfl | rfl | rfl <;> simp)
  · unfold tag
    cases h.fold <;> (rcases hw with rfl | rfl | rfl <;> simp)
  · unfold close
    cases h.fold <;> (rcases hw with rfl | rfl | rfl <;> simp)
  · rcases hw with rfl | rfl | rfl <;> decide

theorem border_type : ∀ k < b!"callout-".length, 0 < k → ¬ b!"callout-".drop k <+: b!"callout-" := by decide
theorem border_title : ∀ k < b!"callout-title".length, 0 < k → ¬ b!"callout-title".drop k <+: b!"callout-title" := by decide
theorem border_content : ∀ k < b!"callout-content".length, 0 < k → ¬ b!"callout-content".drop k <+: b!"callout-content" := by decide
theorem border_summary : ∀ k < b!"<summary>".length, 0 < k → ¬ b!"<summary>".drop k <+: b!"<summary>" := by decide
theorem border_callout : ∀ k < b!"callout".length, 0 < k → ¬ b!"callout".drop k <+: b!"callout" := by decide

/-- What is behind the name of the type. -/
def rest (h : Head) (t : Bytes) : Bytes :=
  match h.fold with
  | some isOpen => b!"\"" ++ (if isOpen then b!" open" else b!"") ++ b!">\n<summary>" ++ t
  | none => b!"\">\n<div class=\"callout-title\">" ++ t

/-- The first tag. -/
def first (h : Head) : Bytes := if h.fold.isSome then b!"<details class=\"callout " else b!"<div class=\"callout "

/-- The type is found in each text with this beginning. -/
theorem type_eq {h : Head} (hn : h.name ∈ names) (o : Opt) (indent : Nat) (t : Bytes) :
    calloutType o indent (first h ++ b!"callout-" ++ (h.name ++ rest h t)) = some (type o indent h) := by
  have hp := names_plain _ hn
  unfold calloutType
  rw [Liquid.find_free (by simp) border_type _ _ (by unfold first; split <;> decide)]
  have hw : (h.name ++ rest h t).takeWhile (fun c => c ≠ c!" " && c ≠ c!"\"" && c ≠ c!">") = h.name := by
    have hr : ∃ r, rest h t = c!"\"" :: r := by
      unfold rest
      cases h.fold <;> exact ⟨_, rfl⟩
    obtain ⟨r, hr⟩ := hr
    rw [hr, List.takeWhile_append_of_pos]
    · simp
    · intro c hc
      have := hp.2.2 c hc
      simp [this]
  simp only
  rw [hw]
  obtain ⟨c, u, hu⟩ := List.exists_cons_of_ne_nil hp.1
  unfold type
  rw [hu]
  rfl

theorem callout_some (h : Head) (t : Bytes) : (find b!"callout" (first h ++ b!"callout-" ++ t)).isSome = true := by
  cases hf : find b!"callout" (first h ++ b!"callout-" ++ t) with
  | some x => rfl
  | none =>
    rw [Embed.find_none (by simp)] at hf
    exact absurd ⟨first h, b!"-" ++ t, by simp⟩ hf

/-- The opening in the parts the writer looks at. -/
theorem opening_parts {h : Head} (hn : h.name ∈ names) (hl : (Spec.title h).length ≤ 900) :
    opening h = first h ++ b!"callout-" ++ (h.name ++ rest h (Spec.title h ++ b!"<" ++ close h ++ b!"<div class=\"callout-content\">\n")) := by
  rw [opening_eq hn hl]
  unfold first front rest tag close
  cases h.fold <;> simp

theorem title_plain : ∀ {s : Bytes}, c!"<" ∉ s → Term.title false s = s
  | [], _ => rfl
  | c :: s, hs => by
    simp only [List.mem_cons, not_or] at hs
    rw [Term.title, if_neg (by simp), if_neg (fun e => hs.1 e.symm), title_plain hs.2]

/-- A text in front of the title, in which the marks of a title are not found before. -/
theorem no_title : ∀ n ∈ names, ¬ b!"callout-title" <:+: b!"<div class=\"callout callout-" ++ n ++ b!"\">\n<div class=\"" := by decide +kernel
theorem no_summary : ∀ n ∈ names, ∀ b : Bool, ¬ b!"<summary>" <:+: b!"<details class=\"callout callout-" ++ n ++ b!"\"" ++ (if b then b!" open" else b!"") ++ b!">\n" := by decide +kernel
theorem no_content : ∀ n ∈ names, ¬ b!"callout-content" <:+: b!"<div class=\"callout callout-" ++ n ++ b!"\">\n<div class=\"callout-title\"" := by decide +kernel
theorem no_content' : ∀ n ∈ names, ∀ b : Bool, ¬ b!"callout-content" <:+: b!"<details class=\"callout callout-" ++ n ++ b!"\"" ++ (if b then b!" open" else b!"") ++ b!">\n<summary" := by decide +kernel

/-- The title begins where the writer looks for it, if there is no other `<summary>`. -/
theorem title_start {h : Head} (hn : h.name ∈ names) (found : Bool) (t : Bytes)
    (hs : h.fold = none → find b!"<summary>" (first h ++ b!"callout-" ++ (h.name ++ rest h t)) = none) :
    calloutTitle found (first h ++ b!"callout-" ++ (h.name ++ rest h t)) =
      match find b!"</" t with
      | some (c :: u, _) => .val ((if found then b!" " else []) ++ Term.title false (c :: u) ++ b!"\n")
      | _ => .val [] := by
  unfold calloutTitle
  cases hf : h.fold with
  | none =>
    have e : first h ++ b!"callout-" ++ (h.name ++ rest h t) =
        (b!"<div class=\"callout callout-" ++ h.name ++ b!"\">\n<div class=\"") ++ b!"callout-title" ++ (b!"\">" ++ t) := by
      unfold first rest
      rw [hf]
      simp
    rw [hs hf, e, Liquid.find_free (by simp) border_title _ _ (no_title _ hn)]
    have hb : behind (b!"\">" ++ t) = .val t := by
      unfold behind
      have := FencedDivs.find_byte c!">" b!"\"" t (by decide)
      simp only [List.cons_append, List.nil_append] at this ⊢
      rw [this]
    simp only [hb, C.val_bind]
    rfl
  | some b =>
    have e : first h ++ b!"callout-" ++ (h.name ++ rest h t) =
        (b!"<details class=\"callout callout-" ++ h.name ++ b!"\"" ++ (if b then b!" open" else b!"") ++ b!">\n") ++ b!"<summary>" ++ t := by
      unfold first rest
      rw [hf]
      simp
    rw [e, Liquid.find_free (by simp) border_summary _ _ (no_summary _ hn b)]
    simp only [C.val_bind]
    rfl

/-- In front of a title without the words there is no text of a callout. -/
theorem front_content {h : Head} (hn : h.name ∈ names) {t : Bytes} (ht : ¬ b!"callout-content" <:+: t) :
    ¬ b!"callout-content" <:+: first h ++ b!"callout-" ++ (h.name ++ rest h t) := by
  cases hf : h.fold with
  | none =>
    have e : first h ++ b!"callout-" ++ (h.name ++ rest h t) =
        (b!"<div class=\"callout callout-" ++ h.name ++ b!"\">\n<div class=\"callout-title\"") ++ c!">" :: t := by
      unfold first rest
      rw [hf]
      simp
    rw [e]
    intro hi
    rcases Remote.infix_split (by decide) hi with hi | hi
    · exact no_content _ hn hi
    · exact ht hi
  | some b =>
    have e : first h ++ b!"callout-" ++ (h.name ++ rest h t) =
        (b!"<details class=\"callout callout-" ++ h.name ++ b!"\"" ++ (if b then b!" open" else b!"") ++ b!">\n<summary") ++ c!">" :: t := by
      unfold first rest
      rw [hf]
      simp
    rw [e]
    intro hi
    rcases Remote.infix_split (by decide) hi with hi | hi
    · exact no_content' _ hn b hi
    · exact ht hi

theorem content_none {s : Bytes} (h : ¬ b!"callout-content" <:+: s) : calloutContent s = .val [] := by
  unfold calloutContent
  rw [(Embed.find_none (by simp)).mpr h]

end Verif.TermCallouts
