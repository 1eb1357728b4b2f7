/-
C27 (edit distance), C28 (best suggestion), C63 (autocorrection of names), C64 (replacement in text).
-/
import Verif.Proof.Emoji

namespace Verif.Emoji

open Spec

/-- **C27**: the computed distance is the least number of insertions, deletions and substitutions. -/
theorem C27_edit_distance (a b : Bytes) : Distance a b (levenshtein a b) := levenshtein_distance a b

example : Distance b!"smlie" b!"smile" 2 :=
  (show levenshtein b!"smlie" b!"smile" = 2 by decide +kernel) ▸ C27_edit_distance _ _

/-- **C28**: the suggestion for a name (its normal form, cut to 63 bytes) is a known name within the limit,
no known name is closer and no equally close one is shorter; it is the first of those.  There is no
suggestion exactly when every known name is further away than the limit. -/
theorem C28_best (tab : List Entry) (name : Bytes) (limit : Nat) (hc : c!":" ∉ name) :
    (∀ m, best tab name limit = some m → Best (tab.map (·.name)) (folded (name.take 63)) limit m) ∧
    (best tab name limit = none ↔
      ∀ m ∈ tab.map (·.name), ∀ d, Distance (folded (name.take 63)) m d → limit < d) := by
  have hb := best_spec tab name limit
  rw [normalize_eq fun h => hc (List.take_subset _ _ h)] at hb
  constructor
  · intro m hm
    rw [hm] at hb
    exact hb
  · constructor
    · intro hm m hmem d hd
      rw [hm] at hb
      rw [distance_iff] at hd
      subst hd
      exact hb m hmem
    · intro h
      cases hm : best tab name limit with
      | none => rfl
      | some m =>
        exfalso
        rw [hm] at hb
        obtain ⟨p, q, d, he, hd, hl, _⟩ := hb
        have := h m (by rw [he]; simp) d hd
        omega

example : best table b!"smlie" 4 = some b!"smile" := by decide +kernel

/-- **C63**: for every text but the empty one, `apex_autocorrect_emoji_names` stays inside its buffer and
returns the text with the names corrected and nothing else changed (the table must contain a name of one
character, which is what keeps the replacements short enough). -/
theorem C63_autocorrect_partial (tab : List Entry) (x : Byte) (hx : [x] ∈ tab.map (·.name)) (text : Bytes)
    (h : text ≠ []) : ∃ out, Corrected (tab.map (·.name)) text out ∧ autocorrect tab text = .val out := by
  unfold autocorrect
  have := correctLoop_val hx (cap := text.length * 2) text.length text (Nat.le_refl _) []
    (by simp; omega) (fun h' => absurd h' h)
  simpa using this

/-- … in particular with the real table. -/
theorem C63_autocorrect (text : Bytes) (h : text ≠ []) :
    ∃ out, Corrected (table.map (·.name)) text out ∧ autocorrect table text = .val out :=
  C63_autocorrect_partial table c!"x" (by decide +kernel) text h

/-- A name that is known and in normal form is left alone. -/
theorem C63_fixed (tab : List Entry) (name : Bytes) (hn : IsName blanks name) (ha : ¬ Align name)
    (hk : folded name = name) (hm : name ∈ tab.map (·.name)) (new : Bytes)
    (h : NewName (tab.map (·.name)) name new) : new = name := by
  cases h with
  | align h => rfl
  | known _ _ => exact hk
  | best _ h _ => rw [hk] at h; exact absurd hm h
  | unknown _ _ _ => rfl

/-- **C63 is false as stated**: names of the table that contain a hyphen are not recognised, and the first
correction offered for `:-1:` (thumbs down) is its opposite; and on the empty text the terminator is
written into a buffer of no bytes. -/
theorem C63_fails :
    b!"-1" ∈ table.map (·.name) ∧
    autocorrect table b!"I vote :-1:" = .val b!"I vote :+1:" ∧
    autocorrect table [] = .ub := by
  refine ⟨by decide +kernel, ?_, by decide +kernel⟩
  decide +kernel

/-- **C64**: whenever the replaced text fits into the buffer, `apex_replace_emoji_text` returns it, with
everything but the emoji names unchanged; and it never leaves its buffer. -/
theorem C64_replace_partial (tab : List Entry) (text out : Bytes) (h : Replaced tab text out)
    (hl : out.length ≤ 2 * text.length + 15) : replaceText tab text = .val out := by
  unfold replaceText
  have := textLoop_val h (cap := text.length * 2 + 16) [] (by simp; omega)
  simpa using this

example : Replaced table b!"Hi :smile:!" (b!"Hi " ++ [240, 159, 152, 132] ++ b!"!") := by
  have nocolon : ∀ c (t : Bytes), c ≠ c!":" →
      ¬ ∃ name u rest, IsName blanks4 name ∧ Picture table name u ∧ c :: t = pattern name ++ rest := by
    rintro c t hc ⟨name, u, rest, _, _, h⟩
    simp [pattern] at h
    exact hc h.1
  refine .byte (nocolon _ _ (by decide)) (.byte (nocolon _ _ (by decide)) (.byte (nocolon _ _ (by decide)) ?_))
  refine .name (name := b!"smile") (rest := b!"!") (u := [240, 159, 152, 132]) (out := b!"!")
    ⟨by decide, by decide, by decide, by decide⟩ ?_ (.byte (nocolon _ _ (by decide)) .nil)
  exact (picture_iff ⟨by decide, by decide, by decide, by decide⟩ _).2 (.inr ⟨by decide, by decide +kernel⟩)

/-- There is such a text for every input. -/
theorem C64_replaced_exists (tab : List Entry) (text : Bytes) : ∃ out, Replaced tab text out :=
  replaced_exists tab _ text (Nat.le_refl _)

theorem C64_safe (tab : List Entry) (text : Bytes) : ∃ out, replaceText tab text = .val out :=
  textLoop_safe tab _ _ text (Nat.le_refl _) [] (by simp)

/-- **C64 is false as stated**: the buffer is too small for many short names, and the end of the text is
lost - here 40 times `:b:` and a sentence behind it. -/
theorem C64_text_lost : ∃ out,
    replaceText table ((List.replicate 40 b!":b:").flatten ++ b!" The end.") = .val out ∧
    ¬ b!"end." <:+: out := by
  refine ⟨_, show replaceText table ((List.replicate 40 b!":b:").flatten ++ b!" The end.") =
    .val ((List.replicate 39 [240, 159, 133, 177, 239, 184, 143]).flatten) by decide +kernel, ?_⟩
  decide +kernel

end Verif.Emoji
