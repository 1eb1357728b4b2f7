/-
C23-C25: metadata lookup, merging, variables.
-/
import Verif.Proof.Metadata

namespace Verif.Metadata

open Spec Transforms.Spec

/-! ### C23: lookup -/

/-- A value is returned exactly when some entry's (non-empty) key equals the requested (non-empty)
key up to case and white space; the first entry equal up to case wins, and only if there is none the
first one equal up to case and white space. -/
theorem C23_lookup (md : Meta) (key : Bytes) (hne : key ≠ []) :
    ((∃ v, get md key = some v) ↔ ∃ it ∈ md, it.1 ≠ [] ∧ SameKey it.1 key) ∧
    (∀ v, get md key = some v →
      (∃ k, IsFirst md (fun k => k ≠ [] ∧ SameCase k key) k v) ∨
      ((∀ it ∈ md, ¬ (it.1 ≠ [] ∧ SameCase it.1 key)) ∧
        ∃ k, IsFirst md (fun k => k ≠ [] ∧ SameKey k key) k v)) := by
  have hl : key.length ≠ 0 := fun h => hne (List.length_eq_zero_iff.1 h)
  have second : ∀ v, get md key = some v →
      (∃ k, IsFirst md (fun k => k ≠ [] ∧ SameCase k key) k v) ∨
      ((∀ it ∈ md, ¬ (it.1 ≠ [] ∧ SameCase it.1 key)) ∧
        ∃ k, IsFirst md (fun k => k ≠ [] ∧ SameKey k key) k v) := by
    intro v h
    unfold get at h
    split at h
    · simp at h
    · split at h
      · rename_i w h1
        simp at h; subst h
        obtain ⟨k, _, hf⟩ := getCi_some h1
        exact .inl ⟨k, hf⟩
      · rename_i h1
        obtain ⟨k, _, hf⟩ := getNorm_some h
        exact .inr ⟨getCi_none h1, k, hf⟩
  refine ⟨⟨?_, ?_⟩, second⟩
  · rintro ⟨v, h⟩
    rcases second v h with ⟨k, pre, post, he, hp, _⟩ | ⟨_, k, pre, post, he, hp, _⟩
    · exact ⟨(k, v), by rw [he]; simp, hp.1, hp.2.sameKey⟩
    · exact ⟨(k, v), by rw [he]; simp, hp⟩
  · rintro ⟨it, hit, hp⟩
    have hmd : md ≠ [] := by rintro rfl; simp at hit
    unfold get
    rw [if_neg hmd, if_neg hl]
    cases h1 : getCi md key with
    | some v => exact ⟨v, rfl⟩
    | none =>
      cases h2 : getNorm md (normalizeKey key) with
      | some v => exact ⟨v, rfl⟩
      | none => exact absurd hp (getNorm_none h2 it hit)

/-- The empty key has no value. -/
theorem C23_empty_key (md : Meta) : get md [] = none := by simp [get]

example : get [(b!"html header level", b!"2"), (b!"HTMLHeaderLevel", b!"3")] b!"htmlHeaderlevel" =
    some b!"3" := by decide +kernel
example : get [(b!"html header level", b!"2")] b!"htmlHeaderlevel" = some b!"2" := by decide +kernel

/-! ### C24: merging -/

/-- When every list after the first is non-empty, no list defines a key twice, and a key is spelled
the same way (up to case) in all of them, a lookup in the merged list gives the value of the last
list that defines the key. -/
theorem C24_merge_partial (first : Meta) (rest : List Meta)
    (hn : ∀ l ∈ rest, l ≠ [])
    (hk : ∀ l ∈ first :: rest, Keyed l) (hd : ∀ l ∈ first :: rest, Distinct l)
    (hc : (first :: rest).Pairwise Consistent) (key : Bytes) (hne : key ≠ []) :
    get (merge first rest) key = lastValue (first :: rest) key := by
  rw [List.pairwise_cons] at hc
  have hkf := hk first (by simp)
  have hdf := hd first (by simp)
  unfold merge
  rw [copyList_eq, List.append_nil]
  have hk' : Keyed first.reverse := fun x hx => hkf x (by simpa using hx)
  have hd' : Distinct first.reverse := by
    unfold Distinct
    rw [List.pairwise_reverse]
    exact hdf.imp (fun h hs => h hs.symm)
  rw [mergeArgs_spec rest first.reverse hk' hd' ?_ hc.2 key hne, get_reverse hkf hdf hne]
  · rfl
  · intro l hl
    refine ⟨hn l hl, hk l (by simp [hl]), hd l (by simp [hl]), ?_⟩
    intro x hx y hy
    exact hc.1 l hl x (by simpa using hx) y hy

/-- The hypotheses are met by ordinary lists. -/
example : ∃ (a b : Meta), Keyed a ∧ Keyed b ∧ Distinct a ∧ Distinct b ∧ Consistent a b ∧ b ≠ [] ∧
    get (merge a [b]) b!"TITLE" = some b!"new" ∧ get (merge a [b]) b!"author" = some b!"me" := by
  refine ⟨[(b!"Title", b!"old"), (b!"author", b!"me")], [(b!"title", b!"new")], ?_, ?_, ?_, ?_, ?_,
    by decide, by decide +kernel, by decide +kernel⟩
  · unfold Keyed; decide
  · unfold Keyed; decide
  · unfold Distinct SameKey; decide +kernel
  · unfold Distinct; simp
  · unfold Consistent SameKey SameCase; decide +kernel

/-- What is missing from C24, 1: an empty list ends the argument list, so every later list is
ignored. -/
theorem C24_empty_list_stops (first : Meta) (before after : List Meta) :
    merge first (before ++ [] :: after) = merge first before := by
  unfold merge
  generalize copyList [] first = acc
  induction before generalizing acc with
  | nil => simp [mergeArgs]
  | cons l rest ih =>
    cases l with
    | nil => rfl
    | cons a b => exact ih _

/-- In particular the command line tool drops all metadata given on the command line when the
document itself has none. -/
theorem C24_cli_drops_command_line (file cmdline : Meta) :
    cliMerge file [] cmdline = file.reverse := by
  unfold cliMerge
  split
  · have := C24_empty_list_stops file [] [cmdline]
    simp only [List.nil_append] at this
    rw [this]
    simp [merge, mergeArgs, copyList_eq]
  · rename_i h
    simp only [not_or, Decidable.not_not] at h
    simp [h.1]

/-- What is missing from C24, 2: a key spelled with different spacing in an earlier list is still
found under the earlier spelling. -/
theorem C24_spacing_keeps_old :
    get (merge [(b!"html header level", b!"1")] [[(b!"HTMLHeaderLevel", b!"2")]])
      b!"HTML Header Level" = some b!"1" ∧
    get [(b!"HTMLHeaderLevel", b!"2")] b!"HTML Header Level" = some b!"2" := by decide +kernel

/-- What is missing from C24, 3: merging a single list reverses it, so a list that defines a key twice
changes its value. -/
theorem C24_duplicates :
    get [(b!"a", b!"1"), (b!"a", b!"2")] b!"a" = some b!"1" ∧
    get (merge [(b!"a", b!"1"), (b!"a", b!"2")] []) b!"a" = some b!"2" := by decide +kernel

/-! ### C25: variables -/

/-- For every text, metadata list and transform evaluation, the call stays inside its growing buffer
and returns the expansion described by `Spec.Expands`, which is unique. -/
theorem C25_variables (transforms : Bool) (chain : Bytes → Option Bytes) (md : Meta) (text : Bytes)
    (hmd : md ≠ []) :
    ∃ r, replaceVariables transforms chain md text = .val r ∧
      Expands (patternValue transforms chain md) text r ∧
      ∀ r', Expands (patternValue transforms chain md) text r' → r' = r := by
  unfold replaceVariables
  rw [if_neg hmd]
  obtain ⟨r, h, hx⟩ := varLoop_spec (patternValue transforms chain md) text.length text
    (Nat.le_refl _) ⟨text.length + 512, []⟩ (by simp)
  exact ⟨r, by simpa using h, hx, fun r' h' => expands_unique h' hx⟩

/-- Without metadata, and for text without `[%`, nothing changes. -/
theorem C25_unchanged (transforms : Bool) (chain : Bytes → Option Bytes) (md : Meta) (text : Bytes)
    (h : md = [] ∨ ¬ b!"[%" <:+: text) : replaceVariables transforms chain md text = .val text := by
  by_cases hmd : md = []
  · simp [replaceVariables, hmd]
  · rcases h with h | h
    · exact absurd h hmd
    · obtain ⟨r, hr, _, hu⟩ := C25_variables transforms chain md text hmd
      rw [hr, hu text (.plain h)]

/-- A single variable with a plain key: its value if the key is known (not expanded again), else the
variable as it was. -/
theorem C25_single (chain : Bytes → Option Bytes) (md : Meta) (hmd : md ≠ []) (pre key post : Bytes)
    (hpre : c!"[" ∉ pre) (hkey : c!"[" ∉ key ∧ c!"]" ∉ key) (hlen : key.length < 512)
    (hpost : ¬ b!"[%" <:+: post) :
    replaceVariables false chain md (pre ++ b!"[%" ++ key ++ b!"]" ++ post) =
      .val (pre ++ (get md key).getD (b!"[%" ++ key ++ b!"]") ++ post) := by
  have hbal : Balanced key := by
    have h1 : key.count c!"[" = 0 := List.count_eq_zero.2 hkey.1
    have h2 : key.count c!"]" = 0 := List.count_eq_zero.2 hkey.2
    refine ⟨by omega, ?_⟩
    intro q hq
    have : q.count c!"]" = 0 := List.count_eq_zero.2 fun h => hkey.2 (hq.subset h)
    omega
  have hf : FirstOcc b!"[%" (pre ++ b!"[%" ++ key ++ b!"]" ++ post) pre (key ++ b!"]" ++ post) := by
    refine ⟨by simp, ?_⟩
    intro p r h
    rcases Nat.lt_or_ge p.length pre.length with hl | hl
    · exfalso
      apply hpre
      have e : pre ++ (b!"[%" ++ key ++ b!"]" ++ post) = p ++ (b!"[%" ++ r) := by
        simpa using h
      have := congrArg (fun l => l[p.length]?) e
      rw [List.getElem?_append_left hl, List.getElem?_append_right (Nat.le_refl _)] at this
      simp at this
      exact List.mem_of_getElem? this
    · exact hl
  obtain ⟨r, hr, _, hu⟩ := C25_variables false chain md (pre ++ b!"[%" ++ key ++ b!"]" ++ post) hmd
  rw [hr]
  congr 1
  cases hg : get md key with
  | none =>
    rw [← hu _ (.unknown hf hbal (.inr (by simpa [patternValue] using hg)) (.plain hpost))]
    simp
  | some v =>
    rw [← hu _ (.known hf hbal hlen (by simpa [patternValue] using hg) (.plain hpost))]
    simp

example : replaceVariables false (fun _ => none) [(b!"a", b!"[%a]"), (b!"b", b!"")]
    b!"x [%A] y[%b][%c] [%" = .val b!"x [%a] y[%c] [%" := by decide +kernel

end Verif.Metadata
