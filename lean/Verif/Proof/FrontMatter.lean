import Verif.Spec.FrontMatter
import Verif.Proof.MetaParse
import Verif.Proof.Options

namespace Verif.FrontMatter
open Spec
open Metadata (Item Meta cliMerge addItem)
open MetaParse
open Transforms (trim)
open Transforms.Spec (White Trimmed)
open Options (Mode docMeta)

/-! ### The buffer -/

theorem entry_length (it : Item) :
    (entry it).length = it.1.length + it.2.length + 3 + (if needsQuotes it.2 then 2 else 0) := by
  unfold entry
  split <;> simp <;> omega

theorem addEntry_val (b : Buf) (it : Item) : ∃ size, addEntry b it = .val ⟨size, b.out ++ entry it⟩ ∧
    (b.out ++ entry it).length + 8 ≤ size := by
  refine ⟨grown b it, ?_, ?_⟩
  · unfold addEntry
    rw [if_pos]
    rw [entry_length]
    unfold grown
    simp only []
    split <;> split <;> omega
  · rw [List.length_append, entry_length]
    unfold grown
    simp only []
    split <;> split <;> omega

theorem addEntries_val : ∀ (md : Meta) (b : Buf), b.out.length + 8 ≤ b.size → ∃ size,
    addEntries b md = .val ⟨size, b.out ++ md.flatMap entry⟩ ∧ (b.out ++ md.flatMap entry).length + 8 ≤ size := by
  intro md
  induction md with
  | nil => intro b h; exact ⟨b.size, by simp [addEntries], by simpa using h⟩
  | cons it md ih =>
    intro b _
    obtain ⟨size, h1, h2⟩ := addEntry_val b it
    obtain ⟨size', h3, h4⟩ := ih ⟨size, b.out ++ entry it⟩ h2
    refine ⟨size', ?_, by simpa using h4⟩
    rw [addEntries, h1, C.val_bind, h3]
    simp

theorem front_val (md : Meta) : front md = .val (b!"---\n" ++ md.flatMap entry ++ b!"---\n") := by
  obtain ⟨size, h1, h2⟩ := addEntries_val md ⟨512, b!"---\n"⟩ (by decide)
  unfold front
  rw [h1, C.val_bind]
  simp only [] at h2 ⊢
  have h3 : (b!"---\n" : Bytes).length = 4 := rfl
  rw [puts_val (by omega), C.val_bind, finish_val (by rw [List.length_append]; omega)]

/-! ### Reading it -/

theorem line_read {k w : Bytes} (hk : Key k) (h1 : ∀ c, w.head? = some c → ¬ White c) (h2 : ∀ c, w.getLast? = some c → ¬ White c)
    (hl : k.length + 2 + w.length ≤ 1023) :
    lineBuf (k ++ c!":" :: 32 :: w) = k ++ c!":" :: 32 :: w ∧
    ∃ t, trim (k ++ c!":" :: 32 :: w) = k ++ c!":" :: t ∧ cutLine (k ++ c!":" :: 32 :: w) = k ++ c!":" :: t ∧ trim t = w := by
  obtain ⟨c, r, hc⟩ : ∃ c r, k = c :: r := by
    cases k with
    | nil => exact absurd rfl hk.nonempty
    | cons c r => exact ⟨c, r, rfl⟩
  have hcw : ¬ White c := hk.head c (by rw [hc]; rfl)
  have hcs : isSpace c = false := by
    cases h : isSpace c with
    | false => rfl
    | true => exact absurd ((Transforms.isSpace_iff c).1 h) hcw
  have hw32 : White 32 := (Transforms.isSpace_iff 32).1 (by decide)
  refine ⟨?_, ?_⟩
  · unfold lineBuf
    exact List.take_of_length_le (by simp; omega)
  have key : ∀ t, (∃ e, k ++ c!":" :: 32 :: w = k ++ c!":" :: t ++ e ∧ ∀ x ∈ e, White x) →
      (∀ x, (c!":" :: t).getLast? = some x → ¬ White x) → trim t = w →
      trim (k ++ c!":" :: 32 :: w) = k ++ c!":" :: t ∧ cutLine (k ++ c!":" :: 32 :: w) = k ++ c!":" :: t ∧ trim t = w := by
    rintro t ⟨e, he, hew⟩ hlast ht
    have htrim : trim (k ++ c!":" :: 32 :: w) = k ++ c!":" :: t := by
      refine trim_of_trimmed ⟨[], e, by simpa using he, by simp, hew, ?_, ?_⟩
      · intro x hx
        rw [hc] at hx
        simp at hx
        subst hx
        exact hcw
      · intro x hx
        apply hlast
        rw [← hx, List.getLast?_append]
        simp [List.getLast?_cons]
    refine ⟨htrim, ?_, ht⟩
    unfold cutLine
    rw [htrim, hc]
    simp [hcs]
  cases hw : w with
  | nil =>
    subst hw
    refine ⟨[], key [] ⟨[32], by simp, by simpa using hw32⟩ ?_ (by decide)⟩
    intro x hx
    simp at hx
    subst hx
    decide
  | cons a b =>
    rw [← hw]
    refine ⟨32 :: w, key (32 :: w) ⟨[], by simp, by simp⟩ ?_ ?_⟩
    · intro x hx
      apply h2
      rw [← hx, hw]
      simp [List.getLast?_cons]
    · exact trim_of_trimmed ⟨[32], [], by simp, by simpa using hw32, by simp, h1, h2⟩

theorem unquote_bare {v : Bytes} (h1 : c!"\"" ∉ v) (h2 : ¬ ∃ m, v = c!"'" :: (m ++ [c!"'"])) : unquote v = v := by
  unfold unquote
  split
  · rename_i q r q' hl
    rw [if_neg]
    rintro ⟨h3, h4, h5 | h5⟩
    · rw [h5] at h1; simp at h1
    · subst h4 h5
      cases r with
      | nil => simp at h3
      | cons a b =>
        apply h2
        have hl' : (a :: b).getLast? = some c!"'" := by
          rw [List.getLast?_cons_cons] at hl; exact hl
        obtain ⟨m, hm⟩ := List.getLast?_eq_some_iff.1 hl'
        exact ⟨m, by rw [hm]⟩
  · rfl

theorem unquote_quoted {v : Bytes} (hne : ∃ c ∈ v, ¬ White c) (h2 : ∀ c, v.getLast? = some c → ¬ White c) :
    unquote (c!"\"" :: (v ++ [c!"\""])) = v := by
  have hl : (c!"\"" :: (v ++ [c!"\""])).getLast? = some c!"\"" := by
    rw [← List.cons_append, List.getLast?_append]; simp
  unfold unquote
  rw [hl]
  simp only [List.drop_succ_cons, List.drop_zero, List.dropLast_concat]
  rw [if_pos (by simp)]
  obtain ⟨c, hc, hcw⟩ := hne
  rw [if_neg]
  · obtain ⟨w, hw, hww⟩ := cutLine_split v
    cases hg : w.getLast? with
    | none =>
      have : w = [] := by simpa using hg
      rw [this] at hw
      rw [List.append_nil] at hw
      exact hw.symm
    | some x =>
      exfalso
      apply h2 x
      · rw [hw, List.getLast?_append, hg]; rfl
      · exact hww x (List.mem_of_getLast? hg)
  · intro ht
    have := trim_spec v
    rw [ht] at this
    obtain ⟨a, b, hab, ha, hb, _⟩ := this
    rw [hab] at hc
    simp at hc
    rcases hc with hc | hc
    · exact hcw (ha c hc)
    · exact hcw (hb c hc)

theorem yamlLoop_line {k w v : Bytes} (hk : Key k) (h1 : ∀ c, w.head? = some c → ¬ White c)
    (h2 : ∀ c, w.getLast? = some c → ¬ White c) (h3 : (10 : Byte) ∉ w) (hl : k.length + 2 + w.length ≤ 1023)
    (hu : unquote w = v) (items : Meta) (s : Bytes) :
    yamlLoop none items (k ++ b!": " ++ w ++ b!"\n" ++ s) = yamlLoop none ((k, v) :: items) s := by
  have hnl : (10 : Byte) ∉ k ++ c!":" :: 32 :: w := by
    simp only [List.mem_append, List.mem_cons, not_or]
    exact ⟨fun h => (hk.chars _ h).1 rfl, by decide, by decide, h3⟩
  have hn : nextLine (k ++ b!": " ++ w ++ b!"\n" ++ s) = some (k ++ c!":" :: 32 :: w, s) := by
    have : k ++ b!": " ++ w ++ b!"\n" ++ s = (k ++ c!":" :: 32 :: w) ++ 10 :: s := by simp
    rw [this]
    exact nextLine_append hnl
  obtain ⟨p1, t, p2, p3, p4⟩ := line_read hk h1 h2 hl
  have hcol : c!":" ∉ k := fun h => (hk.chars _ h).2 rfl
  have hi : (k ++ c!":" :: t).findIdx? (· == c!":") = some k.length := idx_append hcol
  have hd : (k ++ c!":" :: t).drop (k.length + 1) = t := by
    rw [← List.drop_drop, List.drop_left]; rfl
  have htk : trim k = k := trim_of_trimmed ⟨[], [], by simp, by simp, by simp, hk.head, hk.last⟩
  have hmem : c!":" ∈ k ++ c!":" :: t := by simp
  conv => lhs; unfold yamlLoop
  split
  · rename_i h'; rw [hn] at h'; simp at h'
  · rename_i line rest h'
    rw [hn] at h'
    simp only [Option.some.injEq, Prod.mk.injEq] at h'
    obtain ⟨rfl, rfl⟩ := h'
    simp only [p1, p2, p3]
    rw [if_neg (by rintro (h | h) <;> (rw [h] at hmem; revert hmem; decide)), if_neg (by simp), hi]
    simp only [List.take_left, hd, htk, p4]
    rw [if_pos hk.nonempty, hu]
    rfl

theorem yamlLoop_entry {it : Item} (h : Entry it) (items : Meta) (s : Bytes) :
    yamlLoop none items (entry it ++ s) = yamlLoop none (it :: items) s := by
  unfold entry
  have hlen := h.length
  split
  · rename_i hq
    have e : it.1 ++ b!": \"" ++ it.2 ++ b!"\"\n" ++ s = it.1 ++ b!": " ++ (c!"\"" :: (it.2 ++ [c!"\""])) ++ b!"\n" ++ s := by simp
    rw [e]
    refine yamlLoop_line h.key ?_ ?_ ?_ (by simp; omega) (unquote_quoted ?_ h.value.last) items s
    · intro c hc; simp at hc; subst hc; decide
    · intro c hc
      rw [← List.cons_append, List.getLast?_append] at hc
      simp at hc; subst hc; decide
    · simp only [List.mem_cons, List.mem_append, List.not_mem_nil, or_false, not_or]
      exact ⟨by decide, h.value.line, by decide⟩
    · unfold needsQuotes at hq
      simp only [Bool.or_eq_true, List.contains_iff_mem] at hq
      rcases hq with ((hq | hq) | hq) | hq
      · exact ⟨_, hq, by decide⟩
      · exact absurd hq h.value.line
      · exact ⟨_, hq, by decide⟩
      · exact ⟨_, hq, by decide⟩
  · rename_i hq
    refine yamlLoop_line h.key h.value.head h.value.last h.value.line (by omega) (unquote_bare ?_ h.value.quotes) items s
    intro hm
    apply hq
    unfold needsQuotes
    simp only [Bool.or_eq_true, List.contains_iff_mem]
    exact .inl (.inr hm)

theorem yamlLoop_entries {md : Meta} : ∀ (_ : ∀ it ∈ md, Entry it) (items : Meta) (s : Bytes),
    yamlLoop none items (md.flatMap entry ++ s) = yamlLoop none (md.reverse ++ items) s := by
  induction md with
  | nil => intro _ items s; simp
  | cons it md ih =>
    intro h items s
    rw [List.flatMap_cons, List.append_assoc, yamlLoop_entry (h it (by simp)), ih (fun it hit => h it (by simp [hit]))]
    simp

theorem extract_front {md : Meta} (hne : md ≠ []) (h : ∀ it ∈ md, Entry it) (body : Bytes) :
    extract (fun _ => none) (b!"---\n" ++ md.flatMap entry ++ b!"---\n" ++ body) = (md.reverse, body) := by
  have h1 : b!"---".isPrefixOf (b!"---\n" ++ md.flatMap entry ++ b!"---\n" ++ body) = true :=
    List.isPrefixOf_iff_prefix.2 ⟨10 :: (md.flatMap entry ++ b!"---\n" ++ body), by simp⟩
  unfold extract
  rw [h1]
  simp only [parseYaml]
  rw [if_neg (by simp)]
  have hd : (b!"---\n" ++ md.flatMap entry ++ b!"---\n" ++ body).drop 3 = 10 :: (md.flatMap entry ++ (b!"---\n" ++ body)) := by simp
  rw [hd]
  have hn : nextLine (10 :: (md.flatMap entry ++ (b!"---\n" ++ body))) = some ([], md.flatMap entry ++ (b!"---\n" ++ body)) := by
    simp [nextLine]
  rw [hn]
  simp only [if_true]
  rw [yamlLoop_entries h]
  have hcl : yamlLoop none (md.reverse ++ []) (b!"---\n" ++ body) = (md.reverse ++ [], some body) := by
    have hn' : nextLine (b!"---\n" ++ body) = some (b!"---", body) := nextLine_append (l := b!"---") (by decide)
    unfold yamlLoop
    split
    · rename_i h'; rw [hn'] at h'; simp at h'
    · rename_i h'
      rw [hn'] at h'
      simp only [Option.some.injEq, Prod.mk.injEq] at h'
      obtain ⟨rfl, rfl⟩ := h'
      have : trim (lineBuf b!"---") = b!"---" := by decide +kernel
      simp [this]
  rw [hcl]
  cases hr : md.reverse with
  | nil => exact absurd (by simpa using hr) hne
  | cons a b => simp

end Verif.FrontMatter
