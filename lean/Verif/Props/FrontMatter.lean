/-
C100: the front matter that the command line tool writes.
-/
import Verif.Proof.FrontMatter
import Verif.Props.MetaParse
import Verif.Props.Metadata

namespace Verif.FrontMatter
open Spec
open Metadata (Item Meta cliMerge get)
open MetaParse (extract)
open Options (Mode docMeta)

/-- The buffer is always large enough. -/
theorem C100_safe (lib : Bytes → Option Meta) (m : Mode) (file cmd : Meta) (text : Bytes) :
    ∃ t, rendered lib m file cmd text = .val t := by
  unfold rendered
  simp only []
  split
  · exact ⟨_, rfl⟩
  · rw [front_val, C.val_bind]; exact ⟨_, rfl⟩

/-- C100, for entries that fit a line, read without libyaml, when neither the mode of the command line nor the mode `m'` that
the metadata asks for is GFM or CommonMark: the renderer sees the body of the document and the merged metadata, last entry
first. -/
theorem C100_partial {m m' : Mode} (hm : HasMeta m) (hm' : HasMeta m') {file cmd : Meta} {text : Bytes}
    (h : ∀ it ∈ cliMerge file (extract (fun _ => none) text).1 cmd, Entry it) :
    ∃ t, rendered (fun _ => none) m file cmd text = .val t ∧
      seen (fun _ => none) m' t = ((cliMerge file (extract (fun _ => none) text).1 cmd).reverse, (extract (fun _ => none) text).2) := by
  have hs := (MetaParse.C26_suffix_partial (fun _ => none) text).2
  unfold rendered
  have hd : docMeta m (extract (fun _ => none) text).1 = (extract (fun _ => none) text).1 := if_pos hm
  simp only []
  rw [hd]
  split
  · rename_i he
    refine ⟨_, rfl, ?_⟩
    unfold seen
    have hm' : m' = .multimarkdown ∨ m' = .kramdown ∨ m' = .unified := hm'
    rw [if_pos hm', he]
    have : (extract (fun _ => none) text).1 = [] := by
      cases hx : (extract (fun _ => none) text).1 with
      | nil => rfl
      | cons a b =>
        exfalso
        rw [hx] at he
        revert he
        rw [cliMerge, if_pos (by simp), Metadata.merge, Metadata.mergeArgs]
        · generalize Metadata.copyList [] file = acc
          intro he
          have hml : ∀ (l acc : Meta), acc ≠ [] → Metadata.mergeList acc l ≠ [] := by
            intro l
            induction l with
            | nil => intro acc h; exact h
            | cons x l ih => intro acc _; exact ih _ (by simp [Metadata.addItem])
          have h1 : Metadata.mergeList acc (a :: b) ≠ [] := by
            rw [Metadata.mergeList]
            exact hml _ _ (by simp [Metadata.addItem])
          cases cmd with
          | nil => exact h1 he
          | cons c d =>
            rw [Metadata.mergeArgs, Metadata.mergeArgs] at he
            · exact hml _ _ h1 he
            · simp
        · simp
    exact Prod.ext this rfl
  · rename_i hne
    rw [front_val, C.val_bind]
    refine ⟨_, rfl, ?_⟩
    unfold seen
    have hm' : m' = .multimarkdown ∨ m' = .kramdown ∨ m' = .unified := hm'
    rw [if_pos hm', extract_front hne h]
    congr 1
    split
    · rfl
    · rename_i hx
      exact (hs (by simpa using hx)).symm

/-- Looking up a key gives the same in both orders, if no key is there twice. -/
theorem C100_lookup {md : Meta}
    (hd : Metadata.Spec.Distinct md) (key : Bytes) : get md.reverse key = get md key := by
  by_cases hk : key = []
  · subst hk
    rw [Metadata.C23_empty_key, Metadata.C23_empty_key]
  · have huniq : ∀ a ∈ md, ∀ b ∈ md, Metadata.Spec.SameKey a.1 key → Metadata.Spec.SameKey b.1 key → a = b := by
      intro a ha b hb h1 h2
      have hab : Metadata.Spec.SameKey a.1 b.1 := h1.trans h2.symm
      have hba : Metadata.Spec.SameKey b.1 a.1 := h2.trans h1.symm
      clear h1 h2
      induction md with
      | nil => simp at ha
      | cons x md ih =>
        have hd := List.pairwise_cons.1 hd
        rcases List.mem_cons.1 ha with hax | ha <;> rcases List.mem_cons.1 hb with hbx | hb
        · rw [hax, hbx]
        · rw [hax] at hab; exact absurd hab (hd.1 b hb)
        · rw [hbx] at hba; exact absurd hba (hd.1 a ha)
        · exact ih hd.2 ha hb
    have hmem : ∀ (l : Meta), (∀ it, it ∈ l ↔ it ∈ md) → ∀ v, get l key = some v → ∃ k, (k, v) ∈ md ∧ Metadata.Spec.SameKey k key := by
      intro l hl v hv
      rcases (Metadata.C23_lookup l key hk).2 v hv with ⟨k, pre, post, he, hp, _⟩ | ⟨_, k, pre, post, he, hp, _⟩
      · exact ⟨k, (hl _).1 (by rw [he]; simp), hp.2.sameKey⟩
      · exact ⟨k, (hl _).1 (by rw [he]; simp), hp.2⟩
    have hex : (∃ v, get md.reverse key = some v) ↔ ∃ v, get md key = some v := by
      rw [(Metadata.C23_lookup md.reverse key hk).1, (Metadata.C23_lookup md key hk).1]
      simp
    cases h1 : get md.reverse key with
    | none =>
      cases h2 : get md key with
      | none => rfl
      | some v =>
        obtain ⟨w, hw⟩ := hex.2 ⟨v, h2⟩
        rw [h1] at hw; cases hw
    | some v =>
      obtain ⟨w, hw⟩ := hex.1 ⟨v, h1⟩
      obtain ⟨k, hk1, hk2⟩ := hmem md.reverse (by simp) v h1
      obtain ⟨k', hk1', hk2'⟩ := hmem md (by simp) w hw
      have := huniq _ hk1 _ hk1' hk2 hk2'
      rw [hw]
      exact congrArg some (congrArg Prod.snd this)

/-- A case. -/
example : Entry (b!"Base URL", b!"https://a.b/\"c\"\\") :=
  ⟨⟨by decide, by decide, by decide, by decide⟩, ⟨by decide, by decide, by decide, by
    rintro ⟨m, hm⟩
    have := congrArg List.head? hm
    simp at this⟩, by decide⟩

/-- C100 is false in GFM mode: the metadata of a configuration file is rendered as text. -/
theorem C100_gfm (lib : Bytes → Option Meta) : rendered lib .gfm [(b!"title", b!"x")] [] b!"Body\n" = .val b!"---\ntitle: x\n---\nBody\n" ∧
    seen lib .gfm b!"---\ntitle: x\n---\nBody\n" = ([], b!"---\ntitle: x\n---\nBody\n") := by
  constructor
  · rfl
  · rfl

/-- C100 is false for a document that asks for GFM mode: the front matter is rendered as text. -/
theorem C100_mode : rendered (fun _ => none) .unified [] [] b!"---\nmode: gfm\n---\nBody\n" = .val b!"---\nmode: gfm\n---\nBody\n" ∧
    (Options.applyMeta [(b!"mode", b!"gfm")] Options.default).mode = .gfm ∧
    (seen (fun _ => none) .gfm b!"---\nmode: gfm\n---\nBody\n").2 = b!"---\nmode: gfm\n---\nBody\n" ∧
    (seen (fun _ => none) .unified b!"---\nmode: gfm\n---\nBody\n").2 = b!"Body\n" := by
  have e : extract (fun _ => none) b!"---\nmode: gfm\n---\nBody\n" = ([(b!"mode", b!"gfm")], b!"Body\n") := by decide +kernel
  refine ⟨?_, by decide +kernel, rfl, ?_⟩
  · unfold rendered
    rw [e]
    rfl
  · unfold seen
    rw [if_pos (by decide), e]

/-- C100 is false for values in single quotes, which lose them, and for values of two lines, which become another entry. -/
theorem C100_values : rendered (fun _ => none) .unified [(b!"a", b!"'b'")] [] b!"x\n" = .val b!"---\na: 'b'\n---\nx\n" ∧
    (seen (fun _ => none) .unified b!"---\na: 'b'\n---\nx\n").1 = [(b!"a", b!"b")] ∧
    rendered (fun _ => none) .unified [(b!"a", b!"b\nmode: gfm")] [] b!"x\n" = .val b!"---\na: \"b\nmode: gfm\"\n---\nx\n" ∧
    (seen (fun _ => none) .unified b!"---\na: \"b\nmode: gfm\"\n---\nx\n").1 = [(b!"mode", b!"gfm\""), (b!"a", b!"\"b")] := by
  have e : extract (fun _ => none) b!"x\n" = ([], b!"x\n") := by decide +kernel
  refine ⟨?_, by decide +kernel, ?_, by decide +kernel⟩ <;> (unfold rendered; rw [e]; rfl)

end Verif.FrontMatter
