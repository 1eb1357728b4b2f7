/-
Helper lemmas for C173–C175: installing and removing.
-/
import Verif.Model.Install
import Verif.Spec.Install
import Verif.Proof.Embed
import Verif.Proof.Index

namespace Verif.Install
open Spec (Plain Safe Word Words RunsInside Name Below Meant Hook Repo)
open Embed (find)
open Index (span_stop span_all span_split)

theorem clip_short {n : Nat} {s : Bytes} (h : s.length < n) : clip n s = s := List.take_of_length_le (by omega)

theorem safe_append {a b : Bytes} : Safe (a ++ b) ↔ Safe a ∧ Safe b := by
  constructor
  · exact fun h => ⟨fun c hc => h c (by simp [hc]), fun c hc => h c (by simp [hc])⟩
  · rintro ⟨h1, h2⟩ c hc
    rcases List.mem_append.1 hc with h | h
    · exact h1 c h
    · exact h2 c h

theorem safe_slash : Safe b!"/" := by
  intro c hc
  simp only [List.mem_singleton] at hc
  subst hc
  exact ⟨by decide, by decide, by decide, by decide⟩

theorem safe_at {a b : Bytes} (h1 : Safe a) (h2 : Safe b) : Safe (a ++ b!"/" ++ b) := safe_append.2 ⟨safe_append.2 ⟨h1, safe_slash⟩, h2⟩

theorem word_bare {w : Bytes} (h1 : w ≠ []) (h2 : ∀ c ∈ w, isAlnum c = true ∨ c = c!"-" ∨ c = c!"+") : Word w w := .bare h1 h2

theorem words_two {k d : Bytes} {a b : Bytes} (ha : Word a a) (hb : Word b b) (hd : Safe d) (e : k = a ++ b!" " ++ (b ++ b!" " ++ quote d)) : Words k [a, b, d] :=
  e ▸ .more ha (.more hb (.one (.quoted hd)))

theorem mkdir_words {d : Bytes} (hd : Safe d) (hl : d.length < 1024) : Words (mkdirC d) [b!"mkdir", b!"-p", d] := by
  unfold mkdirC
  rw [clip_short (by simp [quote]; omega)]
  exact words_two (.bare (by decide) (by decide)) (.bare (by decide) (by decide)) hd (by simp)

theorem rm_words {n : Nat} {d : Bytes} (hd : Safe d) (hl : d.length + 9 < n) : Words (rmC n d) [b!"rm", b!"-rf", d] := by
  unfold rmC
  rw [clip_short (by simp [quote]; omega)]
  exact words_two (.bare (by decide) (by decide)) (.bare (by decide) (by decide)) hd (by simp)

theorem chmod_words {d : Bytes} (hd : Safe d) (hl : d.length < 1200) : Words (chmodC d) [b!"chmod", b!"+x", d] := by
  unfold chmodC
  rw [clip_short (by simp [quote]; omega)]
  exact words_two (.bare (by decide) (by decide)) (.bare (by decide) (by decide)) hd (by simp)

theorem dir_words {d : Bytes} (hd : Safe d) (hl : d.length < 1200) : Words (dirC d) [b!"[", b!"-d", d, b!"]"] := by
  unfold dirC
  rw [clip_short (by simp [quote]; omega)]
  have := Words.more .left (.more (.bare (w := b!"-d") (by decide) (by decide)) (.more (.quoted hd) (.one .right)))
  simpa [quote] using this

theorem file_words {d : Bytes} (hd : Safe d) (hl : d.length < 1200) : Words (fileC d) [b!"[", b!"-e", d, b!"]"] := by
  unfold fileC
  rw [clip_short (by simp [quote]; omega)]
  have := Words.more .left (.more (.bare (w := b!"-e") (by decide) (by decide)) (.more (.quoted hd) (.one .right)))
  simpa [quote] using this

theorem clone_words {r d : Bytes} (hr : Safe r) (hd : Safe d) (hl : r.length + d.length < 2000) : Words (cloneC r d) [b!"git", b!"clone", r, d] := by
  unfold cloneC
  rw [clip_short (by simp [quote]; omega)]
  have := Words.more (.bare (w := b!"git") (by decide) (by decide)) (.more (.bare (w := b!"clone") (by decide) (by decide)) (.more (.quoted hr) (.one (.quoted hd))))
  simpa [quote] using this

theorem shallow_words {r d : Bytes} (hr : Safe r) (hd : Safe d) (hl : r.length + d.length < 2000) : Words (shallowC r d) [b!"git", b!"clone", b!"--depth", b!"1", r, d] := by
  unfold shallowC
  rw [clip_short (by simp [quote]; omega)]
  have := Words.more (.bare (w := b!"git") (by decide) (by decide)) (.more (.bare (w := b!"clone") (by decide) (by decide)) (.more (.bare (w := b!"--depth") (by decide) (by decide))
    (.more (.bare (w := b!"1") (by decide) (by decide)) (.more (.quoted hr) (.one (.quoted hd))))))
  simpa [quote] using this

theorem mv_words {a b : Bytes} (ha : Safe a) (hb : Safe b) (h1 : a.length < 1200) (h2 : b.length < 1200) : Words (mvC a b) [b!"mv", a, b] := by
  unfold mvC
  rw [clip_short (by simp [quote]; omega)]
  have := Words.more (.bare (w := b!"mv") (by decide) (by decide)) (.more (.quoted ha) (.one (.quoted hb)))
  simpa [quote] using this

theorem cp_words {a b : Bytes} (ha : Safe a) (hb : Safe b) (h1 : a.length < 1700) (h2 : b.length < 1200) : Words (cpC a b) [b!"cp", a, b] := by
  unfold cpC
  rw [clip_short (by simp [quote]; omega)]
  have := Words.more (.bare (w := b!"cp") (by decide) (by decide)) (.more (.quoted ha) (.one (.quoted hb)))
  simpa [quote] using this

/-! ### A command has one reading -/

theorem word_shape {t w : Bytes} (h : Word t w) : (t = w ∧ t ≠ [] ∧ (∀ c ∈ t, c ≠ c!" " ∧ c ≠ c!"\"")) ∨ (t = b!"\"" ++ w ++ b!"\"" ∧ c!"\"" ∉ w) := by
  cases h with
  | bare h1 h2 =>
    refine Or.inl ⟨rfl, h1, fun c hc => ?_⟩
    have := h2 c hc
    constructor
    · rintro rfl; revert this; decide
    · rintro rfl; revert this; decide
  | left => exact Or.inl ⟨rfl, by decide, by decide⟩
  | right => exact Or.inl ⟨rfl, by decide, by decide⟩
  | quoted hs => exact Or.inr ⟨rfl, fun h => (hs _ h).1 rfl⟩

theorem split_at {d : Byte} {a b x y : Bytes} (ha : d ∉ a) (hb : d ∉ b) (h : a ++ d :: x = b ++ d :: y) : a = b ∧ x = y := by
  induction a generalizing b with
  | nil =>
    cases b with
    | nil => simpa using h
    | cons c b =>
      simp only [List.nil_append, List.cons_append, List.cons.injEq] at h
      exact absurd (by simp [h.1]) hb
  | cons c a ih =>
    cases b with
    | nil =>
      simp only [List.nil_append, List.cons_append, List.cons.injEq] at h
      exact absurd (by simp [h.1]) ha
    | cons e b =>
      simp only [List.cons_append, List.cons.injEq] at h
      obtain ⟨rfl, h⟩ := h
      obtain ⟨rfl, rfl⟩ := ih (fun hm => ha (by simp [hm])) (fun hm => hb (by simp [hm])) h
      exact ⟨rfl, rfl⟩

/-- What follows a word: nothing, or a blank. -/
def Rest (x : Bytes) : Prop := x = [] ∨ ∃ y, x = c!" " :: y

theorem bare_rest {a b x y : Bytes} (ha : c!" " ∉ a) (hb : c!" " ∉ b) (hx : Rest x) (hy : Rest y) (h : a ++ x = b ++ y) : a = b ∧ x = y := by
  rcases hx with rfl | ⟨x, rfl⟩ <;> rcases hy with rfl | ⟨y, rfl⟩
  · simpa using h
  · rw [List.append_nil] at h
    exact absurd (by rw [h]; simp) ha
  · rw [List.append_nil] at h
    exact absurd (by rw [← h]; simp) hb
  · obtain ⟨rfl, rfl⟩ := split_at ha hb h
    exact ⟨rfl, rfl⟩

theorem word_unique {t w t' w' x x' : Bytes} (h : Word t w) (h' : Word t' w') (hx : Rest x) (hx' : Rest x') (e : t ++ x = t' ++ x') : w = w' ∧ x = x' := by
  rcases word_shape h with ⟨rfl, hne, hs⟩ | ⟨rfl, hs⟩ <;> rcases word_shape h' with ⟨rfl, hne', hs'⟩ | ⟨rfl, hs'⟩
  · exact bare_rest (fun hm => (hs _ hm).1 rfl) (fun hm => (hs' _ hm).1 rfl) hx hx' e
  · cases t with
    | nil => exact absurd rfl hne
    | cons c t =>
      simp only [List.cons_append, List.nil_append, List.append_assoc, List.cons.injEq] at e
      exact absurd e.1 (hs c (by simp)).2
  · cases t' with
    | nil => exact absurd rfl hne'
    | cons c t =>
      simp only [List.cons_append, List.nil_append, List.append_assoc, List.cons.injEq] at e
      exact absurd e.1.symm (hs' c (by simp)).2
  · simp only [List.cons_append, List.nil_append, List.append_assoc, List.cons.injEq, true_and] at e
    exact split_at hs hs' e

theorem words_unique {s : Bytes} {ws ws' : List Bytes} (h : Words s ws) (h' : Words s ws') : ws = ws' := by
  induction h generalizing ws' with
  | @one t w hw =>
    generalize hs : t = s at h'
    cases h' with
    | one hw' =>
      subst hs
      rw [(word_unique hw hw' (.inl rfl) (.inl rfl) rfl).1]
    | @more t' w' s' ws' hw' _ =>
      have := (word_unique hw hw' (x := []) (x' := b!" " ++ s') (.inl rfl) (.inr ⟨s', rfl⟩) (by simp [hs])).2
      simp at this
  | @more t w s ws hw _ ih =>
    generalize hs : t ++ b!" " ++ s = k at h'
    cases h' with
    | one hw' =>
      have := (word_unique hw hw' (x := b!" " ++ s) (x' := []) (.inr ⟨s, rfl⟩) (.inl rfl) (by simpa using hs)).2
      simp at this
    | @more t' w' s' ws' hw' hr' =>
      obtain ⟨h1, h2⟩ := word_unique hw hw' (x := b!" " ++ s) (x' := b!" " ++ s') (.inr ⟨s, rfl⟩) (.inr ⟨s', rfl⟩) (by simpa using hs)
      simp only [List.cons_append, List.nil_append, List.cons.injEq, true_and] at h2
      subst h2
      rw [h1, ih hr']

/-! ### Names -/

theorem base_split (s : Bytes) : c!"/" ∉ base s ∧ ((c!"/" ∉ s ∧ base s = s) ∨ ∃ a, s = a ++ c!"/" :: base s) := by
  obtain ⟨a, r, e, ha, hr, h1, _⟩ := span_split (· != c!"/") s.reverse
  unfold base
  rw [h1]
  have hn : c!"/" ∉ a.reverse := fun h => absurd (ha _ (List.mem_reverse.1 h)) (by decide)
  refine ⟨hn, ?_⟩
  have e' : s = r.reverse ++ a.reverse := by rw [← List.reverse_append, ← e, List.reverse_reverse]
  rcases hr with rfl | ⟨c, b, rfl, hc⟩
  · left
    simp only [List.reverse_nil, List.nil_append] at e'
    exact ⟨by rw [e']; exact hn, e'.symm⟩
  · right
    have : c = c!"/" := by simpa using hc
    subst this
    exact ⟨b.reverse, by simpa using e'⟩

theorem base_at (a n : Bytes) (hn : c!"/" ∉ n) : base (a ++ c!"/" :: n) = n := by
  unfold base
  rw [List.reverse_append, List.reverse_cons, List.append_assoc]
  rw [show n.reverse ++ ([c!"/"] ++ a.reverse) = n.reverse ++ c!"/" :: a.reverse by simp]
  rw [(span_stop (p := (· != c!"/")) (fun c hc => by simp at hc ⊢; rintro rfl; exact hn hc) (by simp)).1]
  simp

theorem base_mem {s : Bytes} {c : Byte} (h : c ∈ base s) : c ∈ s := by
  rcases (base_split s).2 with ⟨_, e⟩ | ⟨a, e⟩
  · exact e ▸ h
  · rw [e]; simp [h]

theorem repoName_split (repo : Bytes) : ¬ b!".git" <:+: repoName repo ∧ c!"/" ∉ repoName repo ∧ ∀ c ∈ repoName repo, c ∈ repo := by
  unfold repoName
  cases h : find b!".git" (base repo) with
  | none =>
    simp only []
    exact ⟨(Embed.find_none (by decide)).1 h, (base_split repo).1, fun c hc => base_mem hc⟩
  | some x =>
    obtain ⟨a, b⟩ := x
    simp only []
    have e := Embed.find_some h
    have hh := (Embed.find_eq (d := c!".") (w := b!"git") (by decide) a b).1 (by
      rw [show a ++ c!"." :: b!"git" ++ b = base repo by rw [e]]; exact h)
    refine ⟨hh, fun hc => (base_split repo).1 (by rw [e]; simp [hc]), fun c hc => base_mem (by rw [e]; simp [hc])⟩

/-- The name of the directory a repository is cloned into. -/
def tempName (repo : Bytes) : Bytes := b!".apex_install_" ++ if repoName repo ≠ [] ∧ (repoName repo).length < 200 then repoName repo else b!"temp"

theorem temp_eq (root repo : Bytes) : temp root repo = clip 1200 (root ++ b!"/" ++ tempName repo) := by
  unfold temp tempName
  split <;> simp

theorem tempName_length (repo : Bytes) : (tempName repo).length < 214 := by
  unfold tempName
  split
  · rename_i h
    have := h.2
    simp
    omega
  · decide

theorem tempName_slash (repo : Bytes) : c!"/" ∉ tempName repo := by
  unfold tempName
  split
  · have := (repoName_split repo).2.1
    intro h
    rcases List.mem_append.1 h with h | h
    · revert h; decide
    · exact this h
  · decide

theorem tempName_name (repo : Bytes) : Name (tempName repo) := by
  refine ⟨by simp [tempName], tempName_slash repo, ?_, ?_⟩
  · intro h
    have := congrArg List.length h
    simp [tempName] at this
  · intro h
    have := congrArg List.length h
    simp [tempName] at this

theorem tempName_safe {repo : Bytes} (h : Safe repo) : Safe (tempName repo) := by
  unfold tempName
  refine safe_append.2 ⟨?_, ?_⟩
  · intro c hc
    have : ∀ c ∈ b!".apex_install_", c ≠ c!"\"" ∧ c ≠ c!"$" ∧ c ≠ 96 ∧ c ≠ 92 := by decide
    exact this c hc
  · split
    · exact fun c hc => h c ((repoName_split repo).2.2 c hc)
    · intro c hc
      have : ∀ c ∈ b!"temp", c ≠ c!"\"" ∧ c ≠ c!"$" ∧ c ≠ 96 ∧ c ≠ 92 := by decide
      exact this c hc

theorem tempName_git (repo : Bytes) : ¬ b!".git" <:+ tempName repo := by
  unfold tempName
  split
  · have hn := (repoName_split repo).1
    generalize repoName repo = n at hn ⊢
    rintro ⟨z, e⟩
    by_cases hl : 4 ≤ n.length
    · refine hn (List.IsSuffix.isInfix ?_)
      have h1 : b!".git" <:+ b!".apex_install_" ++ n := ⟨z, e⟩
      have h2 : n <:+ b!".apex_install_" ++ n := ⟨_, rfl⟩
      exact List.suffix_of_suffix_length_le h1 h2 (by simpa using hl)
    · have h1 : b!".git" = (b!".apex_install_" ++ n).drop (10 + n.length) := by
        rw [← e]
        have := congrArg List.length e
        simp at this
        rw [show 10 + n.length = z.length by omega]
        simp
      match n, hl with
      | [], _ => simp at h1
      | [a], _ => simp at h1
      | [a, b], _ => simp at h1
      | [a, b, c], _ => simp at h1
      | _ :: _ :: _ :: _ :: _, hl => simp at hl
  · decide

/-- What is known of the names and directories of an installation. -/
structure Fits (root repo : Bytes) : Prop where
  safe : Safe root
  short : root.length ≤ 900
  repoSafe : Safe repo
  repoShort : repo.length ≤ 800

/-- A name that can be used. -/
def Usable (n : Bytes) : Prop := Name n ∧ Safe n ∧ n.length < 214

theorem usable_temp {repo : Bytes} (h : Safe repo) : Usable (tempName repo) := ⟨tempName_name repo, tempName_safe h, tempName_length repo⟩

theorem target_usable {root repo n : Bytes} (h : Fits root repo) (hn : n.length < 214) : target root n = root ++ b!"/" ++ n := by
  have := h.short
  unfold target at'
  rw [clip_short (by simp; omega)]

theorem temp_usable {root repo : Bytes} (h : Fits root repo) : temp root repo = root ++ b!"/" ++ tempName repo := by
  have := h.short
  have := tempName_length repo
  rw [temp_eq, clip_short (by simp; omega)]

theorem fallback_temp {root repo : Bytes} (h : Fits root repo) : fallback (temp root repo) = some (tempName repo) := by
  rw [temp_usable h, show root ++ b!"/" ++ tempName repo = root ++ c!"/" :: tempName repo by simp]
  unfold fallback
  rw [base_at _ _ (tempName_slash repo)]
  have hg : endsGit (tempName repo) = false := by simpa [endsGit] using tempName_git repo
  rw [if_pos ⟨by simp, (tempName_name repo).1⟩, if_neg (by simp [hg])]

theorem len_at {root n : Bytes} (h1 : root.length ≤ 900) (h2 : n.length < 214) : (root ++ b!"/" ++ n).length < 1200 := by
  simp; omega

theorem meant_mkdir {root repo : Bytes} (h : Fits root repo) : ∃ ws, Words (mkdirC root) ws ∧ Meant root repo Usable ws := by
  have := h.short
  exact ⟨_, mkdir_words h.safe (by omega), .mkdir⟩

theorem meant_test {root repo n : Bytes} (h : Fits root repo) (hn : Usable n) : ∃ ws, Words (dirC (root ++ b!"/" ++ n)) ws ∧ Meant root repo Usable ws :=
  ⟨_, dir_words (safe_at h.safe hn.2.1) (len_at h.short hn.2.2), .test hn⟩

theorem meant_clone {root repo n : Bytes} (h : Fits root repo) (hn : Usable n) : ∃ ws, Words (cloneC repo (root ++ b!"/" ++ n)) ws ∧ Meant root repo Usable ws := by
  have h1 := len_at h.short hn.2.2
  have h2 := h.repoShort
  exact ⟨_, clone_words h.repoSafe (safe_at h.safe hn.2.1) (by omega), .clone hn⟩

theorem meant_rm {root repo : Bytes} (h : Fits root repo) : ∃ ws, Words (rmC 1300 (root ++ b!"/" ++ tempName repo)) ws ∧ Meant root repo Usable ws := by
  have hn := usable_temp h.repoSafe
  have h1 := len_at h.short hn.2.2
  exact ⟨_, rm_words (safe_at h.safe hn.2.1) (by omega), .rm ⟨_, rfl⟩ hn⟩

theorem meant_mv {root repo n m : Bytes} (h : Fits root repo) (hn : Usable n) (hm : Usable m) : ∃ ws, Words (mvC (root ++ b!"/" ++ n) (root ++ b!"/" ++ m)) ws ∧ Meant root repo Usable ws :=
  ⟨_, mv_words (safe_at h.safe hn.2.1) (safe_at h.safe hm.2.1) (len_at h.short hn.2.2) (len_at h.short hm.2.2), .mv hn hm⟩

theorem hooks_eq {w : World} {root repo n : Bytes} (h : Fits root repo) (hn : Usable n) (hh : ∀ d k, w.hook d = some k → k.length ≤ 800) :
    ∀ cmd ∈ hooks w (root ++ b!"/" ++ n), Hook root Usable (fun k => w.hook (root ++ b!"/" ++ n) = some k) cmd := by
  intro cmd hc
  unfold hooks at hc
  split at hc
  · rename_i c t e
    rw [List.mem_singleton] at hc
    subst hc
    refine ⟨n, c :: t, hn, e, ?_⟩
    have h1 := len_at h.short hn.2.2
    have h2 := hh _ _ e
    unfold hookC
    rw [clip_short (by simp [quote] at h1 h2 ⊢; omega)]
    simp [quote]
  · simp at hc

/-! ### Addresses -/

theorem has_scheme (a : Bytes) : ((find b!"://" a).isSome = true ∨ (find b!"@" a).isSome = true) ↔ (b!"://" <:+: a ∨ c!"@" ∈ a) := by
  have h1 : (find b!"://" a).isSome = true ↔ b!"://" <:+: a := by
    have := Embed.find_none (w := b!"://") (s := a) (by decide)
    cases h : find b!"://" a <;> simp_all
  have h2 : (find b!"@" a).isSome = true ↔ c!"@" ∈ a := by
    have := Embed.find_none (w := b!"@") (s := a) (by decide)
    have hi : b!"@" <:+: a ↔ c!"@" ∈ a := by
      constructor
      · rintro ⟨x, y, rfl⟩; simp
      · intro h
        obtain ⟨x, y, rfl⟩ := List.append_of_mem h
        exact ⟨x, y, by simp⟩
    cases h : find b!"@" a <;> simp_all
  rw [h1, h2]

theorem repoUrl_iff {a u : Bytes} : repoUrl a = some u ↔ Repo a u := by
  constructor
  · intro h
    unfold repoUrl at h
    split at h
    · simp at h
    · split at h
      · rename_i hs
        have hs := (has_scheme a).1 hs
        split at h
        · rename_i hg
          simp only [Option.some.injEq] at h
          rw [clip_short (by simp)] at h
          subst h
          exact .github hs hg.1 (by simpa [endsGit] using hg.2)
        · rename_i hg
          simp only [Option.some.injEq] at h
          subst h
          exact .address hs (by simpa [endsGit] using hg)
      · rename_i hs
        have hs := fun h => hs ((has_scheme a).2 h)
        obtain ⟨x, y, e, hx, hy, _, h2⟩ := span_split (· != c!"/") a
        rw [h2] at h
        rcases hy with rfl | ⟨c, b, rfl, hc⟩
        · simp at h
        · have : c = c!"/" := by simpa using hc
          subst this
          cases b with
          | nil => simp at h
          | cons d b =>
            simp only [] at h
            split at h
            · simp at h
            · rename_i hh
              simp only [Option.some.injEq] at h
              rw [clip_short (by simp; omega)] at h
              have e' : a = x ++ b!"/" ++ (d :: b) := by rw [e]; simp
              subst h
              rw [e'] at hs ⊢
              have := Repo.short (u := x) (r := d :: b) (by rintro rfl; rw [e] at hh; simp at hh) (fun hm => absurd (hx _ hm) (by decide)) (by simp) (fun hh => hs (.inl hh)) (fun hh => hs (.inr hh))
              simpa using this
  · intro h
    cases h with
    | address hs hg =>
      have hne : a ≠ [] := by rintro rfl; revert hs; simp
      unfold repoUrl
      rw [if_neg hne, if_pos ((has_scheme a).2 hs), if_neg (by simpa [endsGit] using hg)]
    | github hs hg h1 =>
      have hne : a ≠ [] := by rintro rfl; revert hs; simp
      unfold repoUrl
      rw [if_neg hne, if_pos ((has_scheme a).2 hs), if_pos ⟨hg, by simpa [endsGit] using h1⟩, clip_short (by simp)]
    | @short x r hx hx' hr h1 h2 =>
      unfold repoUrl
      rw [if_neg (by simp), if_neg (fun h => ((has_scheme _).1 h).elim h1 h2)]
      rw [show x ++ b!"/" ++ r = x ++ c!"/" :: r by simp]
      rw [(span_stop (p := (· != c!"/")) (fun c hc => by simp; rintro rfl; exact hx' hc) (by simp)).2]
      cases r with
      | nil => exact absurd rfl hr
      | cons d r =>
        simp only []
        rw [if_neg, clip_short (by simp; omega)]
        · simp
        · cases x with
          | nil => exact absurd rfl hx
          | cons c x =>
            simp only [List.cons_append, List.head?_cons, Option.some.injEq]
            rintro rfl
            simp at hx'

end Verif.Install
