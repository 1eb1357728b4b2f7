import Verif.Proof.CombineFiles

namespace Verif.CombineFiles
open Spec Merge.Spec
open Text.Spec (Lines)

/-! ### C271: with --combine the files are written in order, with an empty line between them -/

/-- Files without a summary.  Missing: a summary behind another file, where it fails. -/
theorem C271_partial {read file : Bytes → Option Bytes} {dir : Bytes → Bytes} {ps ts : List Bytes} (h : All read file dir ps ts) (hn : ∀ p ∈ ps, ¬ Summary p) :
    combineFiles read file dir ps false [] = (between ts, 0) := by
  rw [plain_go h hn]
  cases ts <;> simp [between]

/-- A summary in front that names a file. -/
theorem C271_front_partial {read file : Bytes → Option Bytes} {dir : Bytes → Bytes} {p s : Bytes} {ls us ps ts : List Bytes} (hs : Summary p) (hr : read p = some s)
    (hl : Lines s ls) (hu : Texts file (dir p) ls us) (hne : us ≠ []) (h : All read file dir ps ts) (hn : ∀ p ∈ ps, ¬ Summary p) :
    All read file dir (p :: ps) (us ++ ts) ∧ combineFiles read file dir (p :: ps) false [] = (between (us ++ ts), 0) := by
  refine ⟨.summary hs hr hl hu h, ?_⟩
  rw [summary_step hs hr hl hu, plain_go h hn, between_append us ts hne]
  simp

/-- The names behind the option are those that are combined. -/
theorem C271_names (read file : Bytes → Option Bytes) (dir : Bytes → Bytes) (ps : List Bytes) (hne : ps ≠ []) :
    run read file dir (.combine :: ps.map .name) = some (.val (combineFiles read file dir ps false [])) := by
  have key : ∀ (ps : List Bytes) (s : St), s.combine = true → (ps.map Arg.name).foldl St.arg s = { s with combined := s.combined ++ ps } := by
    intro ps
    induction ps with
    | nil => intro s _; simp
    | cons p ps ih =>
      intro s hs
      rw [List.map_cons, List.foldl_cons]
      have : St.arg s (.name p) = { s with combined := s.combined ++ [p] } := by simp [St.arg, hs]
      rw [this, ih { s with combined := s.combined ++ [p] } hs]
      simp
  unfold run
  rw [List.foldl_cons]
  have h1 : St.arg {} .combine = { combine := true } := rfl
  rw [h1, key ps _ rfl]
  simp [hne]

/-- Of each text, a summary behind a file: the text of the first file that the summary names begins where that of the file ends, without an
empty line or a line break between them. -/
theorem C271_joined_fails {read file : Bytes → Option Bytes} {dir : Bytes → Bytes} {p q c s : Bytes} {ls us : List Bytes} (hp : ¬ Summary p) (hc : file p = some c) (hs : Summary q)
    (hr : read q = some s) (hl : Lines s ls) (hu : Texts file (dir q) ls us) (hne : us ≠ []) :
    All read file dir [p, q] (c :: us) ∧ combineFiles read file dir [p, q] false [] = (c ++ between us, 0) ∧ c ++ between us ≠ between (c :: us) := by
  refine ⟨.file hp hc (by simpa using All.summary hs hr hl hu .nil), ?_, ?_⟩
  · rw [combineFiles, if_neg (fun e => hp ((summary_iff p).mp e)), hc]
    simp only
    rw [summary_step hs hr hl hu, combineFiles]
    simp
  · rw [between_cons, if_neg hne]
    intro e
    have := congrArg List.length (List.append_cancel_left e)
    rw [List.length_append] at this
    have h2 : (b!"\n\n").length = 2 := by decide
    omega

/-- A summary that names no file is counted as a text. -/
theorem C271_empty_fails {read file : Bytes → Option Bytes} {dir : Bytes → Bytes} {p q c s : Bytes} {ls : List Bytes} (hp : ¬ Summary p) (hc : file p = some c) (hs : Summary q)
    (hr : read q = some s) (hl : Lines s ls) (hu : Texts file (dir q) ls []) :
    All read file dir [q, p] [c] ∧ combineFiles read file dir [q, p] false [] = (b!"\n\n" ++ c, 0) := by
  refine ⟨.summary hs hr hl hu (.file hp hc .nil), ?_⟩
  rw [summary_step hs hr hl hu, combineFiles, if_neg (fun e => hp ((summary_iff p).mp e)), hc]
  simp [combineFiles, between]

/-- Behind a summary that cannot be read, all files are left out, while a file that cannot be read is passed over. -/
theorem C271_stop_fails {read file : Bytes → Option Bytes} {dir : Bytes → Bytes} {p : Bytes} (hs : Summary p) (hr : read p = none) (rest : List Bytes) (sep : Bool) (out : Bytes) :
    combineFiles read file dir (p :: rest) sep out = (out, 1) := by
  rw [combineFiles, if_pos ((summary_iff p).mpr hs), hr]

/-- A file that is named in front of the option is left out. -/
theorem C271_before_fails (read file : Bytes → Option Bytes) (dir : Bytes → Bytes) (p : Bytes) (args : List Arg) :
    run read file dir (.name p :: .combine :: args) = run read file dir (.combine :: args) := by
  have key : ∀ (args : List Arg) (s : St) (i : Option Bytes), s.combine = true → args.foldl St.arg { s with input := i } = { args.foldl St.arg s with input := i } := by
    intro args
    induction args with
    | nil => intros; rfl
    | cons a args ih =>
      intro s i hs
      rw [List.foldl_cons, List.foldl_cons]
      cases a with
      | combine => exact ih { s with combine := true } i rfl
      | merge => exact ih { s with merge := true } i hs
      | name q =>
        have e1 : St.arg { s with input := i } (.name q) = { s with combined := s.combined ++ [q], input := i } := by simp [St.arg, hs]
        have e2 : St.arg s (.name q) = { s with combined := s.combined ++ [q] } := by simp [St.arg, hs]
        rw [e1, e2]
        exact ih { s with combined := s.combined ++ [q] } i hs
  have h : (Arg.name p :: Arg.combine :: args).foldl St.arg {} = { (Arg.combine :: args).foldl St.arg {} with input := some p } :=
    key args { combine := true } (some p) rfl
  unfold run
  simp only [h]

/-- A file and a summary that names it. -/
def read : Bytes → Option Bytes := fun p => if p = b!"d/Summary.md" then some b!"* [a](a.md)\n" else none
def file : Bytes → Option Bytes := fun p => if p = b!"a.md" ∨ p = b!"d/a.md" then some b!"# A" else none

theorem C271_case : combineFiles read file (fun _ => b!"d") [b!"a.md", b!"b.md", b!"a.md"] false [] = (b!"# A\n\n# A", 0) ∧
    combineFiles read file (fun _ => b!"d") [b!"d/Summary.md", b!"a.md"] false [] = (b!"# A\n\n# A", 0) ∧
    combineFiles read file (fun _ => b!"d") [b!"a.md", b!"d/Summary.md"] false [] = (b!"# A# A", 0) ∧
    Summary b!"d/Summary.md" ∧ ¬ Summary b!"a.md" ∧ Texts file b!"d" [b!"* [a](a.md)"] [b!"# A"] := by
  refine ⟨by decide +kernel, by decide +kernel, by decide +kernel, (summary_iff _).mp (by decide +kernel), ?_, ?_⟩
  · rw [← summary_iff]
    decide +kernel
  · exact .file (p := b!"a.md") (Merge.target_iff.1 (by decide +kernel)) (by decide +kernel) .nil

/-! ### C272: with --mmd-merge the texts of all index files are written in order -/

/-- Each index can be read, and stands for a text by `Merged`, the specification of C171. -/
inductive Indexes (read : Bytes → Option Bytes) (dir : Bytes → Bytes) : List Bytes → List Bytes → Prop
  | nil : Indexes read dir [] []
  | cons {p s ls o ps os} : read p = some s → Lines s ls → Merged read (dir p) ls o → Indexes read dir ps os → Indexes read dir (p :: ps) (o :: os)

/-- Missing: what C171 misses. -/
theorem C272_partial {read : Bytes → Option Bytes} {dir : Bytes → Bytes} (h0 : ∀ p c, read p = some c → (0 : Byte) ∉ c) {ps os : List Bytes} (h : Indexes read dir ps os) :
    mergeFiles read dir ps [] = .val (os.flatten, 0) := by
  have key : ∀ out, mergeFiles read dir ps out = .val (out ++ os.flatten, 0) := by
    induction h with
    | nil => intro out; simp [mergeFiles]
    | @cons p s ls o ps os hr hl hm _ ih =>
      intro out
      rw [mergeFiles, hr]
      simp only
      rw [(Merge.C171_merge_partial read (dir p) s h0 ls hl).1 o hm]
      show mergeFiles read dir ps (out ++ o) = _
      rw [ih]
      simp
  simpa using key []

/-- An index that cannot be read ends the work: what is before it has been written, the status is 1. -/
theorem C272_missing {read : Bytes → Option Bytes} {dir : Bytes → Bytes} (h0 : ∀ p c, read p = some c → (0 : Byte) ∉ c) {ps os : List Bytes} (h : Indexes read dir ps os)
    {p : Bytes} (hp : read p = none) (rest : List Bytes) : mergeFiles read dir (ps ++ p :: rest) [] = .val (os.flatten, 1) := by
  have key : ∀ out, mergeFiles read dir (ps ++ p :: rest) out = .val (out ++ os.flatten, 1) := by
    induction h with
    | nil => intro out; simp [mergeFiles, hp]
    | @cons p' s ls o ps os hr hl hm _ ih =>
      intro out
      rw [List.cons_append, mergeFiles, hr]
      simp only
      rw [(Merge.C171_merge_partial read (dir p') s h0 ls hl).1 o hm]
      show mergeFiles read dir (ps ++ p :: rest) (out ++ o) = _
      rw [ih]
      simp
  simpa using key []

/-- The two options together are an error, and nothing is written. -/
theorem C272_both (read file : Bytes → Option Bytes) (dir : Bytes → Bytes) (args : List Arg) (h1 : Arg.combine ∈ args) (h2 : Arg.merge ∈ args) :
    run read file dir args = some (.val ([], 1)) := by
  have m1 : ∀ (args : List Arg) (s : St), Arg.combine ∈ args ∨ s.combine = true → (args.foldl St.arg s).combine = true := by
    intro args
    induction args with
    | nil => intro s h; simpa using h
    | cons a args ih =>
      intro s h
      rw [List.foldl_cons]
      apply ih
      rcases h with h | h
      · rcases List.mem_cons.mp h with h | h
        · right; rw [← h]; rfl
        · exact .inl h
      · right
        cases a <;> simp [St.arg, h]
  have m2 : ∀ (args : List Arg) (s : St), Arg.merge ∈ args ∨ s.merge = true → (args.foldl St.arg s).merge = true := by
    intro args
    induction args with
    | nil => intro s h; simpa using h
    | cons a args ih =>
      intro s h
      rw [List.foldl_cons]
      apply ih
      rcases h with h | h
      · rcases List.mem_cons.mp h with h | h
        · right; rw [← h]; rfl
        · exact .inl h
      · right
        cases a with
        | combine => exact h
        | merge => rfl
        | name q =>
          cases hc : s.combine <;> simp [St.arg, h, hc]
  unfold run
  simp only [m1 args {} (.inl h1), m2 args {} (.inl h2), Bool.true_and]
  split <;> rfl

/-- An index, with a file. -/
def shelf : Bytes → Option Bytes := fun p => if p = b!"i" then some b!"\ta.md\n" else if p = b!"./a.md" then some b!"# A" else none

theorem C272_case : mergeFiles shelf (fun _ => b!".") [b!"i", b!"i"] [] = .val (b!"## A\n\n## A\n\n", 0) ∧
    Merged shelf b!"." [b!"\ta.md"] b!"## A\n\n" ∧ ∀ p c, shelf p = some c → (0 : Byte) ∉ c := by
  refine ⟨by decide +kernel, ?_, ?_⟩
  · exact .file (n := 1) (name := b!"a.md") (p := b!"./a.md") (c := b!"# A") (o := []) (Merge.entry_iff.1 (by decide +kernel)) (by simp [Path]) (by decide) (by decide +kernel) (.inl (by decide)) .nil
  · intro p c h
    unfold shelf at h
    split at h
    · cases h; decide
    · split at h
      · cases h; decide
      · cases h

/-- The names behind the option are those of the indexes; without names it is an error. -/
theorem C272_names (read file : Bytes → Option Bytes) (dir : Bytes → Bytes) (ps : List Bytes) :
    run read file dir (.merge :: ps.map .name) = some (if ps = [] then .val ([], 1) else mergeFiles read dir ps []) := by
  have key : ∀ (ps : List Bytes) (s : St), s.combine = false → s.merge = true → (ps.map Arg.name).foldl St.arg s = { s with merged := s.merged ++ ps } := by
    intro ps
    induction ps with
    | nil => intro s _ _; simp
    | cons p ps ih =>
      intro s hc hm
      rw [List.map_cons, List.foldl_cons]
      have : St.arg s (.name p) = { s with merged := s.merged ++ [p] } := by simp [St.arg, hc, hm]
      rw [this, ih { s with merged := s.merged ++ [p] } hc hm]
      simp
  unfold run
  rw [List.foldl_cons]
  have h1 : St.arg {} .merge = { merge := true } := rfl
  rw [h1, key ps _ rfl rfl]
  simp

end Verif.CombineFiles
