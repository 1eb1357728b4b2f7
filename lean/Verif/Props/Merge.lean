/-
C171, C172: merging of files.
-/
import Verif.Proof.Merge

namespace Verif.Merge
open Spec (Gap Tail Solid Level Entry Path Merged Link Names Texts between)
open HtmlPass.Spec (shifted HasHeader)
open Text.Spec (Lines)

/-! ### C171 -/

/-- Every file an index names, in order: its headings get a `#` more for a level, and an empty line is behind it.  Comments, empty lines and files that cannot be read are left out.
Missing: files with headings at the second level and below, and paths of 4096 bytes or more. -/
theorem C171_merge_partial (read : Bytes → Option Bytes) (base index : Bytes) (h0 : ∀ p c, read p = some c → (0 : Byte) ∉ c) (ls : List Bytes) (hl : Lines index ls) :
    (∀ o, Merged read base ls o → merge read base index = .val o) ∧
      ((∀ l ∈ ls, ∀ n name p, Entry l n name → Path base name p → p.length < 4096 ∧ ∀ c, read p = some c → n ≤ 1 ∨ ¬ HasHeader c) → ∃ o, Merged read base ls o) := by
  refine ⟨fun o ho => ?_, merged_total read base ls⟩
  unfold merge
  rw [Text.splitLines_unique hl, merged_go h0 ho]
  simp

/-- A line names at most one file, at one level. -/
theorem C171_entry_unique (l : Bytes) (n m : Nat) (a b : Bytes) (h1 : Entry l n a) (h2 : Entry l m b) : n = m ∧ a = b := by
  have := (entry_iff.2 h1).symm.trans (entry_iff.2 h2)
  simpa using this

/-- What stands before a file with headings that is two levels down or more, whatever that is and whatever follows, the program writes behind the end of a block. -/
theorem C171_twice_refuted (read : Bytes → Option Bytes) (base index : Bytes) (h0 : ∀ p c, read p = some c → (0 : Byte) ∉ c) (ls rest : List Bytes) (l : Bytes)
    (hl : Lines index (ls ++ l :: rest)) (o : Bytes) (ho : Merged read base ls o) (n : Nat) (name p c : Bytes) (he : Entry l n name) (hn : 2 ≤ n) (hp : Path base name p)
    (hlen : p.length < 4096) (hr : read p = some c) (hh : HasHeader c) : merge read base index = .ub := by
  unfold merge
  rw [Text.splitLines_unique hl]
  have key : ∀ out, mergeGo read base (ls ++ l :: rest) out = .ub := by
    clear hl
    induction ho with
    | nil =>
      intro out
      rw [List.nil_append, mergeGo, entry_iff.2 he]
      obtain ⟨m, rfl⟩ : ∃ m, n = m + 1 := ⟨n - 1, by omega⟩
      have hd : HtmlPass.hdr true c = true := by simpa [HtmlPass.hdr_iff, HasHeader] using hh
      simp only [path_eq hp hlen, hr, HtmlPass.shift_succ _ _ (h0 _ _ hr)]
      rw [if_pos ⟨hd, by omega⟩]
      rfl
    | skip hn _ ih => intro out; rw [List.cons_append, mergeGo, entry_none.2 hn]; exact ih out
    | missing he hp hl hr _ ih => intro out; rw [List.cons_append, mergeGo, entry_iff.2 he]; simp only [path_eq hp hl, hr]; exact ih out
    | file he hp hl hr hs _ ih =>
      intro out
      rw [List.cons_append, mergeGo, entry_iff.2 he]
      simp only [path_eq hp hl, hr, shift_ok (h0 _ _ hr) hs, C.bind]
      exact ih _
  exact key []

/-- A directory. -/
def files : Bytes → Option Bytes := fun p => if p = b!"d/a.md" then some b!"# A\ntext\n" else if p = b!"/b.md" then some b!"## B" else none

theorem C171_twice_case : merge files b!"d" b!"a.md\n\t    a.md\n" = .ub := by decide +kernel

theorem C171_example : merge files b!"d" b!"a.md\r\n# note\n\n    /b.md \nnone.md\n  \ta.md" = .val b!"# A\ntext\n\n\n### B\n\n# A\ntext\n\n\n" := by decide +kernel

/-- The case meets the conditions of the theorem. -/
theorem C171_case : Merged files b!"d" [b!"a.md\r", b!"    /b.md"] b!"# A\ntext\n\n\n### B\n\n" := by
  refine .file (n := 0) (name := b!"a.md") (p := b!"d/a.md") (c := b!"# A\ntext\n") (o := b!"### B\n\n") (entry_iff.1 (by decide +kernel)) (by simp [Path]) (by decide) (by decide +kernel) (.inl (by decide)) ?_
  exact .file (n := 1) (name := b!"/b.md") (p := b!"/b.md") (c := b!"## B") (o := []) (entry_iff.1 (by decide +kernel)) (by simp [Path]) (by decide) (by decide +kernel) (.inl (by decide)) .nil

/-- A path of 4096 bytes or more is cut off: for a long directory, whatever names the index has, the same file is read. -/
theorem C171_long_refuted (read : Bytes → Option Bytes) (base : Bytes) (hb : 4095 ≤ base.length) : merge read base b!"a.md" = merge read base b!"b.md" := by
  have h : ∀ name : Bytes, name.head? ≠ some c!"/" → path base name = base.take 4095 := by
    intro name hn
    rw [path, if_neg hn, List.append_assoc, List.take_append_of_le_length hb]
  unfold merge
  rw [show Text.splitLines b!"a.md" = [b!"a.md"] by decide +kernel, show Text.splitLines b!"b.md" = [b!"b.md"] by decide +kernel]
  simp only [mergeGo]
  rw [show entry b!"a.md" = some (0, b!"a.md") by decide +kernel, show entry b!"b.md" = some (0, b!"b.md") by decide +kernel]
  simp only [h b!"a.md" (by decide), h b!"b.md" (by decide)]

/-! ### C172 -/

/-- The combined text of a summary: the texts of the files its lines name by their first link, in order, with empty lines between them.
Missing: other links of a line, and links whose text has brackets. -/
theorem C172_summary_partial (file : Bytes → Option Bytes) (base summary : Bytes) (ls : List Bytes) (hl : Lines summary ls) :
    (∃ ts, Texts file base ls ts) ∧ ∀ ts, Texts file base ls ts → combine file base summary = between ts := by
  refine ⟨texts_total file base ls, fun ts ht => ?_⟩
  unfold combine
  rw [Text.splitLines_unique hl, texts_go ht]
  simp

/-- A line names at most one file. -/
theorem C172_name_unique (l a b : Bytes) (h1 : Names l a) (h2 : Names l b) : a = b := by
  have := (target_iff.2 h1).symm.trans (target_iff.2 h2)
  simpa using this

/-- A directory. -/
def book : Bytes → Option Bytes := fun p => if p = b!"d/a.md" then some b!"A\n" else if p = b!"d/b.md" then some b!"B" else none

theorem C172_example : combine book b!"d" b!"# Summary\n\n* [A]( a.md )\n  * [B](b.md#two)\n* [x](http://x.org/a.md)\n* [none](c.md)\n* [A](a.md)\n" = b!"A\n\n\nB\n\nA\n" := by decide +kernel

theorem C172_case : Texts book b!"d" [b!"# Summary", b!"* [A]( a.md )", b!"  * [B](b.md#two)"] [b!"A\n", b!"B"] := by
  refine .skip (target_none.1 (by decide +kernel)) ?_
  refine .file (p := b!"a.md") (target_iff.1 (by decide +kernel)) (by decide +kernel) ?_
  exact .file (p := b!"b.md") (target_iff.1 (by decide +kernel)) (by decide +kernel) .nil

/-- Brackets before the link, a second link, or brackets in its text: the file is left out. -/
theorem C172_first_refuted : combine book b!"d" b!"* [ ] [A](a.md)\n" = [] ∧ combine book b!"d" b!"[A](a.md) [B](b.md)" = b!"A\n" ∧ combine book b!"d" b!"* [the [A] file](a.md)" = [] := by
  decide +kernel

/-- A link to a section of the summary itself is taken as a file: the directory. -/
theorem C172_section_refuted (file : Bytes → Option Bytes) (base : Bytes) : combine file base b!"[A](#a)" = (file (base ++ b!"/")).getD [] := by
  unfold combine
  rw [show Text.splitLines b!"[A](#a)" = [b!"[A](#a)"] by decide +kernel, combineGo, show target b!"[A](#a)" = some [] by decide +kernel]
  simp only [List.append_nil]
  cases file (base ++ b!"/") <;> simp [combineGo]

end Verif.Merge
