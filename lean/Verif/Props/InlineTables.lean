import Verif.Proof.InlineTables
import Verif.Props.Csv

namespace Verif.InlineTables
open Csv.Spec (Rows Table)

/-! ### C123: inline tables -/

theorem delim_or (data : Bytes) : NoDelim data ∨ ∃ d, Delim data d := by
  by_cases h1 : c!"\t" ∈ data
  · exact .inr ⟨_, .tab h1⟩
  · by_cases h2 : c!"," ∈ data
    · exact .inr ⟨_, .comma h1 h2⟩
    · exact .inl ⟨h1, h2⟩

theorem delim_ne {data : Bytes} {d : Byte} (h : Delim data d) : data ≠ [] := by cases h <;> (rintro rfl; simp_all)

theorem delim_unique {data : Bytes} {d e : Byte} (h : Delim data d) (h' : Delim data e) : d = e := by
  have := (delimiter_eq h).symm.trans (delimiter_eq h')
  simpa using this

/-- Every piece has exactly one result. -/
theorem C123_result (i : Item) (h : i.Ok) : ∃ out, i.Result out ∧ ∀ out', i.Result out' → out' = out := by
  cases i with
  | code info body => exact ⟨_, .code, fun _ h => by cases h; rfl⟩
  | table pre word post data tail =>
    obtain ⟨_, _, _, _, hd, _⟩ := h
    rcases delim_or data with hn | ⟨d, hd⟩
    · exact absurd hn hd
    · obtain ⟨rows, out, h1, h2, h3⟩ := Csv.C46_read d data (delim_ne hd)
      refine ⟨_, .table hd h1 h2, fun _ h => ?_⟩
      cases h with
      | table hd' hr' ht' =>
        have := delim_unique hd' hd
        subst this
        rw [(h3 _ _ hr' ht').2]
  | marked bl ls =>
    rcases delim_or (ls.flatMap (· ++ b!"\n")) with hn | ⟨d, hd⟩
    · refine ⟨_, .plain hn, fun _ h => ?_⟩
      cases h with
      | plain _ => rfl
      | marked hd' _ _ => cases hd' <;> simp_all [NoDelim]
    · obtain ⟨rows, out, h1, h2, h3⟩ := Csv.C46_read d _ (delim_ne hd)
      refine ⟨_, .marked hd h1 h2, fun _ h => ?_⟩
      cases h with
      | plain hn => cases hd <;> simp_all [NoDelim]
      | marked hd' hr' ht' =>
        have := delim_unique hd' hd
        subst this
        rw [(h3 _ _ hr' ht').2]

/-- C123: in a document of text, code blocks, table blocks and marked data, the table blocks and the marked data become the tables of their
data and everything else stays, unless the buffer overflows. -/
theorem C123_either (t : Bytes) (ht : Between t) (ps : List (Item × Bytes)) (h : Good ps) (outs : List Bytes) (hf : Fits ps outs) :
    process (source t ps) = .val (result t ps outs) ∨ process (source t ps) = .ub := (process_doc t ht ps h outs hf).1

/-- C123: it does not overflow when the result is at most three times as long as the document. -/
theorem C123_partial (t : Bytes) (ht : Between t) (ps : List (Item × Bytes)) (h : Good ps) (outs : List Bytes) (hf : Fits ps outs)
    (hr : (result t ps outs).length ≤ 3 * (source t ps).length) : process (source t ps) = .val (result t ps outs) :=
  (process_doc t ht ps h outs hf).2 (.inl hr)

/-- C123: it does not overflow when there are no table blocks, however long the tables of marked data get. -/
theorem C123_marked_partial (t : Bytes) (ht : Between t) (ps : List (Item × Bytes)) (h : Good ps) (outs : List Bytes) (hf : Fits ps outs)
    (hr : ∀ p ∈ ps, ∀ a b c d e, p.1 ≠ .table a b c d e) : process (source t ps) = .val (result t ps outs) :=
  (process_doc t ht ps h outs hf).2 (.inr hr)

/-- C123, a consequence: a document without three backticks in a row and without the marker is not changed. -/
theorem C123_untouched (t : Bytes) (h1 : ¬ b!"```" <:+: t) (h2 : ¬ b!"<!--TABLE-->" <:+: t) : process t = .val t := by
  rcases List.eq_nil_or_concat t with rfl | ⟨t', x, rfl⟩
  · rfl
  · by_cases hx : x = c!"`"
    · -- a backtick at the end
      have key : ∀ s : Bytes, s <:+ t'.concat x → loop s.length s = .val (s.map .byte) := by
        intro s
        induction s with
        | nil => intro _; rfl
        | cons c s ih =>
          intro hs
          rw [List.length_cons, loop, if_neg fun e => h1 (InlineNotes.infix_of e hs), if_neg fun e => h2 (InlineNotes.infix_of e hs),
            ih ((List.suffix_cons _ _).trans hs)]
          rfl
      unfold process
      rw [key _ (List.suffix_refl _), C.val_bind]
      have hb : ∀ t : Bytes, (t.map Tok.byte).flatMap Tok.out = t := by
        intro t; induction t with
        | nil => rfl
        | cons c t ih => rw [List.map_cons, List.flatMap_cons, ih]; rfl
      obtain ⟨s', e1, e2, e3⟩ := writeAll_fits { cap := (t'.concat x).length * 3 + 1, out := [] } ((t'.concat x).map Tok.byte)
        (.inr ⟨by simp, by simp⟩)
      rw [e1, C.val_bind]
      rw [finish_val e3, e2, hb, List.nil_append]
    · have := C123_partial (t'.concat x) ⟨h1, h2, by simpa using hx⟩ [] trivial [] trivial (by simp [result, source]; omega)
      simpa [source, result] using this

/-- A document with every kind of piece. -/
def sample : Bytes × List (Item × Bytes) :=
  (b!"Text `a,b`\n\n", [(.code b!"c" b!"f(a,b);\n", b!"\n\n"), (.table [] b!"Table" b!" " b!"a,b\n1,2\n" [], b!"more\n"),
    (.marked b!" " [b!"x\ty", b!"1\t2"], b!"\nend\n")])

example : Between sample.1 ∧ Good sample.2 := by
  refine ⟨?_, ?_, ?_, trivial, ?_, ?_, trivial, ?_, ?_, ?_, trivial⟩
  · unfold Between; decide
  · refine ⟨by decide, by unfold Inner; decide, .inl ?_⟩
    intro pre w post e _ _ hw
    have h1 := congrArg List.length e
    have h2 := congrArg List.length hw
    simp at h1 h2
    omega
  · unfold Between; decide
  · simp only [Item.Ok, Blanks, IsWord, Inner, NoDelim]; decide
  · unfold Between; decide
  · simp only [Item.Ok, BlankLine]; decide
  · unfold Between; decide
  · exact .inl ⟨[], b!"end\n", rfl, by simp [BlankLine]⟩

example : process (source sample.1 sample.2) =
    .val b!"Text `a,b`\n\n```c\nf(a,b);\n```\n\n| a | b |\n| --- | --- |\n| 1 | 2 |\n\nmore\n| x | y |\n| --- | --- |\n| 1 | 2 |\n\nend\n" := by decide +kernel

/-- C123 does not hold: a table of just the wrong size writes behind the end of the buffer. -/
theorem C123_overflow : process b!"```table\nx,x,x,x,x,x,x,x```\n" = .ub := by decide +kernel

/-- One column more or less and there is no overflow. -/
theorem C123_overflow_not : process b!"```table\nx,x,x,x,x,x,x```\n" ≠ .ub ∧ process b!"```table\nx,x,x,x,x,x,x,x,x```\n" ≠ .ub := by decide +kernel

/-- C123 does not hold: a table block in a code block fenced with tildes is turned into a table. -/
theorem C123_tildes_fails : process b!"~~~\n```table\na,b\n```\n~~~\n" = .val b!"~~~\n| a | b |\n| --- | --- |\n\n~~~\n" := by decide +kernel

/-- C123 does not hold: the marker in code between backticks turns the rest of the line into a table. -/
theorem C123_span_fails : process b!"Write `<!--TABLE-->` first, then data.\n" = .val b!"Write `| ` first |  then data. |\n| --- | --- |\n" := by decide +kernel

/-- C123 does not hold: text behind the closing backticks is lost. -/
theorem C123_tail_fails : process b!"```table\na,b\n``` lost\nend" = .val b!"| a | b |\n| --- | --- |\n\nend" := by decide +kernel

end Verif.InlineTables
