/- C280 and C282: code and paragraphs in man pages. -/
import Verif.Proof.ManCode
import Verif.Props.Man

namespace Verif.Man
open Spec

/-- C280 (part that holds): code outside of list items, and not right after a definition list, is written
between `.nf` and `.fi`, the requests that keep lines as they are. What roff prints for it is the code
without its empty lines, en dashes shown as two hyphens, and no line of it is taken for a request. -/
theorem C280_partial (parent : Option Kind) (first : Bool) (out lit : Bytes) (kids : List Node)
    (hp : ∀ i, parent ≠ some (.item i)) :
    ∃ body, renderBlock parent first ⟨out, false⟩ (.mk (.codeBlock lit) kids) =
        some ⟨out ++ b!"\n.PP\n.nf\n\\fR\n" ++ body ++ b!"\n\\f[]\n.fi\n", false⟩ ∧
      printed body = enDash (squeeze lit) ∧
      (NoEmptyLine lit → printed body = enDash lit) ∧
      ∀ i, (out ++ b!"\n.PP\n.nf\n\\fR\n").length ≤ i →
        ¬ RequestAt (out ++ b!"\n.PP\n.nf\n\\fR\n" ++ body) i := by
  have hs := printed_roffLoop (atLineStart (out ++ b!"\n.PP\n.nf\n\\fR\n")) (squeeze lit)
  refine ⟨roffLoop 0 (atLineStart (out ++ b!"\n.PP\n.nf\n\\fR\n")) (squeeze lit), ?_, hs,
    fun h => by rw [hs, squeeze_id _ h], roffLoop_no_request 0 _ _ _ rfl⟩
  simp only [renderBlock, codeLoop_eq, St.add, roffSafe, Bool.or_self, Bool.false_eq_true, if_false]

/-- C280 (refutation): an empty line of code is lost, wherever it stands: code with it and code without it
give the same man page. -/
theorem C280_empty_line_fails (parent : Option Kind) (first : Bool) (out s t : Bytes) (kids : List Node)
    (hp : ∀ i, parent ≠ some (.item i)) :
    renderBlock parent first ⟨out, false⟩ (.mk (.codeBlock (s ++ b!"\n\n" ++ t)) kids) =
      renderBlock parent first ⟨out, false⟩ (.mk (.codeBlock (s ++ b!"\n" ++ t)) kids) := by
  simp only [renderBlock, codeLoop_eq, squeeze_empty_line, Bool.or_self, Bool.false_eq_true, if_false]

/-- C280 (refutation): code in a list item is written as any text, in no `.nf`: roff joins its lines. All
of its text is there. -/
theorem C280_item_fails (n : Nat) (first : Bool) (out lit : Bytes) (kids : List Node)
    (h : atLineStart out = true) :
    ∃ body, renderBlock (some (.item n)) first ⟨out, false⟩ (.mk (.codeBlock lit) kids) =
        some ⟨out ++ body ++ b!"\n", false⟩ ∧
      printed body = enDash lit ∧
      ∀ i, out.length ≤ i → ¬ RequestAt (out ++ body) i :=
  ⟨roffLoop 0 (atLineStart out) lit, by simp [renderBlock, h, St.add, roffSafe], printed_roffLoop _ _,
    roffLoop_no_request 0 _ _ _ rfl⟩

/-- C280: three cases of whole documents. Code with a line that begins with a period; code with an empty
line; code in an item of a list. -/
theorem C280_case :
    NoEmptyLine b!"a\n.b\n" ∧
    (renderBlock (some .document) true ⟨[], false⟩ (.mk (.codeBlock b!"a\n.b\n") [])).map (·.out) =
      some b!"\n.PP\n.nf\n\\fR\na\n\\&.b\n\n\\f[]\n.fi\n" ∧
    (renderBlock (some .document) true ⟨[], false⟩ (.mk (.codeBlock b!"a\n\nb\n") [])).map (·.out) =
      some b!"\n.PP\n.nf\n\\fR\na\nb\n\n\\f[]\n.fi\n" ∧
    ((manRoff false [.mk (.list true) [.mk (.item 1) [.mk (.codeBlock b!"a\nb\n") []]]]).map
      (fun s => requests s.out)) = some [b!".TH", b!".IP"] := by
  refine ⟨?_, by decide +kernel, by decide +kernel, by decide +kernel⟩
  unfold NoEmptyLine
  decide +kernel

/-! ### C282: paragraphs -/

/-- A paragraph of text. -/
def para (t : Bytes) : Node := .mk .paragraph [.mk (.text t) []]

theorem paras_item (i : Nat) (first : Bool) (ts : List Bytes) : blocksReqs (.item i) first (ts.map para) = [] := by
  induction ts generalizing first with
  | nil => simp [blocksReqs]
  | cons t ts ih => simp [blocksReqs, blockReqs, inlinesReqs, inlineReqs, para, ih]

theorem noDls_paras (ts : List Bytes) : noDls (ts.map para) = true := by
  induction ts with
  | nil => simp [noDls]
  | cons t ts ih => simp [noDls, noDl, para, ih]

theorem paras_top (first : Bool) (ts : List Bytes) :
    blocksReqs .document first (ts.map para) = List.replicate ts.length b!".PP" := by
  induction ts generalizing first with
  | nil => simp [blocksReqs]
  | cons t ts ih => simp [blocksReqs, blockReqs, inlinesReqs, inlineReqs, para, ih, List.replicate_succ]

/-- C282 (part that holds): at the top of a document each paragraph begins with a request of its own, and
there is no other request but the header, whatever the texts. -/
theorem C282_partial (ts : List Bytes) :
    ∃ s, manRoff false (ts.map para) = some s ∧
      requests s.out = b!".TH" :: List.replicate ts.length b!".PP" := by
  obtain ⟨s, h, hr⟩ := C55_requests (ts.map para) (noDls_paras ts)
  exact ⟨s, h, by rw [hr, paras_top]⟩

/-- C282 (refutation): an item of a list has one request however many paragraphs it has, so that roff shows
all of them as one (text in cmark has no line ends). -/
theorem C282_item_fails (i : Nat) (bullet : Bool) (ts : List Bytes) :
    ∃ s, manRoff false [.mk (.list bullet) [.mk (.item i) (ts.map para)]] = some s ∧
      requests s.out = [b!".TH", b!".IP"] := by
  obtain ⟨s, h, hr⟩ := C55_requests [.mk (.list bullet) [.mk (.item i) (ts.map para)]]
    (by simp [noDls, noDl, noDls_paras])
  exact ⟨s, h, by rw [hr]; simp [blocksReqs, blockReqs, paras_item]⟩

/-- C282: a case of each, as written. -/
theorem C282_case :
    (renderBlocks .document true ⟨[], false⟩ [para b!"a", para b!".b"]).map (·.out) =
      some b!"\n.PP\na\n\n.PP\n\\&.b\n" ∧
    (renderBlock (some (.list true)) true ⟨[], false⟩ (.mk (.item 1) [para b!"a", para b!"b"])).map (·.out) =
      some b!"\n.IP \\(bu 2\na\nb\n" := by
  decide +kernel

end Verif.Man
