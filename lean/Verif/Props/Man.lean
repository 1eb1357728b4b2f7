import Verif.Proof.Man

/-! Properties C10, C11, C55 to C58: man pages (src/ast_man.c). -/

namespace Verif.Man
open Spec

/-! ### C10 -/

/-- C10: whatever was written before and whatever the text (and the byte behind its end), no request
line starts inside the text appended. -/
theorem C10_text_starts_no_request (after : Byte) (out str : Bytes) :
    ∀ i, out.length ≤ i → ¬ RequestAt (roffSafe after out str) i :=
  roffLoop_no_request after str _ out rfl

example : roffSafe 0 b!".SH x\n" b!".so /etc\n'a-b" = b!".SH x\n\\&.so /etc\n\\&'a\\-b" := by decide +kernel
example : RequestAt b!".SH x\n.so /etc" 6 := by simp [RequestAt]

/-! ### C55 -/

/-- C55: a document without `<dl>` HTML converts to a page whose requests are exactly `.TH` and those
its structure stands for, in order; no text of the document adds, removes or changes one. -/
theorem C55_requests (kids : List Node) (h : noDls kids = true) :
    ∃ s, manRoff false kids = some s ∧
      requests s.out = b!".TH" :: blocksReqs .document true kids := by
  have h1 := header_ok (if firstH1 kids = [] then b!"Document" else firstH1 kids)
  obtain ⟨s, a1, _, a3, _⟩ := renderBlock_ok none true
    ⟨header (if firstH1 kids = [] then b!"Document" else firstH1 kids), false⟩ (.mk .document kids)
    (by simpa [noDl] using h) rfl h1.2
  exact ⟨s, a1, by rw [a3]; simp only; rw [h1.1]; simp [blockReqs]⟩

/-- A document with a heading, a hostile paragraph and a list. -/
def sample : List Node :=
  [.mk (.heading 1) [.mk (.text b!"T") []],
   .mk .paragraph [.mk (.text b!".so /etc/passwd") [], .mk .lineBreak [], .mk (.code b!"'x") []],
   .mk (.list true) [.mk (.item 0) [.mk .paragraph [.mk (.text b!".a") []]]]]

example : noDls sample = true := by decide
example : b!".TH" :: blocksReqs .document true sample = [b!".TH", b!".SH", b!".PP", b!".br", b!".IP"] := by
  decide

/-! ### C11 -/

/-- C11 (exactly when it finishes): converting a fragment finishes if and only if the fragment consists
of complete tags, the five known entities and other text without `<` and `&`. -/
theorem C11_finishes_iff (out str : Bytes) :
    (∃ out', appendFragment out str = some out') ↔ WellFormed str := by
  rw [← fragLoop_isSome ⟨out, str⟩, Option.isSome_iff_exists]
  rfl

/-- C11: when the model says that the call never returns, the loop indeed never reaches the end. -/
theorem C11_never_returns (out str : Bytes) (h : appendFragment out str = none) :
    ∀ n, (iter fragStep n ⟨out, str⟩).rest ≠ [] := fragLoop_none _ h

/-- C11 (refutation): a lone ampersand, as in "AT&T", never finishes. -/
theorem C11_ampersand_hangs (out : Bytes) : appendFragment out b!"AT&T" = none := by
  rcases h : appendFragment out b!"AT&T" with _ | o
  · rfl
  · exfalso
    have hw := (C11_finishes_iff out _).1 ⟨o, h⟩
    have := (((hw.uncons (by decide)).uncons (by decide))).progress.2
    exact this (by decide)

/-- C11 (part that holds): converting complete tags, entities other than `&#39;` and plain text finishes
and starts no request line. Missing: other fragments, see the refutations. -/
theorem C11_fragment_partial (out str : Bytes) (h : WellFormed str) (hq : ¬ b!"&#39;" <:+: str) :
    ∃ out', appendFragment out str = some out' ∧ out <+: out' ∧
      ∀ i, out.length ≤ i → ¬ RequestAt out' i := by
  obtain ⟨o, ho⟩ := (C11_finishes_iff out str).2 h
  obtain ⟨h1, h2⟩ := fragLoop_safe ⟨out, str⟩ hq o ho
  exact ⟨o, ho, h1, h2⟩

example : WellFormed b!"<code>.a</code>&lt;" :=
  .tag b!"code" _ (by decide) (.plain _ _ (by decide) (by decide) (.plain _ _ (by decide) (by decide)
    (.tag b!"/code" _ (by decide) (.entity b!"&lt;" [] (by decide) .nil))))

/-- C11 (refutation): `&#39;` at the start of a definition becomes a request line. -/
theorem C11_apostrophe_starts_request :
    appendFragment b!".TP\n" b!"&#39;so x" = some b!".TP\n'so x" ∧ RequestAt b!".TP\n'so x" 4 := by
  refine ⟨by decide +kernel, ?_⟩
  simp [RequestAt]

/-! ### C56 -/

/-- Converting documents one after the other in a process: the output of each, up to a conversion that
never returns. -/
def convertAll (dd : Bool) : List (List Node) → List Bytes
  | [] => []
  | d :: ds =>
    match manRoff dd d with
    | none => []
    | some s => s.out :: convertAll s.dd ds

/-- C56 (part that holds): documents without `<dl>` HTML are converted as if each were the first.
Missing: `C56_history_leaks`. -/
theorem C56_history_partial (ds : List (List Node)) (h : ∀ d ∈ ds, noDls d = true) :
    ∃ outs, convertAll false ds = outs ∧ outs.length = ds.length ∧
      ∀ i (hi : i < ds.length), ∃ s, manRoff false ds[i] = some s ∧ outs[i]? = some s.out := by
  induction ds with
  | nil => exact ⟨[], rfl, rfl, by simp⟩
  | cons d ds ih =>
    have h1 := header_ok (if firstH1 d = [] then b!"Document" else firstH1 d)
    obtain ⟨s, a1, a2, _, _⟩ := renderBlock_ok none true
      ⟨header (if firstH1 d = [] then b!"Document" else firstH1 d), false⟩ (.mk .document d)
      (by simpa [noDl] using h d (by simp)) rfl h1.2
    have a1 : manRoff false d = some s := a1
    obtain ⟨outs, b1, b2, b3⟩ := ih (fun d' hd' => h d' (by simp [hd']))
    refine ⟨s.out :: outs, by rw [convertAll, a1]; simp only [a2, b1], by simp [b2], ?_⟩
    intro i hi
    cases i with
    | zero => exact ⟨s, a1, rfl⟩
    | succ i => simpa using b3 i (by simpa using hi)

/-- C56 (refutation): the same document converts differently after a document that ends with a
definition list; the paragraph request `.PP` is lost. -/
theorem C56_history_leaks :
    let dl : List Node := [.mk (.htmlBlock b!"<dl><dt>a</dt><dd>b</dd></dl>") []]
    let doc : List Node := [.mk .paragraph [.mk (.text b!"x") []]]
    (convertAll false [dl, doc])[1]? ≠ (convertAll false [doc])[0]? := by
  decide +kernel

/-! ### C57 -/

/-- C57: the text roff prints for escaped text is that text, with en dashes shown as two hyphens. -/
theorem C57_printed_text (out str : Bytes) :
    ∃ e, roffSafe 0 out str = out ++ e ∧ printed e = enDash str :=
  ⟨_, rfl, printed_roffLoop _ _⟩

/-- C57: texts without en dash are told apart. -/
theorem C57_injective (out s t : Bytes) (hs : enDash s = s) (ht : enDash t = t)
    (h : roffSafe 0 out s = roffSafe 0 out t) : s = t := by
  unfold roffSafe at h
  have := List.append_cancel_left h
  rw [← hs, ← ht, ← printed_roffLoop (atLineStart out) s, this, printed_roffLoop]

example : printed (roffSafe 0 [] b!".a\\b-c") = b!".a\\b-c" ∧ enDash b!".a\\b-c" = b!".a\\b-c" := by
  decide +kernel

/-! ### C58 -/

/-- C58 (part that holds): a title without double quotes and newlines is one argument of `.TH`, followed
by section, date and source. Missing: `C58_quote_splits_title`. -/
theorem C58_title_partial (title : Bytes) (h : (34 : Byte) ∉ title) (hn : (10 : Byte) ∉ title) :
    ∃ line e, header title = b!".TH " ++ line ++ [10] ∧ (10 : Byte) ∉ line ∧ printed e = enDash title ∧
      args 10 line = [e, b!"1", b!"1 January 1970", []] := by
  have hm : ∀ c, c ∉ b!"\\e&-[em]" → c ∉ title → c ∉ roffLoop 0 (atLineStart b!".TH \"") title :=
    fun c h1 h2 h3 => h2 (roffLoop_mem _ _ _ _ h1 h3)
  have h34 := hm 34 (by decide) h
  have h10 := hm 10 (by decide) hn
  refine ⟨c!"\"" :: (roffLoop 0 (atLineStart b!".TH \"") title ++ b!"\" \"1\" \"1 January 1970\" \"\""),
    roffLoop 0 (atLineStart b!".TH \"") title, by simp [header, roffSafe], ?_, printed_roffLoop _ _, ?_⟩
  · simpa using h10
  · rw [args]
    simp only [List.dropWhile_cons]
    have hq := quoted_plain _ b!" \"1\" \"1 January 1970\" \"\"" h34 (by decide)
    simp only [show ((34 : Byte) == 32) = false from by decide,
      Bool.false_eq_true, if_false] at hq ⊢
    rw [hq]
    simp only [List.cons.injEq, true_and]
    decide +kernel

example : args 10 b!"\"a b\" \"1\"" = [b!"a b", b!"1"] := by decide +kernel

/-- C58 (refutation): the heading `a" x "b` becomes several arguments. -/
theorem C58_quote_splits_title :
    ∃ line, header b!"a\" x \"b" = b!".TH " ++ line ++ [10] ∧
      args 10 line ≠ [b!"a\" x \"b", b!"1", b!"1 January 1970", []] ∧ (args 10 line).length = 6 :=
  ⟨b!"\"a\" x \"b\" \"1\" \"1 January 1970\" \"\"", by decide +kernel, by decide +kernel,
    by decide +kernel⟩

end Verif.Man
