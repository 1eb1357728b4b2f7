import Verif.Proof.ManFonts

/-! Properties C58 (which heading), C69 and C70: title and fonts of man pages (src/ast_man.c). -/

namespace Verif.Man
open Spec

/-! ### C58, which heading is the title -/

/-- C58: the page starts with the `.TH` line made from the texts of the first level-1 heading among the
blocks of the document (unless they are empty). -/
theorem C58_first_heading (dd : Bool) (pre post kids : List Node) (n : Node) (s : St) (hn : IsH1 n kids)
    (hpre : ∀ m ∈ pre, ∀ ks, ¬ IsH1 m ks) (hne : (piecesAll kids).flatten ≠ [])
    (h : manRoff dd (pre ++ n :: post) = some s) : header (piecesAll kids).flatten <+: s.out := by
  have hh := renderBlock_prefix _ _ _ _ _ h
  simp only [firstH1_of hn hpre, if_neg hne] at hh
  exact hh

/-- C58: without one, or when its text is empty, the title is "Document". -/
theorem C58_no_heading (dd : Bool) (doc : List Node) (s : St)
    (h0 : (∀ m ∈ doc, ∀ ks, ¬ IsH1 m ks) ∨
      ∃ pre n kids post, doc = pre ++ n :: post ∧ IsH1 n kids ∧ (∀ m ∈ pre, ∀ ks, ¬ IsH1 m ks) ∧
        (piecesAll kids).flatten = [])
    (h : manRoff dd doc = some s) : header b!"Document" <+: s.out := by
  have hf : firstH1 doc = [] := by
    rcases h0 with h0 | ⟨pre, n, kids, post, rfl, h1, h2, h3⟩
    · exact firstH1_none h0
    · rw [firstH1_of h1 h2, h3]
  have hh := renderBlock_prefix _ _ _ _ _ h
  simp only [hf, if_pos] at hh
  exact hh

example : (manRoff false [.mk (.heading 2) [.mk (.text b!"x") []],
    .mk (.heading 1) [.mk (.text b!"a ") [], .mk .strong [.mk (.code b!"b") []]]]).map (fun s => s.out.take 10) =
    some b!".TH \"a b\" " := by
  decide +kernel

/-! ### C69 -/

/-- C69: a definition-list fragment of text, entities, tags, and strong and code elements is printed
with every character in the font of its element, whatever font was used before the current one. -/
theorem C69_fragment_fonts_partial (out s : Bytes) (o : List (Byte × Font)) (h : Fragment s o) :
    ∃ e, appendFragment out s = some (out ++ e) ∧ ∀ prev, styled .roman prev e = o :=
  fragment_read h out

/-- A fragment with all the elements. -/
example : Fragment (b!"a&lt;" ++ (b!"<strong>" ++ ((b!"b" ++ (b!"<code>" ++ (b!"c" ++ (b!"</code>" ++ b!"d")))) ++
      (b!"</strong>" ++ b!"<i>e"))))
    (inFont .roman b!"a<" ++ ((inFont .bold b!"b" ++ (inFont .roman b!"c" ++ inFont .bold b!"d")) ++
      inFont .roman b!"e")) := by
  have one : ∀ (f : Font) (c : Byte), c ≠ c!"<" → c ≠ c!"&" → Piece f [c] (inFont f [c]) := fun f c h1 h2 =>
    .plain h1 h2 (by simp) .nil
  refine .strong ?_ (.code (one _ _ (by decide) (by decide)) (one _ _ (by decide) (by decide))
    (.piece (one _ _ (by decide) (by decide)))) (.piece ?_)
  · exact .plain (by decide) (by decide) (by simp) (.entity (e := b!"&lt;") (c := c!"<") (by decide) .nil)
  · exact .tag (w := b!"i") (by decide) (by decide) (one _ _ (by decide) (by decide))

/-- C69 (refutation for emphasis): the text of an `<em>` element is printed in roman. -/
theorem C69_em_ignored :
    appendFragment [] b!"<em>a</em>" = some b!"a" ∧ styled .roman .roman b!"a" ≠ inFont .italic b!"a" := by
  decide +kernel

/-- C69 (refutation for nesting): strong text within strong text leaves the rest of the page bold. -/
theorem C69_nested_strong :
    ∃ e, appendFragment [] b!"<strong>a<strong>b</strong></strong>c" = some e ∧
      styled .roman .roman e = inFont .bold b!"abc" :=
  ⟨b!"\\f[B]a\\f[B]b\\f[]\\f[]c", by decide +kernel, by decide +kernel⟩

/-! ### C70 -/

/-- C70 (part that holds): a sequence of inline nodes without emphasis within emphasis is printed with
every character in its font, and the font is roman again afterwards, so the text that follows is not
affected. Missing: `C70_nested_wrong`. -/
theorem C70_fonts_partial (out : Bytes) (ns : List Node) (h : flats false ns = true) :
    ∃ e, renderInlines out ns = out ++ e ∧
      ∀ prev, ∃ prev', ∀ rest, styled .roman prev (e ++ rest) =
        inlinesStyled .roman ns ++ styled .roman prev' rest :=
  outsides_styled ns h out

/-- `**a** *b* [c](u)` and code. -/
def styledSample : List Node :=
  [.mk .strong [.mk (.text b!"a") [], .mk (.code b!"-x") []], .mk .emph [.mk (.text b!"b") []],
   .mk (.link b!"u") [.mk (.text b!"c") []]]

example : flats false styledSample = true := by decide +kernel
example : inlinesStyled .roman styledSample = inFont .bold b!"a" ++ inFont .roman b!"-x" ++ inFont .italic b!"b" ++
    inFont .roman b!"c (u)" := by decide +kernel

/-- `**a *b* c** d` -/
def nested : List Node :=
  [.mk .strong [.mk (.text b!"a") [], .mk .emph [.mk (.text b!"b") []], .mk (.text b!"c") []],
   .mk (.text b!"d") []]

/-- C70 (refutation): after emphasis within strong text the following text is in italics. -/
theorem C70_nested_wrong :
    inlinesStyled .roman nested = inFont .bold b!"a" ++ inFont .italic b!"b" ++ inFont .bold b!"c" ++ inFont .roman b!"d" ∧
      styled .roman .roman (renderInlines [] nested) =
        inFont .bold b!"a" ++ inFont .italic b!"b" ++ inFont .bold b!"c" ++ inFont .italic b!"d" := by
  decide +kernel

end Verif.Man
