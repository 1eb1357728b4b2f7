import Verif.Proof.Callouts

namespace Verif.Callouts

/-! ### C124: callouts -/

/-- C124: a block quote whose first line names a type of callout is shown as one, with the title (or the type) and all other content, as
long as the HTML in front of it takes less than 1024 bytes. -/
theorem C124_partial (lit : Bytes) (l : Line) (name : Bytes) (hn : Names l.word name) (hl : l.Ok) (hnl : c!"\n" ∉ l.title) (p : Bytes)
    (t more rest : List Node) (hs : (before name l.sign (if l.title = [] then name else l.title)).length < 1024) :
    process (quote lit l p t more rest) = [.mk .html (before name l.sign (if l.title = [] then name else l.title)) [],
      .mk .quote lit (.mk .para p more :: rest), .mk .html (behind l.sign) []] := by
  obtain ⟨h1, h2⟩ := opening_eq name l.sign l.title hs
  rw [quote, process, if_pos rfl, callout, readHead_eq hn hl hnl]
  simp only [h1, h2, strip_eq hn hl hnl]
  rfl

/-- A title of up to 900 bytes is short enough. -/
theorem C124_short (name : Bytes) (sign : Option Bool) (title word : Bytes) (hn : Names word name) (ht : title.length ≤ 900) :
    (before name sign title).length < 1024 := by
  have key : ∀ w ∈ words, w.2.length ≤ 8 := by decide +kernel
  have := key _ (names_iff.1 hn)
  unfold before
  split <;> simp <;> simp at this <;> omega

/-- C124, the other way round: where no block quote begins with such a line, nothing changes. -/
theorem C124_others (ns : List Node) (h : Withouts ns) : processAll ns = ns := process_withouts ns h

example : Names b!"Warning" b!"warning" ∧ (Line.Ok { word := b!"Warning", sign := some false, blanks := b!" ", title := b!"Be careful" }) := by
  refine ⟨names_iff.2 (by decide), ?_⟩
  unfold Line.Ok; decide

/-- Whether lists of nodes have the same HTML nodes on their top level. -/
def htmls : List Node → List Bytes
  | [] => []
  | .mk .html l _ :: ns => l :: htmls ns
  | _ :: ns => htmls ns

/-- C124 does not hold: characters in the title become markup.  (The document has `&lt;b&gt;`.) -/
theorem C124_title_fails : htmls (process (.mk .quote [] [.mk .para [] [.mk .text b!"[!NOTE] The <b> tag" []]])) =
    [b!"<div class=\"callout callout-note\">\n<div class=\"callout-title\">The <b> tag</div>\n<div class=\"callout-content\">\n", b!"\n</div>\n</div>"] := by
  decide +kernel

/-- C124 does not hold: with a long title the tags in front of the content are lost, those behind it are not. -/
theorem C124_long_fails : htmls (process (.mk .quote [] [.mk .para [] [.mk .text (b!"[!NOTE] " ++ List.replicate 1000 c!"x") []]])) =
    [b!"<div class=\"callout callout-note\">\n<div class=\"callout-title\">" ++ List.replicate 961 c!"x", b!"\n</div>\n</div>"] := by
  decide +kernel

/-- C124 does not hold: a callout in a callout is not shown as one. -/
theorem C124_nested_fails (inner : Node) : process (.mk .quote [] [.mk .para [] [.mk .text b!"[!NOTE]" []], inner]) =
    [.mk .html (before b!"note" none b!"note") [], .mk .quote [] [.mk .para [] [], inner], .mk .html (behind none) []] := by
  exact C124_partial [] { word := b!"NOTE", sign := none, blanks := [], title := [] } b!"note" (names_iff.2 (by decide)) (by unfold Line.Ok; decide)
    (by decide) [] [] [] [inner] (by decide)

end Verif.Callouts
