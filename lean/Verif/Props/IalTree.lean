import Verif.Proof.IalTree

namespace Verif.IalTree

open Spec

/-! ## C227: attribute lists behind blocks -/

/-- C227: for every document whose blocks have attribute lists behind them, each list is removed and its attributes are given to the
block it stands behind, and nothing else changes.  Blocks of HTML between a block and its list stay.  Missing for the full property are
documents with `{` in other texts. -/
theorem C227_partial {alds : List (Bytes × Ial.Attrs)} {after : Bytes} {a : Bytes → Bytes} {l : List Src}
    (h : Goods (fun c => attributes alds after c = .val (some (a c))) l) (t : Bool) (d : Option Bytes) :
    process alds after (.box t d (writes l)) = .val (.box t d (wants a l)) := by
  unfold process
  rw [down, writes_blocks (fun _ h => h) h]
  rfl

/-- C227: a heading with an attribute list, and a quote with a list, in which is a paragraph with a list behind a block of HTML. -/
theorem C227_case : Goods (fun c => attributes [] [] c = .val (some (if c = b!" .x" then b!"class=\"x\"" else b!"id=\"y\"")))
    [.node (.heading [.text b!"Title"]) [] (some (0, b!" .x")),
     .node (.box true) [.node (.para [.text b!"a", .brk, .elem .emph none [.text b!"b"]]) [] (some (1, b!" #y"))] (some (0, b!" .x")),
     .node (.para [.text b!"end"]) [] none] := by
  have hx : Content b!" .x" := ⟨by decide, by decide, by decide⟩
  have hy : Content b!" #y" := ⟨by decide, by decide, by decide⟩
  have ax : attributes [] [] b!" .x" = .val (some b!"class=\"x\"") := by decide +kernel
  have ay : attributes [] [] b!" #y" = .val (some b!"id=\"y\"") := by decide +kernel
  refine ⟨⟨⟨by simp only [Plain]; decide, trivial⟩, trivial, ?_⟩, ⟨trivial, ⟨⟨⟨by simp only [Plain]; decide, trivial, by simp only [Plain, Plains, and_true]; decide, trivial⟩, trivial, ?_⟩, trivial⟩, ?_⟩, ⟨⟨by simp only [Plain]; decide, trivial⟩, trivial, nofun⟩, trivial⟩
  · rintro n c ⟨⟩
    exact ⟨trivial, hx, ax⟩
  · rintro n c ⟨⟩
    exact ⟨trivial, hy, ay⟩
  · rintro n c ⟨⟩
    exact ⟨rfl, hx, ax⟩

/-- C227 fails for two lists behind a block: the second one is lost, for it is given to the paragraph of the first one, which is removed. -/
theorem C227_two_fails {A : Bytes → C (Option Bytes)} {c c' a a' : Bytes} (hc : Content c) (hc' : Content c') (ha : A c = .val (some a))
    (ha' : A c' = .val (some a')) (d : Option Bytes) :
    blocks A false [.leaf true d, .para none [.text (list c)], .para none [.text (list c')]] = .val [.leaf true (some a)] := by
  have n1 := next_lost hc ha [] none [.para none [.text (list c')]]
  have n2 := next_lost hc' ha' [] none []
  rw [List.append_nil] at n1 n2
  have h1 : here A (.leaf true d) [.para none [.text (list c)], .para none [.text (list c')]] = .val (.leaf true (some a), true) := by
    show claim A _ _ = _
    unfold claim
    rw [n1]
    rfl
  have h2 : here A (.para none [.text (list c)]) [.para none [.text (list c')]] = .val (.para (some a') [.text (list c)], true) := by
    rw [here_para (paragraph_list hc ha)]
    unfold claim
    rw [n2]
    rfl
  have h3 : here A (.para none [.text (list c')]) [] = .val (.para none [.text (list c')], false) := here_list hc' ha' rfl
  rw [blocks_cons]
  show here A (.leaf true d) _ >>= _ = _
  rw [h1, C.val_bind, blocks_cons]
  show (here A (.para none [.text (list c)]) _ >>= _) >>= _ = _
  rw [h2, C.val_bind, blocks_cons]
  show ((here A (.para none [.text (list c')]) _ >>= _) >>= _) >>= _ = _
  rw [h3]
  rfl

/-! ## C228: attribute lists behind inline elements -/

/-- C228: in a paragraph of text and inline elements, each element gets the attributes of the list directly behind it, and the lists are
removed.  The attributes of the paragraph stay.  Missing for the full property are texts with other `{` and elements with lists in them. -/
theorem C228_partial {A : Bytes → C (Option Bytes)} {a : Bytes → Bytes} {l : List Piece}
    (h : ∀ p ∈ l, p.Good fun c => A c = .val (some (a c))) (d : Option Bytes) {t : Bytes} (ht : c!"{" ∉ t) :
    paragraph A d (txt t ++ l.flatMap Piece.write) = .val (.para d (txt t ++ l.flatMap (Piece.want a)), l.any (·.att.isSome)) :=
  paragraph_pieces (fun _ h => h) h d ht

/-- C228: `a *b*{: .x} c [d](e) f`. -/
theorem C228_case : ∀ p ∈ [Piece.mk .emph [.text b!"b"] (some b!" .x") b!" c ", Piece.mk .link [.text b!"d"] none b!" f"],
    p.Good fun c => attributes [] [] c = .val (some b!"class=\"x\"") := by
  intro p hp
  simp only [List.mem_cons, List.not_mem_nil, or_false] at hp
  rcases hp with rfl | rfl
  · refine ⟨⟨by simp only [Plain]; decide, trivial⟩, by decide, ?_⟩
    rintro c ⟨⟩
    exact ⟨⟨by decide, by decide, by decide⟩, by decide +kernel⟩
  · exact ⟨⟨by simp only [Plain]; decide, trivial⟩, by decide, nofun⟩

/-- C228 fails: a list is not only for the element directly in front of it.  With any text between them, such as in
`*a* and more {: .x}`, the element still gets the attributes, and not the paragraph. -/
theorem C228_gap_fails {A : Bytes → C (Option Bytes)} {c a t : Bytes} (hc : Content c) (ha : A c = .val (some a)) {k : Kind} {sub : List Inl}
    (hs : Plains sub) (ht : c!"{" ∉ t) (d : Option Bytes) :
    paragraph A d [.elem k none sub, .text (t ++ list c)] = .val (.para d (.elem k (some a) sub :: txt (Ial.trimEnd t)), true) :=
  paragraph_gap hc ha hs ht d

/-! ## C229: an attribute list at the end of a block -/

/-- C229: an attribute list at the end of a paragraph gives its attributes to the paragraph, and is removed with the white space in
front of it, if there is no inline element on its line. -/
theorem C229_paragraph {A : Bytes → C (Option Bytes)} {c a t : Bytes} (hc : Content c) (ha : A c = .val (some a)) {l : List Inl} (hl : Ends l)
    (ht : c!"{" ∉ t) (hn : l ≠ [] ∨ ∃ x ∈ t, isSpace x = false) (d : Option Bytes) :
    paragraph A d (l ++ [.text (t ++ list c)]) = .val (.para (some a) (l ++ txt (Ial.trimEnd t)), true) := by
  refine paragraph_end hc ha hl ht (hn.imp id ?_) d
  rintro ⟨x, hx, hf⟩ e
  rw [trimEnd_white e x hx] at hf
  cases hf

/-- C229: and so for a heading; to attributes it has already the new ones are added. -/
theorem C229_heading {A : Bytes → C (Option Bytes)} {c a : Bytes} (hc : Content c) (ha : A c = .val (some a)) (t : Bytes) (l : List Inl)
    (d : Option Bytes) :
    heading A d (.text (t ++ list c) :: l) = .val (some (.heading (some (d.getD [] ++ a)) (.text (Ial.trimEnd t) :: l))) :=
  heading_end hc ha l d

/-- C229: two lines, the second one with a list. -/
theorem C229_case : Ends [.elem .emph none [.text b!"a"], .brk, .text b!"b"] ∧ Content b!" .x" ∧
    attributes [] [] b!" .x" = .val (some b!"class=\"x\"") := by
  refine ⟨⟨[.elem .emph none [.text b!"a"], .brk], [.text b!"b"], rfl, ?_, ?_, .inr ⟨[.elem .emph none [.text b!"a"]], rfl⟩⟩,
    ⟨by decide, by decide, by decide⟩, by decide +kernel⟩
  · simp only [Plains, Plain, and_true, true_and]
    decide
  · simp

/-- C229 fails for a heading with an inline element: only its first text is searched. -/
theorem C229_heading_fails (A : Bytes → C (Option Bytes)) (d : Option Bytes) (k : Kind) (sub : List Inl) (c t : Bytes) (s : Bytes) (hs : c!"{" ∉ s) :
    heading A d [.elem k none sub, .text (t ++ list c)] = .val none ∧
      heading A d [.text s, .elem k none sub, .text (t ++ list c)] = .val none := by
  refine ⟨rfl, ?_⟩
  rw [heading, atEnd_plain hs]

/-! ## C230: released nodes -/

/-- C230: no node is used after it has been released, if no paragraph begins with a text that begins with white space. -/
theorem C230_partial {A : Bytes → C (Option Bytes)} (hA : ∀ c, A c ≠ .ub) {l : List Blk} (h : Calms l) : blocks A false l ≠ .ub :=
  blocks_ne hA false h

/-- C230: a quote with two paragraphs. -/
theorem C230_case : Calms [.box true none [.para none [.text b!"a {: .x}"], .para none [.elem .code none [], .text b!" {: .x}"]]] := by
  refine ⟨⟨?_, trivial, trivial⟩, trivial⟩
  show isSpace c!"a" = false
  decide

/-- C230 fails: the first text of a paragraph is released if it is white space and an attribute list, although the walk over the tree
goes on with it; such is `&#32;{: .x}`. -/
theorem C230_fails {A : Bytes → C (Option Bytes)} {c a p : Bytes} (hc : Content c) (ha : A c = .val (some a)) (hp : p ≠ [])
    (hw : ∀ c ∈ p, isSpace c = true) (d : Option Bytes) {l : List Inl} (hl : Plains l) (rest : List Blk) :
    blocks A false (.para d (.text (p ++ list c) :: l) :: rest) = .ub := by
  rw [blocks_cons]
  show here A (.para d _) rest >>= _ = _
  unfold here
  simp only
  rw [paragraph_ub hc ha hp hw d hl]
  rfl

/-- C230 fails: such as here. -/
theorem C230_fails_case : process [] [] (.box false none [.para none [.text b!" {: .x}"]]) = .ub := by
  have h := C230_fails (A := attributes [] []) (c := b!" .x") (a := b!"class=\"x\"") (p := b!" ") ⟨by decide, by decide, by decide⟩
    (by decide +kernel) (by decide) (by decide) none (l := []) trivial []
  unfold process
  rw [down]
  exact congrArg (· >>= _) h

/-! ## C231: text is not lost -/

/-- C231: a document without `{` in its texts does not change. -/
theorem C231_partial (alds : List (Bytes × Ial.Attrs)) (after : Bytes) {b : Blk} (h : Free b) : process alds after b = .val b :=
  down_free h

/-- C231: a document with code and a list. -/
theorem C231_case : Free (.box false none [.para none [.text b!"a}"], .leaf true none, .box true none [.heading none [.elem .code none []]]]) := by
  simp only [Free, Frees, Plains, Plain, and_true, true_and]
  decide

/-- C231 fails: a paragraph that begins with an attribute list is removed with all text behind the list, when it stands behind a block
that can have attributes. -/
theorem C231_fails {A : Bytes → C (Option Bytes)} {c a : Bytes} (hc : Content c) (ha : A c = .val (some a)) (t : Bytes)
    (d : Option Bytes) : blocks A false [.leaf true d, .para none [.text (list c ++ t)]] = .val [.leaf true (some a)] := by
  have h1 : here A (.leaf true d) [.para none [.text (list c ++ t)]] = .val (.leaf true (some a), true) := by
    show claim A _ _ = _
    unfold claim
    rw [next_lost hc ha]
    rfl
  have hs : step A true ⟨[], none, false⟩ (.text (list c ++ t)) = .val ⟨[.text (list c ++ t)], none, false⟩ := by
    unfold step
    simp only
    rw [locate_list hc]
    simp only
    rw [if_neg hc.1, ha]
    rfl
  have h2 : here A (.para none [.text (list c ++ t)]) [] = .val (.para none [.text (list c ++ t)], false) := by
    refine here_para (b := .para none [.text (list c ++ t)]) ?_ []
    unfold paragraph
    rw [show inners A [.text (list c ++ t)] = .val ([.text (list c ++ t)], false) from rfl, C.val_bind]
    simp only
    rw [hs]
    rfl
  rw [blocks_cons]
  show here A (.leaf true d) _ >>= _ = _
  rw [h1, C.val_bind, blocks_cons]
  show (here A (.para none [.text (list c ++ t)]) _ >>= _) >>= _ = _
  rw [h2]
  rfl

end Verif.IalTree
