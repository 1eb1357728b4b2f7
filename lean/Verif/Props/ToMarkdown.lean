/- C129, C130: a document written as Markdown. -/
import Verif.Proof.ToMarkdown

namespace Verif.ToMarkdown

open Spec
open Escape (Dialect)

/-- A document with these blocks. -/
def doc (bs : List Node) : Node := .mk .document bs

/-- A paragraph. -/
def para (ks : List Node) : Node := .mk .paragraph ks

/-- A text. -/
def txt (s : Bytes) : Node := .mk (.text s) []

/-! ### C129: running text -/

/-- C129, as far as it holds: for a paragraph of texts, breaks, code, emphasis, links and images without a description,
what is written reads as what the paragraph says, whatever the characters of its texts are, provided that no mark runs
into the next one. -/
theorem C129_partial (d : Dialect) (ks : List Node) (hk : KnownAll d ks) (hf : Fitting (saysAll ks)) :
    ∃ t, markdown d (doc [para ks]) = some (t ++ b!"\n\n\n") ∧ inlineText t = saysAll ks := by
  refine ⟨inlines d ks, ?_, ?_⟩
  · have : tocPara d ks = false := by
      refine tocPara_no fun hd s ks' h hp => ?_
      subst h
      simp only [KnownAll, Known] at hk
      exact hk.1 hd hp.isInfix
    simp [markdown, doc, para, Node.kind, block, docKids, this, Node.isList]
  · rw [inlines_render d ks hk, reading_all d _ hf]

/-- The hypotheses hold of a paragraph with each of these. -/
example : KnownAll .gfm [txt b!"1*2 & <3! ", .mk .emph [txt b!"a_b"], .mk .lineBreak [], .mk (.code b!"x*y") [],
      .mk .softBreak [], .mk (.link b!"u?a&b" b!"t") [.mk .strong [txt b!"[z]"]], .mk (.image b!"i.png" []) []] ∧
    Fitting (saysAll [txt b!"1*2 & <3! ", .mk .emph [txt b!"a_b"], .mk .lineBreak [], .mk (.code b!"x*y") [],
      .mk .softBreak [], .mk (.link b!"u?a&b" b!"t") [.mk .strong [txt b!"[z]"]], .mk (.image b!"i.png" []) []]) := by
  constructor
  · simp [KnownAll, Known, txt, Node.isLink, Node.kind]
  · have hu : PlainUrl b!"u?a&b" := by
      refine ⟨by decide, fun a b h r hr hp => ?_⟩
      have hb : b = b!"b" := by
        rcases a with _ | ⟨x, _ | ⟨y, _ | ⟨z, _ | ⟨w, _ | ⟨v, a⟩⟩⟩⟩⟩ <;> simp_all
      subst hb; revert r; decide
    have hi : PlainUrl b!"i.png" := by
      refine ⟨by decide, fun a b h r hr hp => ?_⟩
      have : c!"&" ∈ b!"i.png" := by rw [h]; simp
      exact absurd this (by decide)
    have ht : PlainTitle b!"t" ∧ PlainTitle [] := by
      refine ⟨⟨by decide, fun a b h r hr hp => ?_⟩, by simp [PlainTitle]⟩
      have : c!"&" ∈ b!"t" := by rw [h]; simp
      exact absurd this (by decide)
    have h3 : tagStart 51 = false := by decide
    simp only [saysAll, says, txt, List.map_cons, List.map_nil, List.cons_append, List.nil_append, List.append_nil, Fitting, Fits, hu, hi, ht]
    simp [refs, trim]
    intro x hx h
    subst h
    simp [h3] at hx

example : inlines .gfm [txt b!"1*2 & <3! ", .mk .emph [txt b!"a_b"], .mk .lineBreak [], .mk (.code b!"x*y") []] =
    b!"1\\*2 & <3\\! *a\\_b*  \n`x*y`" := by decide +kernel

/-- Refuted: the description of an image is lost, whatever it is. -/
theorem C129_image_fails (d : Dialect) (url title : Bytes) (ks ks' : List Node) :
    markdown d (doc [para [.mk (.image url title) ks]]) = markdown d (doc [para [.mk (.image url title) ks']]) := by
  simp [markdown, doc, para, Node.kind, block, docKids, tocPara, inlines, inline, Node.isList]

/-- Refuted: inline HTML and footnote references are lost, and the marks of deleted text. -/
theorem C129_lost (d : Dialect) (s : Bytes) (ks ks' : List Node) :
    markdown d (doc [para (.mk (.htmlInline s) [] :: ks)]) = markdown d (doc [para (.mk (.noteRef s) [] :: ks)]) ∧
      markdown d (doc [para (.mk (.htmlInline s) [] :: ks)]) = some (inlines d ks ++ b!"\n\n\n") ∧
      markdown d (doc [para (.mk .strike ks' :: ks)]) = some (inlines d ks' ++ inlines d ks ++ b!"\n\n\n") := by
  simp [markdown, doc, para, Node.kind, block, docKids, tocPara, inlines, inline, Node.isList]

/-- Refuted: `<` and `&` are not escaped, so a text is read as HTML and a reference in a text as its character. -/
theorem C129_escape_fails (d : Dialect) :
    inlines d [txt b!"a<b>"] = b!"a<b>" ∧ inlineText b!"a<b>" = [.ch c!"a", .tag b!"<b>"] ∧
      inlines d [txt b!"&lt;"] = b!"&lt;" ∧ inlineText b!"&lt;" = [.ch c!"<"] ∧ saysAll [txt b!"&lt;"] = b!"&lt;".map .ch := by
  refine ⟨?_, by decide +kernel, ?_, by decide +kernel, by decide +kernel⟩ <;> cases d <;> decide +kernel

/-- Refuted: a code span with backticks is written like two code spans with text between them. -/
theorem C129_code_fails (d : Dialect) (a b c : Bytes) (hb : ∀ x ∈ b, Escape.mdShouldEscape d x = false)
    (ht : d = .mmd → ¬ b!"{{TOC" <:+: b) :
    inlines d [.mk (.code (a ++ b!"`" ++ b ++ b!"`" ++ c)) []] = inlines d [.mk (.code a) [], txt b, .mk (.code c) []] := by
  have : Escape.escapeMarkdown d b = b := by
    clear ht
    induction b with
    | nil => rfl
    | cons x b ih => rw [Escape.escapeMarkdown, hb x (by simp), ih fun y hy => hb y (by simp [hy])]; rfl
  simp [inlines, inline, txt, text_plain d b ht, this]

/-- The case is not empty. -/
example : ∀ x ∈ b!"b", Escape.mdShouldEscape .unified x = false := by decide

/-- Refuted: an address with a blank, a parenthesis or a title with a quotation mark is no link any more. -/
theorem C129_target_fails (d : Dialect) :
    .broken ∈ inlineText (inlines d [.mk (.link b!"a b" []) [txt b!"x"]]) ∧
      .broken ∈ inlineText (inlines d [.mk (.link b!"a(b" []) [txt b!"x"]]) ∧
      .broken ∈ inlineText (inlines d [.mk (.link b!"a" b!"say \"b\"") [txt b!"x"]]) := by
  cases d <;> decide +kernel

/-- Refuted: strong text in emphasis and emphasis in strong text are written the same. -/
theorem C129_strong_fails (d : Dialect) (ks : List Node) :
    inlines d [.mk .strong [.mk .emph ks]] = inlines d [.mk .emph [.mk .strong ks]] := by
  simp [inlines, inline]

/-- Refuted for MultiMarkdown: of a paragraph that begins with a TOC marker nothing else is left, and the text in front
of a marker without an end is written twice. -/
theorem C129_toc_fails :
    (∀ s, markdown .mmd (doc [para [txt (b!"{{TOC" ++ s)]]) = some b!"{{TOC}}\n\n\n") ∧
      inlines .mmd [txt b!"See {{TOC"] = b!"See See {{TOC" := by
  constructor
  · intro s
    have : tocPara .mmd [Node.mk (.text (b!"{{TOC" ++ s)) []] = true := by
      simp [tocPara]
    simp only [markdown, doc, para, txt, Node.kind, block, docKids, this, if_true, Node.isList]
    rfl
  · decide +kernel

/-! ### C130: blocks -/

/-- C130, as far as it holds: a document of paragraphs, headings, rules, code, HTML, quotes of one paragraph and lists of
single paragraphs, whose lines of running text look like nothing else, is read as the same blocks with the same
levels, numbers and lines — except that every block of code gains an empty line. -/
theorem C130_partial (d : Dialect) (bs : List Node) (h : ∀ b ∈ bs, Flat d b) :
    ∃ t, markdown d (doc bs) = some t ∧ page t = (bs.flatMap (expected d)).map grown := by
  refine ⟨docKids d bs, by simp [markdown, doc, Node.kind, block], page_doc d bs h⟩

/-- Without code the blocks are the same. -/
theorem C130_no_code (d : Dialect) (bs : List Node) (h : ∀ b ∈ bs, Flat d b)
    (hc : ∀ b ∈ bs, ∀ i s, b.kind ≠ .codeBlock i s) :
    ∃ t, markdown d (doc bs) = some t ∧ page t = bs.flatMap (expected d) := by
  obtain ⟨t, h1, h2⟩ := C130_partial d bs h
  refine ⟨t, h1, ?_⟩
  rw [h2]
  have : ∀ x ∈ bs.flatMap (expected d), grown x = x := by
    intro x hx
    obtain ⟨b, hb, hx⟩ := List.mem_flatMap.1 hx
    obtain ⟨k, kids⟩ := b
    cases k with
    | codeBlock i s => exact absurd rfl (hc _ hb i s)
    | list o start =>
      simp only [expected, List.mem_mapIdx] at hx
      obtain ⟨j, hj, rfl⟩ := hx
      cases o <;> rfl
    | quote => simp only [expected, List.mem_map] at hx; obtain ⟨p, -, rfl⟩ := hx; rfl
    | paragraph => simp only [expected, List.mem_singleton] at hx; subst hx; rfl
    | heading n => simp only [expected, List.mem_singleton] at hx; subst hx; rfl
    | rule => simp only [expected, List.mem_singleton] at hx; subst hx; rfl
    | htmlBlock s => simp only [expected, List.mem_singleton] at hx; subst hx; rfl
    | _ => simp [expected] at hx
  rw [List.map_congr_left this]; simp

/-- Such documents exist, with every kind of block. -/
example : ∀ b ∈ [para [txt b!"a", .mk .softBreak [], txt b!"b #"], .mk (.heading 2) [txt b!"C #"], .mk .rule [],
      .mk (.codeBlock b!"c" b!"x\n# y\n") [], .mk (.htmlBlock b!"<p>\nz\n") [],
      .mk .quote [para [txt b!"q", .mk .softBreak [], txt b!"r"]],
      .mk (.list true 3) [.mk .item [para [txt b!"i"]], .mk .item [para [txt b!"j"]]]], Flat .gfm b := by
  have hp : ∀ s, (∀ l ∈ lines s, classify l = .text ∧ ruler c!"=" l = false) → PlainLines s := by
    intro s h l hl; exact ⟨(h l hl).1, by simp [(h l hl).2]⟩
  intro b hb
  simp only [List.mem_cons, List.not_mem_nil, or_false] at hb
  rcases hb with rfl | rfl | rfl | rfl | rfl | rfl | rfl
  · exact ⟨hp _ (by decide +kernel), fun h => by simp at h⟩
  · exact ⟨by decide, by decide, by decide +kernel, by decide +kernel, by decide +kernel⟩
  · trivial
  · exact ⟨by decide, by decide, by decide +kernel, by decide⟩
  · exact ⟨by decide +kernel, by decide +kernel, by decide, fun h => by simp at h⟩
  · exact ⟨_, rfl, hp _ (by decide +kernel), by decide⟩
  · intro it hit
    simp only [List.mem_cons, List.not_mem_nil, or_false] at hit
    rcases hit with rfl | rfl
    · exact ⟨_, rfl, hp _ (by decide +kernel), fun h => by simp at h⟩
    · exact ⟨_, rfl, hp _ (by decide +kernel), fun h => by simp at h⟩

example : page b!"# T\n\na\nb\n\n> q\nr\n\n1. i\n\n2. j\n\n```c\nx\n```\n" =
    [.heading 1 b!"T", .para [b!"a", b!"b"], .quote [b!"q", b!"r"], .number 1 [b!"i"], .number 2 [b!"j"],
      .code b!"c" [b!"x"]] := by decide +kernel

/-- Refuted: no block of code is read as it was. -/
theorem C130_code_fails (d : Dialect) (bs : List Node) (h : ∀ b ∈ bs, Flat d b)
    (hc : ∃ b ∈ bs, ∃ i s, b.kind = .codeBlock i s) :
    ∃ t, markdown d (doc bs) = some t ∧ page t ≠ bs.flatMap (expected d) := by
  obtain ⟨t, h1, h2⟩ := C130_partial d bs h
  refine ⟨t, h1, fun e => ?_⟩
  obtain ⟨⟨k, kids⟩, hb, i, s, hk⟩ := hc
  simp only [Node.kind] at hk
  subst hk
  have hm : Blk.code i (lines s).dropLast ∈ bs.flatMap (expected d) :=
    List.mem_flatMap.2 ⟨_, hb, by simp [expected]⟩
  rw [e] at h2
  obtain ⟨j, hj, hx⟩ := List.mem_iff_getElem.1 hm
  have := congrArg (fun l => l[j]?) h2
  simp only [List.getElem?_map, List.getElem?_eq_getElem hj, Option.map_some, hx, grown, Option.some.injEq, Blk.code.injEq, true_and] at this
  have := congrArg List.length this
  simp at this

/-- A line that ends a fence splits the code. -/
theorem C130_fence_fails (d : Dialect) :
    ∃ t, markdown d (doc [.mk (.codeBlock [] b!"a\n```\n# b\n") []]) = some t ∧
      page t = [.code [] [b!"a"], .heading 1 b!"b", .code [] [[], [], []]] := by
  refine ⟨_, rfl, ?_⟩
  cases d <;> decide +kernel

mutual
/-- Running text only: texts, code, emphasis, links and the like. -/
def Running : Node → Prop
  | .mk k kids =>
    match k with
    | .text _ | .softBreak | .lineBreak | .code _ | .emph | .strong | .link _ _ | .image _ _ | .htmlInline _ | .strike
    | .noteRef _ => RunningAll kids
    | _ => False
/-- The same of several parts. -/
def RunningAll : List Node → Prop
  | [] => True
  | n :: ns => Running n ∧ RunningAll ns
end

mutual
theorem block_running (d : Dialect) (n : Node) (h : Running n) : block d n = [] := by
  match n with
  | .mk k kids =>
    cases k <;> simp only [Running] at h <;> simp only [block] <;> exact blocks_running d kids h
theorem blocks_running (d : Dialect) (ns : List Node) (h : RunningAll ns) : blocks d ns = [] := by
  match ns with
  | [] => simp [blocks]
  | n :: ns => simp only [RunningAll] at h; rw [blocks, block_running d n h.1, blocks_running d ns h.2]; rfl
end

/-- Refuted: of a table nothing is written, whatever its cells hold. -/
theorem C130_table_fails (d : Dialect) (rows : List (List (List Node))) (h : ∀ r ∈ rows, ∀ c ∈ r, RunningAll c) :
    markdown d (doc [.mk .table (rows.map fun r => .mk .row (r.map fun c => .mk .cell c))]) = some b!"\n" := by
  have hc : ∀ r : List (List Node), (∀ c ∈ r, RunningAll c) → blocks d (r.map fun c => Node.mk .cell c) = [] := by
    intro r hr
    induction r with
    | nil => simp [blocks]
    | cons c r ih =>
      rw [List.map_cons, blocks, ih fun c hc => hr c (by simp [hc])]
      simp [block, blocks_running d c (hr c (by simp))]
  have hr : blocks d (rows.map fun r => Node.mk .row (r.map fun c => .mk .cell c)) = [] := by
    induction rows with
    | nil => simp [blocks]
    | cons r rows ih =>
      rw [List.map_cons, blocks, ih fun r hr => h r (by simp [hr])]
      simp only [block, hc r (h r (by simp)), List.append_nil]
  simp [markdown, doc, Node.kind, block, docKids, hr, Node.isList]

example : RunningAll [txt b!"a", .mk .strong [txt b!"b"]] := by simp [RunningAll, Running, txt]

/-- Refuted: two paragraphs of a quote are written as one with a line break. -/
theorem C130_quote_fails (d : Dialect) (a b : Bytes) :
    markdown d (doc [.mk .quote [para [txt a], para [txt b]]]) =
      markdown d (doc [.mk .quote [para [txt a, .mk .softBreak [], txt b]]]) := by
  simp [markdown, doc, para, txt, Node.kind, Node.kids, block, docKids, quoteKids, quoted, Node.isSoft, Node.isList]

/-- Refuted: but for the number of blank lines, a list in an item is written as more items of the list around it, and
the second paragraph of an item as a paragraph behind the list. -/
theorem C130_list_fails (d : Dialect) :
    (∃ s t, markdown d (doc [.mk (.list false 0) [.mk .item [para [txt b!"a"], .mk (.list false 0) [.mk .item [para [txt b!"b"]]]]]]) = some s ∧
      markdown d (doc [.mk (.list false 0) [.mk .item [para [txt b!"a"]], .mk .item [para [txt b!"b"]]]]) = some t ∧
      squeeze s = squeeze t) ∧
    ∃ s t, markdown d (doc [.mk (.list false 0) [.mk .item [para [txt b!"a"], para [txt b!"b"]]]]) = some s ∧
      markdown d (doc [.mk (.list false 0) [.mk .item [para [txt b!"a"]]], para [txt b!"b"]]) = some t ∧
      squeeze s = squeeze t := by
  refine ⟨⟨_, _, rfl, rfl, ?_⟩, _, _, rfl, rfl, ?_⟩ <;> cases d <;> decide +kernel

/-- Refuted: a text that begins with `>` is written as a quote, and one that looks like HTML as HTML; in MultiMarkdown a text of dashes is written as a rule and one that begins with a dash as a list. -/
theorem C130_start_fails (d : Dialect) :
    markdown d (doc [para [txt b!"> a"]]) = markdown d (doc [.mk .quote [para [txt b!"a"]]]) ∧
      markdown d (doc [para [txt b!"<hr>"]]) = markdown d (doc [.mk (.htmlBlock b!"<hr>") []]) ∧
      markdown .mmd (doc [para [txt b!"---"]]) = markdown .mmd (doc [.mk .rule []]) ∧
      (markdown .mmd (doc [para [txt b!"- a"]])) = markdown .mmd (doc [.mk (.list false 0) [.mk .item [para [txt b!"a"]]]]) := by
  cases d <;> decide +kernel

/-- Refuted: a heading of two lines is read as a heading and a paragraph. -/
theorem C130_heading_fails (d : Dialect) :
    ∃ t, markdown d (doc [.mk (.heading 1) [txt b!"a", .mk .softBreak [], txt b!"b"]]) = some t ∧
      page t = [.heading 1 b!"a", .para [b!"b"]] := by
  refine ⟨_, rfl, ?_⟩
  cases d <;> decide +kernel

end Verif.ToMarkdown
