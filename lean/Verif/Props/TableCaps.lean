/- The captions of tables, in the tree of a document. -/
import Verif.Proof.TableCaps

namespace Verif.TableCaps
open TableSpans (Inl Cell Row gone)
open Spec

/-! ### C245: each table gets the caption that is written next to it -/

/-- Any number of tables, each with a caption above it, below it or without one, with anything between them that is no caption: each table gets its own caption, the paragraph of the caption is taken out, and nothing else is changed. -/
theorem C245_partial (intro : List Block) (parts : List Part) (hi : ∀ b ∈ intro, Quiet b) (h : ∀ p ∈ parts, p.Ok) :
    process (intro ++ parts.flatMap Part.write) = .val (intro ++ parts.flatMap Part.means) := by
  have h1 := run_quiet hi [] (parts.flatMap Part.write)
  have h2 := run_parts h (done := intro.reverse ++ []) (by
    intro b hb
    exact settled_quiet (hi b (by simpa using hb)))
  rw [process_eq (h1.trans h2)]
  simp

/-- With nothing between the tables captions above them go wrong: the caption of the second table is lost, and each later caption is given to the table in front of its own; the last table has none. -/
theorem C245_fails (c₁ c₂ : Caption) (r₁ r₂ : List Row) (l : List (Caption × List Row)) (h₁ : c₁.Ok) (h₂ : c₂.Ok) (hr₁ : ∀ r ∈ r₁, Bare r) (hr₂ : ∀ r ∈ r₂, Bare r)
    (h : ∀ p ∈ l, p.1.Ok ∧ ∀ r ∈ p.2, Bare r) :
    process (((c₁, r₁) :: (c₂, r₂) :: l).flatMap fun p => [p.1.para, .table p.2 none]) =
      .val (c₁.taken :: c₁.table r₁ :: c₂.taken :: shifted r₂ l) := by
  have hr := run_shifted h hr₂ (done := [c₂.taken, c₁.table r₁, c₁.taken]) (by
    intro b hb
    simp only [List.mem_cons, List.not_mem_nil, or_false] at hb
    rcases hb with rfl | rfl | rfl
    · exact settled_taken c₂
    · trivial
    · exact settled_taken c₁)
  have hrun : run [] (((c₁, r₁) :: (c₂, r₂) :: l).flatMap fun p => [p.1.para, .table p.2 none]) = .val ((shifted r₂ l).reverse ++ [c₂.taken, c₁.table r₁, c₁.taken]) := by
    show run [] (c₁.para :: .table r₁ none :: c₂.para :: .table r₂ none :: l.flatMap fun p => [p.1.para, .table p.2 none]) = _
    rw [run_skip (caption_not_table c₁), run_table, above_caption h₁, bind_val, below_second h₂, bind_val, inRows_bare hr₁, bind_val, run_skip (taken_not_table c₂)]
    exact hr
  rw [process_eq hrun]
  simp

/-- Three tables, each below its caption: the second one gets the caption of the third. -/
theorem C245_fails_case : process [.para [.text b!"[A]"] none, .table [] none, .para [.text b!"[B]"] none, .table [] none, .para [.text b!"[C]"] none, .table [] none] =
    .val [.para [.text b!"[A]"] (some gone), .table [] (some b!" data-caption=\"A\""), .para [.text b!"[B]"] (some gone), .table [] (some b!" data-caption=\"C\""), .para [.text b!"[C]"] (some gone), .table [] none] := by
  exact C245_fails ⟨b!"A", true⟩ ⟨b!"B", true⟩ [] [] [(⟨b!"C", true⟩, [])] ⟨by decide, ⟨_, _, rfl, by decide⟩, [], c!"A", rfl, by decide⟩ ⟨by decide, ⟨_, _, rfl, by decide⟩, [], c!"B", rfl, by decide⟩
    (by simp) (by simp) (by
      intro p hp
      simp only [List.mem_cons, List.not_mem_nil, or_false] at hp
      subst hp
      exact ⟨⟨by decide, ⟨_, _, rfl, by decide⟩, [], c!"C", rfl, by decide⟩, by simp⟩)

theorem C245_case : process [.heading b!"h", .para [.text b!"[A]"] none, .table [] none, .para [.text b!"text"] none, .table [] none, .para [.text b!": B"] none] =
    .val [.heading b!"h", .para [.text b!"[A]"] (some gone), .table [] (some b!" data-caption=\"A\""), .para [.text b!"text"] none, .table [] (some b!" data-caption=\"B\""), .para [.text b!": B"] (some gone)] := by
  refine C245_partial [.heading b!"h"] [⟨.above ⟨b!"A", true⟩, [], [.para [.text b!"text"] none]⟩, ⟨.below ⟨b!"B", false⟩, [], []⟩] ?_ ?_
  · simp [Quiet]
  · intro p hp
    simp only [List.mem_cons, List.not_mem_nil, or_false] at hp
    rcases hp with rfl | rfl
    · exact ⟨by simp [Quiet, Spec.text], by simp, ⟨by decide, ⟨_, _, rfl, by decide⟩, [], c!"A", rfl, by decide⟩, by simp⟩
    · exact ⟨by simp, by simp, by decide, ⟨_, _, rfl, by decide⟩, [], c!"B", rfl, by decide⟩

/-! ### C246: nothing but captions is taken out of a document -/

/-- Whatever the document is: no block is moved, added or changed, except that paragraphs and rows that begin with a bracket or a colon may be taken out, and a caption may be added to a table. -/
theorem C246_partial (doc out : List Block) (h : process doc = .val out) : Each Kept doc out := by
  have hr : ∃ w, run [] doc = .val w ∧ out = w.reverse := by
    change (run [] doc).bind (fun w => C.val w.reverse) = .val out at h
    cases hw : run [] doc with
    | ub => rw [hw] at h; cases h
    | val w => rw [hw] at h; cases h; exact ⟨w, rfl, rfl⟩
  obtain ⟨w, hw, rfl⟩ := hr
  have hk := each_reverse (run_kept doc.length [] doc [] doc w (Nat.le_refl _) .nil (each_refl taken_refl doc) hw)
  simpa using hk

/-- A paragraph in brackets anywhere above the first table is taken out and becomes the caption of that table, whatever headings and paragraphs are between them. -/
theorem C246_fails (c : Caption) (mid : List Block) (rows : List Row) (hc : c.Ok) (hm : ∀ b ∈ mid, ∃ s, b = .heading s ∨ ∃ ks d, b = .para ks d ∧ Quiet (.para ks d)) (hr : ∀ r ∈ rows, Bare r) :
    process (c.para :: (mid ++ [.table rows none])) = .val (c.taken :: (mid ++ [c.table rows])) := by
  have hp : ∀ b ∈ mid, Passed b := by
    intro b hb
    obtain ⟨s, rfl | ⟨ks, d, rfl, hq⟩⟩ := hm b hb
    · trivial
    · exact hq
  have hq : ∀ b ∈ mid, Quiet b := by
    intro b hb
    obtain ⟨s, rfl | ⟨ks, d, rfl, hq⟩⟩ := hm b hb
    · trivial
    · exact hq
  have hrun : run [] (c.para :: (mid ++ [.table rows none])) = .val (c.table rows :: (mid.reverse ++ [c.taken])) := by
    rw [run_skip (caption_not_table c), run_quiet hq, run_table, above_passed (fun b hb => hp b (by simpa using hb)), above_caption hc, bind_val, bind_val]
    show (C.val ([], _)).bind _ = _
    rw [bind_val, inRows_bare hr]
    rfl
  rw [process_eq hrun]
  simp

/-- A second caption is taken out and not shown. -/
theorem C246_second_fails (c₁ c₂ : Caption) (rows : List Row) (h₁ : c₁.Ok) (h₂ : c₂.Ok) (hr : ∀ r ∈ rows, Bare r) :
    process [c₁.para, .table rows none, c₂.para] = .val [c₁.taken, c₁.table rows, c₂.taken] := by
  refine process_eq (out := [c₂.taken, c₁.table rows, c₁.taken]) ?_
  rw [run_skip (caption_not_table c₁), run_table, above_caption h₁, bind_val, below_second h₂, bind_val, inRows_bare hr]
  rfl

/-- A row of boxes is taken out and becomes the caption. -/
theorem C246_boxes_fails : process [.table [⟨none, [⟨none, [], [.text b!"a"]⟩]⟩, ⟨none, [⟨none, [], [.text b!"[x]"]⟩, ⟨none, [], [.text b!"[ ]"]⟩]⟩] none] =
    .val [.table [⟨none, [⟨none, [], [.text b!"a"]⟩]⟩, ⟨some gone, [⟨none, [], [.text b!"[x]"]⟩, ⟨none, [], [.text b!"[ ]"]⟩]⟩] (some b!" data-caption=\"x\"")] := by
  rfl

/-- What is emphasized in a caption is left out. -/
theorem C246_emphasis_fails : process [.para [.text b!"[The ", .other [.text b!"best"], .text b!" table]"] none, .table [] none] =
    .val [.para [.text b!"[The ", .other [.text b!"best"], .text b!" table]"] (some gone), .table [] (some b!" data-caption=\"The  table\"")] := by
  rfl

theorem C246_case : process [.para [.text b!"[see below]"] none, .heading b!"h", .para [.text b!"text"] none, .table [] none] =
    .val [.para [.text b!"[see below]"] (some gone), .heading b!"h", .para [.text b!"text"] none, .table [] (some b!" data-caption=\"see below\"")] := by
  refine C246_fails ⟨b!"see below", true⟩ [.heading b!"h", .para [.text b!"text"] none] [] ⟨by decide, ⟨_, _, rfl, by decide⟩, b!"see belo", c!"w", rfl, by decide⟩ ?_ (by simp)
  intro b hb
  simp only [List.mem_cons, List.not_mem_nil, or_false] at hb
  rcases hb with rfl | rfl
  · exact ⟨b!"h", .inl rfl⟩
  · exact ⟨[], .inr ⟨_, _, rfl, by simp [Quiet, Spec.text]⟩⟩

/-! ### C247: attributes behind a caption become attributes of the table -/

/-- The paragraph of a caption with attributes. -/
def markedPara (c : Caption) (l : Marks) (d : Option Bytes) : Block := .para [.text (c.marked l)] d

theorem marked_eq {c : Caption} {l : Marks} (hc : c.Ok) (h : l.Ok) (hne : l.id ≠ none ∨ l.classes ≠ [] ∨ l.keys ≠ []) (m : List Block) :
    above none (markedPara c l none :: m) = .val (markedPara c l (some gone) :: m, some (b!" data-caption=\"" ++ c.text ++ b!"\"" ++ html (toAttrs l))) ∧
      below none (markedPara c l none :: m) = .val (markedPara c l (some gone) :: m, some (b!" data-caption=\"" ++ c.text ++ b!"\"" ++ html (toAttrs l))) := by
  have h1 : c!"]" ∉ c.text := fun hm => (hc.1 _ hm).1 rfl
  have h2 : c!"{" ∉ c.text := fun hm => (hc.1 _ hm).2.1 rfl
  have ht := caption_text (d := none) h1 (show c.marked l = b!"[" ++ c.text ++ b!"] {:" ++ l.write ++ b!"}" from rfl) m
  have ha := add_marked_text h2 h hne
  refine ⟨?_, ?_⟩
  · refine ht.1.trans ?_
    rw [if_neg (by decide)]
    unfold Caption.marked
    rw [ha]
    rfl
  · refine ht.2.trans ?_
    rw [if_neg (by decide)]
    unfold Caption.marked
    rw [ha]
    rfl

theorem marked_process {c : Caption} {l : Marks} {rows : List Row} (hc : c.Ok) (h : l.Ok) (hne : l.id ≠ none ∨ l.classes ≠ [] ∨ l.keys ≠ []) (hr : ∀ r ∈ rows, Bare r) :
    process [markedPara c l none, .table rows none] = .val [markedPara c l (some gone), .table rows (some (b!" data-caption=\"" ++ c.text ++ b!"\"" ++ html (toAttrs l)))] ∧
      process [.table rows none, markedPara c l none] = .val [.table rows (some (b!" data-caption=\"" ++ c.text ++ b!"\"" ++ html (toAttrs l))), markedPara c l (some gone)] := by
  constructor
  · refine process_eq (out := [.table rows (some (b!" data-caption=\"" ++ c.text ++ b!"\"" ++ html (toAttrs l))), markedPara c l (some gone)]) ?_
    rw [run_skip (by intro _ _ h; cases h), run_table, (marked_eq hc h hne []).1, bind_val]
    show (C.val ([], _)).bind _ = _
    rw [bind_val, inRows_bare hr]
    rfl
  · refine process_eq (out := [markedPara c l (some gone), .table rows (some (b!" data-caption=\"" ++ c.text ++ b!"\"" ++ html (toAttrs l)))]) ?_
    rw [run_table]
    show (C.val ([], _)).bind _ = _
    rw [bind_val, (marked_eq hc h hne []).2, bind_val, inRows_bare hr]
    rfl

/-- With a name or a class among them, in any number: the table has the caption and exactly the attributes, whether the caption is above or below it. -/
theorem C247_partial (c : Caption) (l : Marks) (rows : List Row) (hc : c.Ok) (h : l.Ok) (hne : l.id ≠ none ∨ l.classes ≠ []) (hr : ∀ r ∈ rows, Bare r) :
    process [.para [.text (c.marked l)] none, .table rows none] =
        .val [.para [.text (c.marked l)] (some gone), .table rows (some (b!" data-caption=\"" ++ c.text ++ b!"\"" ++ l.html))] ∧
      process [.table rows none, .para [.text (c.marked l)] none] =
        .val [.table rows (some (b!" data-caption=\"" ++ c.text ++ b!"\"" ++ l.html)), .para [.text (c.marked l)] (some gone)] := by
  have hm := marked_process (c := c) (l := l) (rows := rows) hc h (hne.imp_right .inl) hr
  have hh := html_marks h
  rw [if_neg (by
    rintro ⟨h1, h2⟩
    rcases hne with h | h
    · exact h h1
    · exact h h2)] at hh
  rw [hh] at hm
  exact hm

/-- With neither the blank in front of the attributes is missing, so that they are not separated from the caption. -/
theorem C247_fails (c : Caption) (l : Marks) (rows : List Row) (hc : c.Ok) (h : l.Ok) (hi : l.id = none) (hcl : l.classes = []) (hk : l.keys ≠ []) (hr : ∀ r ∈ rows, Bare r) :
    process [.para [.text (c.marked l)] none, .table rows none] =
      .val [.para [.text (c.marked l)] (some gone), .table rows (some (b!" data-caption=\"" ++ c.text ++ b!"\"" ++ l.html.drop 1))] := by
  have hm := (marked_process (c := c) (l := l) (rows := rows) hc h (.inr (.inr hk)) hr).1
  have hh := html_marks h
  rw [if_pos ⟨hi, hcl⟩] at hh
  have e : bareKeys l.keys = l.html.drop 1 := by
    obtain ⟨id, classes, keys⟩ := l
    simp only at hi hcl hk
    subst hi hcl
    cases keys with
    | nil => exact absurd rfl hk
    | cons k ks => simp [bareKeys, Marks.html]
  rw [hh, e] at hm
  exact hm

/-- Quotes in a caption are not escaped. -/
theorem C247_quotes_fails : process [.para [.text b!"[The \"best\" table]"] none, .table [] none] =
    .val [.para [.text b!"[The \"best\" table]"] (some gone), .table [] (some b!" data-caption=\"The \"best\" table\"")] := by
  rfl

theorem C247_case : process [.para [.text b!"[Ann] {: #t .wide .red lang=\"en\"}"] none, .table [] none] =
    .val [.para [.text b!"[Ann] {: #t .wide .red lang=\"en\"}"] (some gone), .table [] (some b!" data-caption=\"Ann\" id=\"t\" class=\"wide red\" lang=\"en\"")] := by
  refine (C247_partial ⟨b!"Ann", true⟩ ⟨some b!"t", [b!"wide", b!"red"], [(b!"lang", b!"en")]⟩ [] ⟨by decide, ⟨_, _, rfl, by decide⟩, b!"An", c!"n", rfl, by decide⟩ ⟨?_, ?_, ?_, by decide⟩ (.inl (by simp)) (by simp)).1
  · intro i hi
    cases hi
    exact ⟨by simp, by decide⟩
  · intro c hc
    simp only [List.mem_cons, List.not_mem_nil, or_false] at hc
    rcases hc with rfl | rfl <;> exact ⟨by simp, by decide⟩
  · intro k hk
    simp only [List.mem_cons, List.not_mem_nil, or_false] at hk
    subst hk
    exact ⟨⟨by simp, by decide⟩, by decide, by decide⟩

theorem C247_fails_case : process [.para [.text b!"[Ann] {: lang=\"en\"}"] none, .table [] none] =
    .val [.para [.text b!"[Ann] {: lang=\"en\"}"] (some gone), .table [] (some b!" data-caption=\"Ann\"lang=\"en\"")] := by
  rfl

/-! ### C248: no document makes the reader of captions leave its buffer -/

/-- Any document, with any blocks in any number, in whose texts each closing brace has a blank in front of it. -/
theorem C248_partial (doc : List Block) (h : ∀ b ∈ doc, LooseBlock b) : ∃ out, process doc = .val out := by
  have hs := run_safe doc.length [] doc (Nat.le_refl _) (by simp) h
  cases hw : run [] doc with
  | ub => exact absurd hw hs
  | val w => exact ⟨_, process_eq hw⟩

/-- Behind any attributes a word without a value, directly in front of the closing brace: what is behind the end of the text is read. -/
theorem C248_fails (c : Caption) (l : Marks) (w : Bytes) (rows : List Row) (hc : c.Ok) (h : l.Ok) (hw : Name w) (hl : w.length < 40) :
    process [.para [.text (b!"[" ++ c.text ++ b!"] {:" ++ (l.write ++ b!" " ++ w) ++ b!"}")] none, .table rows none] = .ub := by
  have h1 : c!"]" ∉ c.text := fun hm => (hc.1 _ hm).1 rfl
  have h2 : c!"{" ∉ c.text := fun hm => (hc.1 _ hm).2.1 rfl
  have ht := (caption_text (d := none) h1 (t := b!"[" ++ c.text ++ b!"] {:" ++ (l.write ++ b!" " ++ w) ++ b!"}") rfl []).1
  rw [if_neg (by decide), add_word h2 h hw hl] at ht
  show (run [] _).bind _ = _
  rw [run_skip (by intro _ _ h; cases h), run_table, ht]
  rfl

theorem C248_fails_case : process [.para [.text b!"[A] {: #t wide}"] none, .table [] none] = .ub := by
  refine C248_fails ⟨b!"A", true⟩ ⟨some b!"t", [], []⟩ b!"wide" [] ⟨by decide, ⟨_, _, rfl, by decide⟩, [], c!"A", rfl, by decide⟩ ⟨?_, by simp, by simp, by decide⟩ ⟨by simp, by decide⟩ (by decide)
  intro i hi
  cases hi
  exact ⟨by simp, by decide⟩

theorem C248_case : ∃ out, process [.para [.text b!"[A] {#t wide }"] none, .table [] none] = .val out := by
  refine C248_partial _ ?_
  intro b hb
  simp only [List.mem_cons, List.not_mem_nil, or_false] at hb
  rcases hb with rfl | rfl
  · refine ⟨by decide, ?_⟩
    intro a b h
    have h : b!"[A] {#t wide }" = a ++ c!"}" :: b := h
    have hm : c!"}" ∉ b!"[A] {#t wide " := by decide
    have e : b!"[A] {#t wide }" = b!"[A] {#t wide " ++ [c!"}"] := rfl
    rw [e] at h
    rcases List.append_eq_append_iff.mp h with ⟨x, h1, h2⟩ | ⟨x, h1, h2⟩
    · cases x with
      | nil => rw [h1]; rfl
      | cons y x =>
        exfalso
        have := congrArg List.length h2
        simp at this
    · cases x with
      | nil => rw [List.append_nil] at h1; rw [← h1]; rfl
      | cons y x =>
        exfalso
        rw [List.cons_append] at h2
        injection h2 with h3 h4
        exact hm (by rw [h1, ← h3]; simp)
  · simp [LooseBlock]

end Verif.TableCaps
