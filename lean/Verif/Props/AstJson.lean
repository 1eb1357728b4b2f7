import Verif.Proof.AstJsonStay

namespace Verif.AstJson
open JsonText (Val IsText)

/-! ### C118: a filter that changes nothing -/

/-- C118 (exact): what is left of a document that is written as JSON and read again, for every document. -/
theorem C118_exact (doc : List Blk) : fromJson (toJson doc) = kept doc := read_written doc

/-- C118, for the documents it holds for, and for no others. -/
theorem C118_partial (doc : List Blk) : fromJson (toJson doc) = some doc ↔ ∀ b ∈ doc, BlkStays b := by
  rw [read_written, stays_doc]

example : ∀ b ∈ [Blk.heading 2 [.text b!"Title"], .para [.emph [.text b!"a \"b\""]], .rule, .html b!"<hr/>\n"], BlkStays b := by
  intro b hb
  simp only [List.mem_cons, List.not_mem_nil, or_false] at hb
  rcases hb with rfl | rfl | rfl | rfl
  · exact .heading (by decide) (by decide) (.text (by unfold Printable; decide))
  · exact .para (.emph (.text (by unfold Printable; decide)))
  · exact .rule
  · exact .html (by unfold Printable; decide)

/-- The filters of the configuration as commands that print what they read. -/
def cat : Filters.World (List Blk) where
  toJson := fun d => some (toJson d)
  run := fun _ j => some (0, j)
  fromJson := fromJson
  hasBlocks := fun d => !d.isEmpty

/-- C118 (exact, through the filter loop): with a command that prints what it reads, the conversion fails, or keeps the document, or
goes on with what is left of it. -/
theorem C118_cat (strict : Bool) (cmd : Bytes) (h : cmd ≠ []) (doc : List Blk) :
    (Filters.loop cat strict [some cmd] doc []).1 =
      match kept doc with
      | none => if strict then none else some doc
      | some [] => some doc
      | some l => some l := by
  have hz : (toJson doc).takeWhile (· != 0) = toJson doc := by
    rw [← List.append_nil (toJson doc), List.takeWhile_append_of_pos (by
      intro c hc
      have := nz_doc doc c hc
      simpa using this)]
    simp
  have hr : Filters.runSingle cat cmd (toJson doc) = some (toJson doc) := by
    simp [Filters.runSingle, h, cat, hz]
  rw [Filters.loop]
  simp only [h, if_false, show cat.toJson doc = some (toJson doc) from rfl, hr, show cat.fromJson (toJson doc) = kept doc from read_written doc]
  cases hk : kept doc with
  | none => cases strict <;> simp [Filters.loop]
  | some l =>
    cases l with
    | nil =>
      cases doc with
      | nil => simp [cat, Filters.loop]
      | cons b r => simp [cat, Filters.loop]
    | cons c l => simp [cat, Filters.loop]

/-- C118 does not hold: of a paragraph only the first inline comes back. -/
theorem C118_inlines_fails : fromJson (toJson [.para [.text b!"one", .soft, .text b!"two"]]) = some [.para [.text b!"one"]] :=
  read_written _

/-- C118 does not hold: a link is lost with its text. -/
theorem C118_link_fails : fromJson (toJson [.para [.link b!"/u" [] [.text b!"here"]]]) = some [.para []] := read_written _

/-- C118 does not hold: a code block takes everything behind it along. -/
theorem C118_code_fails : (Filters.loop cat true [some b!"cat"] [.para [.text b!"a"], .code b!"c" b!"x\n", .para [.text b!"b"]] []).1 =
    some [.para [.text b!"a"]] := C118_cat true b!"cat" (by decide) _

/-- C118 does not hold: with a list in front of something else the conversion fails. -/
theorem C118_list_fails : (Filters.loop cat true [some b!"cat"] [.bullet [[.para [.text b!"a"]]], .para [.text b!"b"]] []).1 = none :=
  C118_cat true b!"cat" (by decide) _

/-! ### C119: `-t json` writes JSON -/

/-- C119 (exact): the text is JSON if and only if the document has no code block other than in the language `inc` and no numbered list. -/
theorem C119_exact (doc : List Blk) : IsText (toJson doc) ↔ hasCodes doc = false ∧ hasOrdereds doc = false := by
  rw [text_doc, bads, Bool.or_eq_false_iff]

/-- C119, for documents without these. -/
theorem C119_partial (doc : List Blk) (h1 : hasCodes doc = false) (h2 : hasOrdereds doc = false) : IsText (toJson doc) :=
  (C119_exact doc).2 ⟨h1, h2⟩

example : hasCodes [.quote [.bullet [[.para [.link b!"u" b!"t" [.text b!"\"x\""]]]]], .code b!"inc" b!"a"] = false := by decide

/-- C119 does not hold: a code block. -/
theorem C119_code_fails : ¬ IsText (toJson [.code b!"c" b!"int x;\n"]) := by
  rw [C119_exact]; decide

/-- C119 does not hold: a numbered list. -/
theorem C119_ordered_fails : ¬ IsText (toJson [.ordered 1 [[.para [.text b!"a"]]]]) := by
  rw [C119_exact]; decide

/-! ### C120: what a filter answers -/

/-- C120 (values that are of no interest): whatever JSON value comes, it is passed over as a whole. -/
theorem C120_skip (v rest : Bytes) (h : Val v) (hr : ∀ c ∈ rest.head?, isSpace c ∨ c = c!"," ∨ c = c!"]" ∨ c = c!"}") (n : Nat) (hn : 2 * v.length ≤ n) :
    skip n (v ++ rest) = (true, rest) := by
  refine skip_val h rest n ?_ hn
  intro c hc
  have key : ∀ c, (isSpace c ∨ c = c!"," ∨ c = c!"]" ∨ c = c!"}") → tokenByte c = false := forall_byte (by decide +kernel)
  exact key c (hr c hc)

/-- C120, for answers that hold blocks in apex's own form, among other members in any number and order. -/
theorem C120_members_partial (before behind : List (Bytes × Bytes)) (h1 : ∀ m ∈ before, m.1 ≠ b!"blocks" ∧ Val m.2)
    (h2 : ∀ m ∈ behind, m.1 ≠ b!"blocks" ∧ Val m.2) (doc : List Blk) (hd : ∀ b ∈ doc, BlkStays b) :
    fromJson (b!"{" ++ before.flatMap (fun m => quoted m.1 ++ b!":" ++ m.2 ++ b!",") ++ quoted b!"blocks" ++ b!":" ++
      (b!"[" ++ writeBlks doc ++ b!"]") ++ behind.flatMap (fun m => b!"," ++ quoted m.1 ++ b!":" ++ m.2) ++ b!"}") = some doc := by
  refine read_members before behind h1 h2 doc doc ?_ ((stays_doc doc).2 hd)
  clear h1 h2
  induction doc with
  | nil => rfl
  | cons b r ih =>
    rw [hasCodes, ih fun c hc => hd c (by simp [hc]), ((stays_blk b).2 (hd b (by simp))).1]; rfl

example : ∃ before : List (Bytes × Bytes), before ≠ [] ∧ ∀ m ∈ before, m.1 ≠ b!"blocks" ∧ Val m.2 :=
  ⟨[(b!"meta", b!"{}")], by simp, by
    intro m hm
    simp only [List.mem_singleton] at hm
    subst hm
    exact ⟨by decide, val_meta⟩⟩

/-- C120 does not hold: an answer may spell a letter with an escape, which gives a question mark. -/
theorem C120_escape_fails :
    fromJson b!"{\"blocks\":[{\"t\":\"Para\",\"c\":[{\"t\":\"Str\",\"c\":\"\\u0041\"}]}]}" = some [.para [.text b!"?"]] ∧
    fromJson b!"{\"blocks\":[{\"t\":\"Para\",\"c\":[{\"t\":\"Str\",\"c\":\"A\"}]}]}" = some [.para [.text b!"A"]] := by
  refine ⟨?_, read_members [] [] (by simp) (by simp) [.para [.text b!"A"]] _ rfl rfl⟩
  have h : (match fromJson b!"{\"blocks\":[{\"t\":\"Para\",\"c\":[{\"t\":\"Str\",\"c\":\"\\u0041\"}]}]}" with | some [.para [.text t]] => t == b!"?" | _ => false) = true := by decide +kernel
  split at h
  case h_1 t e => rw [e, eq_of_beq h]
  case h_2 => cases h

/-- C120 does not hold: a space in Pandoc's form, which has no member `c`, empties the paragraph. -/
theorem C120_space_fails :
    fromJson b!"{\"blocks\":[{\"t\":\"Para\",\"c\":[{\"t\":\"Str\",\"c\":\"a\"},{\"t\":\"Space\"},{\"t\":\"Str\",\"c\":\"b\"}]}]}" = some [.para []] := by
  have h : (match fromJson b!"{\"blocks\":[{\"t\":\"Para\",\"c\":[{\"t\":\"Str\",\"c\":\"a\"},{\"t\":\"Space\"},{\"t\":\"Str\",\"c\":\"b\"}]}]}" with | some [.para []] => true | _ => false) = true := by decide +kernel
  split at h
  case h_1 e => exact e
  case h_2 => cases h

/-- C120 does not hold: emphasis in Pandoc's form loses its text. -/
theorem C120_emph_fails :
    fromJson b!"{\"blocks\":[{\"t\":\"Para\",\"c\":[{\"t\":\"Emph\",\"c\":[{\"t\":\"Str\",\"c\":\"a\"}]}]}]}" = some [.para [.emph []]] := by
  have h : (match fromJson b!"{\"blocks\":[{\"t\":\"Para\",\"c\":[{\"t\":\"Emph\",\"c\":[{\"t\":\"Str\",\"c\":\"a\"}]}]}]}" with | some [.para [.emph []]] => true | _ => false) = true := by decide +kernel
  split at h
  case h_1 e => exact e
  case h_2 => cases h

/-- C120 does not hold: the blocks in a `Div` are lost. -/
theorem C120_div_fails :
    fromJson b!"{\"blocks\":[{\"t\":\"Div\",\"c\":[[\"\",[],[]],[{\"t\":\"Para\",\"c\":[{\"t\":\"Str\",\"c\":\"a\"}]}]]}]}" = some [] := by
  have h : (match fromJson b!"{\"blocks\":[{\"t\":\"Div\",\"c\":[[\"\",[],[]],[{\"t\":\"Para\",\"c\":[{\"t\":\"Str\",\"c\":\"a\"}]}]]}]}" with | some [] => true | _ => false) = true := by decide +kernel
  split at h
  case h_1 e => exact e
  case h_2 => cases h

/-- C120 does not hold: a rule in Pandoc's form loses every block of the document. -/
theorem C120_rule_fails :
    fromJson b!"{\"blocks\":[{\"t\":\"Para\",\"c\":[{\"t\":\"Str\",\"c\":\"a\"}]},{\"t\":\"HorizontalRule\"}]}" = some [] := by
  have h : (match fromJson b!"{\"blocks\":[{\"t\":\"Para\",\"c\":[{\"t\":\"Str\",\"c\":\"a\"}]},{\"t\":\"HorizontalRule\"}]}" with | some [] => true | _ => false) = true := by decide +kernel
  split at h
  case h_1 e => exact e
  case h_2 => cases h

end Verif.AstJson
