/- Properties of bibliographies in YAML and JSON. -/
import Verif.Proof.CslYaml

namespace Verif.CslYaml

open Bibliography (Value Record free trimEnd strings seen)
open Spec (Text Quiet Field Dangling Unquoted)

/-! ### C241: a bibliography in YAML is read completely -/

/-- What may be before the entries. -/
def headers : List Bytes := [[], b!"references:\n", b!"---\n", b!"---\nreferences:\n"]

theorem run_header {h : Bytes} (hh : h ∈ headers) (r : Bytes) : ∃ b, run ⟨[], none, false⟩ (h ++ r) = run ⟨[], none, b⟩ r := by
  simp only [headers, List.mem_cons, List.not_mem_nil, or_false] at hh
  rcases hh with rfl | rfl | rfl | rfl
  · exact ⟨false, rfl⟩
  · refine ⟨false, ?_⟩
    show run _ (b!"references:" ++ c!"\n" :: r) = _
    rw [run_line (by decide)]
    rfl
  · refine ⟨true, ?_⟩
    show run _ (b!"---" ++ c!"\n" :: r) = _
    rw [run_line (by decide)]
    rfl
  · refine ⟨true, ?_⟩
    show run _ (b!"---" ++ c!"\n" :: (b!"references:" ++ c!"\n" :: r)) = _
    rw [run_line (by decide)]
    show run ⟨[], none, true⟩ _ = _
    rw [run_line (by decide)]
    rfl

/-- **C241, partial.**  Any number of entries with any fields, an author and a year are read, the last one first, if the dash of each entry is on a line of its own.  Missing:
the usual notation with the identifier behind the dash (`C241_fails`). -/
theorem C241_partial (l : List Spec.Entry) (h : ∀ e ∈ l, e.Plain) (hdr : Bytes) (hh : hdr ∈ headers) :
    ∃ items, yaml (hdr ++ l.flatMap Spec.Entry.write) = .val items ∧ items.map (fun i => seen i.entry) = (l.map Spec.Entry.known).reverse := by
  obtain ⟨b, hb⟩ := run_header hh (l.flatMap Spec.Entry.write)
  obtain ⟨st, h1, h2⟩ := run_file h ⟨[], none, b⟩
  refine ⟨st.add, ?_, ?_⟩
  · show (run ⟨[], none, false⟩ _ >>= _) = _
    rw [hb, h1]
    rfl
  · rw [h2]
    have : St.add ⟨[], none, b⟩ = [] := rfl
    rw [this, List.append_nil, ← List.map_reverse, ← List.map_reverse, List.map_map]
    exact List.map_congr_left fun e _ => seen_made e

/-- Two entries. -/
def sample : List Spec.Entry :=
  [⟨b!"doe99", [(b!"type", b!"book"), (b!"title", b!"A: study")], some (b!"Doe", b!"John"), some b!"1999", [(b!"publisher", b!"P & Q")]⟩,
    ⟨b!"roe", [], none, none, [(b!"title", b!"B"), (b!"page", b!"1-9")]⟩]

theorem sample_plain : ∀ e ∈ sample, e.Plain := by
  have T : ∀ {v : Bytes}, (v.all fun c => c ≠ c!"\n" && c ≠ c!"\r" && c ≠ c!"#") = true → (v.head?.any fun c => !isSpace c && c ≠ c!"\"" && c ≠ c!"'") = true →
    (v.getLast?.any fun c => !isSpace c) = true → v.length < 500 → Text v := text_lit
  have F : ∀ {f : Bytes × Bytes}, Text f.1 → Text f.2 → c!":" ∉ f.1 → f.1 ≠ b!"author" ∧ f.1 ≠ b!"issued" ∧ f.1 ≠ b!"year" → Quiet (f.1 ++ b!": " ++ f.2) → Field f :=
    fun a b c d e => ⟨a, c, d.1, d.2.1, d.2.2, b, e⟩
  have t1 : Text b!"doe99" := T (by decide) (by decide) (by decide) (by decide)
  have f1 : Field (b!"type", b!"book") := F (T (by decide) (by decide) (by decide) (by decide)) (T (by decide) (by decide) (by decide) (by decide)) (by decide) (by decide) ⟨by decide, by decide, by decide⟩
  have f2 : Field (b!"title", b!"A: study") := F (T (by decide) (by decide) (by decide) (by decide)) (T (by decide) (by decide) (by decide) (by decide)) (by decide) (by decide) ⟨by decide, by decide, by decide⟩
  have f3 : Field (b!"publisher", b!"P & Q") := F (T (by decide) (by decide) (by decide) (by decide)) (T (by decide) (by decide) (by decide) (by decide)) (by decide) (by decide) ⟨by decide, by decide, by decide⟩
  have f4 : Field (b!"title", b!"B") := F (T (by decide) (by decide) (by decide) (by decide)) (T (by decide) (by decide) (by decide) (by decide)) (by decide) (by decide) ⟨by decide, by decide, by decide⟩
  have f5 : Field (b!"page", b!"1-9") := F (T (by decide) (by decide) (by decide) (by decide)) (T (by decide) (by decide) (by decide) (by decide)) (by decide) (by decide) ⟨by decide, by decide, by decide⟩
  intro e he
  simp only [sample, List.mem_cons, List.not_mem_nil, or_false] at he
  rcases he with rfl | rfl
  · refine ⟨t1, ⟨by decide, by decide, by decide⟩, ?_, ?_, ?_, ?_⟩
    · intro f hf
      simp only [List.mem_cons, List.not_mem_nil, or_false] at hf
      rcases hf with rfl | rfl
      · exact f1
      · exact f2
    · intro f hf
      simp only [List.mem_cons, List.not_mem_nil, or_false] at hf
      subst hf
      exact f3
    · intro n hn
      cases hn
      exact ⟨T (by decide) (by decide) (by decide) (by decide), T (by decide) (by decide) (by decide) (by decide)⟩
    · intro y hy
      cases hy
      exact ⟨by decide, by decide, by decide⟩
  · refine ⟨T (by decide) (by decide) (by decide) (by decide), ⟨by decide, by decide, by decide⟩, ?_, ?_, ?_, ?_⟩
    · intro f hf
      cases hf
    · intro f hf
      simp only [List.mem_cons, List.not_mem_nil, or_false] at hf
      rcases hf with rfl | rfl
      · exact f4
      · exact f5
    · intro n hn
      cases hn
    · intro y hy
      cases hy

/-- The file, and what is known of the first entry. -/
example : b!"references:\n" ++ sample.flatMap Spec.Entry.write =
    b!"references:\n-\n  id: doe99\n  type: book\n  title: A: study\n  author:\n    - family: Doe\n      given: John\n  issued:\n    year: 1999\n  publisher: P & Q\n-\n  id: roe\n  title: B\n  page: 1-9\n" ∧
    (sample.map Spec.Entry.known).head? = some { id := b!"doe99", title := some b!"A: study", author := some b!"Doe, John", year := some b!"1999", publisher := some b!"P & Q" } := by
  decide +kernel

theorem C241_partial_case : ∃ items, yaml (b!"references:\n" ++ sample.flatMap Spec.Entry.write) = .val items ∧ items.map (fun i => seen i.entry) = (sample.map Spec.Entry.known).reverse :=
  C241_partial sample sample_plain _ (by decide)

/-- **C241 fails.**  Of a file in the usual notation, `- id: doe99` with the fields below, no entry is read at all, however many there are. -/
theorem C241_fails (l : List Spec.Entry) (h : ∀ e ∈ l, e.Plain ∧ ∀ f ∈ e.before ++ e.after, f.1 ≠ b!"id") (hdr : Bytes) (hh : hdr ∈ headers) :
    yaml (hdr ++ l.flatMap Spec.Entry.usual) = .val [] := by
  obtain ⟨b, hb⟩ := run_header hh (l.flatMap Spec.Entry.usual)
  obtain ⟨st, h1, h2⟩ := skip_file h ⟨[], none, b⟩ rfl
  show (run ⟨[], none, false⟩ _ >>= _) = _
  rw [hb, h1, C.val_bind, h2]

/-- The same two entries are lost. -/
theorem C241_fails_case : yaml (b!"references:\n" ++ sample.flatMap Spec.Entry.usual) = .val [] :=
  C241_fails sample (fun e he => ⟨sample_plain e he, by
    simp only [sample, List.mem_cons, List.not_mem_nil, or_false] at he
    rcases he with rfl | rfl <;> decide⟩) _ (by decide)

/-! ### C242: authors and dates -/

/-- **C242, partial.**  Of a list of authors with family and given names the last one is kept.  Missing: the others, the notation with braces and brackets, and dates as CSL
writes them (`C242_fails`). -/
theorem C242_partial (id : Bytes) (hid : Text id) (l : List (Bytes × Bytes)) (n : Bytes × Bytes) (h : ∀ m ∈ l ++ [n], Text m.1 ∧ Text m.2) :
    yaml (b!"-\n  id: " ++ id ++ b!"\n  author:\n" ++ (l ++ [n]).flatMap Spec.name) = .val [{ entry := { id := id, author := some ⟨n.1 ++ b!", " ++ n.2, 0⟩ } }] := by
  have e1 : b!"-\n  id: " ++ id ++ b!"\n  author:\n" ++ (l ++ [n]).flatMap Spec.name = b!"-" ++ c!"\n" :: (List.replicate 2 c!" " ++ (b!"id" ++ b!":" ++ (b!" " ++ id)) ++ c!"\n" ::
      (b!"  author:\n" ++ ((l ++ [n]).flatMap Spec.name ++ []))) := by
    simp [List.replicate]
  have h1 : ∀ r, keyed ⟨[], none, true⟩ b!"id" ((b!" " ++ id).drop 1) 2 r = .val ⟨[], some { entry := { id := id } }, true⟩ := by
    intro r
    unfold keyed
    show (if b!"id" = b!"id" then match value id with
      | some x => _
      | none => _ else _) = _
    rw [if_pos rfl, value_text hid]
    rfl
  show (run ⟨[], none, false⟩ _ >>= _) = _
  rw [e1, run_line (by decide)]
  show (run ⟨[], none, true⟩ _ >>= _) = _
  rw [run_keyed rfl (by decide) (text_lit (by decide) (by decide) (by decide) (by decide)) (by decide) (.inr ⟨id, rfl, hid⟩) (by decide), h1, bind_val,
    run_authors (n := n) (by simp) h calm_nil]
  rfl

theorem C242_partial_case : yaml b!"-\n  id: a\n  author:\n    - family: Doe\n      given: John\n    - family: Roe\n      given: Jane\n" =
    .val [{ entry := { id := b!"a", author := some ⟨b!"Roe, Jane", 0⟩ } }] :=
  C242_partial b!"a" (text_lit (by decide) (by decide) (by decide) (by decide)) [(b!"Doe", b!"John")] (b!"Roe", b!"Jane") (by
    intro m hm
    simp only [List.singleton_append, List.mem_cons, List.not_mem_nil, or_false] at hm
    rcases hm with rfl | rfl <;>
      exact ⟨text_lit (by decide) (by decide) (by decide) (by decide), text_lit (by decide) (by decide) (by decide) (by decide)⟩)

/-- **C242 fails.**  The braces of a name in one line stay, a year given by `year`, by `date-parts` in one line and in several lines is lost, and a title ends at its first number sign. -/
theorem C242_fails :
    yaml b!"-\n  id: a\n  author: [{family: Doe, given: John}]\n" = .val [{ entry := { id := b!"a", author := some ⟨b!"Doe, given: John}]", 0⟩ } }] ∧
    yaml b!"-\n  id: a\n  year: 1999\n" = .val [{ entry := { id := b!"a" } }] ∧
    yaml b!"-\n  id: a\n  issued: {date-parts: [[1999]]}\n" = .val [{ entry := { id := b!"a" } }] ∧
    yaml b!"-\n  id: a\n  issued:\n    date-parts:\n      - - 1999\n" = .val [{ entry := { id := b!"a" } }] ∧
    yaml b!"-\n  id: a\n  title: C# in depth\n" = .val [{ entry := { id := b!"a", title := some ⟨b!"C", 0⟩ } }] := by
  decide +kernel

/-- Behind `date-parts:` nothing is found without a bracket. -/
theorem parts_none (base : Nat) : ∀ (n : Nat) (d : Int) (s : Bytes), d ≤ 0 → c!"[" ∉ s → dateLoop base n true d s = none
  | 0, d, s, _, _ => by cases s <;> rfl
  | n + 1, d, [], _, _ => rfl
  | n + 1, d, c :: s, hd, hs => by
    have hc : c ≠ c!"[" := fun e => hs (by rw [e]; exact List.mem_cons_self)
    have hm : c!"[" ∉ s := fun h => hs (List.mem_cons_of_mem _ h)
    have sub : ∀ {t : Bytes}, t <:+ s → c!"[" ∉ t := fun ht h => hm (ht.subset h)
    unfold dateLoop
    split
    · refine parts_none base n d _ hd (sub ?_)
      split
      · exact (List.drop_suffix _ _).trans ((List.dropWhile_suffix _).trans (List.drop_suffix _ _))
      · exact (List.dropWhile_suffix _).trans (List.drop_suffix _ _)
    · rw [if_pos rfl]
      split
      · split
        · rfl
        · exact parts_none base n (d - 1) s (by omega) hm
      · rw [if_neg (by simp; omega)]
        split
        · split
          · rfl
          · exact parts_none base n d s hd hm
        · exact parts_none base n d s hd hm

/-- **C242 fails.**  A date whose parts are written in lines, as in `- - 1999`, is lost, whatever the year and what is behind it. -/
theorem C242_parts_fails (base : Nat) (s : Bytes) (h : c!"[" ∉ s) : date base (b!"date-parts:" ++ s) = none := by
  have hp : b!"date-parts:".isPrefixOf (c!"d" :: (b!"ate-parts:" ++ s)) = true := List.isPrefixOf_iff_prefix.mpr ⟨s, rfl⟩
  show dateLoop base (s.length + 10 + 1) false 0 (c!"d" :: (b!"ate-parts:" ++ s)) = none
  unfold dateLoop
  rw [if_pos hp]
  refine parts_none base _ 0 _ (Int.le_refl 0) fun hm => h ?_
  have e : (b!"ate-parts:" ++ s).drop 10 = s := rfl
  simp only [e] at hm
  split at hm
  · exact ((List.drop_suffix _ _).trans (List.dropWhile_suffix _)).subset hm
  · exact (List.dropWhile_suffix _).subset hm

/-- A year behind `year:` is read, behind `date-parts:` only between a bracket and two dashes. -/
theorem C242_year_case : date 2 b!"    date-parts of\n    year: 1999\n" = some b!"1999" ∧ date 2 b!"    date-parts: [ - - 1999\n" = some b!"1999" ∧ date 2 b!"    date-parts: [ -5 - 1999\n" = none := by decide +kernel

/-! ### C243: reading a bibliography in YAML is safe -/

/-- **C243, partial.**  A text without quotes that is empty or ends with a line end, and does not end with a dash, is read without a wrong access to memory, and the entries can be
freed.  Missing: other texts (`C243_fails`). -/
theorem C243_partial (s : Bytes) (hq : Unquoted s) (hd : ¬ Dangling s) (hl : s = [] ∨ s.getLast? = some c!"\n") :
    ∃ items, yaml s = .val items ∧ ∀ e ∈ items, freeItem e = .val () := by
  obtain ⟨st, h1, h2⟩ := run_safe s.length s ⟨[], none, false⟩ (Nat.le_refl _) hq hd hl (by intro e he; cases he)
  refine ⟨st.add, ?_, fun e he => freeItem_clean (h2 e he)⟩
  show (run ⟨[], none, false⟩ s >>= _) = _
  rw [h1]
  rfl

theorem not_dangling {t : Bytes} {x : Byte} (hx : isSpace x = false) (hx2 : x ≠ c!"-") : ¬ Dangling (t ++ [x, c!"\n"]) := by
  rintro ⟨a, b, h, hb, hs⟩
  have h2 := congrArg List.reverse h
  simp only [List.reverse_append, List.reverse_cons, List.reverse_nil, List.nil_append, List.cons_append, List.append_assoc] at h2
  have hs2 : ∀ c ∈ b.reverse, isSpace c = true := fun c hc => hs c (List.mem_reverse.1 hc)
  have hb2 : b.reverse ≠ [] := by simpa using hb
  generalize b.reverse = r at h2 hs2 hb2
  match r, hb2, h2, hs2 with
  | [_], _, h2, _ =>
    simp only [List.cons_append, List.nil_append, List.cons.injEq] at h2
    exact hx2 h2.2.1
  | _ :: z :: _, _, h2, hs2 =>
    simp only [List.cons_append, List.cons.injEq] at h2
    have := hs2 z (by simp)
    rw [← h2.2.1, hx] at this
    cases this

theorem C243_partial_case : ∃ items, yaml b!"-\n  id: a\n  author:\n    - family: \n - - x: [" = .ub ∧ yaml b!"-\n  id: a\n  author:\n    - family: \n - - x: [\n" = .val items ∧
    ∀ e ∈ items, freeItem e = .val () := by
  obtain ⟨items, h1, h2⟩ := C243_partial b!"-\n  id: a\n  author:\n    - family: \n - - x: [\n" ⟨by decide, by decide⟩ (not_dangling (t := b!"-\n  id: a\n  author:\n    - family: \n - - x: ") (x := c!"[") (by decide) (by decide)) (.inr (by decide))
  exact ⟨items, by decide +kernel, h1, h2⟩

/-- **C243 fails.**  Every text without a line end at its end is read past its end; so is one where an author ends with a dash; and an identifier in quotes with a space in front is freed at a place
where nothing was allocated. -/
theorem C243_fails :
    (∀ s : Bytes, s ≠ [] → s.getLast? ≠ some c!"\n" → yaml s = .ub) ∧
    yaml b!"-\n  id: a\n  author:\n  -\n" = .ub ∧
    yaml b!"-\n  id: \" a\"\n" = .ub := by
  refine ⟨fun s h0 hl => ?_, by decide +kernel, by decide +kernel⟩
  show (run ⟨[], none, false⟩ s >>= _) = _
  rw [run_tail s.length s _ (Nat.le_refl _) h0 hl]
  rfl

theorem C243_fails_case : yaml b!"-\n  id: a" = .ub := C243_fails.1 _ (by decide) (by decide)

/-! ### C244: several bibliographies -/

/-- The entry of a file with this identifier, if the file can be read. -/
def inFile (disk : Bytes → Option Bytes) (path id : Bytes) : Option Item :=
  (disk path).bind fun s =>
    match loadFile path s with
    | .val l => lookup l id
    | .ub => none

/-- **C244, partial.**  A citation is resolved by the first of the files that has an entry with this identifier, whatever the formats are and however many files there are; files that cannot be read are
left out.  Missing: files in JSON (`C244_fails`). -/
theorem C244_partial (disk : Bytes → Option Bytes) (base : Option Bytes) (files : List Bytes) (m : List Item) (h : load disk base [] files = .val m) (id : Bytes) :
    lookup m id = files.findSome? fun p => inFile disk (resolve p base) id := by
  rw [find_load disk base id files [] m h]
  rfl

/-- Two files with the same identifier, and one that does not exist. -/
def disk (p : Bytes) : Option Bytes :=
  if p = b!"d/a.yaml" then some b!"-\n  id: x\n  title: A\n-\n  id: y\n" else if p = b!"d/b.bib" then some b!"@book{x, title={B}}\n@book{z, title={Z}}\n" else none

theorem C244_partial_case : ∃ m, load disk (some b!"d") [] [b!"no.bib", b!"a.yaml", b!"b.bib"] = .val m ∧ (lookup m b!"x").map (fun e => seen e.entry) = some { id := b!"x", title := some b!"A" } ∧
    (lookup m b!"z").map (fun e => seen e.entry) = some { id := b!"z", title := some b!"Z" } ∧ lookup m b!"w" = none := by
  have h : load disk (some b!"d") [] [b!"no.bib", b!"a.yaml", b!"b.bib"] = .val (match load disk (some b!"d") [] [b!"no.bib", b!"a.yaml", b!"b.bib"] with | .val m => m | .ub => []) := by decide +kernel
  refine ⟨_, h, ?_, ?_, ?_⟩
  · rw [C244_partial _ _ _ _ h]
    decide +kernel
  · rw [C244_partial _ _ _ _ h]
    decide +kernel
  · rw [C244_partial _ _ _ _ h]
    decide +kernel

/-- **C244 fails.**  A file in JSON gives no entry, whatever it contains. -/
theorem C244_fails (path s : Bytes) (h : format path = .json) : loadFile path s = .val [] := by
  unfold loadFile
  simp only [h]
  rfl

theorem C244_fails_case : loadFile b!"refs.JSON" b!"[{\"id\": \"doe99\", \"title\": \"A\"}]" = .val [] := C244_fails _ _ (by decide +kernel)

end Verif.CslYaml
