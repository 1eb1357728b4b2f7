/-
Files of themes (C208, C209).
-/
import Verif.Proof.ThemeFile

namespace Verif.ThemeFile
open Spec
open Term (Theme)

/-! ### C208: a theme is the same with and without the library for YAML -/

/-- C208, for all files of sections with keys and values, with comments, quotes and white space, and a style for marks of lists without quotes: the theme is the one the library gives.
Missing: other files, for some of which it is false. -/
theorem C208_same_partial {rows : List (Row × Bool)} {ps : List Part} (h : ∀ r ∈ rows, r.1.Good) (hp : parts (rows.map Prod.fst) = some ps) : events (some (yaml ps)) (file rows) = lines (file rows) := by
  obtain ⟨h1, h2⟩ := lines_parts h hp
  unfold events
  simp only
  split
  · rfl
  · rw [events_parts h2, h1]

/-- A section with a style, a comment and a word for yes. -/
def sample : List (Row × Bool) :=
  [(.note b!"# mine", false), (.section b!"h1" [] [], true), (.entry b!"  " b!"color" [] b!" " (some c!"\"") b!"red on_#ffff00" b!"  # loud", false), (.note b!" ", false),
   (.entry b!"  " b!"bold" b!" " b!" " none b!"Yes" b!" ", true), (.section b!"h2" [] b!" #", false), (.marker [] b!" " b!"b red" [], false)]

theorem sample_good : ∀ r ∈ sample, r.1.Good := by
  intro r hr
  simp only [sample, List.mem_cons, List.not_mem_nil, or_false] at hr
  rcases hr with rfl | rfl | rfl | rfl | rfl | rfl | rfl
  · exact ⟨⟨[], _, rfl, by unfold Blank; decide, .inr rfl⟩, by decide +kernel, by decide +kernel⟩
  · exact ⟨by unfold Row.Fine Name Trimmed Blank; decide +kernel, by decide +kernel, by decide +kernel⟩
  · exact ⟨⟨by decide, by unfold Blank; decide, by unfold Name Trimmed; decide +kernel, by unfold Blank; decide, by unfold Blank; decide, by unfold Trimmed; decide +kernel, by decide +kernel⟩, by decide +kernel, by decide +kernel⟩
  · exact ⟨⟨b!" ", [], rfl, by unfold Blank; decide, .inl rfl⟩, by decide +kernel, by decide +kernel⟩
  · exact ⟨⟨by decide, by unfold Blank; decide, by unfold Name Trimmed; decide +kernel, by unfold Blank; decide, by unfold Blank; decide, by unfold Trimmed; decide +kernel, by unfold Blank; decide +kernel⟩, by decide +kernel, by decide +kernel⟩
  · exact ⟨by unfold Row.Fine Name Trimmed Blank; decide +kernel, by decide +kernel, by decide +kernel⟩
  · exact ⟨by unfold Row.Fine Trimmed Blank; decide +kernel, by decide +kernel, by decide +kernel⟩

example : file sample = b!"# mine\nh1:\r\n  color: \"red on_#ffff00\"  # loud\n \n  bold : Yes \r\nh2: #\nlist_marker: b red\n" ∧
    (parts (sample.map Prod.fst)).map entries = some [(b!"h1", b!"color", b!"red on_#ffff00"), (b!"h1", b!"bold", b!"Yes"), (b!"list_marker", [], b!"b red")] ∧
    (lines (file sample)).head 1 = some b!"b red on_#ffff00" ∧ (lines (file sample)).listMarker = some b!"b red" := by decide +kernel

/-- C208 fails for the style of marks of lists as it is documented, with quotes: the reader of lines keeps them, and such a style does nothing. -/
theorem C208_marker : let f := b!"h1:\n  color: red\nlist_marker: \"b red\"\n"
    let ps : List Part := [.section b!"h1" [(b!"color", b!"red")], .marker b!"b red"]
    (events (some (yaml ps)) f).listMarker = some b!"b red" ∧ (lines f).listMarker = some b!"\"b red\"" ∧ TermStyle.style true b!"\"b red\"" = [] ∧ TermStyle.style true b!"b red" ≠ [] := by decide +kernel

/-- C208 fails for the mark of quotes as it is documented, with two levels of keys: the reader of events does not find it. -/
theorem C208_deep : let f := b!"h1:\n  color: red\nblockquote:\n  marker:\n    character: \"|\"\n"
    let es : List Event := [.open, .scalar b!"h1", .open, .scalar b!"color", .scalar b!"red", .close, .scalar b!"blockquote", .open, .scalar b!"marker", .open, .scalar b!"character", .scalar b!"|", .close, .close, .close]
    (events (some es) f).quoteMarker = none ∧ (lines f).quoteMarker = some b!"|" := by decide +kernel

/-- C208 fails for comments behind a value without quotes: the reader of lines takes them for a part of the style. -/
theorem C208_comment : (lines b!"h1:\n  color: red # blue\n").head 1 = some b!"red # blue" ∧
    (events (some (yaml [.section b!"h1" [(b!"color", b!"red")]])) b!"h1:\n  color: red # blue\n").head 1 = some b!"red" ∧
    TermStyle.style true b!"red # blue" ≠ TermStyle.style true b!"red" := by decide +kernel

/-! ### C209: a theme has the styles its file says -/

/-- C209, for all files as in C208 with no key twice in a section, and styles that can be bold: the style is the colour of the file, bold if the file says so, if it does so behind the colour.
Missing: the other order, for which it is false. -/
theorem C209_style_partial {rows : List (Row × Bool)} {ps : List Part} (h : ∀ r ∈ rows, r.1.Good) (hp : parts (rows.map Prod.fst) = some ps) (hn : ((entries ps).map fun e => (e.1, e.2.1)).Pairwise (· ≠ ·))
    {sec key : Bytes} {f : Field} (hf : (sec, key, f) ∈ elements) (ho : ∀ a v b, entries ps = a ++ (sec, b!"bold", v) :: b → affirms v = true → says b sec key = none) :
    get (lines (file rows)) f = styled (says (entries ps) sec key) ((says (entries ps) sec b!"bold").any affirms) := by
  obtain ⟨h1, h2⟩ := lines_parts h hp
  have hmem : ∀ r ∈ elements, r ∈ colours ∧ (r.1, b!"bold", r.2.2) ∈ bolds := by decide +kernel
  have hv : ∀ e ∈ entries ps, e.2.2 ≠ [] := by
    clear h1 hn ho hp
    induction ps with
    | nil => simp [entries]
    | cons p ps ih =>
      have hp := h2 p (List.mem_cons_self ..)
      have ih := ih fun p hp => h2 p (List.mem_cons_of_mem _ hp)
      intro e he
      cases p with
      | «section» name ks =>
        rcases List.mem_append.1 he with he | he
        · obtain ⟨k, hk, rfl⟩ := List.mem_map.1 he
          exact (hp.2.2 k hk).2.2
        · exact ih e he
      | marker v =>
        rcases List.mem_cons.1 he with rfl | he
        · exact hp
        · exact ih e he
  have := style_fold (hmem _ hf).1 (hmem _ hf).2 (entries ps).reverse
  simp only [List.reverse_reverse, List.mem_reverse] at this
  rw [h1]
  exact this hv hn ho

example : (b!"h1", b!"color", Field.head 1) ∈ elements ∧ ([(b!"h1", b!"color", b!"red on_#ffff00"), (b!"h1", b!"bold", b!"Yes"), (b!"list_marker", [], b!"b red")].map fun e : Bytes × Bytes × Bytes => (e.1, e.2.1)).Pairwise (· ≠ ·) ∧
    affirms b!"Yes" = true ∧ says [(b!"list_marker", [], b!"b red")] b!"h1" b!"color" = none := by decide +kernel

/-- C209, for the targets of links and the mark of quotes, for marks of lists and for classes of any name: what the file says last. -/
theorem C209_plain {rows : List (Row × Bool)} {ps : List Part} (h : ∀ r ∈ rows, r.1.Good) (hp : parts (rows.map Prod.fst) = some ps) :
    (lines (file rows)).linkUrl = says (entries ps) b!"link" b!"url" ∧ (lines (file rows)).quoteMarker = says (entries ps) b!"blockquote" b!"character" ∧
    (lines (file rows)).listMarker = says (entries ps) b!"list_marker" [] ∧
    ∀ w, w ≠ [] → ((lines (file rows)).classes.find? fun e => e.1 = w).map Prod.snd = says (entries ps) b!"span_classes" w := by
  obtain ⟨h1, _⟩ := lines_parts h hp
  have hu := plain_fold (sec := b!"link") (key := b!"url") (f := .linkUrl) (by decide +kernel) (by decide +kernel) (entries ps).reverse
  have hm := plain_fold (sec := b!"blockquote") (key := b!"character") (f := .quoteMarker) (by decide +kernel) (by decide +kernel) (entries ps).reverse
  have hl := marker_fold (entries ps).reverse
  rw [List.reverse_reverse] at hu hm hl
  rw [h1]
  refine ⟨hu, hm, hl, ?_⟩
  intro w hw
  have := class_fold w hw (entries ps).reverse
  rwa [List.reverse_reverse] at this

/-- C209 fails: a `bold` in front of the colour is lost. -/
theorem C209_order : get (lines b!"h1:\n  bold: true\n  color: red\n") (.head 1) = some b!"red" ∧ get (lines b!"h1:\n  color: red\n  bold: true\n") (.head 1) = some b!"b red" := by decide +kernel

/-- C209: the theme is read from the file with its name, if there is one, and else from the default one. -/
theorem C209_found {home : Bytes} (hh : home ≠ []) {read : Bytes → Option Theme} {name : Bytes} (hn : name ≠ []) :
    (∀ t, read (home ++ b!"/.config/apex/terminal/themes/" ++ name ++ b!".theme") = some t → load (some home) read (some name) = some t) ∧
    (read (home ++ b!"/.config/apex/terminal/themes/" ++ name ++ b!".theme") = none → load (some home) read (some name) = read (home ++ b!"/.config/apex/terminal/themes/default.theme")) := by
  cases home with
  | nil => exact absurd rfl hh
  | cons c home =>
    cases name with
    | nil => exact absurd rfl hn
    | cons d name =>
      refine ⟨?_, ?_⟩
      · intro t ht
        simp only [load, path, Option.bind_some]
        rw [ht]
      · intro ht
        simp only [load, path, Option.bind_some]
        rw [ht]
        simp only
        congr 1
        simp

end Verif.ThemeFile
