/- Definition lists with two colons. -/
import Verif.Proof.DefTree

namespace Verif.DefTree
open Spec

/-! ### C249: terms and definitions with two colons are shown as a definition list -/

/-- Any number of terms, each with one definition, with any plain paragraphs between them: each becomes a list with its term and its definition, and the other paragraphs stay as they are. -/
theorem C249_partial (l : List Item) (h : ∀ i ∈ l, i.Ok) : post [] (build [] (l.flatMap Item.write)) = .val (l.flatMap Item.means) := by
  rw [build_items h]
  exact post_items h []

/-- And they are shown so. -/
theorem C249_html_partial (f : Inl → Bytes) (hf : ∀ s, f (.text s) = s) (l : List Item) (h : ∀ i ∈ l, i.Ok) :
    ∃ out, post [] (build [] (l.flatMap Item.write)) = .val out ∧ out.flatMap (html f) = l.flatMap Item.html := by
  refine ⟨_, C249_partial l h, ?_⟩
  clear h
  induction l with
  | nil => rfl
  | cons i l ih =>
    rw [List.flatMap_cons, List.flatMap_append, ih, List.flatMap_cons]
    congr 1
    cases i <;> simp [Item.means, Item.html, html, hf]

/-- A term with any number of definitions: only the first one belongs to it, each of the others gets a list of its own with an empty term. -/
theorem C249_fails (t d : Bytes) (l : List Bytes) (ht : Plain t) (hd : Body d) (hl : ∀ x ∈ l, Body x) :
    post [] (build [] (t :: (d :: l).map fun x => b!":: " ++ x)) = .val (.list [.text t] [.data [.text d]] :: l.map fun x => .list [] [.data [.text x]]) := by
  rw [build_plain ht, build_defs (l := d :: l) (by
    intro x hx
    rcases List.mem_cons.mp hx with rfl | hx
    · exact hd
    · exact hl x hx) rfl]
  show post [] (.para [] [.text t] :: .list [] [] :: .para [] [.text (c!":" :: c!":" :: c!" " :: d)] :: defs l) = _
  have hf := fill_para (plain_defLine ht) [] (.para [] [.text (c!":" :: c!":" :: c!" " :: d)] :: defs l)
  rw [post_para, post_def _ _ (by rw [hf]) (colons_defLine d), hf, body_dd hd, post_defs hl]
  rfl

/-- With a tab behind the colons there is a list with the term and no definition, and the definition stays a paragraph, with the colons. -/
theorem C249_tab_fails (t d : Bytes) (ht : Plain t) (hd : Body d) :
    post [] (build [] [t, b!"::\t" ++ d]) = .val [.list [.text t] [], .para [] [.text (b!"::\t" ++ d)]] := by
  rw [build_plain ht]
  show post [] (build _ [c!":" :: c!":" :: c!"\t" :: d]) = _
  rw [build_colons (.inr rfl) hd.2 rfl]
  show post [] [.para [] [.text t], .list [] [], .para [] [.text (c!":" :: c!":" :: c!"\t" :: d)]] = _
  have hf := fill_para (plain_defLine ht) [] [.para [] [.text (c!":" :: c!":" :: c!"\t" :: d)]]
  rw [post_para, post_ndef _ _ (by rw [hf]) (tab_defLine d), hf, post_para]
  rfl

theorem C249_case : post [] (build [] [b!"Intro", b!"Apple", b!":: a fruit", b!"Leek", b!":: a vegetable"]) =
    .val [.para [] [.text b!"Intro"], .list [.text b!"Apple"] [.data [.text b!"a fruit"]], .list [.text b!"Leek"] [.data [.text b!"a vegetable"]]] := by
  refine C249_partial [.plain b!"Intro", .entry b!"Apple" b!"a fruit", .entry b!"Leek" b!"a vegetable"] ?_
  intro i hi
  simp only [List.mem_cons, List.not_mem_nil, or_false] at hi
  rcases hi with rfl | rfl | rfl
  · exact ⟨_, _, rfl, by decide, by decide⟩
  · exact ⟨⟨_, _, rfl, by decide, by decide⟩, ⟨_, _, rfl, by decide⟩, by decide⟩
  · exact ⟨⟨_, _, rfl, by decide, by decide⟩, ⟨_, _, rfl, by decide⟩, by decide⟩

theorem C249_fails_case : (match post [] (build [] [b!"Apple", b!":: a fruit", b!":: a firm"]) with
    | .val l => l.flatMap (html fun
      | .text s => s
      | _ => [])
    | .ub => []) = b!"<dl>\n<dt>Apple</dt>\n<dd>a fruit</dd>\n</dl>\n<dl>\n<dt></dt>\n<dd>a firm</dd>\n</dl>\n" := by
  decide +kernel

/-! ### C250: making definition lists loses no text -/

/-- Whatever the document is, with any blocks and lists in it as the parser opens them: what one reads in it is the same before and after, in the same order. -/
theorem C250_kept (doc out : List Block) (h : ∀ b ∈ doc, Fresh b) (hp : post [] doc = .val out) : out.flatMap Spec.read = doc.flatMap Spec.read := by
  have := post_read doc.length [] doc out (Nat.le_refl _) h hp
  simpa using this

/-- For any lines of text: what one reads is the lines, without the colons. -/
theorem C250_lines (l : List Bytes) (out : List Block) (hp : post [] (build [] l) = .val out) : out.flatMap Spec.read = l.map fun s => .text (bare (s.dropWhile (· = c!" "))) := by
  rw [C250_kept _ out (build_fresh (by simp)) hp, build_read]
  rfl

theorem C250_case : ∃ out, post [] [.other b!"x", .para [] [.text b!"T"], .list [] [], .para b!":: a" [], .para [] [.text b!":: b"]] = .val out ∧
    out.flatMap Spec.read = [.other b!"x", .text b!"T", .text b!"a", .text b!"b"] := by
  refine ⟨[.other b!"x", .list [.text b!"T"] [.data [.text b!"a"]], .para [] [.text b!":: b"]], rfl, ?_⟩
  refine (C250_kept [.other b!"x", .para [] [.text b!"T"], .list [] [], .para b!":: a" [], .para [] [.text b!":: b"]] _ (by simp [Fresh]) rfl).trans ?_
  decide +kernel

/-! ### C251: making definition lists is safe -/

/-- Any document in which no list without a term is in front of a paragraph that is no definition. -/
theorem C251_partial (doc : List Block) (h : Careful doc) : ∃ out, post [] doc = .val out := by
  have := post_safe doc.length [] doc (Nat.le_refl _) h
  cases hp : post [] doc with
  | ub => exact absurd hp this
  | val out => exact ⟨out, rfl⟩

/-- Any lines of text, if each line that opens a list begins with two colons and a space. -/
theorem C251_lines_partial (l : List Bytes) (h : ∀ s ∈ l, opens s = true → b!":: " <+: s.dropWhile (· = c!" ")) : ∃ out, post [] (build [] l) = .val out := by
  rw [build_made]
  exact C251_partial _ (made_careful h _)

/-- Two definitions without a term, the second one with a tab behind its colons: its paragraph is freed, and used after that. -/
theorem C251_fails (a b : Bytes) (hb : c!"{" ∉ b) (l : List Bytes) : post [] (build [] ((b!":: " ++ a) :: (b!"::\t" ++ b) :: l)) = .ub := by
  have h0 : build [] ((b!":: " ++ a) :: (b!"::\t" ++ b) :: l) = build [.para [] [.text (c!":" :: c!":" :: c!" " :: a)]] ((c!":" :: c!":" :: c!"\t" :: b) :: l) := by
    show (if (opens (b!":: " ++ a) && afterPara []) = true then _ else _) = _
    rw [if_neg (by simp [afterPara])]
    rfl
  have hpre : ∀ (l : List Bytes) (done : List Block), ∃ rest, build done l = done.reverse ++ rest := by
    intro l
    induction l with
    | nil => intro done; exact ⟨[], by simp [build]⟩
    | cons s l ih =>
      intro done
      unfold build
      simp only
      split
      · obtain ⟨r, hr⟩ := ih (.para [] [.text (s.dropWhile (· = c!" "))] :: .list [] [] :: done)
        exact ⟨.list [] [] :: .para [] [.text (s.dropWhile (· = c!" "))] :: r, by rw [hr]; simp⟩
      · obtain ⟨r, hr⟩ := ih (.para [] [.text (s.dropWhile (· = c!" "))] :: done)
        exact ⟨.para [] [.text (s.dropWhile (· = c!" "))] :: r, by rw [hr]; simp⟩
  rw [h0, build_colons (.inr rfl) hb rfl]
  obtain ⟨r, hr⟩ := hpre l [.para [] [.text (c!":" :: c!":" :: c!"\t" :: b)], .list [] [], .para [] [.text (c!":" :: c!":" :: c!" " :: a)]]
  rw [hr]
  show post [] (.para [] [.text (c!":" :: c!":" :: c!" " :: a)] :: .list [] [] :: .para [] [.text (c!":" :: c!":" :: c!"\t" :: b)] :: r) = _
  rw [post_para]
  have hf : (fill [] [.para [] [.text (c!":" :: c!":" :: c!" " :: a)]] (.para [] [.text (c!":" :: c!":" :: c!"\t" :: b)] :: r)).2.2 = true := by
    unfold fill
    simp only [colons_defLine, if_true]
    rfl
  unfold post
  simp only [hf, if_true]

theorem C251_fails_case : post [] (build [] [b!":: one", b!"::\ttwo"]) = .ub := C251_fails b!"one" b!"two" (by decide) []

theorem C251_case : ∃ out, post [] [.list [.text b!"T"] [], .para [] [.text b!"text"]] = .val out := by
  refine C251_partial _ ?_
  intro pre t rest c k p e
  left
  cases pre with
  | nil =>
    injection e with e _
    injection e with e1 _
    subst e1
    exact ⟨.text b!"T", by simp, by simp⟩
  | cons x pre =>
    injection e with _ e
    cases pre with
    | nil => simp at e
    | cons y pre =>
      injection e with _ e
      simp at e

end Verif.DefTree
