import Verif.Proof.TableHtml

namespace Verif.TableHtml
open Spec

/-! C236: in a page without captions and joined cells only rows of tables whose first header is blank are changed: their first cell becomes a header. -/

/-- Missing: pages with more than 50000 bytes and first headers with a hundred bytes, where it fails, and cells with colons at their ends. -/
theorem C236_partial {D : Doc} {pos : Int} {l : List Piece} (h1 : D.attrs = []) (h2 : D.caps = []) (h3 : D.paras = []) (h4 : D.feet = [])
    (hl : ∀ p ∈ l, p.Plain []) (hs : Unmarked (l.flatMap Piece.html)) (ha : ¬ b!"APEXLTLT" <:+: wanted [] (pos = 1) 0 l)
    (hn : (l.flatMap Piece.html).length ≤ 50000) : inject D pos (l.flatMap Piece.html) = .val (wanted [] (pos = 1) 0 l) := by
  unfold inject
  simp only [h1, h2, h3, h4, decide_true, Bool.and_self, if_true]
  rw [if_neg (by rw [decide_eq_false (by omega)]; simp)]
  by_cases ht : b!"<thead>" <:+: l.flatMap Piece.html
  · rw [if_neg (by rw [(ElemAttrs.has_iff (w := b!"<thead>") (by simp)).2 ht]; simp)]
    have hlen : (wanted [] (pos = 1) 0 l).length < (l.flatMap Piece.html).length * 2 := by
      rcases wanted_length (pos = 1) l 0 hl with h | ⟨h, _⟩
      · exact h
      · rw [h] at ht; exact absurd ht (by decide)
    have := run_pages (D := { D with slots := [] }) (pos := pos) (l := l) (al := endColon (l.flatMap Piece.html) || leadColon (l.flatMap Piece.html))
      h1 h4 (.inl h2) (by rw [h2]; exact hl) hs (by rw [h2]; exact hlen) (by rw [h2]; exact ha)
    rw [h2] at this
    simpa [h1, h2, h3, h4] using this
  · have hw := wanted_no_table (pos = 1) l 0 hl ht
    by_cases he : (!endColon (l.flatMap Piece.html) && !ElemAttrs.has b!"^^" (l.flatMap Piece.html)) = true
    · rw [if_pos (by rw [he, ElemAttrs.has_not (by simp) ht]; rfl), hw]
    · rw [if_neg (by simp only [Bool.and_eq_true]; intro e; exact he (by simpa using e.1))]
      by_cases h0 : l.flatMap Piece.html = []
      · rw [h0] at he; exact absurd rfl he
      · have hlen : (wanted [] (pos = 1) 0 l).length < (l.flatMap Piece.html).length * 2 := by
          rcases wanted_length (pos = 1) l 0 hl with h | ⟨h, _⟩
          · exact h
          · exact absurd h h0
        have := run_pages (D := { D with slots := [] }) (pos := pos) (l := l) (al := endColon (l.flatMap Piece.html) || leadColon (l.flatMap Piece.html))
          h1 h4 (.inl h2) (by rw [h2]; exact hl) hs (by rw [h2]; exact hlen) (by rw [h2]; exact ha)
        rw [h2] at this
        simpa [h1, h2, h3, h4] using this

/-- Nothing is collected from the tree. -/
def nothing : Doc := ⟨[], [], [], [], []⟩

/-- A table whose first header is blank. -/
def months : Table := ⟨b!" id=\"t\"", [⟨[], b!" "⟩, ⟨b!" align=\"right\"", b!"May"⟩], [[⟨b!" x", b!"Rain"⟩, ⟨[], b!"3"⟩], [⟨[], b!"<em>Sun</em>"⟩, ⟨[], []⟩], []]⟩

theorem months_plain : months.Plain := by
  refine ⟨by decide, by decide, ?_, ?_, ?_⟩
  · intro c hc
    simp only [months, List.mem_cons, List.not_mem_nil, or_false] at hc
    rcases hc with rfl | rfl <;> exact ⟨by decide, by decide, by decide, by decide, by decide, by decide⟩
  · intro r hr c hc
    simp only [months, List.mem_cons, List.not_mem_nil, or_false] at hr
    rcases hr with rfl | rfl | rfl <;> simp only [List.mem_cons, List.not_mem_nil, or_false] at hc
    · rcases hc with rfl | rfl <;> exact ⟨by decide, by decide, by decide, by decide, by decide, by decide⟩
    · rcases hc with rfl | rfl <;> exact ⟨by decide, by decide, by decide, by decide, by decide, by decide⟩
  · intro c hc
    cases hc
    decide

theorem C236_case : inject nothing 0 ([.text b!"<p>One [x]</p>\n", .table months, .text b!"<hr />"].flatMap Piece.html) =
    .val b!"<p>One [x]</p>\n<table id=\"t\">\n<thead>\n<tr>\n<th> </th>\n<th align=\"right\">May</th>\n</tr>\n</thead>\n<tbody>\n<tr>\n<th scope=\"row\">Rain</th>\n<td>3</td>\n</tr>\n<tr>\n<th scope=\"row\"><em>Sun</em></th>\n<td></td>\n</tr>\n<tr>\n</tr>\n</tbody>\n</table>\n<hr />" := by
  rw [C236_partial rfl rfl rfl rfl ?_ (by unfold Unmarked; decide +kernel) (by decide +kernel) (by decide +kernel)]
  · decide +kernel
  · intro p hp
    simp only [List.mem_cons, List.not_mem_nil, or_false] at hp
    rcases hp with rfl | rfl | rfl
    · show quiet _ = true
      decide +kernel
    · exact months_plain
    · show quiet _ = true
      decide +kernel

/-- A long page stays as it is: no cell becomes a header. -/
theorem C236_fails : ∃ l : List Piece, (∀ p ∈ l, p.Plain []) ∧ Unmarked (l.flatMap Piece.html) ∧
    inject nothing 0 (l.flatMap Piece.html) = .val (l.flatMap Piece.html) ∧ wanted [] false 0 l ≠ l.flatMap Piece.html := by
  have hx : ∀ n, quiet (List.replicate n c!"x") = true := by
    intro n
    induction n with
    | zero => rfl
    | succ n ih => rw [List.replicate_succ, quiet, ih]; rfl
  refine ⟨[.table months, .text (List.replicate 50001 c!"x")], ?_, ?_, ?_, ?_⟩
  · intro p hp
    simp only [List.mem_cons, List.not_mem_nil, or_false] at hp
    rcases hp with rfl | rfl
    · exact months_plain
    · exact hx _
  all_goals simp only [List.flatMap_cons, List.flatMap_nil, List.append_nil, Piece.html]
  · generalize 50001 = n
    refine ⟨?_, ?_, ?_⟩
    · apply TableSpans.not_infix_of_not_mem (c := c!"^") (by decide)
      rw [List.mem_append, not_or]
      exact ⟨by decide +kernel, fun h => absurd (List.eq_of_mem_replicate h) (by decide)⟩
    · rintro ⟨p, q, h⟩
      have hA : ¬ b!"<<" <:+: months.html := by decide +kernel
      rcases List.append_eq_append_iff.1 h with ⟨a', h1, _⟩ | ⟨c', h1, h2⟩
      · exact hA ⟨p, a', h1.symm⟩
      · rcases List.eq_nil_or_concat c' with rfl | ⟨c', y, rfl⟩
        · exact hA ⟨p, [], by simpa using h1⟩
        · have hy : y = c!"<" := by
            have := congrArg (fun l : Bytes => l.reverse.head?) h1
            simpa using this.symm
          have hm : y ∈ List.replicate n c!"x" := by rw [h2]; simp
          rw [hy] at hm
          exact absurd (List.eq_of_mem_replicate hm) (by decide)
    · apply TableSpans.not_infix_of_not_mem (c := c!"&") (by decide)
      rw [List.mem_append, not_or]
      exact ⟨by decide +kernel, fun h => absurd (List.eq_of_mem_replicate h) (by decide)⟩
  · have hlen : 50000 < (months.html ++ List.replicate 50001 c!"x").length := by
      rw [List.length_append, List.length_replicate]; omega
    generalize 50001 = n at hlen ⊢
    have no : ∀ c : Byte, c ∉ months.html → c ≠ c!"x" → c ∉ months.html ++ List.replicate n c!"x" := by
      intro c h1 h2 h
      rcases List.mem_append.1 h with h | h
      · exact h1 h
      · exact h2 (List.eq_of_mem_replicate h)
    have n1 := no c!":" (by decide +kernel) (by decide)
    have n2 := no c!"^" (by decide +kernel) (by decide)
    have e1 : endColon (months.html ++ List.replicate n c!"x") = false := by
      unfold endColon
      rw [ElemAttrs.has_not (by simp) (TableSpans.not_infix_of_not_mem (c := c!":") (by decide) n1),
        ElemAttrs.has_not (by simp) (TableSpans.not_infix_of_not_mem (c := c!":") (by decide) n1)]
      rfl
    have e2 : ElemAttrs.has b!"^^" (months.html ++ List.replicate n c!"x") = false :=
      ElemAttrs.has_not (by simp) (TableSpans.not_infix_of_not_mem (c := c!"^") (by decide) n2)
    unfold inject
    simp only [nothing, e1, e2, decide_eq_true hlen, decide_true, Bool.and_self, Bool.not_false, if_true]
  · generalize 50001 = n
    show months.wanted [] false 0 ++ (List.replicate n c!"x" ++ []) ≠ _
    intro h
    have h' := congrArg List.length h
    have hd : (months.wanted [] false 0).length ≠ months.html.length := by decide +kernel
    rw [List.append_nil, List.length_append, List.length_append] at h'
    omega

/-! C237: a table with a caption becomes a figure, and the paragraph with the caption is left out. -/

/-- Missing: pages that become twice as long, and other places of the caption than above and below. -/
theorem C237_partial {D : Doc} {below : Bool} {l : List Piece} (h1 : D.attrs = []) (h2 : D.caps ≠ []) (h4 : D.feet = [])
    (hl : ∀ p ∈ l, p.Plain D.caps) (hs : Unmarked (l.flatMap Piece.html)) (ha : ¬ b!"APEXLTLT" <:+: wanted D.caps below 0 l)
    (hn : (wanted D.caps below 0 l).length < (l.flatMap Piece.html).length * 2) :
    inject D (if below then 1 else 0) (l.flatMap Piece.html) = .val (wanted D.caps below 0 l) := by
  have hb : decide ((if below then (1 : Int) else 0) = 1) = below := by cases below <;> rfl
  unfold inject
  simp only [h1, h2, h4, decide_true, decide_false, Bool.and_false, Bool.false_and, Bool.false_eq_true, if_false]
  have := run_pages (D := D) (pos := if below then 1 else 0) (l := l) (al := !decide (20 ≤ count b!"align=" 100 (l.flatMap Piece.html)) && endColon (l.flatMap Piece.html))
    h1 h4 (.inr (by cases below <;> simp)) hl hs (by rw [hb]; exact hn) (by rw [hb]; exact ha)
  rw [hb] at this
  exact this

/-- What is collected from a document with a table and its caption. -/
def captioned (c : Bytes) : Doc := docOf [.para none (some b!"Hi"), .para none (some (b!"[" ++ c ++ b!"]")), .table none [⟨none, [⟨none, [], []⟩]⟩], .para none (some b!"end")]

/-- The table. -/
def small : Table := ⟨[], [⟨[], b!"x"⟩], []⟩

theorem C237_case : (captioned b!"The \"x\"").caps = [(0, b!"The \"x\"")] ∧ (captioned b!"Q").caps = [(0, b!"Q")] ∧
    inject (captioned b!"Q") 1 ([.text b!"<p>Hi</p>\n", .caption b!"Q", .table small, .text b!"<p>end</p>\n"].flatMap Piece.html) =
    .val b!"<p>Hi</p>\n\n<figure class=\"table-figure\">\n<table>\n<thead>\n<tr>\n<th>x</th>\n</tr>\n</thead>\n</table><figcaption>Q</figcaption>\n</figure>\n\n<p>end</p>\n" := by
  have hc : (captioned b!"Q").caps = [(0, b!"Q")] := by decide +kernel
  refine ⟨by decide +kernel, hc, ?_⟩
  refine (C237_partial (D := captioned b!"Q") (below := true) (l := [.text b!"<p>Hi</p>\n", .caption b!"Q", .table small, .text b!"<p>end</p>\n"])
    (by decide +kernel) (by rw [hc]; simp) (by decide +kernel) ?_ (by unfold Unmarked; decide +kernel) (by decide +kernel) (by decide +kernel)).trans ?_
  · rw [hc]
    intro p hp
    simp only [List.mem_cons, List.not_mem_nil, or_false] at hp
    rcases hp with rfl | rfl | rfl | rfl
    · show quiet _ = true
      decide +kernel
    · exact ⟨by decide, by decide, by decide, by decide, 0, by simp⟩
    · refine ⟨by decide, by decide, ?_, (fun _ hr => nomatch hr), ?_⟩
      · intro c hc
        simp only [small, List.mem_cons, List.not_mem_nil, or_false] at hc
        subst hc
        exact ⟨by decide, by decide, by decide, by decide, by decide, by decide⟩
      · intro c hc
        cases hc
        decide
    · show quiet _ = true
      decide +kernel
  · decide +kernel

/-- The paragraph of a caption with an ampersand stays. -/
theorem C237_fails : (captioned b!"Q & A").caps = [(0, b!"Q & A")] ∧
    inject (captioned b!"Q & A") 1 b!"<p>Hi</p>\n<p>[Q &amp; A]</p>\n<table>\n<thead>\n<tr>\n<th>x</th>\n</tr>\n</thead>\n</table>\n<p>end</p>\n" =
    .val b!"<p>Hi</p>\n<p>[Q &amp; A]</p>\n<figure class=\"table-figure\">\n<table>\n<thead>\n<tr>\n<th>x</th>\n</tr>\n</thead>\n</table><figcaption>Q &amp; A</figcaption>\n</figure>\n\n<p>end</p>\n" := by
  decide +kernel

/-! C238: the text of a cell is kept. -/

/-- A shift to the left is taken for a mark: the cell is gone, and so are the headers. -/
theorem C238_fails :
    inject nothing 0 b!"<table>\n<thead>\n<tr>\n<th>A</th>\n<th>B</th>\n</tr>\n</thead>\n<tbody>\n<tr>\n<td>1 &lt;&lt; 2</td>\n<td>4</td>\n</tr>\n</tbody>\n</table>\n" =
      .val b!"<table>\n<thead>\n<tr>\n\n\n</tr>\n</thead>\n<tbody>\n<tr>\n\n<td>4</td>\n</tr>\n</tbody>\n</table>\n" := by
  decide +kernel

/-! C239: a cell with colons at its ends is aligned, and the colons are taken out. -/

/-- Missing: the attributes of the cell, and the page around it. -/
theorem C239_partial {st : St} {a m b rest : Bytes} (ha : a.all isSpace = true) (hb : b.all isSpace = true) (h0 : m.all isSpace = false)
    (h1 : (m.dropWhile isSpace).head? ≠ some c!":") (h2 : (m.reverse.dropWhile isSpace).head? ≠ some c!":") (h3 : m.getLast? ≠ some c!"\\")
    (h4 : c!"<" ∉ m) (hn : a.length + m.length + b.length < 498) (hr : st.out.length + m.length + 37 ≤ st.cap) :
    (∃ st', alignCell st (b!"<td>" ++ (a ++ b!":" ++ m ++ b!":" ++ b) ++ b!"</td>" ++ rest) = .val (.inl (.done st' rest)) ∧
      st'.out = st.out ++ (b!"<td style=\"text-align: center\">" ++ m ++ b!"</td>")) ∧
    (∃ st', alignCell st (b!"<td>" ++ (a ++ b!":" ++ m) ++ b!"</td>" ++ rest) = .val (.inl (.done st' rest)) ∧
      st'.out = st.out ++ (b!"<td style=\"text-align: left\">" ++ m ++ b!"</td>")) ∧
    (∃ st', alignCell st (b!"<td>" ++ (m ++ b!":" ++ b) ++ b!"</td>" ++ rest) = .val (.inl (.done st' rest)) ∧
      st'.out = st.out ++ (b!"<td style=\"text-align: right\">" ++ m ++ b!"</td>")) := by
  have g0 : m ≠ [] := by rintro rfl; cases h0
  have g1 : m.head? ≠ some c!":" := by
    cases m with
    | nil => simp
    | cons x m =>
      rintro ⟨⟩
      exact h1 rfl
  have lt : ∀ x : Bytes, (∀ c ∈ x, isSpace c = true ∨ c = c!":" ∨ c ∈ m) → ¬ b!"</td>" <:+: x := by
    intro x hx
    apply TableSpans.not_infix_of_not_mem (c := c!"<") (by decide)
    intro hc
    rcases hx _ hc with h | h | h
    · exact absurd h (by decide)
    · exact absurd h (by decide)
    · exact h4 h
  have mem_a : ∀ c ∈ a, isSpace c = true := List.all_eq_true.mp ha
  have mem_b : ∀ c ∈ b, isSpace c = true := List.all_eq_true.mp hb
  refine ⟨⟨_, alignCell_aligned (alignment_center ha hb g0 g1 h3) (by simp) ?_ (lt _ ?_) ?_, rfl⟩,
    ⟨_, alignCell_aligned (alignment_left ha g1 h0 h2) (by simp) ?_ (lt _ ?_) ?_, rfl⟩,
    ⟨_, alignCell_aligned (alignment_right hb h1 h0 h3) (by simp) ?_ (lt _ ?_) ?_, rfl⟩⟩
  all_goals first
    | (simp only [List.length_append, List.length_cons, List.length_nil]; omega)
    | (intro c hc
       simp only [List.mem_append, List.mem_cons, List.not_mem_nil, or_false] at hc
       have := mem_a c
       have := mem_b c
       grind)

theorem C239_case : (let m := b!" 3.5 "; m.all isSpace = false ∧ (m.dropWhile isSpace).head? ≠ some c!":" ∧ (m.reverse.dropWhile isSpace).head? ≠ some c!":" ∧
    m.getLast? ≠ some c!"\\" ∧ c!"<" ∉ m) ∧
    inject nothing 0 b!"<table>\n<thead>\n<tr>\n<th>A</th>\n<th>B</th>\n</tr>\n</thead>\n<tbody>\n<tr>\n<td>:1:</td>\n<td>2:</td>\n</tr>\n</tbody>\n</table>\n" =
      .val b!"<table>\n<thead>\n<tr>\n<th>A</th>\n<th>B</th>\n</tr>\n</thead>\n<tbody>\n<tr>\n<td style=\"text-align: center\">1</td>\n<td style=\"text-align: right\">2</td>\n</tr>\n</tbody>\n</table>\n" :=
  ⟨by decide, by decide +kernel⟩

/-- A table with three rows of four centred cells: what is written for the cells is not counted, and there is no room for it. -/
theorem C239_fails : inject nothing 0 (b!"<table>\n<thead>\n<tr>\n<th>a</th>\n<th>b</th>\n<th>c</th>\n<th>d</th>\n</tr>\n</thead>\n<tbody>\n" ++
    (List.replicate 3 b!"<tr>\n<td>:1:</td>\n<td>:2:</td>\n<td>:3:</td>\n<td>:4:</td>\n</tr>\n").flatten ++ b!"</tbody>\n</table>\n") = .ub := by
  decide +kernel

/-! C240: the cells below a header that is not blank stay cells. -/

/-- A first header with a hundred bytes is taken for a blank one. -/
theorem C240_fails : inject nothing 0 (b!"<table>\n<thead>\n<tr>\n<th>" ++ List.replicate 100 c!"a" ++ b!"</th>\n</tr>\n</thead>\n<tbody>\n<tr>\n<td>1</td>\n</tr>\n</tbody>\n</table>\n") =
    .val (b!"<table>\n<thead>\n<tr>\n<th>" ++ List.replicate 100 c!"a" ++ b!"</th>\n</tr>\n</thead>\n<tbody>\n<tr>\n<th scope=\"row\">1</th>\n</tr>\n</tbody>\n</table>\n") := by
  decide +kernel

end Verif.TableHtml
