/- Theorems about `apex_parse`, `apex_render_html` and `apex_node_free`. -/
import Verif.Proof.Simple

namespace Verif.Simple
open Spec

/-! ### C252: parsing -/

/-- Parsing ends for each text. -/
theorem C252_ends (s : Bytes) : ∃ l, parse (s.length + 1) s = some l := parse_total _ s (by omega)

/-- Blocks that are written with blank lines between them are read as exactly these blocks. -/
theorem C252_partial {l : List Block} (h : ∀ b ∈ l, b.Ok) : parse ((l.flatMap Block.write).length + 1) (l.flatMap Block.write) = some (l.map Block.node) :=
  parse_mono _ _ _ _ (by have := writes_length l; omega) (parse_blocks h)

/-- A heading, a paragraph of two lines and a code block. -/
theorem C252_case : ∃ l : List Block, (∀ b ∈ l, b.Ok) ∧ l.flatMap Block.write = b!"## A\n\nb\n# c\n\n```sh\nls\n\n```\n\n" ∧
    l.map Block.node = [.heading 2 (some b!"A"), .para (some b!"b\n# c"), .code (some b!"sh") (some b!"ls\n\n")] := by
  refine ⟨[.heading 2 b!"A", .para b!"b\n# c", .code b!"sh" b!"ls\n\n"], ?_, by decide, rfl⟩
  intro b hb
  simp only [List.mem_cons, List.not_mem_nil, or_false] at hb
  rcases hb with rfl | rfl | rfl
  · exact ⟨by decide, by decide, by unfold Line; decide⟩
  · refine ⟨⟨c!"b", _, rfl, by decide, by decide, by decide, by decide⟩, by decide, by decide, by decide⟩
  · exact ⟨by unfold Line; decide, by decide, by decide, .inr (by decide)⟩

/-- The property fails: of a code block that is not closed only the last two bytes are read. -/
theorem C252_fails_open (n : Nat) {i b : Bytes} (hi : ∀ c ∈ i, c ≠ c!"\n") (x y : Byte) (hb : ¬ b!"```" <:+: b ++ [x, y]) :
    parse (n + 1) (b!"```" ++ i ++ b!"\n" ++ (b ++ [x, y])) = parse n [x, y] := by
  have e : b!"```" ++ i ++ b!"\n" ++ (b ++ [x, y]) = c!"`" :: c!"`" :: c!"`" :: (i ++ c!"\n" :: (b ++ [x, y])) := by simp
  have hs := Images.span_at (p := fun c : Byte => decide (c ≠ c!"\n")) (s := i) (c := c!"\n") (t := b ++ [x, y]) (by
    intro c hc
    simpa using hi c hc) (by decide)
  have hd : (b ++ [x, y]).drop ((b ++ [x, y]).length - 2) = [x, y] := by simp
  rw [e]
  conv => lhs; unfold parse
  rw [List.dropWhile_cons_of_neg (by decide)]
  simp only [heading_none (show c!"`" ≠ c!"#" from by decide)]
  rw [if_neg (by simp), if_pos (by simp)]
  simp only [List.drop_succ_cons, List.drop_zero, hs.2, fence_none hb, hd]

/-- The property fails: without two line feeds side by side all is one paragraph, with blank lines of the other kind, headings and code in it. -/
theorem C252_fails_para (n : Nat) {c : Byte} {s : Bytes} (h1 : c ≠ c!"\n") (h2 : c ≠ c!"\r") (h3 : c ≠ c!"#") (h4 : c ≠ c!"`") (hz : ∀ x ∈ c :: s, x ≠ 0) (h : ¬ b!"\n\n" <:+: c :: s) :
    parse (n + 2) (c :: s) = some [.para (some (c :: s))] := by
  have hf : b!"```".isPrefixOf (c :: s) = false := by
    show ((c!"`" == c) && _) = false
    rw [beq_false_of_ne (Ne.symm h4)]
    rfl
  unfold parse
  rw [List.dropWhile_cons_of_neg (by simp [h1, h2])]
  simp only [heading_none h3, hf, para_all h, cstr_eq hz]
  rw [if_neg (by simp), if_neg (by simp)]
  rfl

theorem C252_case_open : parse 9 b!"```\nrm\nls\n" = some [.para (some b!"s\n")] := by rfl

theorem C252_case_para : parse 9 b!"a\r\n\r\n# b\n```\nls\n```" = some [.para (some b!"a\r\n\r\n# b\n```\nls\n```")] := by rfl

/-! ### C253: rendering -/

/-- The page of any tree of the usual nodes is well-formed, with each element closed and all text escaped, and one reads in it exactly the text of the tree. -/
theorem C253_partial (hard nobreaks : Bool) {t : Node} (h : Known t) : Shows (render hard nobreaks t) (words t) := shows_node hard nobreaks t h

/-- A nested list with a link. -/
theorem C253_case : ∃ t : Node, Known t ∧ words t = b!"a<b>c&" ∧
    render false false t = b!"<blockquote>\n<ul>\n<li><em>a &lt;b&gt;</em>\n<a href=\"x&quot;y\" title=\"t\">c &amp;</a></li>\n</ul>\n</blockquote>\n" := by
  refine ⟨.quote [.list [.item [.emph [.text (some b!"a <b>")], .soft, .link (some b!"x\"y") (some b!"t") [.text (some b!"c &")]]]], ?_, ?_, ?_⟩
  · simp [Known, KnownAll]
  · rfl
  · rfl

/-- The property fails: each other node, a table or a footnote, vanishes with all that is in it. -/
theorem C253_fails (hard nobreaks : Bool) (ks : List Node) : render hard nobreaks (.other ks) = [] := by
  unfold render
  rfl

theorem C253_case_other : ∃ ks : List Node, words (.other ks) = b!"gone" ∧ render false false (.other ks) = [] :=
  ⟨[.para (some b!"gone")], by rfl, by rfl⟩

/-! ### C254: nodes in memory -/

/-- However many children a node gets, one after the other, all links between them are right and no other node is touched. -/
theorem C254_links (h : Heap) (p : Nat) {l : List Nat} (hl : l.Nodup) (hp : p ∉ l) :
    ∃ h', grow (new h p) p l = .val h' ∧ Kids h' p l ∧ ∀ m, m ≠ p → m ∉ l → h' m = h m := by
  obtain ⟨h', h1, h2, h3, _⟩ := grow_kids (p := p) l (h := new h p) (l0 := []) ⟨⟨{}, set_same _ _ _, rfl, rfl⟩, by
    intro a c b he
    cases a <;> cases he⟩ hl hp ⟨{}, set_same _ _ _, rfl⟩ (by
    intro m hm
    cases hm)
  exact ⟨h', h1, h2, fun m hm1 hm2 => (h3 m hm1 hm2).trans (set_other _ _ _ hm1)⟩

/-- Freeing a tree of any shape and depth frees each of its nodes once, never uses one that has been freed, and leaves all others. -/
theorem C254_frees {h : Heap} {t : Tree} {nx : Option Nat} (hs : Stored h t nx) (hn : (ids t).Nodup) :
    ∃ n, ∀ m, n ≤ m → ∃ h', free m h t.root = .val h' ∧ (∀ a ∈ ids t, h' a = none) ∧ ∀ a, a ∉ ids t → h' a = h a :=
  ⟨2 * (ids t).length, fun m hm => ⟨_, free_stored t nx h m hs hn hm, fun _ ha => if_pos ha, fun _ ha => if_neg ha⟩⟩

/-- A document that was parsed and is freed leaves the memory as it was. -/
theorem C254_document (h : Heap) {p : Nat} {l : List Nat} (hl : l.Nodup) (hp : p ∉ l) (hfree : ∀ m ∈ p :: l, h m = none) :
    ∃ h' n, grow (new h p) p l = .val h' ∧ free n h' p = .val h := by
  obtain ⟨h', h1, h2, h3, ⟨y, y1, y2⟩, h5⟩ := grow_kids (p := p) l (h := new h p) (l0 := []) ⟨⟨{}, set_same _ _ _, rfl, rfl⟩, by
    intro a c b he
    cases a <;> cases he⟩ hl hp ⟨{}, set_same _ _ _, rfl⟩ (by
    intro m hm
    cases hm)
  have hs : Stored h' (.node p (l.map fun c => Tree.node c [])) none := by
    unfold Stored
    obtain ⟨z, z1, z2, _⟩ := h2.1
    rw [y1] at z1
    cases z1
    refine ⟨⟨y, y1, y2, ?_⟩, leaves_stored h2 h5⟩
    rw [z2]
    cases l <;> rfl
  have hids : ids (.node p (l.map fun c => Tree.node c [])) = p :: l := by
    unfold ids
    rw [idsAll_leaves]
  have hf := free_stored _ none h' _ hs (by rw [hids]; exact List.nodup_cons.mpr ⟨hp, hl⟩) (Nat.le_refl _)
  refine ⟨h', _, h1, hf.trans ?_⟩
  rw [C.val.injEq, hids]
  funext m
  unfold without
  by_cases hm : m ∈ p :: l
  · rw [if_pos hm, hfree m hm]
  · rw [if_neg hm]
    have hmp : m ≠ p := fun e => hm (e ▸ List.mem_cons_self)
    exact (h3 m hmp fun hk => hm (List.mem_cons_of_mem _ hk)).trans (set_other _ _ _ hmp)

/-- A tree of three levels in memory. -/
theorem C254_case : ∃ (h : Heap) (t : Tree), Stored h t none ∧ (ids t).Nodup ∧ ids t = [1, 2, 3, 4] := by
  refine ⟨fun m => if m = 1 then some { first := some 2, last := some 4 } else if m = 2 then some { parent := some 1, first := some 3, last := some 3, next := some 4 }
    else if m = 3 then some { parent := some 2 } else if m = 4 then some { parent := some 1, prev := some 2 } else none,
    .node 1 [.node 2 [.node 3 []], .node 4 []], ?_, ?_, ?_⟩
  · simp [Stored, StoredAll, Tree.root]
  · simp [ids, idsAll]
  · simp [ids, idsAll]

end Verif.Simple
