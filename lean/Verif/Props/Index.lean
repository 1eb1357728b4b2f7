/-
C156, C157, C158: entries of the index, the index, and its place.
-/
import Verif.Proof.IndexPage

namespace Verif.Index
open Spec (Term Listed InOrder Letter Groups entryHtml groupHtml indexHtml Placed Marked number)

/-- C156, for every text and every choice of syntaxes: there is one way to read the entries of the text, the registry has them,
the last one first, and the text has numbered comments in their place and is the same elsewhere. -/
theorem C156_marked_partial (o : Options) (text : Bytes) : ∃ ts out, Marked (on o) 0 [] text ts out ∧
    (∀ ts' out', Marked (on o) 0 [] text ts' out' → ts' = ts ∧ out' = out) ∧
    ∃ r, process o text = .val (r, (ts.zipIdx.map toEntry).reverse) ∧ r.getD text = out := by
  obtain ⟨ts, out, h⟩ := marked_exists o text.length text 0 [] (Nat.le_refl _)
  obtain ⟨r, h1, h2⟩ := process_marked h
  refine ⟨ts, out, h, fun ts' out' h' => ?_, r, h1, h2⟩
  obtain ⟨r', h1', h2'⟩ := process_marked h'
  rw [h1] at h1'
  simp only [C.val.injEq, Prod.mk.injEq] at h1'
  have := congrArg (List.map fun e : Entry => Term.mk e.item e.sub e.primary) (List.reverse_inj.1 h1'.2)
  rw [List.map_map, List.map_map] at this
  refine ⟨?_, by rw [← h2, ← h2', h1'.1]⟩
  have key : ∀ l : List Term, l.zipIdx.map ((fun e : Entry => Term.mk e.item e.sub e.primary) ∘ toEntry) = l := fun l => List.zipIdx_map_fst 0 l
  rw [key, key] at this
  exact this.symm

theorem comments_from {o : Spec.On} {k : Nat} {pre text : Bytes} {ts : List Term} {out : Bytes} (h : Marked o k pre text ts out) :
    ∃ t l, out = Spec.page t l ∧ l.map (·.1) = (List.range' k ts.length).map fun k => b!"idxref-" ++ number k := by
  induction h with
  | nil => exact ⟨[], [], rfl, rfl⟩
  | @entry k pre src s t ts out _ _ ih =>
    obtain ⟨t', l, rfl, hl⟩ := ih
    refine ⟨[], (b!"idxref-" ++ number k, t') :: l, by simp [Spec.page, Spec.comment], ?_⟩
    rw [List.map_cons, hl, List.length_cons, List.range'_succ, List.map_cons]
  | @copy k pre c s ts out _ _ ih =>
    obtain ⟨t', l, rfl, hl⟩ := ih
    exact ⟨c :: t', l, rfl, hl⟩

/-- The comments have the numbers 0, 1, 2 and so on, each once. -/
theorem C156_numbers {o : Spec.On} {text : Bytes} {ts : List Term} {out : Bytes} (h : Marked o 0 [] text ts out) :
    ∃ t l, out = Spec.page t l ∧ l.map (·.1) = (List.range ts.length).map fun k => b!"idxref-" ++ number k := by
  rw [List.range_eq_range']
  exact comments_from h

/-- A text without `(!`, `{^` and `{i:` stays as it is. -/
theorem C156_other_text (o : Options) {text : Bytes} (h : ∀ w ∈ [b!"(!", b!"{^", b!"{i:"], ¬ w <:+: text) : process o text = .val (none, []) := by
  have : starts o text = false := by
    unfold starts
    simp only []
    rw [(Embed.find_none (by simp)).2 (h b!"(!" (by simp)), (Embed.find_none (by simp)).2 (h b!"{^" (by simp)), (Embed.find_none (by simp)).2 (h b!"{i:" (by simp))]
    simp
  rw [process, this]
  rfl

/-- Entries of the three syntaxes. -/
theorem C156_example : process ⟨true, true, true⟩ b!"A (!Tree, oak) b (!!Moss).\nC fern{^}, [old *moss*]{^x, y} {i: Ishmael}{i: \"*Moby*!whale\"}" =
    .val (some b!"A <!--IDX:idxref-0--> b <!--IDX:idxref-1-->.\nC fern<!--IDX:idxref-2-->, [old *moss*]<!--IDX:idxref-3--> <!--IDX:idxref-4--><!--IDX:idxref-5-->",
      [⟨b!"Moby", some b!"whale", false, b!"idxref-5"⟩, ⟨b!"Ishmael", none, false, b!"idxref-4"⟩, ⟨b!"old *moss*", some b!"y", false, b!"idxref-3"⟩,
        ⟨b!"C fern", none, false, b!"idxref-2"⟩, ⟨b!"Moss", none, true, b!"idxref-1"⟩, ⟨b!"Tree", some b!"oak", false, b!"idxref-0"⟩]) := by
  decide +kernel

/-- Code is changed, too: a condition becomes a comment. -/
theorem C156_code_refuted : process ⟨true, true, true⟩ b!"```c\nif (!done) return;\n```\n" =
    .val (some b!"```c\nif <!--IDX:idxref-0--> return;\n```\n", [⟨b!"done", none, false, b!"idxref-0"⟩]) := by
  decide +kernel

/-- The entry of a word is not the word: up to 50 characters in front of the mark belong to it, and a blank in front of them stays. -/
theorem C156_word_refuted : process ⟨true, true, true⟩ b!"Look. This is about firmware{^}." =
    .val (some b!"Look. This is about firmware<!--IDX:idxref-0-->.", [⟨b!" This is about firmware", none, false, b!"idxref-0"⟩]) := by
  decide +kernel

/-- Letters outside ASCII make no entry. -/
theorem C156_accent_refuted : process ⟨true, true, true⟩ (b!"(!Caf" ++ [0xC3, 0xA9] ++ b!")") = .val (some (b!"(!Caf" ++ [0xC3, 0xA9] ++ b!")"), []) := by
  decide +kernel

/-- The order that `qsort` is given is a total preorder, that of the specification. -/
theorem C157_order (a b c : Listed) : (entryLe (toEntry a) (toEntry b) = true ↔ InOrder a b) ∧ (InOrder a b ∨ InOrder b a) ∧
    (InOrder a b → InOrder b c → InOrder a c) :=
  ⟨entryLe_iff a b, inOrder_total a b, inOrder_trans⟩

theorem upper_mono {c d : Byte} (hc : isAlnum c = true) (hd : isAlnum d = true) (h : toLower c ≤ toLower d) : toUpper c ≤ toUpper d := by
  have key : ∀ c : Byte, isAlnum c = true → (toUpper c).toNat = if (toLower c).toNat < 97 then (toLower c).toNat else (toLower c).toNat - 32 := by
    refine forall_byte ?_
    decide +kernel
  rw [UInt8.le_iff_toNat_le] at h ⊢
  have key2 : ∀ c : Byte, isAlnum c = true → (toLower c).toNat < 97 → (toLower c).toNat < 65 := by
    refine forall_byte ?_
    decide +kernel
  rw [key c hc, key d hd]
  have := key2 c hc
  have := key2 d hd
  split <;> split <;> omega

theorem letter_unique {c : Byte} {x : Bytes} (hc : isAlnum c = true) {l : Byte} (h : Letter (c :: x) l) : l = toUpper c := by
  rcases h with ⟨h, -⟩ | ⟨a, d, b, h, ha, -, rfl⟩
  · have := h c (by simp)
    rw [hc] at this
    cases this
  · cases a with
    | nil => cases h; rfl
    | cons e a =>
      rw [List.cons_append, List.cons.injEq] at h
      have := ha c (by rw [h.1]; simp)
      rw [hc] at this
      cases this

theorem letters_le {gs : List (Byte × List Listed)} (hs : (gs.flatMap (·.2)).Pairwise InOrder) (hg : ∀ g ∈ gs, g.2 ≠ [] ∧ ∀ e ∈ g.2, Letter e.1.item g.1)
    (ha : ∀ e ∈ gs.flatMap (·.2), ∃ c x, e.1.item = c :: x ∧ isAlnum c = true) : (gs.map (·.1)).Pairwise (· ≤ ·) := by
  rw [List.pairwise_map]
  have h2 := (List.pairwise_flatMap.1 hs).2
  refine h2.imp_of_mem ?_
  intro g k hgm hkm h
  obtain ⟨e, he⟩ := List.exists_mem_of_ne_nil _ (hg g hgm).1
  obtain ⟨f, hf⟩ := List.exists_mem_of_ne_nil _ (hg k hkm).1
  obtain ⟨c, x, h3, hc⟩ := ha e (List.mem_flatMap.2 ⟨g, hgm, he⟩)
  obtain ⟨d, y, h4, hd⟩ := ha f (List.mem_flatMap.2 ⟨k, hkm, hf⟩)
  have l1 := (hg g hgm).2 e he
  have l2 := (hg k hkm).2 f hf
  rw [h3] at l1
  rw [h4] at l2
  rw [letter_unique hc l1, letter_unique hd l2]
  refine upper_mono hc hd ?_
  rcases h e he f hf with h | ⟨h, -⟩
  · rw [h3, h4, List.map_cons, List.map_cons, List.cons_lt_cons_iff] at h
    rw [UInt8.le_iff_toNat_le]
    rcases h with h | ⟨h, -⟩
    · rw [UInt8.lt_iff_toNat_lt] at h
      omega
    · rw [h]
      exact Nat.le_refl _
  · rw [h3, h4, List.map_cons, List.map_cons, List.cons.injEq] at h
    rw [h.1]
    exact UInt8.le_refl _

theorem letters_lt : ∀ {gs : List (Byte × List Listed)}, (gs.map (·.1)).Pairwise (· ≤ ·) → (∀ a g h b, gs = a ++ g :: h :: b → g.1 ≠ h.1) → (gs.map (·.1)).Pairwise (· < ·)
  | [], _, _ => .nil
  | [g], _, _ => by simp
  | g :: h :: gs, hp, ha => by
    rw [List.map_cons, List.pairwise_cons] at hp
    have ih := letters_lt hp.2 fun a x y b e => ha (g :: a) x y b (by rw [e]; rfl)
    rw [List.map_cons, List.pairwise_cons]
    refine ⟨?_, ih⟩
    have hgh : g.1 < h.1 := by
      have h1 := hp.1 h.1 (by simp)
      have h2 := ha [] g h gs rfl
      rw [UInt8.le_iff_toNat_le] at h1
      rw [UInt8.lt_iff_toNat_lt]
      have : g.1.toNat ≠ h.1.toNat := fun e => h2 (UInt8.toNat_inj.1 e)
      omega
    intro l hl
    rw [List.map_cons, List.mem_cons] at hl
    rcases hl with rfl | hl
    · exact hgh
    · rw [List.map_cons, List.pairwise_cons] at ih
      exact UInt8.lt_trans hgh (ih.1 l hl)

/-- C157, for entries with items of up to 2042 bytes: whatever order among equals `qsort` leaves, the index has every entry once,
in the order of the alphabet, with a link to its comment.  By letter, neighbours with the same letter are in a group; if all
items begin with a letter or digit, each letter has one group, in the order of the alphabet. -/
theorem C157_index_partial {ts : List Term} {es : List Listed} (hp : es.Perm ts.zipIdx) (hs : es.Pairwise InOrder) (hne : ts ≠ [])
    (hl : ∀ t ∈ ts, t.item.length ≤ 2042) (hn : ts.length < 2 ^ 31) :
    generate false (es.map toEntry) = .val (indexHtml (b!"<ul>\n" ++ es.flatMap entryHtml ++ b!"</ul>\n")) ∧
    ∃ gs, Groups es gs ∧ generate true (es.map toEntry) = .val (indexHtml (gs.flatMap groupHtml)) ∧
      ((∀ t ∈ ts, ∃ c x, t.item = c :: x ∧ isAlnum c = true) → (gs.map (·.1)).Pairwise (· < ·)) := by
  have hm : ∀ e ∈ es, e.1 ∈ ts ∧ e.2 < ts.length := fun e he => by
    obtain ⟨e, k⟩ := e
    have := List.mem_zipIdx (hp.mem_iff.1 he)
    exact ⟨by rw [this.2.2]; exact List.getElem_mem _, by simpa using this.2.1⟩
  have hok : ∀ e ∈ es, e.1.item.length ≤ 2042 ∧ e.2 < 2 ^ 31 := fun e he => ⟨hl _ (hm e he).1, Nat.lt_trans (hm e he).2 hn⟩
  have hes : es ≠ [] := by
    rintro rfl
    have := hp.length_eq
    rw [List.length_zipIdx] at this
    exact hne (List.length_eq_zero_iff.1 this.symm)
  have hes' : es.map toEntry ≠ [] := by simpa using hes
  obtain ⟨gs, hg, he⟩ := groups_eq hes hok
  refine ⟨?_, gs, hg, ?_, fun ha => ?_⟩
  · rw [generate_val false hes', texts]
    simp only [Bool.false_eq_true, if_false, List.flatten_append, items_flatten hok]
    simp [indexHtml]
  · rw [generate_val true hes', texts]
    simp only [if_true, List.flatten_append, he]
    simp [indexHtml]
  · refine letters_lt (letters_le (by rw [hg.1]; exact hs) hg.2.1 ?_) hg.2.2
    rw [hg.1]
    exact fun e he => ha _ (hm e he).1

/-- There is such an order for every list of entries. -/
theorem C157_sorted (ts : List Term) : ∃ es : List Listed, es.Perm ts.zipIdx ∧ es.Pairwise InOrder := by
  refine ⟨ts.zipIdx.mergeSort fun a b => entryLe (toEntry a) (toEntry b), List.mergeSort_perm _ _, ?_⟩
  have := List.pairwise_mergeSort (le := fun a b => entryLe (toEntry a) (toEntry b))
    (fun a b c h h' => (entryLe_iff _ _).2 (inOrder_trans ((entryLe_iff _ _).1 h) ((entryLe_iff _ _).1 h')))
    (fun a b => by
      rw [Bool.or_eq_true, entryLe_iff, entryLe_iff]
      exact inOrder_total a b) ts.zipIdx
  exact this.imp fun h => (entryLe_iff _ _).1 h

/-- An index of three entries, by letter. -/
theorem C157_example : entryLe ⟨b!"apple", none, true, b!"idxref-2"⟩ ⟨b!"Apple", some b!"red", false, b!"idxref-0"⟩ = true ∧
    entryLe ⟨b!"Apple", some b!"red", false, b!"idxref-0"⟩ ⟨b!"oak", none, false, b!"idxref-1"⟩ = true ∧
    generate true [⟨b!"apple", none, true, b!"idxref-2"⟩, ⟨b!"Apple", some b!"red", false, b!"idxref-0"⟩, ⟨b!"oak", none, false, b!"idxref-1"⟩] =
    .val (List.flatten [b!"<h1 id=\"index-section\">Index</h1>\n<div class=\"index\">\n<dl>\n<dt>A</dt>\n<dd>\n<ul>\n",
      b!"<li>\napple <strong> <a class=\"index-return\" href=\"#idxref-2\"><sup>[go]</sup></a></strong></li>\n",
      b!"<li>\nApple <a class=\"index-return\" href=\"#idxref-0\"><sup>[go]</sup></a><ul>\n<li>\nred <a class=\"index-return\" href=\"#idxref-0\"><sup>[go]</sup></a></li>\n</ul>\n</li>\n",
      b!"</ul>\n</dd>\n</dl>\n<dl>\n<dt>O</dt>\n<dd>\n<ul>\n",
      b!"<li>\noak <a class=\"index-return\" href=\"#idxref-1\"><sup>[go]</sup></a></li>\n</ul>\n</dd>\n</dl>\n</div>\n"]) := by
  decide +kernel

/-- A letter may have two groups: punctuation and blanks count for the order, but not for the letter. -/
theorem C157_letter_refuted : ∃ es : List Entry, process ⟨true, false, false⟩ b!"(! zebra) (!apple) (!zoo)" =
      .val (some b!"<!--IDX:idxref-0--> <!--IDX:idxref-1--> <!--IDX:idxref-2-->", es) ∧ es.map (·.item) = [b!"zoo", b!"apple", b!" zebra"] ∧
    (es.reverse.Pairwise fun a b => entryLe a b = true) ∧ (∀ a ∈ es, ∀ b ∈ es, entryLe a b = true → entryLe b a = true → a = b) ∧
    generate true es.reverse = .val (List.flatten [b!"<h1 id=\"index-section\">Index</h1>\n<div class=\"index\">\n",
      b!"<dl>\n<dt>Z</dt>\n<dd>\n<ul>\n<li>\n zebra <a class=\"index-return\" href=\"#idxref-0\"><sup>[go]</sup></a></li>\n</ul>\n</dd>\n</dl>\n",
      b!"<dl>\n<dt>A</dt>\n<dd>\n<ul>\n<li>\napple <a class=\"index-return\" href=\"#idxref-1\"><sup>[go]</sup></a></li>\n</ul>\n</dd>\n</dl>\n",
      b!"<dl>\n<dt>Z</dt>\n<dd>\n<ul>\n<li>\nzoo <a class=\"index-return\" href=\"#idxref-2\"><sup>[go]</sup></a></li>\n</ul>\n</dd>\n</dl>\n</div>\n"]) :=
  ⟨[⟨b!"zoo", none, false, b!"idxref-2"⟩, ⟨b!"apple", none, false, b!"idxref-1"⟩, ⟨b!" zebra", none, false, b!"idxref-0"⟩], by decide +kernel, by decide +kernel,
    by decide +kernel, by decide +kernel, by decide +kernel⟩

/-- Items are not escaped: a tag in an item is a tag of the page. -/
theorem C157_escape_refuted : ∃ e : Entry, process ⟨true, true, true⟩ b!"{i: \"a<b\"}" = .val (some b!"<!--IDX:idxref-0-->", [e]) ∧
    generate false [e] = .val (b!"<h1 id=\"index-section\">Index</h1>\n<div class=\"index\">\n<ul>\n<li>\na<b" ++
      b!" <a class=\"index-return\" href=\"#idxref-0\"><sup>[go]</sup></a></li>\n</ul>\n</div>\n") :=
  ⟨⟨b!"a<b", none, false, b!"idxref-0"⟩, by decide +kernel, by decide +kernel⟩

/-- An item of more than 2042 bytes is cut. -/
theorem C157_long_refuted (x : Bytes) (h : 2042 < x.length) (e : Entry) (he : e.item = x) : ∃ t, item e = (b!"<li>\n" ++ x.take 2042) :: t := by
  refine ⟨(item e).tail, ?_⟩
  unfold item
  rw [he, List.take_append, List.take_of_length_le (by simp)]
  simp

/-- C158, for pages whose comments are those of entries: each comment becomes a place to link to, and all other bytes stay. -/
theorem C158_linked_partial {t : Bytes} {l : List (Bytes × Bytes)} (ht : ¬ b!"<!--IDX:" <:+: t)
    (hl : ∀ x ∈ l, c!">" ∉ x.1 ∧ x.1.length < 64 ∧ ¬ b!"<!--IDX:" <:+: x.2) (hne : Spec.page t l ≠ []) : render (Spec.page t l) = .val (Spec.linked t l) := by
  have hp := List.length_pos_iff.2 hne
  have := marks_page l t ht hl (Spec.page t l).length ((Spec.page t l).length * 2) [] (Nat.le_refl _) (by rw [List.length_nil]; omega)
  rw [List.nil_append] at this
  exact this

/-- Every page that is not empty has a result if behind every `<!--IDX:` there is a `>`. -/
theorem C158_safe_partial {page : Bytes} (hne : page ≠ []) (h : ∀ x y, page = x ++ b!"<!--IDX:" ++ y → c!">" ∈ y) : ∃ o, render page = .val o := by
  have hp := List.length_pos_iff.2 hne
  exact marks_val page.length page _ [] (Nat.le_refl _) h (by rw [List.length_nil]; omega)

/-- The index goes to the first `<!--INDEX-->`, before `</body>` or to the end; without entries, or if it is not wanted, the page stays. -/
theorem C158_placed (suppress byLetter : Bool) (html : Bytes) (es : List Entry) :
    (es = [] ∨ suppress = true) ∧ insert suppress byLetter html es = .val none ∨
    (es ≠ [] ∧ suppress = false) ∧ ∃ index out, generate byLetter es = .val index ∧ Placed html index out ∧ insert suppress byLetter html es = .val (some out) := by
  by_cases h : es = [] ∨ suppress = true
  · exact Or.inl ⟨h, by rw [insert, if_pos h]⟩
  · refine Or.inr ⟨⟨fun h' => h (Or.inl h'), by cases suppress; rfl; exact absurd (Or.inr rfl) h⟩, (texts byLetter es).flatten, _, generate_val byLetter (fun h' => h (Or.inl h')),
      place_placed _ _, ?_⟩
    rw [insert, if_neg h, generate_val byLetter (fun h' => h (Or.inl h')), C.val_bind, if_neg]
    unfold texts
    simp

/-- A page that ends in a comment that is not closed: the bytes behind the page are read. -/
theorem C158_overread_refuted : render b!"<p><span>x</span></p>\n<!--IDX:a\n" = .ub ∧ render [] = .ub := by
  decide +kernel

/-- A comment that is no entry is changed or lost. -/
theorem C158_lost_refuted : render b!"<!--IDX:note>text" = .val b!">text" ∧ render b!"<!--IDX:note-->text" = .val b!"<span class=\"index\" id=\"note\"></span>text" := by
  decide +kernel

/-- A page that meets the hypotheses of `C158_linked_partial`. -/
example : let l : List (Bytes × Bytes) := [(b!"idxref-0", b!" and "), (b!"idxref-1", b!"</p>\n")]
    (¬ b!"<!--IDX:" <:+: b!"<p>A") ∧ (∀ x ∈ l, c!">" ∉ x.1 ∧ x.1.length < 64 ∧ ¬ b!"<!--IDX:" <:+: x.2) ∧
    render (Spec.page b!"<p>A" l) = .val b!"<p>A<span class=\"index\" id=\"idxref-0\"></span> and <span class=\"index\" id=\"idxref-1\"></span></p>\n" := by
  decide +kernel

end Verif.Index
