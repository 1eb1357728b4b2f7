/- Lemmas for `Verif.Props.ManHtml`: whole pages, their navigation and their headline. -/
import Verif.Proof.ManHtml

namespace Verif.ManHtml
open Man (Node Kind plainText plainTexts isDlBlock decimal)
open Spec

theorem flatMap_same {α : Type} {f g : α → Bytes} : ∀ {l : List α}, (∀ x ∈ l, f x = g x) → l.flatMap f = l.flatMap g
  | [], _ => rfl
  | x :: l, h => by rw [List.flatMap_cons, List.flatMap_cons, h x (by simp), flatMap_same fun y hy => h y (by simp [hy])]

theorem html_cast {s s' t : Bytes} {as : List (Bytes × Bytes)} (h : Html s t as) (e : s = s') : Html s' t as := e ▸ h

theorem css_html : Html css css [] := html_plain (by decide +kernel)

theorem sheets_html : ∀ sheets : List Bytes, ∃ t as, Html (sheets.flatMap fun s => b!"<link rel=\"stylesheet\" href=\"" ++ esc s ++ b!"\">\n") t as ∧ valuesOf b!"href" as = sheets
  | [] => ⟨[], [], .nil, rfl⟩
  | s :: sheets => by
    obtain ⟨t, as, h, hv⟩ := sheets_html sheets
    have h1 := (html_line (html_void (w := b!"link") (by decide) (attr2 (w := b!"rel") (raw := b!"stylesheet") (w' := b!"href") (word_iff _ (by decide)) (value_plain (by decide)) (word_iff _ (by decide)) (value_esc s)))).app h
    exact ⟨_, _, html_cast h1 (by rw [List.flatMap_cons]; simp only [List.append_assoc]; rfl), (by rw [values_append, hv]; rfl)⟩

theorem links_html : ∀ ss : List (Bytes × Bytes), ∃ t as,
    Html (ss.flatMap fun s => if s.1 ≠ [] then b!"<li><a href=\"#" ++ esc s.1 ++ b!"\">" ++ esc s.2 ++ b!"</a></li>\n" else []) t as
  | [] => ⟨[], [], .nil⟩
  | s :: ss => by
    obtain ⟨t, as, h⟩ := links_html ss
    rw [List.flatMap_cons]
    by_cases hs : s.1 = []
    · refine ⟨t, as, ?_⟩
      rw [if_neg (by simp [hs])]
      exact h
    · have hv : Value (b!"#" ++ esc s.1) (b!"#" ++ s.1) := value_app (value_plain (by decide)) (value_esc s.1)
      have h1 := (html_line (html_bare (w := b!"li") (word_iff _ (by decide)) (by decide)
        (html_elem (w := b!"a") (word_iff _ (by decide)) (by decide) (attr1 (w := b!"href") (word_iff _ (by decide)) hv) (html_esc s.2)) _ _ rfl rfl)).app h
      exact ⟨_, _, html_cast h1 (by rw [if_pos hs]; simp only [List.append_assoc]; rfl)⟩

theorem nav_html (doc : List Node) : ∃ t as, Html (nav doc) t as := by
  unfold nav
  split
  · exact ⟨[], [], .nil⟩
  · obtain ⟨t, as, h⟩ := links_html (sections doc)
    have h1 := html_line (html_elem (w := b!"nav") (word_iff _ (by decide)) (by decide) (attr1 (w := b!"class") (word_iff _ (by decide)) (value_plain (s := b!"man-nav") (by decide)))
      (html_bare (w := b!"ul") (word_iff _ (by decide)) (by decide) (html_below h) _ _ rfl rfl))
    exact ⟨_, _, html_cast h1 (by simp only [List.append_assoc]; rfl)⟩

/-- The text of title and headline. -/
theorem heads_html (a b : Bytes) : Html (esc a ++ b!" — " ++ esc b) (a ++ b!" — " ++ b) [] := by
  have := ((html_esc a).app (html_plain (s := b!" — ") (by decide))).app (html_esc b)
  simpa using this

attribute [local irreducible] css in
set_option maxRecDepth 4000 in
theorem page_html (title : Bytes) (sheets : List Bytes) (doc : List Node) (hd : noHtmls doc = true) :
    ∃ s t as, page title sheets doc = b!"<!DOCTYPE html>\n" ++ s ∧ Html s t as ∧ sheets <+: valuesOf b!"href" as ∧ (plainTrees doc = true → targetss doc <:+ valuesOf b!"href" as) := by
  obtain ⟨ts, ass, hs, hsv⟩ := sheets_html sheets
  obtain ⟨tn, asn, hn⟩ := nav_html doc
  obtain ⟨tb, asb, hb, hbv⟩ := blocks_html false doc hd
  let h := headline title doc
  have hh := heads_html h.1 h.2
  have m := html_line (html_void (w := b!"meta") (by decide) (attr1 (w := b!"charset") (word_iff _ (by decide)) (value_plain (s := b!"utf-8") (by decide))))
  have ti := html_line (html_bare (w := b!"title") (word_iff _ (by decide)) (by decide) hh _ _ rfl rfl)
  have st := html_line (html_bare (w := b!"style") (word_iff _ (by decide)) (by decide) (html_below css_html) _ _ rfl rfl)
  have hdr := html_line (html_bare (w := b!"head") (word_iff _ (by decide)) (by decide) (html_below (((m.app ti).app st).app hs)) _ _ rfl rfl)
  have h1 := html_line (html_elem (w := b!"h1") (word_iff _ (by decide)) (by decide) (attr1 (w := b!"class") (word_iff _ (by decide)) (value_plain (s := b!"man-headline") (by decide))) hh)
  have mn := html_line (html_elem (w := b!"main") (word_iff _ (by decide)) (by decide) (attr1 (w := b!"class") (word_iff _ (by decide)) (value_plain (s := b!"man-main") (by decide)))
    (html_below (html_line (h1.app hb))))
  have bd := html_line (html_elem (w := b!"body") (word_iff _ (by decide)) (by decide) (attr1 (w := b!"class") (word_iff _ (by decide)) (value_plain (s := b!"man-standalone") (by decide)))
    (html_below (hn.app mn)))
  have all := html_elem (w := b!"html") (word_iff _ (by decide)) (by decide) (attr1 (w := b!"lang") (word_iff _ (by decide)) (value_plain (s := b!"en") (by decide)))
    (html_below (hdr.app bd))
  have e0 : valuesOf b!"href" [] = [] := rfl
  have e1 : valuesOf b!"href" [(b!"lang", b!"en")] = [] := rfl
  have e2 : valuesOf b!"href" [(b!"charset", b!"utf-8")] = [] := rfl
  have e3 : valuesOf b!"href" [(b!"class", b!"man-main")] = [] := rfl
  have e4 : valuesOf b!"href" [(b!"class", b!"man-headline")] = [] := rfl
  have e5 : valuesOf b!"href" [(b!"class", b!"man-standalone")] = [] := rfl
  refine ⟨_, _, _, ?_, all, ?_, ?_⟩
  · unfold page
    simp only [List.append_assoc]
    rfl
  · simp only [values_append, hsv, e0, e1, e2, e3, e4, e5, List.nil_append, List.append_nil]
    exact List.prefix_append ..
  · intro hp
    simp only [values_append, hsv, e0, e1, e2, e3, e4, e5, (hbv hp).2, List.nil_append, List.append_nil, ← List.append_assoc]
    exact List.suffix_append ..

/-! Sections. -/

theorem sections_kids (doc : List Node) : (doc.filter isH1).map kidsOf = sectionsOf doc := by
  induction doc with
  | nil => rfl
  | cons n doc ih =>
    unfold sectionsOf at ih ⊢
    rw [List.filter_cons, List.filterMap_cons]
    obtain ⟨k, kids⟩ := n
    cases k with
    | heading l =>
      match l with
      | 0 => simpa [isH1] using ih
      | 1 => simpa [isH1, kidsOf] using ih
      | l + 2 => simpa [isH1] using ih
    | _ => simpa [isH1] using ih

theorem h1_shape {n : Node} (h : isH1 n = true) : n = .mk (.heading 1) (kidsOf n) := by
  obtain ⟨k, kids⟩ := n
  cases k with
  | heading l =>
    match l with
    | 0 => simp [isH1] at h
    | 1 => rfl
    | l + 2 => simp [isH1] at h
  | _ => simp [isH1] at h

mutual
theorem plain_prose : ∀ n : Node, inlineTree n = true → plainText n = prose n
  | .mk k kids => by
    intro h
    rw [inlineTree] at h
    simp only [Bool.and_eq_true] at h
    have := plains_proses kids h.2
    cases k <;> first | exact this | rfl | (simp [inlineKind] at h)
theorem plains_proses : ∀ ns : List Node, inlineTrees ns = true → plainTexts ns = proses ns
  | [] => fun _ => rfl
  | n :: ns => by
    intro h
    rw [inlineTrees, Bool.and_eq_true] at h
    rw [plainTexts, proses, plain_prose n h.1, plains_proses ns h.2]
end

mutual
theorem id_length : ∀ n : Node, inlineTree n = true → literal n = none → (sectionId n).length ≤ (prose n).length
  | .mk k kids => by
    intro h hl
    rw [inlineTree] at h
    simp only [Bool.and_eq_true] at h
    have := ids_length kids h.2
    rw [sectionId]
    cases k with
    | text s => simp [literal] at hl
    | code s =>
      have hk : kids = [] := by
        have h2 := h.1.2
        simp [leafKind] at h2
        exact h2
      subst hk
      simp [sectionIds]
    | codeBlock s => simp [inlineKind] at h
    | _ => exact this
theorem ids_length : ∀ ns : List Node, inlineTrees ns = true → (sectionIds ns).length ≤ (proses ns).length
  | [] => fun _ => by simp [sectionIds]
  | n :: ns => by
    intro h
    rw [inlineTrees, Bool.and_eq_true] at h
    rw [sectionIds, proses, List.length_append]
    cases hl : literal n with
    | some s =>
      have hn : prose n = s := by
        obtain ⟨k, kids⟩ := n
        cases k <;> simp [literal] at hl
        subst hl
        rfl
      have := slug_length s
      simp only [hn]
      omega
    | none =>
      have h1 := id_length n h.1 hl
      have h2 := ids_length ns h.2
      simp only [List.length_append]
      omega
end

theorem block_found {n : Node} (hn : isH1 n = true) : ∀ (b : Bool) (doc : List Node), n ∈ doc → ∃ p q, blocks b doc = p ++ block false n ++ q
  | b, [] => fun h => by simp at h
  | b, m :: doc => by
    intro h
    rcases List.mem_cons.mp h with rfl | h
    · refine ⟨[], blocks false doc, ?_⟩
      rw [blocks]
      have : block b n = block false n := by
        rw [h1_shape hn]; rfl
      rw [this]; rfl
    · obtain ⟨p, q, hq⟩ := block_found hn false doc h
      refine ⟨block b m ++ p, q, ?_⟩
      rw [blocks, hq]
      simp only [List.append_assoc]

theorem plain_heading : ∀ {doc : List Node}, plainTrees doc = true → ∀ {n}, n ∈ doc → plainTree n = true
  | [], _, _, h => by simp at h
  | m :: doc, hp, n, h => by
    rw [plainTrees, Bool.and_eq_true] at hp
    rcases List.mem_cons.mp h with rfl | h
    · exact hp.1
    · exact plain_heading hp.2 h

/-! Words. -/

theorem gap_iff (c : Byte) : ManHtml.gap c = true ↔ Spec.gap c := by
  simp [ManHtml.gap, Spec.gap, or_assoc]

theorem squeeze_word : ∀ {w : Bytes} (b : Bool) (s : Bytes), w ≠ [] → (∀ c ∈ w, ¬Spec.gap c) → squeeze b (w ++ s) = w ++ squeeze false s
  | [], _, _, h, _ => by simp at h
  | c :: w, b, s, _, hw => by
    have hc : ManHtml.gap c = false := by
      rw [← Bool.not_eq_true, gap_iff]; exact hw c (by simp)
    rw [List.cons_append, squeeze]
    simp only [hc, Bool.false_eq_true, if_false, List.cons_append]
    cases w with
    | nil => rfl
    | cons d w => rw [squeeze_word false s (by simp) fun x hx => hw x (by simp [hx])]

theorem squeeze_gap : ∀ {g : Bytes} (s : Bytes), (∀ c ∈ g, Spec.gap c) → squeeze true (g ++ s) = squeeze true s
  | [], _, _ => rfl
  | c :: g, s, hg => by
    have hc : ManHtml.gap c = true := (gap_iff c).mpr (hg c (by simp))
    rw [List.cons_append, squeeze]
    simp only [hc, if_true]
    exact squeeze_gap s fun x hx => hg x (by simp [hx])

theorem squeeze_gap' {c : Byte} {g s : Bytes} (hc : Spec.gap c) (hg : ∀ c ∈ g, Spec.gap c) : squeeze false (c :: g ++ s) = c!" " :: squeeze true (g ++ s) := by
  rw [List.cons_append, squeeze]
  simp only [(gap_iff c).mpr hc, if_true, Bool.false_eq_true, if_false]

theorem squeeze_spaced {ws : List Bytes} {s : Bytes} (h : Spaced ws s) (hs : s = [] ∨ ∃ c r, s = c :: r ∧ Spec.gap c) :
    ∃ e, (e = [] ∨ e = b!" ") ∧ squeeze false s = (ws.flatMap fun w => b!" " ++ w) ++ e := by
  induction h with
  | @nil g hg =>
    cases g with
    | nil => exact ⟨[], .inl rfl, rfl⟩
    | cons c g =>
      refine ⟨b!" ", .inr rfl, ?_⟩
      have := squeeze_gap' (s := []) (hg c (by simp)) (g := g) fun x hx => hg x (by simp [hx])
      rw [List.append_nil] at this
      rw [this, squeeze_gap [] fun x hx => hg x (by simp [hx])]
      rfl
  | @cons g w s ws hg hw hn hs' _ ih =>
    obtain ⟨e, he, hq⟩ := ih hs'
    cases g with
    | nil =>
      exfalso
      cases w with
      | nil => exact hw rfl
      | cons d w =>
        rcases hs with hs | ⟨c, r, hs, hc⟩
        · simp at hs
        · simp at hs
          rw [← hs.1] at hc
          exact hn d (by simp) hc
    | cons c g =>
      refine ⟨e, he, ?_⟩
      have hg' : ∀ x ∈ g, Spec.gap x := fun x hx => hg x (by simp [hx])
      rw [List.append_assoc, squeeze_gap' (hg c (by simp)) hg', squeeze_gap _ hg', squeeze_word true s hw hn, hq, List.flatMap_cons]
      simp

theorem join_cons (w : Bytes) : ∀ ws : List Bytes, join (w :: ws) = w ++ ws.flatMap fun w => b!" " ++ w
  | [] => by simp [join]
  | v :: ws => by
    have := join_cons v ws
    unfold join at this ⊢
    rw [List.intersperse_cons₂, List.flatten_cons, List.flatten_cons, this, List.flatMap_cons]
    simp

theorem dropWhile_gap {g s : Bytes} (hg : ∀ c ∈ g, Spec.gap c) : (g ++ s).dropWhile ManHtml.gap = s.dropWhile ManHtml.gap := by
  induction g with
  | nil => rfl
  | cons c g ih =>
    rw [List.cons_append, List.dropWhile_cons, if_pos ((gap_iff c).mpr (hg c (by simp)))]
    exact ih fun x hx => hg x (by simp [hx])

/-- The last byte of the words is no white space. -/
theorem join_last : ∀ {ws : List Bytes} {w : Bytes}, (∀ v ∈ w :: ws, v ≠ [] ∧ ∀ c ∈ v, ¬Spec.gap c) → ∃ i c, w ++ (ws.flatMap fun w => b!" " ++ w) = i ++ [c] ∧ ¬Spec.gap c
  | [], w, h => by
    have hw := h w (by simp)
    refine ⟨w.dropLast, w.getLast hw.1, ?_, hw.2 _ (List.getLast_mem hw.1)⟩
    rw [List.dropLast_concat_getLast]; simp
  | v :: ws, w, h => by
    obtain ⟨i, c, hi, hc⟩ := join_last (ws := ws) (w := v) fun x hx => h x (by simp at hx ⊢; right; exact hx)
    refine ⟨w ++ b!" " ++ i, c, ?_, hc⟩
    rw [List.flatMap_cons, List.append_assoc b!" " v, hi]
    simp

theorem spaced_words {ws : List Bytes} {s : Bytes} (h : Spaced ws s) : ∀ v ∈ ws, v ≠ [] ∧ ∀ c ∈ v, ¬Spec.gap c := by
  induction h with
  | nil => simp
  | cons _ hw hn _ _ ih =>
    intro v hv
    rcases List.mem_cons.mp hv with rfl | hv
    · exact ⟨hw, hn⟩
    · exact ih v hv

theorem normalise_spaced {ws : List Bytes} {s : Bytes} (h : Spaced ws s) : normalise s = join ws := by
  have hwords := spaced_words h
  cases h with
  | @nil g hg =>
    unfold normalise
    have := dropWhile_gap (s := []) hg
    rw [List.append_nil] at this
    rw [this]; rfl
  | @cons g w s ws hg hw hn hs hsp =>
    obtain ⟨e, he, hq⟩ := squeeze_spaced hsp hs
    unfold normalise
    rw [List.append_assoc, dropWhile_gap hg]
    have hd : (w ++ s).dropWhile ManHtml.gap = w ++ s := by
      cases w with
      | nil => exact absurd rfl hw
      | cons d w =>
        rw [List.cons_append, List.dropWhile_cons, if_neg]
        rw [gap_iff]; exact hn d (by simp)
    rw [hd, squeeze_word false s hw hn, hq, join_cons, ← List.append_assoc]
    obtain ⟨i, c, hi, hc⟩ := join_last hwords
    rw [hi]
    have hne : ¬(decide (c = c!" ") || decide (c = c!"\t")) = true := by
      simp only [Bool.or_eq_true, decide_eq_true_eq]
      intro h
      exact hc (h.elim .inl fun h => .inr (.inl h))
    rcases he with rfl | rfl
    · simp only [List.append_nil, List.reverse_append, List.reverse_cons, List.reverse_nil, List.nil_append, List.cons_append]
      rw [List.dropWhile_cons, if_neg hne]
      simp
    · simp only [List.reverse_append, List.reverse_cons, List.reverse_nil, List.nil_append, List.cons_append]
      rw [List.dropWhile_cons, if_pos (by decide), List.dropWhile_cons, if_neg hne]
      simp

/-- The first occurrence. -/
theorem find_first {w r : Bytes} (hw : w ≠ []) : ∀ {l : Bytes}, ¬ w <:+: l ++ w.dropLast → Embed.find w (l ++ w ++ r) = some (l, r)
  | [], _ => by
    cases w with
    | nil => exact absurd rfl hw
    | cons d w =>
      rw [List.nil_append, List.cons_append, Embed.find, if_pos ⟨r, by simp⟩]
      simp
  | c :: l, h => by
    rw [List.cons_append, List.cons_append, Embed.find, if_neg, find_first hw]
    · rfl
    · intro ⟨x, y, hi⟩
      exact h ⟨c :: x, y, by simp only [List.cons_append, hi]⟩
    · rintro ⟨y, hy⟩
      apply h
      have hlen : w.length ≤ (c :: l ++ w.dropLast).length := by
        simp [List.length_dropLast]; omega
      have hpre : c :: l ++ w.dropLast <+: c :: (l ++ w ++ r) := by
        refine ⟨[w.getLast hw] ++ r, ?_⟩
        have := List.dropLast_concat_getLast hw
        have e : c :: l ++ w.dropLast ++ ([w.getLast hw] ++ r) = c :: l ++ (w.dropLast ++ [w.getLast hw]) ++ r := by simp
        rw [e, this]; simp
      exact (List.prefix_of_prefix_length_le ⟨y, hy⟩ hpre hlen).isInfix

theorem firstPara_skip {p : List Node} {c : List Node} (ht : plainTexts p ≠ []) : ∀ {b : List Node}, (∀ n ∈ b, ∀ kids, n ≠ .mk .paragraph kids ∧ ∀ l, n ≠ .mk (.heading l) kids) →
    firstPara (b ++ .mk .paragraph p :: c) = some (plainTexts p)
  | [], _ => by simp [firstPara, ht]
  | n :: b, h => by
    have ih := firstPara_skip ht (c := c) (b := b) fun m hm => h m (by simp [hm])
    have hn := h n (by simp)
    obtain ⟨k, kids⟩ := n
    rw [List.cons_append]
    cases k with
    | paragraph => exact absurd rfl (hn kids).1
    | heading l => exact absurd rfl ((hn kids).2 l)
    | _ => exact ih

theorem nameLine_skip {n : Node} {d : List Node} (hn : isH1 n = true) (ht : plainText n = b!"NAME") : ∀ {a : List Node}, (∀ m ∈ a, isH1 m = true → plainText m ≠ b!"NAME") → nameLine (a ++ n :: d) = firstPara d
  | [], _ => by simp [nameLine, hn, ht]
  | m :: a, h => by
    rw [List.cons_append, nameLine, if_neg, nameLine_skip hn ht fun x hx => h x (by simp [hx])]
    simp only [Bool.and_eq_true, decide_eq_true_eq, not_and]
    exact h m (by simp)

theorem nameLine_none : ∀ {a : List Node}, (∀ m ∈ a, isH1 m = true → plainText m ≠ b!"NAME") → nameLine a = none
  | [], _ => rfl
  | m :: a, h => by
    rw [nameLine, if_neg, nameLine_none fun x hx => h x (by simp [hx])]
    simp only [Bool.and_eq_true, decide_eq_true_eq, not_and]
    exact h m (by simp)

end Verif.ManHtml
