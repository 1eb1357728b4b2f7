/- Lemmas about what one reads of a document on a terminal. -/
import Verif.Spec.Term
import Verif.Proof.Embed
import Verif.Proof.Plugins
import Verif.Props.TermStyle

namespace Verif.Term
open Spec TermStyle.Spec
open TermStyle (style reset exec_append effect_reset)
open Embed (find)

/-! ### What is shown -/

theorem text_append (a b : List Event) : text (a ++ b) = text a ++ text b := by
  induction a with
  | nil => rfl
  | cons e a ih => cases e <;> simp [text, ih]

theorem Spec.Shows.append {a b v w : Bytes} (ha : Shows a v) (hb : Shows b w) : Shows (a ++ b) (v ++ w) := by
  intro s
  obtain ⟨s1, e1, h1, t1, c1⟩ := ha s
  obtain ⟨s2, e2, h2, t2, c2⟩ := hb s1
  refine ⟨s2, e1 ++ e2, ?_, by rw [text_append, t1, t2], by simp [c1, c2]⟩
  rw [exec_append, h1]
  simp [h2]

theorem shows_calm : ∀ {s : Bytes}, (27 : Byte) ∉ s → Shows s s
  | [], _ => fun s => ⟨s, [], rfl, rfl, by simp⟩
  | c :: r, h => by
    intro s
    obtain ⟨s', e, h1, h2, h3⟩ := shows_calm (s := r) (fun hx => h (List.mem_cons_of_mem _ hx)) s
    refine ⟨s', .shown c s :: e, ?_, by simp [text, h2], by simp [h3]⟩
    have hc : c ≠ 27 := fun he => h (he ▸ List.mem_cons_self ..)
    have : step (ready s) c = (ready s, [.shown c s]) := by simp [step, ready, hc]
    simp only [exec, this, h1]
    rfl

theorem shows_effect {out : Bytes} {f : Style → Style} (h : Effect out f) : Shows out [] := fun s => ⟨f s, [], h s, rfl, by simp⟩

theorem shows_reset : Shows reset [] := shows_effect effect_reset

theorem Spec.Shows.screen {out v : Bytes} (h : Shows out v) : text (screen out) = v ∧ Event.command ∉ screen out := by
  obtain ⟨s', e, h1, h2, h3⟩ := h {}
  unfold TermStyle.Spec.screen
  rw [h1]
  exact ⟨h2, h3⟩

theorem Spec.Shows.unique {out v w : Bytes} (h : Shows out v) (h' : Shows out w) : v = w := h.screen.1.symm.trans h'.screen.1

/-- Words that are no numbers of the palette. -/
theorem shows_style (wide : Bool) {s : Bytes} (h1 : ¬ b!"38;5;" <:+: s) (h2 : ¬ b!"48;5;" <:+: s) : Shows (style wide s) [] := by
  obtain ⟨f, hf⟩ := TermStyle.C200_silent_partial wide ⟨h1, h2⟩
  exact shows_effect hf

theorem shows_grey (wide : Bool) : Shows (style wide b!"38;5;250") [] ∧ Shows (style wide b!"i 38;5;250") [] := by
  have h1 := TermStyle.effect_raw wide (TermStyle.Spec.Raw.fg (d := b!"250") (n := 250) (by decide) (by decide))
  have h2 : ∃ f, Effect (TermStyle.token wide b!"i") f := TermStyle.effect_token wide _ (by decide) (by decide)
  refine ⟨?_, ?_⟩
  · obtain ⟨f, hf⟩ := TermStyle.effect_style wide b!"38;5;250" (by
      intro w hw
      have e : TermStyle.words b!"38;5;250" = [b!"38;5;250"] := by decide +kernel
      rw [e] at hw
      simp only [List.mem_singleton] at hw
      subst hw
      exact ⟨_, h1⟩)
    exact shows_effect hf
  · obtain ⟨f, hf⟩ := TermStyle.effect_style wide b!"i 38;5;250" (by
      intro w hw
      have e : TermStyle.words b!"i 38;5;250" = [b!"i", b!"38;5;250"] := by decide +kernel
      rw [e] at hw
      simp only [List.mem_cons, List.not_mem_nil, or_false] at hw
      rcases hw with rfl | rfl
      · exact h2
      · exact ⟨_, h1⟩)
    exact shows_effect hf

/-- A style of the theme, or the one in its place. -/
theorem shows_getD {wide : Bool} {x : Option Bytes} {d : Bytes} (hx : ∀ s, x = some s → ∃ f, Effect (style wide s) f) (hd : Shows (style wide d) []) : Shows (style wide (x.getD d)) [] := by
  cases x with
  | none => exact hd
  | some s =>
    obtain ⟨f, hf⟩ := hx s rfl
    exact shows_effect hf

theorem class_mem {t : Theme} {s st : Bytes} (h : classStyle t s = some st) : ∃ e ∈ t.classes, e.2 = st := by
  unfold classStyle at h
  obtain ⟨w, _, hw⟩ := List.exists_of_findSome?_eq_some h
  cases hf : t.classes.find? fun e => e.1 = w with
  | none => simp [hf] at hw
  | some e =>
    rw [hf] at hw
    simp only [Option.map_some, Option.some.injEq] at hw
    exact ⟨e, List.mem_of_find?_eq_some hf, hw⟩

theorem attr_effect {o : Opt} (hq : Quiet o) {a st : Bytes} (h : attrStyle o.theme a = some st) : ∃ f, Effect (style o.wide st) f := by
  unfold attrStyle at h
  cases hf : find b!"class=" a with
  | none => simp [hf] at h
  | some x =>
    obtain ⟨x1, x2⟩ := x
    rw [hf] at h
    obtain ⟨e, he, h2⟩ := class_mem h
    rw [← h2]
    exact hq.classes e he

theorem node_effect {o : Opt} (hq : Quiet o) {a : Option Bytes} {st : Bytes} (h : nodeStyle o.theme a = some st) : ∃ f, Effect (style o.wide st) f := by
  cases a with
  | none => simp [nodeStyle] at h
  | some a => exact attr_effect hq h

theorem shows_or {o : Opt} (hq : Quiet o) (a : Option Bytes) {x : Option Bytes} {d : Bytes} (hx : ∀ s, x = some s → ∃ f, Effect (style o.wide s) f) (hd : Shows (style o.wide d) []) :
    Shows (style o.wide ((nodeStyle o.theme a <|> x).getD d)) [] := by
  refine shows_getD ?_ hd
  intro s hs
  cases h : nodeStyle o.theme a with
  | none => rw [h] at hs; exact hx s (by simpa using hs)
  | some st =>
    rw [h] at hs
    have : st = s := by simpa using hs
    subst this
    exact node_effect hq h

/-! ### Texts -/

theorem ltlt_calm : ∀ (n : Nat) {s : Bytes}, (27 : Byte) ∉ s → (27 : Byte) ∉ ltlt n s
  | 0, _, h => h
  | n + 1, s, h => by
    unfold ltlt
    cases hf : find b!"APEXLTLT" s with
    | none => exact h
    | some x =>
      obtain ⟨a, r⟩ := x
      have := Embed.find_some hf
      subst this
      simp only [List.mem_append, not_or] at h ⊢
      exact ⟨⟨h.1.1, by decide⟩, ltlt_calm n h.2⟩

theorem ltlt_plain (n : Nat) {s : Bytes} (h : ¬ b!"APEXLTLT" <:+: s) : ltlt n s = s := by
  cases n with
  | zero => rfl
  | succ n => unfold ltlt; rw [(Embed.find_none (by simp)).2 h]

theorem strip_sub : ∀ (b : Bool) (s : Bytes), ∀ c ∈ strip b s, c ∈ s
  | _, [], c, h => by simp [strip] at h
  | b, x :: s, c, h => by
    unfold strip at h
    repeat' split at h
    · exact List.mem_cons_of_mem _ (strip_sub _ s c h)
    · exact List.mem_cons_of_mem _ (strip_sub _ s c h)
    · rcases List.mem_cons.1 h with rfl | h
      · exact List.mem_cons_self ..
      · exact List.mem_cons_of_mem _ (strip_sub _ s c h)

/-- What one reads of inline HTML. -/
def seenHtml (s : Bytes) : Bytes := if b!"<span ".isPrefixOf s || b!"<span>".isPrefixOf s then [] else if b!"</span".isPrefixOf s then [] else strip false s

theorem shows_html {o : Opt} (hq : Quiet o) {s : Bytes} (h : (27 : Byte) ∉ s) : Shows (html o s) (seenHtml s) := by
  unfold html seenHtml
  by_cases h0 : s = []
  · subst h0; exact shows_calm (by simp)
  rw [if_neg h0]
  split
  · split
    · cases ha : attrStyle o.theme (s.drop 5) with
      | none => exact shows_calm (by simp)
      | some st =>
        obtain ⟨f, hf⟩ := attr_effect hq ha
        exact shows_effect hf
    · exact shows_calm (by simp)
  split
  · exact shows_reset
  · exact shows_calm fun hx => h (strip_sub _ _ _ hx)

mutual
/-- What one reads of a node, with all that the program does to its text. -/
def seen (emoji : Bytes → Bytes) : Node → Bytes
  | .mk k _ kids =>
    match k with
    | .text s => ltlt (emoji s).length (emoji s)
    | .soft => b!"\n"
    | .hard => b!"  \n"
    | .code s => s
    | .link url => seens emoji kids ++ (if url = [] then [] else b!" (" ++ url ++ b!")")
    | .image url => b!"![" ++ seens emoji kids ++ b!"]" ++ (if url = [] then [] else b!"(" ++ url ++ b!")")
    | .html s => seenHtml s
    | _ => seens emoji kids
def seens (emoji : Bytes → Bytes) : List Node → Bytes
  | [] => []
  | n :: ns => seen emoji n ++ seens emoji ns
end

theorem calm_lit {s : Bytes} (h : s.all (· ≠ 27) = true) : (27 : Byte) ∉ s := by
  intro hm
  have := List.all_eq_true.1 h _ hm
  simp at this

mutual
theorem shows_inline {o : Opt} (hq : Quiet o) : ∀ n : Node, All Calm n → Shows (inline o n) (seen o.emoji n)
  | .mk k a kids, h => by
    unfold All at h
    obtain ⟨hk, h⟩ := h
    have ih := shows_inlines hq kids h
    cases k with
    | text s =>
      have := shows_calm (ltlt_calm (o.emoji s).length (hq.emoji s hk))
      simp only [inline, seen]
      cases hn : nodeStyle o.theme a with
      | none => simpa using this
      | some st =>
        obtain ⟨f, hf⟩ := node_effect hq hn
        simpa using ((shows_effect hf).append this).append shows_reset
    | soft => exact shows_calm (s := b!"\n") (by decide)
    | hard => exact shows_calm (s := b!"  \n") (by decide)
    | code s =>
      have := ((shows_or hq a hq.codeSpan (shows_style o.wide (s := b!"b white on_intense_black") (by decide +kernel) (by decide +kernel))).append (shows_calm hk)).append shows_reset
      simpa [inline, seen] using this
    | emph =>
      have := ((shows_style o.wide (s := b!"i") (by decide +kernel) (by decide +kernel)).append ih).append shows_reset
      simp only [inline, seen]
      cases hn : nodeStyle o.theme a with
      | none => simpa using this
      | some st =>
        obtain ⟨f, hf⟩ := node_effect hq hn
        simpa using (shows_effect hf).append this
    | strong =>
      have := ((shows_style o.wide (s := b!"b") (by decide +kernel) (by decide +kernel)).append ih).append shows_reset
      simp only [inline, seen]
      cases hn : nodeStyle o.theme a with
      | none => simpa using this
      | some st =>
        obtain ⟨f, hf⟩ := node_effect hq hn
        simpa using (shows_effect hf).append this
    | link url =>
      have h1 := ((shows_or hq a hq.linkText (shows_style o.wide (s := b!"u b blue") (by decide +kernel) (by decide +kernel))).append ih).append shows_reset
      have h2 : Shows (if url = [] then [] else b!" " ++ style o.wide (o.theme.linkUrl.getD b!"cyan") ++ b!"(" ++ url ++ b!")" ++ reset) (if url = [] then [] else b!" (" ++ url ++ b!")") := by
        split
        · exact shows_calm (by simp)
        · have := (((((shows_calm (s := b!" ") (by decide)).append (shows_getD hq.linkUrl (shows_style o.wide (s := b!"cyan") (by decide +kernel) (by decide +kernel)))).append
            (shows_calm (s := b!"(") (by decide))).append (shows_calm hk)).append (shows_calm (s := b!")") (by decide))).append shows_reset
          simpa using this
      have := h1.append h2
      simpa [inline, seen] using this
    | image url =>
      have h2 : Shows (if url = [] then [] else b!"(" ++ url ++ b!")") (if url = [] then [] else b!"(" ++ url ++ b!")") := by
        split
        · exact shows_calm (by simp)
        · exact ((shows_calm (s := b!"(") (by decide)).append (shows_calm hk)).append (shows_calm (s := b!")") (by decide))
      have := (((shows_calm (s := b!"![") (by decide)).append ih).append (shows_calm (s := b!"]") (by decide))).append h2
      simpa [inline, seen] using this
    | html s => simpa [inline, seen] using shows_html hq hk
    | _ => simp only [inline, seen]; exact ih
theorem shows_inlines {o : Opt} (hq : Quiet o) : ∀ ns : List Node, Alls Calm ns → Shows (inlines o ns) (seens o.emoji ns)
  | [], _ => shows_calm (s := []) (by simp)
  | n :: ns, h => by
    unfold Alls at h
    exact (shows_inline hq n h.1).append (shows_inlines hq ns h.2)
end

mutual
theorem seen_reads {emoji : Bytes → Bytes} : ∀ n : Node, All (Plain emoji) n → seen emoji n = reads emoji n
  | .mk k a kids, h => by
    unfold All at h
    obtain ⟨hk, h⟩ := h
    have ih := seens_reads kids h
    cases k with
    | text s => simp only [seen, reads]; exact ltlt_plain _ hk
    | html s => exact hk.elim
    | _ => simp [seen, reads, ih]
theorem seens_reads {emoji : Bytes → Bytes} : ∀ ns : List Node, Alls (Plain emoji) ns → seens emoji ns = readAll emoji ns
  | [], _ => rfl
  | n :: ns, h => by
    unfold Alls at h
    simp [seens, readAll, seen_reads n h.1, seens_reads ns h.2]
end

/-! ### Two themes -/

/-- Two outputs that read the same. -/
def Same (a b : Bytes) : Prop := ∃ v, Shows a v ∧ Shows b v

theorem Same.append {a b c d : Bytes} (h : Same a b) (h' : Same c d) : Same (a ++ c) (b ++ d) := by
  obtain ⟨v, h1, h2⟩ := h
  obtain ⟨w, h3, h4⟩ := h'
  exact ⟨v ++ w, h1.append h3, h2.append h4⟩

theorem same_calm {s : Bytes} (h : (27 : Byte) ∉ s) : Same s s := ⟨s, shows_calm h, shows_calm h⟩

theorem same_nil {a b : Bytes} (ha : Shows a []) (hb : Shows b []) : Same a b := ⟨[], ha, hb⟩

theorem same_reset : Same reset reset := same_nil shows_reset shows_reset

theorem same_inline {o p : Opt} (ho : Quiet o) (hp : Quiet p) (he : o.emoji = p.emoji) {n : Node} (h : All Calm n) : Same (inline o n) (inline p n) :=
  ⟨_, shows_inline ho n h, he ▸ shows_inline hp n h⟩

theorem same_inlines {o p : Opt} (ho : Quiet o) (hp : Quiet p) (he : o.emoji = p.emoji) {ns : List Node} (h : Alls Calm ns) : Same (inlines o ns) (inlines p ns) :=
  ⟨_, shows_inlines ho ns h, he ▸ shows_inlines hp ns h⟩

theorem calm_replicate {n : Nat} {c : Byte} (h : c ≠ 27) : (27 : Byte) ∉ List.replicate n c := by
  intro hm
  exact h (List.eq_of_mem_replicate hm).symm

theorem calm_spaces (n : Nat) : (27 : Byte) ∉ spaces n := calm_replicate (by decide)

theorem calm_bars (f : Frame) {sep right : Bytes} (h1 : (27 : Byte) ∉ sep) (h2 : (27 : Byte) ∉ right) : ∀ n c, (27 : Byte) ∉ f.bars sep right n c
  | 0, _ => by simp [Frame.bars]
  | n + 1, c => by
    unfold Frame.bars
    simp only [List.mem_append, not_or]
    refine ⟨⟨?_, by split <;> assumption⟩, calm_bars f h1 h2 n (c + 1)⟩
    intro hm
    obtain ⟨l, hl, hc⟩ := List.mem_flatten.1 hm
    rw [List.eq_of_mem_replicate hl] at hc
    exact absurd hc (by decide)

theorem bars_border (g : Grid) (vis : Nat) (w : Nat → Nat) (b1 b2 ind sep right : Bytes) : ∀ n c, (Frame.mk g vis w b1 ind).bars sep right n c = (Frame.mk g vis w b2 ind).bars sep right n c
  | 0, _ => rfl
  | n + 1, c => by
    unfold Frame.bars
    rw [bars_border g vis w b1 b2 ind sep right n (c + 1)]
    rfl

section
variable {o p : Opt} (ho : Quiet o) (hp : Quiet p) (he : o.emoji = p.emoji) (hm : o.theme.quoteMarker = p.theme.quoteMarker)
variable {g : Grid} {vis : Nat} {w : Nat → Nat} {b1 b2 ind : Bytes} (hb1 : Shows b1 []) (hb2 : Shows b2 []) (hi : (27 : Byte) ∉ ind)
  (hg : ∀ r c s, g r c = some s → Alls Calm s.cell.kids)
include hb1 hb2

theorem same_edge (hi : (27 : Byte) ∉ ind) {left sep right nl : Bytes} (h1 : (27 : Byte) ∉ left) (h2 : (27 : Byte) ∉ sep) (h3 : (27 : Byte) ∉ right) (h4 : (27 : Byte) ∉ nl) :
    Same ((Frame.mk g vis w b1 ind).edge left sep right nl) ((Frame.mk g vis w b2 ind).edge left sep right nl) := by
  unfold Frame.edge
  rw [bars_border g vis w b1 b2]
  exact (((((same_calm hi).append (same_nil hb1 hb2)).append (same_calm h1)).append (same_calm (calm_bars _ h2 h3 _ _))).append (same_calm h4)).append same_reset

theorem same_bar : Same (Frame.mk g vis w b1 ind).bar (Frame.mk g vis w b2 ind).bar :=
  ((same_nil hb1 hb2).append (same_calm (s := b!"│") (by decide))).append same_reset

theorem same_blank (c : Nat) : Same ((Frame.mk g vis w b1 ind).blank c) ((Frame.mk g vis w b2 ind).blank c) :=
  ((same_calm (s := b!" ") (by decide)).append (same_calm (calm_replicate (by decide)))).append (same_bar hb1 hb2)

include ho hp he in
theorem same_cell (header : Bool) (c : Nat) (s : Slot) (hs : Alls Calm s.cell.kids) :
    Same ((Frame.mk g vis w b1 ind).cell o header c s) ((Frame.mk g vis w b2 ind).cell p header c s) := by
  unfold Frame.cell
  refine ((((Same.append (same_calm (calm_replicate (by decide))) ?_).append (same_inlines ho hp he hs)).append ?_).append (same_calm (calm_replicate (by decide)))).append (same_bar hb1 hb2)
  · split
    · exact same_nil (shows_style _ (s := b!"b") (by decide +kernel) (by decide +kernel)) (shows_style _ (s := b!"b") (by decide +kernel) (by decide +kernel))
    · exact same_calm (by simp)
  · split
    · exact same_reset
    · exact same_calm (by simp)

include ho hp he hg in
theorem same_line (header : Bool) (r : Nat) : ∀ n c, Same ((Frame.mk g vis w b1 ind).line o header r n c) ((Frame.mk g vis w b2 ind).line p header r n c)
  | 0, _ => same_calm (s := []) (by simp)
  | n + 1, c => by
    unfold Frame.line
    simp only
    split
    · cases hs : g r c with
      | none => exact (same_blank hb1 hb2 c).append (same_line header r n (c + 1))
      | some s =>
        simp only
        split
        · exact (same_cell ho hp he hb1 hb2 header c s (hg _ _ _ hs)).append (same_line header r n (c + s.span))
        · exact (same_blank hb1 hb2 c).append (same_line header r n (c + 1))
    · exact same_calm (by simp)

include ho hp he hi hg in
theorem same_row (r : Nat) : Same ((Frame.mk g vis w b1 ind).row o r) ((Frame.mk g vis w b2 ind).row p r) := by
  have hedge := same_edge (g := g) (vis := vis) (w := w) hb1 hb2 hi (left := b!"├") (sep := b!"┼") (right := b!"┤") (nl := b!"\n") (by decide) (by decide) (by decide) (by decide)
  have hfoot : (Frame.mk g vis w b1 ind).footer r = (Frame.mk g vis w b2 ind).footer r := rfl
  unfold Frame.row
  rw [hfoot]
  split
  · exact hedge
  · refine ((((same_calm hi).append (same_bar hb1 hb2)).append (same_line ho hp he hb1 hb2 hg _ r _ 0)).append (same_calm (s := b!"\n") (by decide))).append ?_
    split
    · exact hedge
    · exact same_calm (by simp)

end

theorem same_flatMap {f g : Nat → Bytes} (h : ∀ r, Same (f r) (g r)) : ∀ l : List Nat, Same (l.flatMap f) (l.flatMap g)
  | [] => same_calm (by simp)
  | x :: l => by
    rw [List.flatMap_cons, List.flatMap_cons]
    exact (h x).append (same_flatMap h l)

/-- Cells of a grid are cells of its table. -/
theorem placeRow_cells {P : Node → Prop} {rows cols r : Nat} : ∀ {cs : List Node} {c : Nat} {g g' : Grid}, placeRow rows cols r c cs g = .val g' → (∀ n ∈ cs, P n) →
    (∀ r c s, g r c = some s → P s.cell) → ∀ r c s, g' r c = some s → P s.cell
  | [], c, g, g', h, _, hg => by
    simp only [placeRow, C.val.injEq] at h
    exact h ▸ hg
  | n :: cs, c, g, g', h, hc, hg => by
    unfold placeRow at h
    simp only at h
    split at h
    · split at h
      · exact placeRow_cells h (fun x hx => hc x (List.mem_cons_of_mem _ hx)) hg
      · cases h
    · split at h
      · rw [C.val.injEq] at h
        exact h ▸ hg
      · split at h
        · refine placeRow_cells h (fun x hx => hc x (List.mem_cons_of_mem _ hx)) ?_
          intro i j s hs
          unfold place at hs
          split at hs
          · cases hs
            exact hc n (List.mem_cons_self ..)
          · exact hg _ _ _ hs
        · cases h

theorem placeRows_cells {P : Node → Prop} {rows cols : Nat} : ∀ {rs : List Node} {r : Nat} {g g' : Grid}, placeRows rows cols r rs g = .val g' → (∀ n ∈ rs, ∀ c ∈ cellsOf n, P c) →
    (∀ r c s, g r c = some s → P s.cell) → ∀ r c s, g' r c = some s → P s.cell
  | [], r, g, g', h, _, hg => by
    simp only [placeRows, C.val.injEq] at h
    exact h ▸ hg
  | n :: rs, r, g, g', h, hc, hg => by
    unfold placeRows at h
    cases h1 : placeRow rows cols r 0 (cellsOf n) g with
    | ub => rw [h1, C.ub_bind] at h; cases h
    | val g1 =>
      rw [h1, C.val_bind] at h
      exact placeRows_cells h (fun x hx => hc x (List.mem_cons_of_mem _ hx)) (placeRow_cells h1 (hc n (List.mem_cons_self ..)) hg)

theorem alls_mem {P : Kind → Prop} : ∀ {ns : List Node}, Alls P ns → ∀ n ∈ ns, All P n
  | _ :: _, h, _, hm => by
    unfold Alls at h
    rcases List.mem_cons.1 hm with rfl | hm
    · exact h.1
    · exact alls_mem h.2 _ hm

theorem all_kids {P : Kind → Prop} {n : Node} (h : All P n) : Alls P n.kids := by
  cases n
  unfold All at h
  exact h.2

/-- The cells of a calm table are calm. -/
theorem table_cells {kids : List Node} {rows cols : Nat} {g : Grid} (hc : Alls Calm kids) (hg : placeRows rows cols 0 (rowsOf kids) (fun _ _ => none) = .val g) :
    ∀ r c s, g r c = some s → Alls Calm s.cell.kids := by
  refine placeRows_cells (P := fun n => Alls Calm n.kids) hg ?_ (by simp)
  intro n hn c hcm
  exact all_kids (alls_mem (all_kids (alls_mem hc n (List.mem_filter.1 hn).1)) c (List.mem_filter.1 hcm).1)

theorem shows_border {o : Opt} (h : Quiet o) : Shows (style o.wide (o.theme.border.getD (if o.wide then b!"38;5;250" else b!"white"))) [] := by
  refine shows_getD h.border ?_
  split
  · exact (shows_grey _).1
  · exact shows_style _ (by decide +kernel) (by decide +kernel)

/-- Both undefined, or both values that are so related. -/
def Both {α : Type} (R : α → α → Prop) (a b : C α) : Prop := (a = .ub ∧ b = .ub) ∨ ∃ x y, a = .val x ∧ b = .val y ∧ R x y

theorem same_table {o p : Opt} (ho : Quiet o) (hp : Quiet p) (he : o.emoji = p.emoji) (indent : Nat) (a : Option Bytes) {kids : List Node} (hc : Alls Calm kids) :
    Both Same (table o indent a kids) (table p indent a kids) := by
  unfold table
  have hn : Both Same (.val []) (.val []) := .inr ⟨_, _, rfl, rfl, same_calm (by simp)⟩
  split
  · exact hn
  simp only
  split
  · exact hn
  split
  · cases hg : placeRows (rowsOf kids).length (colsOf (rowsOf kids)) 0 (rowsOf kids) fun _ _ => none with
    | ub => exact .inl ⟨rfl, rfl⟩
    | val g =>
      rw [C.val_bind, C.val_bind]
      split
      · exact hn
      · have hcells := table_cells hc hg
        refine .inr ⟨_, _, rfl, rfl, ?_⟩
        have hb1 := shows_border ho
        have hb2 := shows_border hp
        exact ((same_edge hb1 hb2 (calm_spaces _) (by decide) (by decide) (by decide) (by decide)).append
          (same_flatMap (fun r => same_row ho hp he hb1 hb2 (calm_spaces _) hcells r) _)).append (same_edge hb1 hb2 (calm_spaces _) (by decide) (by decide) (by decide) (by decide))
  · exact .inl ⟨rfl, rfl⟩

/-! ### Blocks of HTML -/

theorem defs_calm (indent : Nat) : ∀ (n : Nat) (dt dd first : Bool) (s : Bytes), (27 : Byte) ∉ s → (27 : Byte) ∉ defs indent n dt dd first s
  | 0, _, _, _, _, _ => by simp [defs]
  | _ + 1, _, _, _, [], _ => by simp [defs]
  | n + 1, dt, dd, first, c :: s, h => by
    have hd : ∀ k, (27 : Byte) ∉ (c :: s).drop k := fun k hm => h (List.mem_of_mem_drop hm)
    have hs : (27 : Byte) ∉ s := fun hm => h (List.mem_cons_of_mem _ hm)
    unfold defs
    simp only
    split
    · simp only [List.mem_append, not_or]
      exact ⟨by split <;> decide, defs_calm indent n _ _ _ _ (hd 4)⟩
    split
    · simp only [List.mem_append, not_or]
      exact ⟨by decide, defs_calm indent n _ _ _ _ (hd 5)⟩
    split
    · simp only [List.mem_append, not_or]
      exact ⟨calm_spaces _, defs_calm indent n _ _ _ _ (hd 4)⟩
    split
    · simp only [List.mem_append, not_or]
      exact ⟨by decide, defs_calm indent n _ _ _ _ (hd 5)⟩
    split
    · exact defs_calm indent n _ _ _ _ (hd 4)
    split
    · exact defs_calm indent n _ _ _ _ (hd 5)
    · rw [List.mem_append, not_or]
      refine ⟨?_, defs_calm indent n _ _ _ _ hs⟩
      have hc : (27 : Byte) ∉ [c] := fun hm => h (by rw [List.mem_singleton.1 hm]; exact List.mem_cons_self ..)
      repeat' split
      all_goals first | exact hc | decide

theorem title_sub : ∀ (b : Bool) (s : Bytes), ∀ c ∈ title b s, c ∈ s
  | _, [], c, h => by simp [title] at h
  | b, x :: s, c, h => by
    unfold title at h
    repeat' split at h
    · exact List.mem_cons_of_mem _ (title_sub _ s c h)
    · exact List.mem_cons_of_mem _ (title_sub _ s c h)
    · rcases List.mem_cons.1 h with rfl | h
      · exact List.mem_cons_self ..
      · exact List.mem_cons_of_mem _ (title_sub _ s c h)

theorem content_calm : ∀ (n : Nat) (s : Bytes), (27 : Byte) ∉ s → (27 : Byte) ∉ content n s
  | 0, _, _ => by simp [content]
  | _ + 1, [], _ => by simp [content]
  | n + 1, c :: s, h => by
    have hs : (27 : Byte) ∉ s := fun hm => h (List.mem_cons_of_mem _ hm)
    have hc : c ≠ 27 := fun he => h (he ▸ List.mem_cons_self ..)
    unfold content
    split
    · exact content_calm n _ fun hm => hs ((List.dropWhile_suffix _).sublist.mem (List.mem_of_mem_drop hm))
    · rw [List.mem_cons, not_or]
      refine ⟨?_, content_calm n _ hs⟩
      split
      · decide
      · exact Ne.symm hc

theorem plainHtml_calm : ∀ (b k : Bool) (s : Bytes), (27 : Byte) ∉ s → (27 : Byte) ∉ plainHtml b k s
  | _, _, [], _ => by simp [plainHtml]
  | b, k, c :: s, h => by
    have hs : (27 : Byte) ∉ s := fun hm => h (List.mem_cons_of_mem _ hm)
    have hc : c ≠ 27 := fun he => h (he ▸ List.mem_cons_self ..)
    unfold plainHtml
    split
    · exact plainHtml_calm _ _ _ hs
    split
    · split
      · exact plainHtml_calm _ _ _ hs
      · exact plainHtml_calm _ _ _ hs
    split
    · exact plainHtml_calm _ _ _ hs
    split
    · split
      · rw [List.mem_append, not_or]
        exact ⟨by decide, plainHtml_calm _ _ _ hs⟩
      · rw [List.mem_append, not_or]
        exact ⟨by decide, plainHtml_calm _ _ _ hs⟩
    · rw [List.mem_cons, not_or]
      exact ⟨Ne.symm hc, plainHtml_calm _ _ _ hs⟩

/-- What is found in calm text is calm. -/
theorem find_calm {w s a r : Bytes} (h : find w s = some (a, r)) (hs : (27 : Byte) ∉ s) : (27 : Byte) ∉ a ∧ (27 : Byte) ∉ r := by
  rw [Embed.find_some h] at hs
  simp only [List.mem_append, not_or] at hs
  exact ⟨hs.1.1, hs.2⟩

theorem behind_calm {s r : Bytes} (h : behind s = .val r) (hs : (27 : Byte) ∉ s) : (27 : Byte) ∉ r := by
  unfold behind at h
  cases hf : find b!">" s with
  | none => rw [hf] at h; cases h
  | some x =>
    obtain ⟨x1, x2⟩ := x
    rw [hf] at h
    cases h
    exact (find_calm hf hs).2

theorem title_calm {found : Bool} {s r : Bytes} (h : calloutTitle found s = .val r) (hs : (27 : Byte) ∉ s) : (27 : Byte) ∉ r := by
  have last : ∀ x y : Bytes, (27 : Byte) ∉ x → (match find b!"</" x with
    | some (c :: t, _) => C.val ((if found then b!" " else []) ++ title false (c :: t) ++ b!"\n")
    | _ => .val []) = .val y → (27 : Byte) ∉ y := by
    intro x y hx h
    split at h
    · rename_i c t u hf
      rw [C.val.injEq] at h
      subst h
      simp only [List.mem_append, not_or]
      exact ⟨⟨by split <;> decide, fun hm => (find_calm hf hx).1 (title_sub _ _ _ hm)⟩, by decide⟩
    · cases h
      simp
  unfold calloutTitle at h
  cases h1 : find b!"<summary>" s with
  | some x =>
    obtain ⟨x1, x2⟩ := x
    rw [h1] at h
    exact last _ _ (find_calm h1 hs).2 h
  | none =>
    rw [h1] at h
    cases h2 : find b!"callout-title" s with
    | none =>
      rw [h2] at h
      cases h
      simp
    | some x =>
      obtain ⟨x1, x2⟩ := x
      rw [h2] at h
      cases h3 : behind x2 with
      | ub => simp only [h3, C.ub_bind] at h; cases h
      | val t =>
        simp only [h3, C.val_bind] at h
        exact last _ _ (behind_calm h3 (find_calm h2 hs).2) h

theorem calloutContent_calm {s r : Bytes} (h : calloutContent s = .val r) (hs : (27 : Byte) ∉ s) : (27 : Byte) ∉ r := by
  unfold calloutContent at h
  cases h2 : find b!"callout-content" s with
  | none =>
    rw [h2] at h
    cases h
    simp
  | some x =>
    obtain ⟨x1, x2⟩ := x
    rw [h2] at h
    cases h3 : behind x2 with
    | ub => simp only [h3, C.ub_bind] at h; cases h
    | val t =>
      simp only [h3, C.val_bind] at h
      have ht := behind_calm h3 (find_calm h2 hs).2
      split at h
      · rename_i c t' u hf
        rw [C.val.injEq] at h
        subst h
        rw [List.mem_append, not_or]
        refine ⟨content_calm _ _ ?_, by decide⟩
        split at hf
        · rename_i x hx
          cases hf
          exact (find_calm hx ht).1
        · exact (find_calm hf ht).1
      · cases h
        simp

theorem shows_padded {out v : Bytes} (h : Shows out v) : ∃ w, Shows (padded out) (v ++ w) := by
  unfold padded
  repeat' split
  all_goals first | exact ⟨[], by rwa [List.append_nil]⟩ | exact ⟨_, h.append (shows_calm (by decide))⟩

theorem shows_htmlBlock {o : Opt} {indent : Nat} {out s r v : Bytes} (h : htmlBlock o indent out s = .val r) (hs : (27 : Byte) ∉ s) (hv : Shows out v) : ∃ w, Shows r (v ++ w) := by
  unfold htmlBlock at h
  split at h
  · cases h
    exact ⟨_, by rw [← List.append_assoc]; exact (hv.append (shows_calm (defs_calm _ _ _ _ _ _ hs))).append (shows_calm (s := b!"\n") (by decide))⟩
  split at h
  · cases h1 : calloutTitle (calloutType o indent s).isSome s with
    | ub => simp only [h1, C.ub_bind] at h; cases h
    | val t =>
      simp only [h1, C.val_bind] at h
      cases h2 : calloutContent s with
      | ub => simp only [h2, C.ub_bind] at h; cases h
      | val c =>
        simp only [h2, C.val_bind] at h
        cases h
        have hty : ∃ w, Shows ((calloutType o indent s).getD []) w := by
          unfold calloutType
          cases hf : find b!"callout-" s with
          | none => exact ⟨[], shows_calm (s := []) (by simp)⟩
          | some x =>
            obtain ⟨x1, x2⟩ := x
            simp only
            split
            · exact ⟨[], shows_calm (s := []) (by simp)⟩
            · rename_i t ht
              refine ⟨_, (((((shows_calm (calm_spaces _)).append (shows_style _ (s := b!"b yellow") (by decide +kernel) (by decide +kernel))).append (shows_calm (s := b!"[") (by decide))).append
                (shows_calm ?_)).append (shows_calm (s := b!"]") (by decide))).append shows_reset⟩
              exact fun hm => (find_calm hf hs).2 ((List.takeWhile_prefix _).sublist.mem hm)
        obtain ⟨w, hw⟩ := hty
        refine ⟨w ++ (t ++ c), ?_⟩
        have := ((hv.append hw).append (shows_calm (title_calm h1 hs))).append (shows_calm (calloutContent_calm h2 hs))
        simpa using this
  · cases h
    obtain ⟨w, hw⟩ := shows_padded (hv.append (shows_calm (plainHtml_calm false true s hs)))
    exact ⟨_, by rw [List.append_assoc] at hw; exact hw⟩

/-! ### Blocks -/

/-- Two outputs that read the same, and are the same if the themes are. -/
def Alike (o p : Opt) (a b : Bytes) : Prop := Same a b ∧ (o = p → a = b)

theorem Alike.append {o p : Opt} {a b c d : Bytes} (h : Alike o p a b) (h' : Alike o p c d) : Alike o p (a ++ c) (b ++ d) :=
  ⟨h.1.append h'.1, fun e => by rw [h.2 e, h'.2 e]⟩

theorem alike_calm {o p : Opt} {s : Bytes} (h : (27 : Byte) ∉ s) : Alike o p s s := ⟨same_calm h, fun _ => rfl⟩

theorem alike_reset {o p : Opt} : Alike o p reset reset := ⟨same_reset, fun _ => rfl⟩

theorem decimal_calm (n : Nat) : (27 : Byte) ∉ Man.decimal n := by
  intro h
  have := Plugins.decimal_digits n _ h
  exact absurd this (by decide)

section
variable {o p : Opt} (ho : Quiet o) (hp : Quiet p) (he : o.emoji = p.emoji) (hm : o.theme.quoteMarker = p.theme.quoteMarker)
include ho hp

theorem alike_style {f : Opt → Bytes} (h1 : ∀ q, Quiet q → Shows (style q.wide (f q)) []) : Alike o p (style o.wide (f o)) (style p.wide (f p)) :=
  ⟨same_nil (h1 o ho) (h1 p hp), fun e => by rw [e]⟩

include hm in
theorem alike_quoteMark (indent : Nat) : Alike o p (quoteMark o indent) (quoteMark p indent) := by
  unfold quoteMark
  refine ((((alike_calm (calm_spaces _)).append (alike_style ho hp (f := fun _ => b!"yellow") fun q _ => shows_style _ (by decide +kernel) (by decide +kernel))).append ?_).append
    (alike_calm (by decide))).append alike_reset
  rw [← hm]
  refine alike_calm ?_
  cases h : o.theme.quoteMarker with
  | none => decide
  | some m => exact ho.marker m h

include he in
theorem alike_inline {n : Node} (h : All Calm n) : Alike o p (inline o n) (inline p n) := ⟨same_inline ho hp he h, fun e => by rw [e]⟩

include he in
theorem alike_inlines {ns : List Node} (h : Alls Calm ns) : Alike o p (inlines o ns) (inlines p ns) := ⟨same_inlines ho hp he h, fun e => by rw [e]⟩

include he hm in
theorem alike_quoted (indent : Nat) : ∀ {ns : List Node}, Alls Calm ns → Alike o p (quoted o indent ns) (quoted p indent ns)
  | [], _ => alike_calm (s := []) (by simp)
  | n :: ns, h => by
    unfold Alls at h
    unfold quoted
    refine Alike.append ?_ (alike_quoted indent h.2)
    split
    · exact (alike_calm (by decide)).append (alike_quoteMark ho hp hm indent)
    · refine Alike.append (Alike.append (alike_style ho hp (f := fun q => q.theme.quoteColour.getD (if q.wide then b!"i 38;5;250" else b!"i white")) fun q hq => ?_) (alike_inline ho hp he h.1)) alike_reset
      refine shows_getD hq.quoteColour ?_
      split
      · exact (shows_grey _).2
      · exact shows_style _ (by decide +kernel) (by decide +kernel)

theorem alike_itemMark (indent : Nat) (bullet : Bool) (number : Nat) : Alike o p (itemMark o indent bullet number) (itemMark p indent bullet number) := by
  unfold itemMark
  refine Alike.append (Alike.append (Alike.append (alike_calm (calm_spaces _)) (alike_style ho hp (f := fun q => q.theme.listMarker.getD b!"b intense_red") fun q hq =>
    shows_getD hq.listMarker (shows_style _ (by decide +kernel) (by decide +kernel)))) ?_) alike_reset
  split
  · exact alike_calm (by decide)
  · exact alike_calm (by simp only [List.mem_append, not_or]; exact ⟨⟨decimal_calm _, by decide⟩, by decide⟩)

theorem alike_codeBlock (indent : Nat) {info s : Bytes} (h1 : (27 : Byte) ∉ info) (h2 : (27 : Byte) ∉ s) : Alike o p (codeBlock o indent info s) (codeBlock p indent info s) := by
  unfold codeBlock
  rw [ho.colour, hp.colour]
  refine Alike.append (Alike.append (Alike.append (Alike.append (Alike.append (Alike.append (Alike.append (Alike.append (alike_calm (calm_spaces _)) (alike_style ho hp (f := fun q => q.theme.codeBlock.getD b!"white on_black") fun q hq =>
    shows_getD hq.codeBlock (shows_style _ (by decide +kernel) (by decide +kernel)))) (alike_calm (by decide))) (alike_calm h1)) (alike_calm (by decide))) (alike_calm h2)) (alike_calm (by decide))) alike_reset) (alike_calm (by decide))

theorem alike_head (level : Nat) : Alike o p (style o.wide (headStyle o.theme level)) (style p.wide (headStyle p.theme level)) := by
  refine alike_style ho hp (f := fun q => headStyle q.theme level) fun q hq => ?_
  unfold headStyle
  refine shows_getD ?_ ?_
  · intro s hs
    split at hs
    · exact hq.head level s hs
    · cases hs
  · repeat' split
    all_goals exact shows_style _ (by decide +kernel) (by decide +kernel)

end

theorem Both.bind {α β : Type} {R : α → α → Prop} {S : β → β → Prop} {a b : C α} {f g : α → C β} (h : Both R a b) (hf : ∀ x y, R x y → Both S (f x) (g y)) : Both S (a >>= f) (b >>= g) := by
  rcases h with ⟨rfl, rfl⟩ | ⟨x, y, rfl, rfl, h⟩
  · exact .inl ⟨rfl, rfl⟩
  · exact hf x y h

theorem Both.val {α : Type} {R : α → α → Prop} {x y : α} (h : R x y) : Both R (.val x) (.val y) := .inr ⟨x, y, rfl, rfl, h⟩

theorem alike_table {o p : Opt} (ho : Quiet o) (hp : Quiet p) (he : o.emoji = p.emoji) (indent : Nat) (a : Option Bytes) {kids : List Node} (hc : Alls Calm kids) :
    Both (Alike o p) (table o indent a kids) (table p indent a kids) := by
  rcases same_table ho hp he indent a hc with h | ⟨x, y, h1, h2, h3⟩
  · exact .inl h
  · refine .inr ⟨x, y, h1, h2, h3, ?_⟩
    intro e
    subst e
    rw [h1] at h2
    exact C.val.inj h2

section
variable {o p : Opt} (ho : Quiet o) (hp : Quiet p) (he : o.emoji = p.emoji) (hm : o.theme.quoteMarker = p.theme.quoteMarker)
include ho hp he hm

mutual
theorem alike_block : ∀ (n : Node) (indent : Nat) (inList : Bool) (x y : Bytes), All Calm n → (All NoBlock n ∨ o = p) → Alike o p x y →
    Both (Alike o p) (block o indent inList x n) (block p indent inList y n)
  | .mk k a kids, indent, inList, x, y, hc, hn, h => by
    unfold All at hc
    obtain ⟨hk, hc⟩ := hc
    have hn' : Alls NoBlock kids ∨ o = p := by
      rcases hn with hn | hn
      · unfold All at hn; exact .inl hn.2
      · exact .inr hn
    cases k with
    | table =>
      simp only [block]
      exact (alike_table ho hp he indent a hc).bind fun u v huv => .val (h.append huv)
    | para =>
      simp only [block]
      refine .val (((h.append (alike_calm (calm_spaces _))).append (alike_inlines ho hp he hc)).append (alike_calm ?_))
      split <;> decide
    | heading level =>
      simp only [block]
      exact .val (((((h.append (alike_calm (calm_spaces _))).append (alike_head ho hp level)).append (alike_inlines ho hp he hc)).append alike_reset).append (alike_calm (by decide)))
    | list bullet start =>
      simp only [block]
      exact (alike_items kids indent bullet _ x y hc hn' h).bind fun u v huv => .val (huv.append (alike_calm (by decide)))
    | item => simp only [block]; exact alike_blocks kids indent true x y hc hn' h
    | quote => simp only [block]; exact alike_quotes kids indent x y hc hn' h
    | codeBlock info s => simp only [block]; exact .val (h.append (alike_codeBlock ho hp indent hk.1 hk.2))
    | htmlBlock s =>
      simp only [block]
      rcases hn with hn | hn
      · unfold All at hn; exact hn.1.elim
      · have hxy := h.2 hn
        obtain ⟨v, hv, _⟩ := h.1
        subst hxy hn
        cases hb : htmlBlock o indent x s with
        | ub => exact .inl ⟨rfl, rfl⟩
        | val r =>
          obtain ⟨w, hw⟩ := shows_htmlBlock hb hk hv
          exact .val ⟨⟨v ++ w, hw, hw⟩, fun _ => rfl⟩
    | rule => simp only [block]; exact .val ((h.append (alike_calm (calm_spaces _))).append (alike_calm (by decide)))
    | _ => simp only [block]; exact alike_blocks kids indent false x y hc hn' h
theorem alike_blocks : ∀ (ns : List Node) (indent : Nat) (inList : Bool) (x y : Bytes), Alls Calm ns → (Alls NoBlock ns ∨ o = p) → Alike o p x y →
    Both (Alike o p) (blocks o indent inList x ns) (blocks p indent inList y ns)
  | [], _, _, _, _, _, _, h => by simp only [blocks]; exact .val h
  | n :: ns, indent, inList, x, y, hc, hn, h => by
    unfold Alls at hc
    simp only [Alls] at hn
    simp only [blocks]
    exact (alike_block n indent inList x y hc.1 (hn.imp And.left id) h).bind fun u v huv => alike_blocks ns indent inList u v hc.2 (hn.imp And.right id) huv
theorem alike_items : ∀ (ns : List Node) (indent : Nat) (bullet : Bool) (number : Nat) (x y : Bytes), Alls Calm ns → (Alls NoBlock ns ∨ o = p) → Alike o p x y →
    Both (Alike o p) (items o indent bullet number x ns) (items p indent bullet number y ns)
  | [], _, _, _, _, _, _, _, h => by simp only [items]; exact .val h
  | n :: ns, indent, bullet, number, x, y, hc, hn, h => by
    unfold Alls at hc
    simp only [Alls] at hn
    simp only [items]
    exact (alike_block n (indent + 1) true _ _ hc.1 (hn.imp And.left id) (h.append (alike_itemMark ho hp indent bullet number))).bind fun u v huv =>
      alike_items ns indent bullet (number + 1) u v hc.2 (hn.imp And.right id) huv
theorem alike_quotes : ∀ (ns : List Node) (indent : Nat) (x y : Bytes), Alls Calm ns → (Alls NoBlock ns ∨ o = p) → Alike o p x y →
    Both (Alike o p) (quotes o indent x ns) (quotes p indent y ns)
  | [], _, _, _, _, _, h => by simp only [quotes]; exact .val h
  | n :: ns, indent, x, y, hc, hn, h => by
    unfold Alls at hc
    simp only [Alls] at hn
    unfold quotes
    have rest : ∀ u v, Alike o p u v → Both (Alike o p) (quotes o indent u ns) (quotes p indent v ns) := fun u v huv => alike_quotes ns indent u v hc.2 (hn.imp And.right id) huv
    have hb := alike_block n indent false _ _ hc.1 (hn.imp And.left id) (h.append (alike_quoteMark ho hp hm indent))
    simp only
    split
    · rename_i a kids
      have := hc.1
      unfold All at this
      rw [C.val_bind, C.val_bind]
      refine rest _ _ (((h.append (alike_quoteMark ho hp hm indent)).append (alike_quoted ho hp he hm indent this.2)).append (alike_calm ?_))
      split <;> decide
    · exact hb.bind rest
end

end

end Verif.Term
