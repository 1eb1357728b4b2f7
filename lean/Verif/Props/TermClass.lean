/- C277: classes on a terminal. -/
import Verif.Model.Term
import Verif.Spec.TermClass
import Verif.Spec.TermStyle
import Verif.Proof.TermStyle
import Verif.Proof.Embed

namespace Verif.Term
open Class (Has Style)
open TermStyle.Spec (Spaced)
open TermStyle (style)

theorem find_absent_class {table : List (Bytes × Bytes)} {w : Bytes} (h : w ∉ table.map (·.1)) : (table.find? fun e => e.1 = w) = none := by
  rw [List.find?_eq_none]
  intro e he
  simp only [decide_eq_true_eq]
  intro hx
  exact h (List.mem_map.2 ⟨e, he, hx⟩)

theorem find_has {table : List (Bytes × Bytes)} {w st : Bytes} (h : Has table w st) : (table.find? fun e => e.1 = w) = some (w, st) := by
  obtain ⟨a, b, rfl, h⟩ := h
  rw [List.find?_append, find_absent_class h, Option.none_or, List.find?_cons_of_pos (by simp)]

theorem classStyle_eq {t : Theme} {ws : List Bytes} {v : Bytes} {r : Option Bytes} (hv : Spaced ws v) (h : Style t.classes ws r) : classStyle t v = r := by
  unfold classStyle
  rw [TermStyle.words_spaced hv]
  cases h with
  | none h =>
    rw [List.findSome?_eq_none_iff]
    intro w hw
    rw [find_absent_class (h w hw)]
    rfl
  | @some a b w st h hw =>
    rw [List.findSome?_append]
    have : (a.findSome? fun w => (t.classes.find? fun e => e.1 = w).map Prod.snd) = none := by
      rw [List.findSome?_eq_none_iff]
      intro x hx
      rw [find_absent_class (h x hx)]
      rfl
    rw [this, Option.none_or, List.findSome?_cons, find_has hw]
    rfl

theorem takeWhile_to {q : Byte} {v s : Bytes} (h : q ∉ v) : (v ++ q :: s).takeWhile (fun c => decide (c ≠ q)) = v := by
  induction v with
  | nil => simp
  | cons c v ih =>
    rw [List.mem_cons, not_or] at h
    rw [List.cons_append, List.takeWhile_cons_of_pos (by simpa using Ne.symm h.1), ih h.2]

theorem attrStyle_eq {t : Theme} {pre v post : Bytes} {q : Byte} {ws : List Bytes} {r : Option Bytes} (hq : q = c!"\"" ∨ q = c!"'") (hp : ¬ b!"class=" <:+: pre) (hn : q ∉ v) (hl : v.length ≤ 255)
    (hv : Spaced ws v) (h : Style t.classes ws r) : attrStyle t (pre ++ b!"class=" ++ q :: v ++ q :: post) = r := by
  have hf : Embed.find b!"class=" (pre ++ b!"class=" ++ q :: v ++ q :: post) = some (pre, q :: (v ++ q :: post)) := by
    have := (Embed.find_eq (d := c!"c") (w := b!"lass=") (by decide) pre (q :: (v ++ q :: post))).2 hp
    simpa using this
  unfold attrStyle
  rw [hf]
  simp only
  rw [if_pos (by rcases hq with rfl | rfl <;> rfl), takeWhile_to hn, List.take_of_length_le hl]
  exact classStyle_eq hv h

/-- C277, for a value of up to 255 bytes between quotes, with no other `class=` in front of it: a `<span>` is shown in the style of the first of its classes that has one in the theme, and as it is if
none has.  Missing: longer values, and other attributes whose names end with `class`. -/
theorem C277_partial (o : Opt) {pre v post : Bytes} {q : Byte} {ws : List Bytes} {r : Option Bytes} (hq : q = c!"\"" ∨ q = c!"'") (hp : ¬ b!"class=" <:+: b!" " ++ pre) (hn : q ∉ v)
    (hl : v.length ≤ 255) (hv : Spaced ws v) (h : Style o.theme.classes ws r) :
    html o (b!"<span " ++ pre ++ b!"class=" ++ q :: v ++ q :: post ++ b!">") = (r.map (style o.wide)).getD [] := by
  unfold html
  have h1 : b!"<span " ++ pre ++ b!"class=" ++ q :: v ++ q :: post ++ b!">" = b!"<span " ++ (pre ++ b!"class=" ++ q :: v ++ q :: post ++ b!">") := by simp
  have h2 : (b!"<span " ++ pre ++ b!"class=" ++ q :: v ++ q :: post ++ b!">").drop 5 = b!" " ++ pre ++ b!"class=" ++ q :: v ++ q :: (post ++ b!">") := by
    rw [h1, show (b!"<span " ++ (pre ++ b!"class=" ++ q :: v ++ q :: post ++ b!">")).drop 5 = b!" " ++ (pre ++ b!"class=" ++ q :: v ++ q :: post ++ b!">") from rfl]
    simp
  rw [h2, attrStyle_eq hq hp hn hl hv h, h1, if_neg (by intro h; exact absurd (congrArg List.length h) (by simp)),
    show (b!"<span ").isPrefixOf (b!"<span " ++ (pre ++ b!"class=" ++ q :: v ++ q :: post ++ b!">")) = true from rfl, Bool.true_or, if_pos rfl, if_pos (by simp)]
  cases r <;> rfl

/-- C277: the same for other elements with attributes. -/
theorem C277_node_partial (t : Theme) {pre v post : Bytes} {ws : List Bytes} {r : Option Bytes} (hp : ¬ b!"class=" <:+: pre) (hn : c!"\"" ∉ v)
    (hl : v.length ≤ 255) (hv : Spaced ws v) (h : Style t.classes ws r) : nodeStyle t (some (pre ++ b!"class=\"" ++ v ++ b!"\"" ++ post)) = r := by
  have := attrStyle_eq (t := t) (post := post) (.inl rfl) hp hn hl hv h
  rw [nodeStyle, Option.bind_some, ← this]
  congr 1
  simp

/-- C277: the style is always clear. -/
theorem C277_clear (table : List (Bytes × Bytes)) (ws : List Bytes) : ∃ r, Style table ws r := by
  induction ws with
  | nil => exact ⟨none, .none (by intro w hw; cases hw)⟩
  | cons w ws ih =>
    by_cases hw : w ∈ table.map (·.1)
    · have : ∃ st, Has table w st := by
        clear ih
        induction table with
        | nil => cases hw
        | cons e table ih =>
          by_cases he : e.1 = w
          · exact ⟨e.2, [], table, by rw [← he]; rfl, by simp⟩
          · have hw' : w ∈ table.map (·.1) := by
              rcases List.mem_cons.1 (by simpa using hw : w ∈ e.1 :: table.map (·.1)) with h | h
              · exact absurd h.symm he
              · exact h
            obtain ⟨st, a, b, h1, h2⟩ := ih hw'
            refine ⟨st, e :: a, b, by rw [h1]; rfl, ?_⟩
            rw [List.map_cons, List.mem_cons, not_or]
            exact ⟨fun h => he h.symm, h2⟩
      obtain ⟨st, hs⟩ := this
      exact ⟨some st, .some (a := []) (by intro x hx; cases hx) hs⟩
    · obtain ⟨r, h⟩ := ih
      cases h with
      | none h =>
        refine ⟨none, .none ?_⟩
        intro x hx
        rcases List.mem_cons.1 hx with rfl | hx
        · exact hw
        · exact h x hx
      | @some a b x st h hx =>
        refine ⟨some st, .some (a := w :: a) ?_ hx⟩
        intro y hy
        rcases List.mem_cons.1 hy with rfl | hy
        · exact hw
        · exact h y hy

/-- C277, refuted: only the attribute `class` counts.  If another attribute in front of it has a name that ends with `class`, its words are taken instead, whatever the classes are. -/
theorem C277_data_fails (o : Opt) {v u : Bytes} {ws : List Bytes} {r : Option Bytes} (hn : c!"\"" ∉ v) (hl : v.length ≤ 255) (hv : Spaced ws v) (h : Style o.theme.classes ws r) :
    html o (b!"<span data-class=\"" ++ v ++ b!"\" class=\"" ++ u ++ b!"\">") = (r.map (style o.wide)).getD [] := by
  have := C277_partial o (pre := b!"data-") (v := v) (post := b!" class=\"" ++ u ++ b!"\"") (.inl rfl) (by decide) hn hl hv h
  rw [← this]
  congr 1
  simp

/-- C277: a case. -/
theorem C277_case : let o : Opt := { theme := { classes := [(b!"warn", b!"red"), (b!"note", b!"blue")] } }
    html o b!"<span id=\"x\" class=\"big note warn\">" = style true b!"blue" ∧ Style o.theme.classes [b!"big", b!"note", b!"warn"] (some b!"blue") ∧ Spaced [b!"big", b!"note"] b!"big note" := by
  refine ⟨by decide +kernel, .some (a := [b!"big"]) (b := [b!"warn"]) (by decide) ⟨[(b!"warn", b!"red")], [], rfl, by decide⟩, ?_⟩
  exact .cons (g := []) (w := b!"big") (r := b!" note") (by simp) (by simp) (by decide) (.cons (g := b!" ") (w := b!"note") (r := []) (by decide) (by simp) (by decide) (.nil (by simp)) (.inl rfl))
    (.inr ⟨c!" ", b!"note", rfl, rfl⟩)

/-- C277: a value without quotes is one class; it ends with white space, a `>` or a `/`. -/
theorem C277_bare_partial (o : Opt) {pre w post : Bytes} {e : Byte} {r : Option Bytes} (hp : ¬ b!"class=" <:+: b!" " ++ pre) (h0 : w ≠ []) (hw : ∀ c ∈ w, isSpace c = false ∧ c ≠ c!">" ∧ c ≠ c!"/")
    (hq : w.head? ≠ some c!"\"" ∧ w.head? ≠ some c!"'") (he : isSpace e = true ∨ e = c!">" ∨ e = c!"/") (hl : w.length ≤ 255) (h : Style o.theme.classes [w] r) (hin : c!">" ∈ e :: post) :
    html o (b!"<span " ++ pre ++ b!"class=" ++ w ++ e :: post) = (r.map (style o.wide)).getD [] := by
  have ha : attrStyle o.theme (b!" " ++ pre ++ b!"class=" ++ (w ++ e :: post)) = r := by
    have hf := (Embed.find_eq (d := c!"c") (w := b!"lass=") (by decide) (b!" " ++ pre) (w ++ e :: post)).2 hp
    unfold attrStyle
    rw [show b!" " ++ pre ++ b!"class=" ++ (w ++ e :: post) = b!" " ++ pre ++ c!"c" :: b!"lass=" ++ (w ++ e :: post) from rfl, hf]
    have ht : (w ++ e :: post).takeWhile (fun c => !isSpace c && decide (c ≠ c!">") && decide (c ≠ c!"/")) = w := by
      rw [List.takeWhile_append_of_pos (by intro c hc; have := hw c hc; simp [this]), List.takeWhile_cons_of_neg, List.append_nil]
      rcases he with he | rfl | rfl
      · simp [he]
      · simp
      · simp
    obtain ⟨c, w', rfl⟩ := List.exists_cons_of_ne_nil h0
    simp only [List.cons_append] at ht ⊢
    rw [if_neg (by simp only [List.head?_cons, ne_eq, Option.some.injEq] at hq; simp [hq]), ht, List.take_of_length_le hl]
    refine classStyle_eq ?_ h
    have := Spaced.cons (g := []) (w := c :: w') (r := []) (ws := []) (by simp) (by simp) (fun x hx => (hw x hx).1) (.nil (by simp)) (.inl rfl)
    simpa using this
  have h1 : b!"<span " ++ pre ++ b!"class=" ++ w ++ e :: post = b!"<span " ++ (pre ++ b!"class=" ++ w ++ e :: post) := by simp
  have h2 : (b!"<span " ++ pre ++ b!"class=" ++ w ++ e :: post).drop 5 = b!" " ++ pre ++ b!"class=" ++ (w ++ e :: post) := by
    rw [h1, show (b!"<span " ++ (pre ++ b!"class=" ++ w ++ e :: post)).drop 5 = b!" " ++ (pre ++ b!"class=" ++ w ++ e :: post) from rfl]
    simp
  unfold html
  rw [h2, ha, h1, if_neg (by intro h; exact absurd (congrArg List.length h) (by simp)),
    show (b!"<span ").isPrefixOf (b!"<span " ++ (pre ++ b!"class=" ++ w ++ e :: post)) = true from rfl, Bool.true_or, if_pos rfl,
    if_pos (List.mem_append.2 (.inr (List.mem_append.2 (.inr hin))))]
  cases r <;> rfl

/-- C277: a case of it. -/
theorem C277_bare_case : html { theme := { classes := [(b!"warn", b!"red")] } } b!"<span class=warn/>" = style true b!"red" := by decide +kernel

end Verif.Term
