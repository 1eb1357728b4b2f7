/-
The file of a theme: both readers find what its lines say.
-/
import Verif.Model.ThemeFile
import Verif.Spec.ThemeFile
import Verif.Proof.Index
import Verif.Proof.ImgCaptions

namespace Verif.ThemeFile
open Spec
open Term (Theme)
open Index (span_stop span_all)

/-! ### Lines -/

theorem trim_eq {a t b : Bytes} (ha : Blank a) (ht : Trimmed t) (hb : Blank b) : trim (a ++ t ++ b) = t := by
  refine ImgCaptions.trim_eq ⟨a, b, rfl, ?_, ht.2.1, ht.2.2⟩
  intro c hc
  rcases List.mem_append.1 hc with h | h
  · exact ha c h
  · exact hb c h

theorem fgets_line : ∀ (s acc rest : Bytes), c!"\n" ∉ s → acc.length + s.length ≤ 1022 → fgets acc (s ++ b!"\n" ++ rest) = (acc ++ s ++ b!"\n") :: fgets [] rest
  | [], acc, rest, _, _ => by simp [fgets]
  | c :: s, acc, rest, h, hl => by
    simp only [List.mem_cons, not_or] at h
    simp only [List.length_cons] at hl
    rw [List.cons_append, List.cons_append, fgets, if_neg (by rintro (h1 | h1); exact h.1 h1.symm; omega), fgets_line s (acc ++ [c]) rest h.2 (by simp only [List.length_append, List.length_singleton]; omega)]
    simp

/-- The meaning of a line. -/
def stepRow (st : Theme × Bytes) : Row → Theme × Bytes
  | .note _ => st
  | .section name _ _ => (st.1, name)
  | .entry _ key _ _ _ value _ => (assign st.1 st.2 key value, st.2)
  | .marker _ _ value _ => ({ st.1 with listMarker := some value }, b!"list_marker")

theorem trimmed_cons {s : Bytes} (h : Trimmed s) : ∃ c r, s = c :: r ∧ isSpace c = false := by
  cases s with
  | nil => exact absurd rfl h.1
  | cons c r => exact ⟨c, r, rfl, h.2.1 c rfl⟩

/-- A line without its end. -/
def bare (st : Theme × Bytes) (p : Bytes) : Theme × Bytes :=
  let t := p.dropWhile isSpace
  if t = [] ∨ t.head? = some c!"#" then st
  else if c!":" ∉ t then st
  else
    let key := (trim (t.takeWhile (· ≠ c!":"))).take 63
    let val := trim ((t.dropWhile (· ≠ c!":")).drop 1)
    if t.length = p.length then (if key = b!"list_marker" then { st.1 with listMarker := some val } else st.1, key)
    else (if unquote val = [] then st.1 else assign st.1 st.2 key (unquote val), st.2)

theorem line_bare (st : Theme × Bytes) {s e : Bytes} (hs : ∀ c ∈ s, c ≠ 0 ∧ c ≠ c!"\r" ∧ c ≠ c!"\n") (he : e = b!"\n" ∨ e = b!"\r\n") : line st (s ++ e) = bare st s := by
  have hp : (s ++ e).takeWhile (fun c => c ≠ 0 && c ≠ c!"\r" && c ≠ c!"\n") = s := by
    have ha : ∀ x ∈ s, (x ≠ 0 && x ≠ c!"\r" && x ≠ c!"\n") = true := by
      intro x hx
      simp [hs x hx]
    rcases he with rfl | rfl
    · exact (span_stop ha (by decide)).1
    · exact (span_stop ha (by decide)).1
  unfold line bare
  rw [hp]

/-- A line with a key. -/
theorem bare_key (st : Theme × Bytes) {indent key gap more : Bytes} (hi : Blank indent) (hk : Name key) (hg : Blank gap) :
    bare st (indent ++ key ++ gap ++ b!":" ++ more) =
      if indent = [] then (if key = b!"list_marker" then { st.1 with listMarker := some (trim more) } else st.1, key)
      else (if unquote (trim more) = [] then st.1 else assign st.1 st.2 key (unquote (trim more)), st.2) := by
  obtain ⟨c, r, hc, hcs⟩ := trimmed_cons hk.1
  have hd : (indent ++ key ++ gap ++ b!":" ++ more).dropWhile isSpace = key ++ gap ++ c!":" :: more := by
    have := (span_stop (b := r ++ gap ++ c!":" :: more) hi hcs).2
    rw [hc]
    simp only [List.append_assoc, List.cons_append, List.nil_append] at this ⊢
    exact this
  have hcg : ∀ x ∈ key ++ gap, decide (x ≠ c!":") = true := by
    intro x hx
    rcases List.mem_append.1 hx with h | h
    · have : x ≠ c!":" := fun e => hk.2.2.1 (e ▸ h)
      simp [this]
    · have hx' := hg x h
      have : x ≠ c!":" := by rintro rfl; revert hx'; decide
      simp [this]
  have hs := span_stop (p := fun x => decide (x ≠ c!":")) (b := more) hcg (c := c!":") (by decide)
  have ht : trim (key ++ gap) = key := by
    have := trim_eq (a := []) (by intro c hc; cases hc) hk.1 hg
    exact this
  unfold bare
  simp only [hd, hs.1, hs.2, ht, List.drop_succ_cons, List.drop_zero, List.take_of_length_le hk.2.1]
  rw [if_neg ?_, if_neg ?_]
  · by_cases hn : indent = []
    · rw [if_pos (by subst hn; simp), if_pos hn]
    · rw [if_neg, if_neg hn]
      intro h
      apply hn
      rw [← List.length_eq_zero_iff]
      simp only [List.length_append, List.length_cons, List.length_nil] at h
      omega
  · simp
  · rintro (h | h)
    · simp [hc] at h
    · apply hk.2.2.2
      rw [hc] at h ⊢
      exact h

theorem unquote_plain {v : Bytes} (h1 : v.head? ≠ some c!"\"") (h2 : v.head? ≠ some c!"'") : unquote v = v := by
  unfold unquote
  cases v with
  | nil => rfl
  | cons q r =>
    simp only
    rw [if_neg]
    rintro (rfl | rfl)
    · exact h1 rfl
    · exact h2 rfl

theorem last_quote {q : Byte} {v w : Bytes} (hw : q ∉ w) : (((v ++ q :: w).reverse.dropWhile (· ≠ q)).drop 1).reverse = v := by
  have : (v ++ q :: w).reverse = w.reverse ++ q :: v.reverse := by simp
  rw [this, (span_stop (p := fun x => decide (x ≠ q)) (b := v.reverse) (c := q) (a := w.reverse) ?_ (by simp)).2]
  · simp
  · intro x hx
    have : x ≠ q := fun e => hw (e ▸ List.mem_reverse.1 hx)
    simp [this]

theorem unquote_quoted {q : Byte} {lead value tail : Bytes} (hq : q = c!"\"" ∨ q = c!"'") (hl : Blank lead) (hv : Trimmed value) (ht : q ∉ tail) : unquote (trim (lead ++ [q] ++ value ++ [q] ++ tail)) = value := by
  have hqs : isSpace q = false := by rcases hq with rfl | rfl <;> decide
  obtain ⟨w, hw, hwq⟩ : ∃ w, trim (lead ++ [q] ++ value ++ [q] ++ tail) = q :: (value ++ q :: w) ∧ q ∉ w := by
    obtain ⟨a, r, h1, h2, h3, _, _⟩ := Index.span_split isSpace tail.reverse
    have htl : tail = r.reverse ++ a.reverse := by
      have := congrArg List.reverse h1
      simpa using this
    refine ⟨r.reverse, ?_, ?_⟩
    · have hb : Blank a.reverse := fun c hc => h2 c (List.mem_reverse.1 hc)
      have hT : Trimmed (q :: (value ++ q :: r.reverse)) := by
        refine ⟨by simp, ?_, ?_⟩
        · intro c hc
          simp only [List.head?_cons, Option.mem_def, Option.some.injEq] at hc
          rw [← hc]; exact hqs
        · intro c hc
          rcases h3 with rfl | ⟨d, u, rfl, hd⟩
          · have : (q :: (value ++ [q])).getLast? = some q := by
              rw [← List.cons_append, List.getLast?_append]; rfl
            simp only [List.reverse_nil] at hc
            rw [this] at hc
            cases hc; exact hqs
          · have : (q :: (value ++ q :: (d :: u).reverse)).getLast? = some d := by
              rw [show q :: (value ++ q :: (d :: u).reverse) = (q :: (value ++ q :: u.reverse)) ++ [d] by simp, List.getLast?_append]; rfl
            rw [this] at hc
            cases hc; exact hd
      have := trim_eq hl hT hb
      rw [← this, htl]
      simp
    · intro h
      exact ht (by rw [htl]; exact List.mem_append_left _ h)
  rw [hw]
  unfold unquote
  simp only
  rw [if_pos hq, if_pos (by simp), last_quote hwq]
  have := trim_eq (a := []) (b := []) (by intro c hc; cases hc) hv (by intro c hc; cases hc)
  simpa using this

theorem bare_row (st : Theme × Bytes) {r : Row} (h : r.Fine) : bare st r.text = stepRow st r := by
  cases r with
  | note s =>
    obtain ⟨a, b, rfl, ha, hb⟩ := h
    show bare st (a ++ b) = st
    have hd : (a ++ b).dropWhile isSpace = b := by
      rcases hb with rfl | hb
      · rw [List.append_nil]; exact (span_all ha).2
      · cases b with
        | nil => cases hb
        | cons c r =>
          cases hb
          exact (span_stop ha (by decide)).2
    unfold bare
    simp only [hd]
    rw [if_pos hb]
  | «section» name gap tail =>
    obtain ⟨h1, h2, h3⟩ := h
    have := bare_key st (indent := []) (more := tail) (by intro c hc; cases hc) h1 h3
    rw [if_pos rfl, if_neg h2] at this
    exact this
  | marker gap lead value tail =>
    obtain ⟨h1, h2, h3, h4⟩ := h
    have := bare_key st (indent := []) (key := b!"list_marker") (more := lead ++ value ++ tail) (by intro c hc; cases hc) (by unfold Name Trimmed; decide) h1
    rw [if_pos rfl, if_pos rfl, trim_eq h2 h3 h4] at this
    simp only [Row.text, stepRow]
    rw [← this]
    simp
  | entry indent key gap lead quote value tail =>
    obtain ⟨h1, h2, h3, h4, h5, h6, h7⟩ := h
    cases quote with
    | none =>
      obtain ⟨h7, h8, h9⟩ := h7
      have := bare_key st (more := lead ++ value ++ tail) h2 h3 h4
      rw [if_neg h1, trim_eq h5 h6 h9, unquote_plain h7 h8, if_neg h6.1] at this
      simp only [Row.text, stepRow]
      rw [← this]
      simp
    | some q =>
      obtain ⟨h7, h8⟩ := h7
      have := bare_key st (more := lead ++ [q] ++ value ++ [q] ++ tail) h2 h3 h4
      rw [if_neg h1, unquote_quoted h7 h5 h6 h8, if_neg h6.1] at this
      simp only [Row.text, stepRow]
      rw [← this]
      simp

theorem lines_rows : ∀ (rows : List (Row × Bool)) (st : Theme × Bytes), (∀ r ∈ rows, r.1.Good) → (fgets [] (file rows)).foldl line st = (rows.map Prod.fst).foldl stepRow st
  | [], st, _ => rfl
  | r :: rows, st, h => by
    obtain ⟨h1, h2, h3⟩ := h r (List.mem_cons_self ..)
    have ih := fun st => lines_rows rows st fun r hr => h r (List.mem_cons_of_mem _ hr)
    have hn : c!"\n" ∉ r.1.text := fun hm => (h3 _ hm).2.2 rfl
    have e : fgets [] (file (r :: rows)) = (r.1.text ++ if r.2 then b!"\r\n" else b!"\n") :: fgets [] (file rows) := by
      unfold file
      rw [List.flatMap_cons]
      cases r.2 with
      | false =>
        have := fgets_line r.1.text [] (file rows) hn (by simp only [List.length_nil]; omega)
        exact this
      | true =>
        have := fgets_line (r.1.text ++ b!"\r") [] (file rows) (by simp only [List.mem_append, not_or]; exact ⟨hn, by decide⟩) (by simp only [List.length_append, List.length_cons, List.length_nil]; omega)
        simp only [List.nil_append, List.append_assoc, List.cons_append] at this ⊢
        exact this
    rw [e, List.foldl_cons, List.map_cons, List.foldl_cons, line_bare st h3 (by cases r.2 <;> simp), bare_row st h1, ih]

/-! ### Parts -/

/-- The meaning of an entry. -/
def apply (t : Theme) (e : Bytes × Bytes × Bytes) : Theme := if e.1 = b!"list_marker" ∧ e.2.1 = [] then { t with listMarker := some e.2.2 } else assign t e.1 e.2.1 e.2.2

/-- What is known of keys and values of a file. -/
def Keys (ks : List (Bytes × Bytes)) : Prop := ∀ k ∈ ks, k.1 ≠ [] ∧ k.1.length ≤ 63 ∧ k.2 ≠ []

/-- What is known of parts of a file. -/
def Fine : Part → Prop
  | .section name ks => name ≠ b!"list_marker" ∧ name.length ≤ 63 ∧ Keys ks
  | .marker v => v ≠ []

theorem group_fine : ∀ {rows : List Row} {x}, (∀ r ∈ rows, r.Fine) → group rows = some x → Keys x.1 ∧ ∀ p ∈ x.2, Fine p
  | [], x, _, h => by
    cases h
    exact ⟨(by intro k hk; cases hk), by simp⟩
  | r :: rows, x, hf, h => by
    have hr := hf r (List.mem_cons_self ..)
    have ih := fun y hy => group_fine (rows := rows) (x := y) (fun r hr => hf r (List.mem_cons_of_mem _ hr)) hy
    cases r with
    | note s => exact ih x h
    | «section» name gap tail =>
      simp only [group, Option.map_eq_some_iff] at h
      obtain ⟨y, hy, rfl⟩ := h
      refine ⟨(by intro k hk; cases hk), ?_⟩
      intro p hp
      rcases List.mem_cons.1 hp with rfl | hp
      · exact ⟨hr.2.1, hr.1.2.1, (ih y hy).1⟩
      · exact (ih y hy).2 p hp
    | entry indent key gap lead quote value tail =>
      simp only [group, Option.map_eq_some_iff] at h
      obtain ⟨y, hy, rfl⟩ := h
      refine ⟨?_, (ih y hy).2⟩
      intro k hk
      rcases List.mem_cons.1 hk with rfl | hk
      · exact ⟨hr.2.2.1.1.1, hr.2.2.1.2.1, hr.2.2.2.2.2.1.1⟩
      · exact (ih y hy).1 k hk
    | marker gap lead value tail =>
      simp only [group, Option.bind_eq_some_iff] at h
      obtain ⟨y, hy, h⟩ := h
      by_cases h0 : y.1 = []
      · rw [if_pos h0] at h
        cases h
        refine ⟨(by intro k hk; cases hk), ?_⟩
        intro p hp
        rcases List.mem_cons.1 hp with rfl | hp
        · exact hr.2.2.1.1
        · exact (ih y hy).2 p hp
      · rw [if_neg h0] at h; cases h

theorem apply_entry {t : Theme} {sec k v : Bytes} (hk : k ≠ []) : apply t (sec, k, v) = assign t sec k v := by
  unfold apply
  rw [if_neg]
  exact fun h => hk h.2

theorem group_fold : ∀ {rows : List Row} {x} (t : Theme) (sec : Bytes), (∀ r ∈ rows, r.Fine) → group rows = some x →
    (rows.foldl stepRow (t, sec)).1 = (x.1.map (fun k => (sec, k.1, k.2)) ++ entries x.2).foldl apply t
  | [], x, t, sec, _, h => by cases h; rfl
  | r :: rows, x, t, sec, hf, h => by
    have hr := hf r (List.mem_cons_self ..)
    have ih := fun y t sec hy => group_fold (rows := rows) (x := y) t sec (fun r hr => hf r (List.mem_cons_of_mem _ hr)) hy
    rw [List.foldl_cons]
    cases r with
    | note s => exact ih x t sec h
    | «section» name gap tail =>
      simp only [group, Option.map_eq_some_iff] at h
      obtain ⟨y, hy, rfl⟩ := h
      exact ih y t name hy
    | entry indent key gap lead quote value tail =>
      simp only [group, Option.map_eq_some_iff] at h
      obtain ⟨y, hy, rfl⟩ := h
      rw [List.map_cons, List.cons_append, List.foldl_cons, apply_entry hr.2.2.1.1.1]
      exact ih y _ sec hy
    | marker gap lead value tail =>
      simp only [group, Option.bind_eq_some_iff] at h
      obtain ⟨y, hy, h⟩ := h
      by_cases h0 : y.1 = []
      · rw [if_pos h0] at h
        cases h
        have := ih y { t with listMarker := some value } b!"list_marker" hy
        rw [h0] at this
        exact this
      · rw [if_neg h0] at h; cases h

theorem lines_parts {rows : List (Row × Bool)} {ps : List Part} (h : ∀ r ∈ rows, r.1.Good) (hp : parts (rows.map Prod.fst) = some ps) : lines (file rows) = (entries ps).foldl apply {} ∧ ∀ p ∈ ps, Fine p := by
  have hf : ∀ r ∈ rows.map Prod.fst, r.Fine := by
    intro r hr
    obtain ⟨x, hx, rfl⟩ := List.mem_map.1 hr
    exact (h x hx).1
  unfold parts at hp
  rw [Option.bind_eq_some_iff] at hp
  obtain ⟨y, hy, hp⟩ := hp
  by_cases h0 : y.1 = []
  · rw [if_pos h0] at hp
    cases hp
    refine ⟨?_, (group_fine hf hy).2⟩
    unfold lines
    rw [lines_rows rows _ h, group_fold _ _ hf hy, h0]
    rfl
  · rw [if_neg h0] at hp; cases hp

/-! ### Events -/

theorem event_keys {sec : Bytes} (hs : sec ≠ b!"list_marker") : ∀ (ks : List (Bytes × Bytes)) (t : Theme) (k2 : Option Bytes), Keys ks →
    ∃ k2', (ks.flatMap fun k => [Event.scalar k.1, .scalar k.2]).foldl event ⟨t, some sec, k2, false, 2⟩ = ⟨(ks.map fun k => (sec, k.1, k.2)).foldl apply t, some sec, k2', false, 2⟩
  | [], t, k2, _ => ⟨k2, rfl⟩
  | k :: ks, t, k2, h => by
    obtain ⟨h1, h2, h3⟩ := h k (List.mem_cons_self ..)
    obtain ⟨k2', ih⟩ := event_keys hs ks (assign t sec k.1 k.2) (some k.1) fun x hx => h x (List.mem_cons_of_mem _ hx)
    refine ⟨k2', ?_⟩
    rw [List.flatMap_cons, List.cons_append, List.cons_append, List.nil_append, List.foldl_cons, List.foldl_cons, List.map_cons, List.foldl_cons, apply_entry h1, ← ih]
    congr 1
    simp [event, List.take_of_length_le h2, h3]

theorem event_part {p : Part} (hp : Fine p) (t : Theme) (k1 k2 : Option Bytes) : ∃ k1' k2', p.yaml.foldl event ⟨t, k1, k2, false, 1⟩ = ⟨(entries [p]).foldl apply t, k1', k2', false, 1⟩ := by
  cases p with
  | marker v =>
    refine ⟨some b!"list_marker", none, ?_⟩
    have : v ≠ [] := hp
    simp [Part.yaml, event, entries, apply, this]
  | «section» name ks =>
    obtain ⟨h1, h2, h3⟩ := hp
    cases ks with
    | nil =>
      refine ⟨some name, none, ?_⟩
      simp [Part.yaml, event, entries, List.take_of_length_le h2]
    | cons k ks =>
      obtain ⟨k2', h⟩ := event_keys h1 (k :: ks) t none h3
      refine ⟨some name, none, ?_⟩
      have e : [Event.scalar name, .open].foldl event ⟨t, k1, k2, false, 1⟩ = ⟨t, some name, none, false, 2⟩ := by simp [event, List.take_of_length_le h2]
      unfold Part.yaml
      rw [List.foldl_append, List.foldl_append, e, h]
      simp [event, entries]

theorem event_parts : ∀ (ps : List Part) (t : Theme) (k1 k2 : Option Bytes), (∀ p ∈ ps, Fine p) → ∃ k1' k2', (ps.flatMap Part.yaml).foldl event ⟨t, k1, k2, false, 1⟩ = ⟨(entries ps).foldl apply t, k1', k2', false, 1⟩
  | [], t, k1, k2, _ => ⟨k1, k2, rfl⟩
  | p :: ps, t, k1, k2, h => by
    obtain ⟨a, b, h1⟩ := event_part (h p (List.mem_cons_self ..)) t k1 k2
    obtain ⟨c, d, h2⟩ := event_parts ps ((entries [p]).foldl apply t) a b fun x hx => h x (List.mem_cons_of_mem _ hx)
    refine ⟨c, d, ?_⟩
    have e : entries (p :: ps) = entries [p] ++ entries ps := by cases p <;> simp [entries]
    rw [List.flatMap_cons, List.foldl_append, h1, h2, e, List.foldl_append]

theorem events_parts {ps : List Part} (h : ∀ p ∈ ps, Fine p) : ((yaml ps).foldl event {}).theme = (entries ps).foldl apply {} := by
  obtain ⟨a, b, h1⟩ := event_parts ps {} none none h
  unfold yaml
  rw [List.foldl_append, List.foldl_append]
  have e : [Event.open].foldl event {} = ⟨{}, none, none, false, 1⟩ := by simp [event]
  rw [e, h1]
  rfl

/-! ### Styles -/

theorem get_set (t : Theme) (f g : Field) (v : Option Bytes) : get (set t f v) g = if g = f then v else get t g := by
  cases f <;> cases g <;> simp [get, set]

theorem branch_some {l : List (Bytes × Bytes × Field)} {l1 l2 : Bytes} {f : Field} (h : branch l l1 l2 = some f) : (l1, l2, f) ∈ l := by
  unfold branch at h
  rw [Option.map_eq_some_iff] at h
  obtain ⟨r, hr, rfl⟩ := h
  have h1 := List.find?_some hr
  simp only [Bool.and_eq_true, decide_eq_true_eq] at h1
  obtain ⟨rfl, rfl⟩ := h1
  exact List.mem_of_find?_eq_some hr

theorem branch_colour {l1 l2 : Bytes} {f : Field} (h : (l1, l2, f) ∈ colours) : branch colours l1 l2 = some f := by
  have : ∀ r ∈ colours, branch colours r.1 r.2.1 = some r.2.2 := by decide +kernel
  exact this _ h

theorem branch_bold {l1 l2 : Bytes} {f : Field} (h : (l1, l2, f) ∈ bolds) : branch bolds l1 l2 = some f := by
  have : ∀ r ∈ bolds, branch bolds r.1 r.2.1 = some r.2.2 := by decide +kernel
  exact this _ h

theorem one_colour {x y : Bytes × Bytes × Field} (hx : x ∈ colours) (hy : y ∈ colours) (h : x.2.2 = y.2.2) : x = y := by
  have : ∀ r ∈ colours, ∀ s ∈ colours, r.2.2 = s.2.2 → r = s := by decide +kernel
  exact this _ hx _ hy h

theorem one_bold {x y : Bytes × Bytes × Field} (hx : x ∈ bolds) (hy : y ∈ bolds) (h : x.2.2 = y.2.2) : x = y := by
  have : ∀ r ∈ bolds, ∀ s ∈ bolds, r.2.2 = s.2.2 → r = s := by decide +kernel
  exact this _ hx _ hy h

theorem bold_key {x : Bytes × Bytes × Field} (hx : x ∈ bolds) : x.2.1 = b!"bold" ∧ branch colours x.1 x.2.1 = none := by
  have : ∀ r ∈ bolds, r.2.1 = b!"bold" ∧ branch colours r.1 r.2.1 = none := by decide +kernel
  exact this _ hx

theorem get_other (t : Theme) (c : List (Bytes × Bytes)) (m : Option Bytes) (f : Field) : get { t with classes := c } f = get t f ∧ get { t with listMarker := m } f = get t f := by
  cases f <;> exact ⟨rfl, rfl⟩

/-- What an entry makes of a style. -/
theorem get_assign (t : Theme) {sec key : Bytes} {f : Field} (hf : (sec, key, f) ∈ colours) (l1 l2 v : Bytes) :
    get (assign t l1 l2 v) f = if l1 = sec ∧ l2 = key then some v else if (l1, l2, f) ∈ bolds ∧ yes v = true then some (embolden (get t f)) else get t f := by
  unfold assign
  cases hc : branch colours l1 l2 with
  | some g =>
    simp only
    rw [get_set]
    have hg := branch_some hc
    by_cases e : f = g
    · subst e
      have := one_colour hg hf rfl
      simp only [Prod.mk.injEq] at this
      rw [if_pos rfl, if_pos ⟨this.1, this.2.1⟩]
    · rw [if_neg e, if_neg, if_neg]
      · rintro ⟨h, _⟩
        have := (bold_key h).2
        rw [hc] at this
        cases this
      · rintro ⟨rfl, rfl⟩
        rw [branch_colour hf] at hc
        cases hc
        exact e rfl
  | none =>
    simp only
    rw [if_neg (c := l1 = sec ∧ l2 = key) (by rintro ⟨rfl, rfl⟩; rw [branch_colour hf] at hc; cases hc)]
    cases hb : branch bolds l1 l2 with
    | some g =>
      simp only
      have hg := branch_some hb
      by_cases e : f = g
      · subst e
        by_cases hy : yes v = true
        · rw [if_pos hy, get_set, if_pos rfl, if_pos ⟨hg, hy⟩]
        · rw [if_neg hy, if_neg (fun h => hy h.2)]
      · have : ¬ ((l1, l2, f) ∈ bolds ∧ yes v = true) := by
          rintro ⟨h, _⟩
          rw [branch_bold h] at hb
          cases hb
          exact e rfl
        rw [if_neg this]
        split
        · rw [get_set, if_neg e]
        · rfl
    | none =>
      simp only
      rw [if_neg (c := (l1, l2, f) ∈ bolds ∧ yes v = true) (by rintro ⟨h, _⟩; rw [branch_bold h] at hb; cases hb)]
      split
      · exact (get_other _ _ none _).1
      · rfl

theorem get_apply (t : Theme) {sec key : Bytes} {f : Field} (hf : (sec, key, f) ∈ colours) (e : Bytes × Bytes × Bytes) :
    get (apply t e) f = if e.1 = sec ∧ e.2.1 = key then some e.2.2 else if (e.1, e.2.1, f) ∈ bolds ∧ yes e.2.2 = true then some (embolden (get t f)) else get t f := by
  unfold apply
  split
  · rename_i h
    rw [if_neg, if_neg, (get_other t t.classes _ f).2]
    · rintro ⟨hm, _⟩
      rw [h.1, h.2] at hm
      exact absurd (bold_key hm).1 (by simp)
    · rintro ⟨rfl, rfl⟩
      rw [h.1, h.2] at hf
      have : ∀ r ∈ colours, r.2.1 ≠ [] := by decide +kernel
      exact this _ hf rfl
  · exact get_assign t hf ..

theorem says_snoc (es : List (Bytes × Bytes × Bytes)) (e : Bytes × Bytes × Bytes) (sec key : Bytes) : says (es ++ [e]) sec key = if e.1 = sec ∧ e.2.1 = key then some e.2.2 else says es sec key := by
  unfold says
  rw [List.reverse_append, List.reverse_singleton, List.singleton_append, List.find?_cons]
  by_cases h : e.1 = sec ∧ e.2.1 = key
  · rw [if_pos h]; simp [h.1, h.2]
  · rw [if_neg h]
    have : (decide (e.1 = sec) && decide (e.2.1 = key)) = false := by
      rw [Bool.and_eq_false_iff]
      by_cases h1 : e.1 = sec
      · right; simp; exact fun h2 => h ⟨h1, h2⟩
      · left; simp [h1]
    rw [this]

theorem says_some {es : List (Bytes × Bytes × Bytes)} {sec key v : Bytes} (h : says es sec key = some v) : (sec, key, v) ∈ es := by
  unfold says at h
  rw [Option.map_eq_some_iff] at h
  obtain ⟨e, he, rfl⟩ := h
  have h1 := List.find?_some he
  simp only [Bool.and_eq_true, decide_eq_true_eq] at h1
  obtain ⟨rfl, rfl⟩ := h1
  exact List.mem_reverse.1 (List.mem_of_find?_eq_some he)

theorem yes_affirms (v : Bytes) : yes v = affirms v := by
  unfold yes affirms
  rw [Bool.eq_iff_iff]
  simp [or_assoc]

/-- Styles with a key for bold. -/
theorem style_fold {sec key : Bytes} {f : Field} (hf : (sec, key, f) ∈ colours) (hb : (sec, b!"bold", f) ∈ bolds) : ∀ (l : List (Bytes × Bytes × Bytes)), (∀ e ∈ l, e.2.2 ≠ []) →
    (l.reverse.map fun e => (e.1, e.2.1)).Pairwise (· ≠ ·) → (∀ a v b, l.reverse = a ++ (sec, b!"bold", v) :: b → affirms v = true → says b sec key = none) →
    get (l.reverse.foldl apply {}) f = styled (says l.reverse sec key) ((says l.reverse sec b!"bold").any affirms)
  | [], _, _, _ => by cases f <;> rfl
  | e :: l, hv, hn, ho => by
    rw [List.reverse_cons] at *
    have hn' : (l.reverse.map fun e => (e.1, e.2.1)).Pairwise (· ≠ ·) := by
      rw [List.map_append] at hn
      exact (List.pairwise_append.1 hn).1
    have hnone : e.1 = sec → ∀ k, e.2.1 = k → says l.reverse sec k = none := by
      intro h1 k h2
      cases hs : says l.reverse sec k with
      | none => rfl
      | some v =>
        have hm := says_some hs
        rw [List.map_append] at hn
        refine absurd rfl ((List.pairwise_append.1 hn).2.2 (sec, k) (List.mem_map.2 ⟨_, hm, rfl⟩) (sec, k) ?_)
        simp [h1, h2]
    have hkb : key ≠ b!"bold" := by
      have : ∀ r ∈ colours, r.2.1 ≠ b!"bold" := by decide +kernel
      exact this _ hf
    have hbold : ∀ l1 l2, (l1, l2, f) ∈ bolds ↔ l1 = sec ∧ l2 = b!"bold" := by
      intro l1 l2
      refine ⟨fun h => ?_, by rintro ⟨rfl, rfl⟩; exact hb⟩
      have := one_bold h hb rfl
      simp only [Prod.mk.injEq] at this
      exact ⟨this.1, this.2.1⟩
    have ih := style_fold hf hb l (fun x hx => hv x (List.mem_cons_of_mem _ hx)) hn' (by
      intro a v b h1 h2
      have := ho a v (b ++ [e]) (by rw [h1]; simp) h2
      rw [says_snoc] at this
      split at this
      · cases this
      · exact this)
    rw [List.foldl_append, List.foldl_cons, List.foldl_nil, get_apply _ hf, ih, says_snoc, says_snoc]
    by_cases h1 : e.1 = sec ∧ e.2.1 = key
    · rw [if_pos h1, if_pos h1, if_neg (fun h => hkb (h1.2.symm.trans h.2))]
      have : (says l.reverse sec b!"bold").any affirms = false := by
        cases hs : says l.reverse sec b!"bold" with
        | none => rfl
        | some v =>
          cases hy : affirms v with
          | false => simp [hy]
          | true =>
            obtain ⟨a, b, hab⟩ := List.append_of_mem (says_some hs)
            have := ho a v (b ++ [e]) (by rw [hab]; simp) hy
            rw [says_snoc, if_pos h1] at this
            cases this
      rw [this]
      rfl
    · rw [if_neg h1, if_neg h1]
      by_cases h2 : e.1 = sec ∧ e.2.1 = b!"bold"
      · rw [if_pos h2, hnone h2.1 _ h2.2]
        by_cases hy : yes e.2.2 = true
        · rw [if_pos ⟨(hbold _ _).2 h2, hy⟩]
          rw [yes_affirms] at hy
          simp only [Option.any_none, Option.any_some, hy]
          cases hs : says l.reverse sec key with
          | none => rfl
          | some c =>
            have := hv _ (List.mem_cons_of_mem _ (List.mem_reverse.1 (says_some hs)))
            simp only at this
            cases c with
            | nil => exact absurd rfl this
            | cons x c => rfl
        · rw [if_neg (fun h => hy h.2)]
          rw [yes_affirms] at hy
          simp only [Option.any_none, Option.any_some, hy]
      · rw [if_neg h2, if_neg (fun h => h2 ((hbold _ _).1 h.1))]

/-- Styles without one. -/
theorem plain_fold {sec key : Bytes} {f : Field} (hf : (sec, key, f) ∈ colours) (hb : ∀ r ∈ bolds, r.2.2 ≠ f) : ∀ (l : List (Bytes × Bytes × Bytes)), get (l.reverse.foldl apply {}) f = says l.reverse sec key
  | [] => by cases f <;> rfl
  | e :: l => by
    rw [List.reverse_cons, List.foldl_append, List.foldl_cons, List.foldl_nil, get_apply _ hf, plain_fold hf hb l, says_snoc]
    split
    · rfl
    · rw [if_neg]
      exact fun h => hb _ h.1 rfl

theorem assign_marker (t : Theme) (l1 l2 v : Bytes) : (assign t l1 l2 v).listMarker = t.listMarker := by
  unfold assign
  have hs : ∀ f v, (set t f v).listMarker = t.listMarker := by intro f v; cases f <;> rfl
  cases branch colours l1 l2 with
  | some f => exact hs ..
  | none =>
    cases branch bolds l1 l2 with
    | some f =>
      simp only
      split
      · exact hs ..
      · rfl
    | none =>
      simp only
      split <;> rfl

theorem marker_fold : ∀ (l : List (Bytes × Bytes × Bytes)), (l.reverse.foldl apply {}).listMarker = says l.reverse b!"list_marker" []
  | [] => rfl
  | e :: l => by
    rw [List.reverse_cons, List.foldl_append, List.foldl_cons, List.foldl_nil, says_snoc, ← marker_fold l]
    unfold apply
    split
    · rfl
    · exact assign_marker ..

theorem find_setClass (w v x : Bytes) : ∀ (l : List (Bytes × Bytes)), ((setClass l w v).find? fun e => e.1 = x).map Prod.snd = if x = w then some v else (l.find? fun e => e.1 = x).map Prod.snd
  | [] => by
    by_cases h : x = w
    · simp [setClass, h]
    · simp [setClass, h, Ne.symm h]
  | e :: l => by
    unfold setClass
    by_cases h1 : e.1 = w
    · rw [if_pos h1]
      by_cases h : x = w
      · simp [h]
      · simp [h, h1, Ne.symm h]
    · rw [if_neg h1, List.find?_cons, List.find?_cons]
      by_cases h2 : e.1 = x
      · have : ¬ x = w := fun h => h1 (h2.trans h)
        simp [h2, this]
      · simp only [h2, decide_false]
        exact find_setClass w v x l

theorem assign_classes (t : Theme) (l1 l2 v : Bytes) : (assign t l1 l2 v).classes = if l1 = b!"span_classes" ∧ l2 ≠ [] then setClass t.classes l2 v else t.classes := by
  unfold assign
  have hs : ∀ f v, (set t f v).classes = t.classes := by intro f v; cases f <;> rfl
  have hc : ∀ r ∈ colours, r.1 ≠ b!"span_classes" := by decide +kernel
  have hb : ∀ r ∈ bolds, r.1 ≠ b!"span_classes" := by decide +kernel
  cases h : branch colours l1 l2 with
  | some f =>
    simp only
    rw [hs, if_neg (fun h' => hc _ (branch_some h) h'.1)]
  | none =>
    simp only
    cases h : branch bolds l1 l2 with
    | some f =>
      simp only
      rw [if_neg (c := l1 = b!"span_classes" ∧ l2 ≠ []) (fun h' => hb _ (branch_some h) h'.1)]
      split
      · exact hs ..
      · rfl
    | none =>
      simp only
      split <;> rfl

theorem class_fold (w : Bytes) (hw : w ≠ []) : ∀ (l : List (Bytes × Bytes × Bytes)), ((l.reverse.foldl apply {}).classes.find? fun e => e.1 = w).map Prod.snd = says l.reverse b!"span_classes" w
  | [] => rfl
  | e :: l => by
    rw [List.reverse_cons, List.foldl_append, List.foldl_cons, List.foldl_nil, says_snoc, ← class_fold w hw l]
    unfold apply
    split
    · rename_i h
      rw [if_neg]
      rintro ⟨h1, _⟩
      rw [h.1] at h1
      revert h1; decide
    · rw [assign_classes]
      by_cases h : e.1 = b!"span_classes" ∧ e.2.1 = w
      · rw [if_pos h, if_pos ⟨h.1, h.2 ▸ hw⟩, find_setClass, if_pos h.2.symm]
      · rw [if_neg h]
        split
        · rename_i h'
          rw [find_setClass, if_neg (fun e' => h ⟨h'.1, e'.symm⟩)]
        · rfl

end Verif.ThemeFile
