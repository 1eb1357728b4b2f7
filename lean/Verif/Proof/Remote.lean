import Verif.Spec.Remote
import Verif.Proof.Embed

namespace Verif.Remote
open Embed (find find_some find_none)
open Spec (Sep Gap Near Str str Member Quiet tail object value Item rest array directory entryOf)

theorem quoted_eq (k : Bytes) : quoted k = str k := by simp [quoted, str]

theorem str_ne (k : Bytes) : str k ≠ [] := by simp [str]

/-! ### Infixes -/

theorem infix_split {w a b : Bytes} {c : Byte} (hw : c ∉ w) (h : w <:+: a ++ c :: b) : w <:+: a ∨ w <:+: b := by
  obtain ⟨p, q, e⟩ := h
  rw [List.append_assoc] at e
  rcases List.append_eq_append_iff.1 e with ⟨x, h1, h2⟩ | ⟨x, h1, h2⟩
  · rcases List.append_eq_append_iff.1 h2 with ⟨y, h3, h4⟩ | ⟨y, h3, h4⟩
    · left; exact ⟨p, y, by rw [h1, h3, List.append_assoc]⟩
    · cases y with
      | nil => left; exact ⟨p, [], by rw [h1, h3]; simp⟩
      | cons y0 y =>
        simp only [List.cons_append, List.cons.injEq] at h4
        exact absurd (by rw [h3, h4.1]; simp) hw
  · cases x with
    | nil =>
      rw [List.nil_append] at h2
      cases w with
      | nil => exact .inl (List.nil_infix)
      | cons w0 w =>
        simp only [List.cons_append, List.cons.injEq] at h2
        exact absurd (by rw [h2.1]; simp) hw
    | cons x0 x =>
      simp only [List.cons_append, List.cons.injEq] at h2
      right; exact ⟨x, q, by rw [h2.2, List.append_assoc]⟩

theorem not_gap {w g : Bytes} (hw : w ≠ []) (h : ∀ c ∈ g, c ∉ w) : ¬ w <:+: g := by
  intro hi
  cases w with
  | nil => exact hw rfl
  | cons c w => exact h c (hi.subset (List.mem_cons_self ..)) (List.mem_cons_self ..)

theorem not_front {w g b : Bytes} (hw : w ≠ []) (h : ∀ c ∈ g, c ∉ w) (hb : ¬ w <:+: b) : ¬ w <:+: g ++ b := by
  induction g with
  | nil => exact hb
  | cons c g ih =>
    intro hi
    rcases infix_split (a := []) (h c (List.mem_cons_self ..)) (by simpa using hi) with h1 | h1
    · exact hw (List.infix_nil.1 h1)
    · exact ih (fun x hx => h x (List.mem_cons_of_mem _ hx)) h1

theorem not_back {w g a : Bytes} (hw : w ≠ []) (h : ∀ c ∈ g, c ∉ w) (ha : ¬ w <:+: a) : ¬ w <:+: a ++ g := by
  cases g with
  | nil => simpa using ha
  | cons c g =>
    intro hi
    rcases infix_split (h c (List.mem_cons_self ..)) hi with h1 | h1
    · exact ha h1
    · exact not_gap hw (fun x hx => h x (List.mem_cons_of_mem _ hx)) h1

theorem not_mid {w a b : Bytes} {c : Byte} (hc : c ∉ w) (ha : ¬ w <:+: a) (hb : ¬ w <:+: b) : ¬ w <:+: a ++ c :: b := fun h =>
  (infix_split hc h).elim ha hb

/-- What `strstr` passes by. -/
theorem find_append {w A R : Bytes} {c : Byte} (hc : c ∉ w) (hA : ¬ w <:+: A) : find w (A ++ c :: R) = (find w (c :: R)).map fun p => (A ++ p.1, p.2) := by
  induction A with
  | nil => simp
  | cons x A ih =>
    have hn : ¬ w <+: x :: A ++ c :: R := by
      rintro ⟨q, e⟩
      rcases List.append_eq_append_iff.1 e with ⟨y, h1, h2⟩ | ⟨y, h1, h2⟩
      · exact hA ⟨[], y, by rw [h1]; rfl⟩
      · cases y with
        | nil => exact hA ⟨[], [], by rw [h1]; simp⟩
        | cons y0 y =>
          simp only [List.cons_append, List.cons.injEq] at h2
          exact hc (by rw [h1, h2.1]; simp)
    rw [List.cons_append] at hn ⊢
    rw [find, if_neg hn, ih (fun h => hA (h.trans (List.suffix_cons ..).isInfix))]
    cases find w (c :: R) <;> simp

theorem find_gap {w g R : Bytes} {d : Byte} (h : ∀ c ∈ g, c ≠ d) : find (d :: w) (g ++ d :: w ++ R) = some (g, R) := by
  induction g with
  | nil =>
    simp only [List.nil_append, List.cons_append]
    rw [find, if_pos (by rw [← List.cons_append]; exact List.prefix_append ..)]
    simp
  | cons c g ih =>
    have hn : ¬ d :: w <+: c :: (g ++ d :: w ++ R) := by
      rintro ⟨q, e⟩
      simp only [List.cons_append, List.cons.injEq] at e
      exact h c (List.mem_cons_self ..) e.1.symm
    simp only [List.cons_append] at ih hn ⊢
    rw [find, if_neg hn, ih (fun x hx => h x (List.mem_cons_of_mem _ hx))]
    rfl

/-! ### Members -/

theorem sep_not {k : Bytes} (hk : ∀ c ∈ k, isAlpha c = true) {c : Byte} (hc : Sep c) : c ∉ str k := by
  simp only [str, List.mem_append, List.mem_singleton, not_or]
  refine ⟨⟨hc.1, fun h => ?_⟩, hc.1⟩
  exact absurd (hk c h) (by rw [hc.2]; simp)

theorem gap_sep {g : Bytes} (h : Gap g) : ∀ c ∈ g, Sep c := by
  intro c hc
  rcases h c hc with rfl | rfl | rfl | rfl <;> exact ⟨by decide, by decide⟩

theorem near_gap {g : Bytes} (h : Near g) : Gap g := fun c hc => (h c hc).elim .inl fun h => .inr (.inl h)

theorem alpha_not {k : Bytes} (hk : ∀ c ∈ k, isAlpha c = true) : c!"\"" ∉ k := fun h => absurd (hk _ h) (by decide)

theorem key_no {k k' : Bytes} (hk : ∀ c ∈ k, isAlpha c = true) (hk' : ∀ c ∈ k', isAlpha c = true) (h : k ≠ k') : ¬ str k <:+: str k' := by
  rintro ⟨p, s, e⟩
  have n1 := alpha_not hk
  have n2 := alpha_not hk'
  have hc := congrArg (List.count c!"\"") e
  simp only [str, List.count_append, List.count_eq_zero.2 n1, List.count_eq_zero.2 n2, List.count_singleton_self] at hc
  cases p with
  | nil =>
    simp only [str, List.nil_append, List.singleton_append, List.cons_append, List.cons.injEq, List.append_assoc, true_and] at e
    have t := congrArg (List.takeWhile (· != c!"\"")) e
    rw [List.takeWhile_append_of_pos (by intro c hc; simpa using fun e' => n1 (by rw [← e']; exact hc)),
      List.takeWhile_append_of_pos (by intro c hc; simpa using fun e' => n2 (by rw [← e']; exact hc))] at t
    simp at t
    exact h t
  | cons p0 p =>
    simp only [str, List.cons_append, List.nil_append, List.cons.injEq] at e
    rw [e.1, List.count_cons_self] at hc
    omega

theorem member_no {k : Bytes} (hk : ∀ c ∈ k, isAlpha c = true) {m : Member} (hm : m.Ok) (hq : Quiet k m) (h : m.key ≠ k) : ¬ str k <:+: m.text := by
  have hs := fun {c} hc => sep_not hk (c := c) hc
  unfold Member.text
  refine not_back (str_ne k) (fun c hc => hs (gap_sep hm.gaps.2.2.2 c hc)) ?_
  have e : m.g1 ++ str m.key ++ m.g2 ++ b!":" ++ m.g3 ++ str m.val = (m.g1 ++ str m.key ++ m.g2) ++ c!":" :: (m.g3 ++ str m.val) := by simp
  rw [e]
  refine not_mid (hs ⟨by decide, by decide⟩) ?_ (not_front (str_ne k) (fun c hc => hs (gap_sep (near_gap hm.gaps.2.2.1) c hc)) hq)
  exact not_back (str_ne k) (fun c hc => hs (gap_sep hm.gaps.2.1 c hc))
    (not_front (str_ne k) (fun c hc => hs (gap_sep hm.gaps.1 c hc)) (key_no hk hm.key (fun e => h e.symm)))

theorem rawStr_str {v : Bytes} (h : Str v) (R : Bytes) : rawStr (v ++ c!"\"" :: R) = some v := by
  induction h with
  | nil => rw [List.nil_append, rawStr.eq_def]; rfl
  | @plain c s h1 h2 _ ih => rw [List.cons_append, rawStr.eq_def]; simp only [h1, h2, if_false, ih]; rfl
  | @esc c s _ ih => rw [List.cons_append, List.cons_append, rawStr.eq_def]; simp [ih]

theorem strVal_near {g v R : Bytes} (hg : Near g) (hv : Str v) : strVal (g ++ str v ++ R) = some v := by
  unfold strVal
  have e : g ++ str v ++ R = g ++ (c!"\"" :: (v ++ c!"\"" :: R)) := by simp [str]
  rw [e, List.dropWhile_append_of_pos (by intro c hc; simpa using hg c hc)]
  have : ∀ r, List.dropWhile (fun c => decide (c = c!" ") || decide (c = c!"\t")) (c!"\"" :: r) = c!"\"" :: r := fun r => List.dropWhile_cons_of_neg (by decide)
  rw [this]
  simp [rawStr_str hv]

theorem find_colon {g R : Bytes} (hg : Gap g) : find b!":" (g ++ b!":" ++ R) = some (g, R) :=
  find_gap (w := []) (fun c hc => by rcases hg c hc with rfl | rfl | rfl | rfl <;> decide)

theorem find_str {g k R : Bytes} (hg : ∀ c ∈ g, Sep c) : find (quoted k) (g ++ str k ++ R) = some (g, R) := by
  have e : str k = c!"\"" :: (k ++ [c!"\""]) := by simp [str]
  rw [quoted_eq, e]
  exact find_gap fun c hc => (hg c hc).1

theorem extract_here {c : Byte} {m : Member} (hc : Sep c) (hm : m.Ok) (R : Bytes) : extract m.key (c :: m.text ++ R) = some m.val := by
  have e : c :: m.text ++ R = (c :: m.g1) ++ str m.key ++ (m.g2 ++ b!":" ++ (m.g3 ++ str m.val ++ (m.g4 ++ R))) := by simp [Member.text]
  unfold extract
  rw [e, find_str (by
    intro x hx
    rcases List.mem_cons.1 hx with rfl | hx
    · exact hc
    · exact gap_sep hm.gaps.1 x hx)]
  simp only [find_colon hm.gaps.2.1, strVal_near hm.gaps.2.2.1 hm.val]

theorem extract_skip {k A R : Bytes} {c : Byte} (hc : c ∉ str k) (hA : ¬ str k <:+: A) : extract k (A ++ c :: R) = extract k (c :: R) := by
  unfold extract
  rw [quoted_eq, find_append hc hA]
  cases find (str k) (c :: R) <;> rfl

theorem comma_sep : Sep c!"," := ⟨by decide, by decide⟩
theorem brace_sep : Sep c!"}" := ⟨by decide, by decide⟩
theorem open_sep : Sep c!"{" := ⟨by decide, by decide⟩

/-- The first byte behind a member. -/
theorem tail_cons (ms : List Member) (R : Bytes) : ∃ c T, tail ms ++ c!"}" :: R = c :: T ∧ Sep c := by
  cases ms with
  | nil => exact ⟨_, _, rfl, brace_sep⟩
  | cons m ms => exact ⟨_, _, rfl, comma_sep⟩

theorem value_cons (k : Bytes) (m : Member) (ms : List Member) : value k (m :: ms) = if m.key = k then some m.val else value k ms := by
  unfold value
  rw [List.find?_cons]
  by_cases h : m.key = k <;> simp [h]

theorem extract_step {k : Bytes} (hk : ∀ c ∈ k, isAlpha c = true) {c : Byte} (hc : Sep c) {m : Member} (hm : m.Ok) (hq : Quiet k m) (ms : List Member) (R : Bytes) :
    extract k (c :: m.text ++ (tail ms ++ c!"}" :: R)) = if m.key = k then some m.val else extract k (tail ms ++ c!"}" :: R) := by
  by_cases h : m.key = k
  · rw [if_pos h, ← h]
    exact extract_here hc hm _
  · rw [if_neg h]
    obtain ⟨d, T, e, hd⟩ := tail_cons ms R
    rw [e]
    exact extract_skip (sep_not hk hd) (not_front (g := [c]) (str_ne k) (fun x hx => by
      rw [List.mem_singleton.1 hx]; exact sep_not hk hc) (member_no hk hm hq h))

theorem extract_tail {k : Bytes} (hk : ∀ c ∈ k, isAlpha c = true) (ms : List Member) (hm : ∀ m ∈ ms, m.Ok ∧ Quiet k m) (R : Bytes) :
    extract k (tail ms ++ c!"}" :: R) = (value k ms).or (extract k (c!"}" :: R)) := by
  induction ms with
  | nil => rfl
  | cons m ms ih =>
    have e : tail (m :: ms) ++ c!"}" :: R = c!"," :: m.text ++ (tail ms ++ c!"}" :: R) := by simp [tail]
    rw [e, extract_step hk comma_sep (hm m (List.mem_cons_self ..)).1 (hm m (List.mem_cons_self ..)).2, value_cons,
      ih fun x hx => hm x (List.mem_cons_of_mem _ hx)]
    by_cases h : m.key = k <;> simp [h]

theorem extract_brace {k : Bytes} (hk : ∀ c ∈ k, isAlpha c = true) : extract k b!"}" = none := by
  unfold extract
  rw [quoted_eq, (find_none (str_ne k)).2 (not_gap (str_ne k) fun c hc => by rw [List.mem_singleton.1 hc]; exact sep_not hk brace_sep)]

theorem extract_object {k : Bytes} (hk : ∀ c ∈ k, isAlpha c = true) (ms : List Member) (hm : ∀ m ∈ ms, m.Ok ∧ Quiet k m) : extract k (object ms) = value k ms := by
  cases ms with
  | nil =>
    unfold extract object
    rw [quoted_eq, (find_none (str_ne k)).2 (not_gap (str_ne k) fun c hc => by
      rcases List.mem_cons.1 hc with rfl | hc
      · exact sep_not hk open_sep
      · rw [List.mem_singleton.1 hc]; exact sep_not hk brace_sep)]
    rfl
  | cons m ms =>
    have e : object (m :: ms) = c!"{" :: m.text ++ (tail ms ++ c!"}" :: []) := by simp [object]
    rw [e, extract_step hk open_sep (hm m (List.mem_cons_self ..)).1 (hm m (List.mem_cons_self ..)).2, value_cons,
      extract_tail hk ms fun x hx => hm x (List.mem_cons_of_mem _ hx)]
    rw [show c!"}" :: [] = b!"}" from rfl, extract_brace hk]
    simp

/-! ### Objects -/

theorem close_flat {X : Bytes} (h : c!"{" ∉ X ∧ c!"}" ∉ X) (R : Bytes) : close 1 (X ++ c!"}" :: R) = some (X ++ [c!"}"], R) := by
  induction X with
  | nil => rw [List.nil_append, close, if_neg (by decide), if_pos rfl, if_pos rfl]; rfl
  | cons c X ih =>
    simp only [List.mem_cons, not_or] at h
    rw [List.cons_append, close, if_neg (fun e => h.1.1 e.symm), if_neg (fun e => h.2.1 e.symm), ih ⟨h.1.2, h.2.2⟩]
    rfl

theorem sep_flat {g : Bytes} (h : Gap g) : c!"{" ∉ g ∧ c!"}" ∉ g :=
  ⟨fun hc => by rcases h _ hc with h | h | h | h <;> exact absurd h (by decide), fun hc => by rcases h _ hc with h | h | h | h <;> exact absurd h (by decide)⟩

theorem member_flat {m : Member} (hm : m.Ok) : c!"{" ∉ m.text ∧ c!"}" ∉ m.text := by
  obtain ⟨⟨g1, g2, g3, g4⟩, hk, -, hf⟩ := hm
  have k1 : c!"{" ∉ m.key := fun h => absurd (hk _ h) (by decide)
  have k2 : c!"}" ∉ m.key := fun h => absurd (hk _ h) (by decide)
  have a1 := sep_flat g1
  have a2 := sep_flat g2
  have a3 := sep_flat (near_gap g3)
  have a4 := sep_flat g4
  unfold Member.text str
  simp [k1, k2, a1, a2, a3, a4, hf]

theorem tail_flat {ms : List Member} (hm : ∀ m ∈ ms, m.Ok) : c!"{" ∉ tail ms ∧ c!"}" ∉ tail ms := by
  induction ms with
  | nil => simp [tail]
  | cons m ms ih =>
    have h1 := member_flat (hm m (List.mem_cons_self ..))
    have h2 := ih fun x hx => hm x (List.mem_cons_of_mem _ hx)
    have e : tail (m :: ms) = c!"," :: m.text ++ tail ms := by simp [tail]
    rw [e]
    simp [h1, h2]

theorem object_open (ms : List Member) : ∃ r, object ms = c!"{" :: r := by cases ms <;> exact ⟨_, rfl⟩

theorem close_object {ms : List Member} (hm : ∀ m ∈ ms, m.Ok) (R : Bytes) : close 0 (object ms ++ R) = some (object ms, R) := by
  cases ms with
  | nil =>
    have := close_flat (X := []) (by simp) R
    rw [List.nil_append, List.nil_append] at this
    simp only [object, List.cons_append, List.nil_append]
    rw [close, if_pos rfl, this]
    rfl
  | cons m ms =>
    have h1 := member_flat (hm m (List.mem_cons_self ..))
    have h2 := tail_flat fun x hx => hm x (List.mem_cons_of_mem _ hx)
    have e : object (m :: ms) ++ R = c!"{" :: ((m.text ++ tail ms) ++ c!"}" :: R) := by simp [object]
    rw [e, close, if_pos rfl, close_flat (by simp [h1, h2])]
    simp [object]

theorem entry_object {ms : List Member} (hm : ∀ m ∈ ms, m.Ok) (hq : ∀ k ∈ Spec.keys, ∀ m ∈ ms, Quiet k m) : entry (object ms) = entryOf ms := by
  have key : ∀ k ∈ Spec.keys, extract k (object ms) = value k ms := by
    intro k hk
    refine extract_object ?_ ms fun m h => ⟨hm m h, hq k hk m h⟩
    have : ∀ k ∈ Spec.keys, ∀ c ∈ k, isAlpha c = true := by decide
    exact this k hk
  unfold entry entryOf
  rw [key _ (by simp [Spec.keys]), key _ (by simp [Spec.keys]), key _ (by simp [Spec.keys]), key _ (by simp [Spec.keys]), key _ (by simp [Spec.keys]), key _ (by simp [Spec.keys])]
  cases value b!"id" ms <;> cases value b!"repo" ms <;> rfl

/-! ### Arrays -/

theorem gap_isSep {g : Bytes} (h : Gap g) : ∀ c ∈ g, isSep c = true := by
  intro c hc
  rcases h c hc with rfl | rfl | rfl | rfl <;> decide

theorem items_step {n : Nat} {l : List Entry} {g R : Bytes} {ms : List Member} (hg : ∀ c ∈ g, isSep c = true) (hm : ∀ m ∈ ms, m.Ok)
    (hq : ∀ k ∈ Spec.keys, ∀ m ∈ ms, Quiet k m) : items (n + 1) l (g ++ object ms ++ R) = items n ((entryOf ms).toList ++ l) R := by
  obtain ⟨r, e⟩ := object_open ms
  have h1 : (g ++ object ms ++ R).dropWhile isSep = object ms ++ R := by
    rw [List.append_assoc, List.dropWhile_append_of_pos hg, e, List.cons_append, List.dropWhile_cons_of_neg (by decide)]
  have h2 := close_object hm R
  rw [items, h1]
  rw [e, List.cons_append] at h2 ⊢
  simp only [if_true, h2]
  rw [← e, entry_object hm hq]
  cases entryOf ms <;> rfl

theorem items_end {n : Nat} {l : List Entry} {g R : Bytes} (hg : ∀ c ∈ g, isSep c = true) : items (n + 1) l (g ++ c!"]" :: R) = some l := by
  rw [items, List.dropWhile_append_of_pos hg, List.dropWhile_cons_of_neg (by decide)]
  simp

theorem items_rest {R : Bytes} (xs : List Item) : ∀ (n : Nat) (l : List Entry) (g : Bytes), Gap g → xs.length < n → (∀ x ∈ xs, x.Ok) →
    (∀ k ∈ Spec.keys, ∀ x ∈ xs, ∀ m ∈ x.members, Quiet k m) → items n l (g ++ rest xs ++ c!"]" :: R) = some ((xs.filterMap fun x => entryOf x.members).reverse ++ l) := by
  induction xs with
  | nil =>
    intro n l g hg hn _ _
    obtain ⟨n, rfl⟩ : ∃ k, n = k + 1 := ⟨n - 1, by simp at hn; omega⟩
    simpa [rest] using items_end (gap_isSep hg)
  | cons x xs ih =>
    intro n l g hg hn hx hq
    simp only [List.length_cons] at hn
    obtain ⟨n, rfl⟩ : ∃ k, n = k + 1 := ⟨n - 1, by omega⟩
    have h1 := hx x (List.mem_cons_self ..)
    have e : g ++ rest (x :: xs) ++ c!"]" :: R = (g ++ c!"," :: x.g1) ++ object x.members ++ (x.g2 ++ rest xs ++ c!"]" :: R) := by simp [rest, Item.text]
    rw [e, items_step (by
      intro c hc
      rcases List.mem_append.1 hc with hc | hc
      · exact gap_isSep hg c hc
      · rcases List.mem_cons.1 hc with rfl | hc
        · decide
        · exact gap_isSep h1.gaps.1 c hc) h1.members (fun k hk m hm => hq k hk x (List.mem_cons_self ..) m hm),
      ih n _ x.g2 h1.gaps.2 (by omega) (fun y hy => hx y (List.mem_cons_of_mem _ hy)) (fun k hk y hy => hq k hk y (List.mem_cons_of_mem _ hy))]
    cases he : entryOf x.members <;> simp [he]

theorem rest_length (xs : List Item) : xs.length ≤ (rest xs).length := by
  induction xs with
  | nil => simp
  | cons x xs ih =>
    have e : rest (x :: xs) = c!"," :: x.text ++ rest xs := by simp [rest]
    rw [e]
    simp; omega

theorem parse_directory {word before g1 g2 after : Bytes} {xs : List Item} (hw : ∀ c ∈ word, isAlpha c = true) (hb : ¬ str word <:+: before)
    (hl : before = [] ∨ ∃ b c, before = b ++ [c] ∧ Sep c) (h1 : Gap g1) (h2 : Gap g2) (hx : ∀ x ∈ xs, x.Ok) (hq : ∀ k ∈ Spec.keys, ∀ x ∈ xs, ∀ m ∈ x.members, Quiet k m) :
    parse word (directory word before g1 g2 after xs) = some (xs.filterMap fun x => entryOf x.members).reverse := by
  have hfind : ∀ R, ∃ a, find (quoted word) (before ++ (str word ++ R)) = some (a, R) := by
    intro R
    rcases hl with rfl | ⟨b, c, rfl, hc⟩
    · exact ⟨[], by simpa using find_str (g := []) (k := word) (R := R) (by simp)⟩
    · have := find_str (g := [c]) (k := word) (R := R) (by simpa using hc)
      rw [show (b ++ [c]) ++ (str word ++ R) = b ++ c :: (str word ++ R) by simp, quoted_eq,
        find_append (sep_not hw hc) (fun h => hb (h.trans (List.prefix_append ..).isInfix))]
      rw [quoted_eq] at this
      rw [show c :: (str word ++ R) = [c] ++ str word ++ R by simp, this]
      exact ⟨_, rfl⟩
  obtain ⟨a, ha⟩ := hfind (g1 ++ b!":" ++ g2 ++ b!"[" ++ array xs ++ b!"]" ++ after)
  have e : directory word before g1 g2 after xs = before ++ (str word ++ (g1 ++ b!":" ++ g2 ++ b!"[" ++ array xs ++ b!"]" ++ after)) := by simp [directory]
  have hb2 : find b!"[" (g1 ++ b!":" ++ g2 ++ b!"[" ++ array xs ++ b!"]" ++ after) = some (g1 ++ b!":" ++ g2, array xs ++ c!"]" :: after) := by
    have := find_gap (w := []) (d := c!"[") (g := g1 ++ b!":" ++ g2) (R := array xs ++ c!"]" :: after) (by
      intro c hc
      simp only [List.mem_append, List.mem_singleton] at hc
      rcases hc with (hc | rfl) | hc
      · rcases h1 c hc with rfl | rfl | rfl | rfl <;> decide
      · decide
      · rcases h2 c hc with rfl | rfl | rfl | rfl <;> decide)
    rw [← this]; simp
  unfold parse
  rw [e, ha]
  simp only [hb2]
  cases xs with
  | nil => simpa [array] using items_end (l := []) (g := []) (R := after) (by simp)
  | cons x xs =>
    have hx1 := hx x (List.mem_cons_self ..)
    have e : array (x :: xs) ++ c!"]" :: after = x.g1 ++ object x.members ++ (x.g2 ++ rest xs ++ c!"]" :: after) := by simp [array, Item.text]
    rw [e, items_step (gap_isSep hx1.gaps.1) hx1.members (fun k hk m hm => hq k hk x (List.mem_cons_self ..) m hm),
      items_rest xs _ _ x.g2 hx1.gaps.2 (by have := rest_length xs; simp; omega) (fun y hy => hx y (List.mem_cons_of_mem _ hy))
        (fun k hk y hy => hq k hk y (List.mem_cons_of_mem _ hy))]
    cases he : entryOf x.members <;> simp [he]

/-! ### Filters -/

theorem filter_skip {name A R : Bytes} {c : Byte} (n : Nat) (hc : c ∉ str b!"id") (hA : ¬ str b!"id" <:+: A) : filter name n (A ++ c :: R) = filter name n (c :: R) := by
  cases n with
  | zero => rfl
  | succ n =>
    rw [filter, filter, quoted_eq, find_append hc hA]
    cases find (str b!"id") (c :: R) <;> rfl

/-- A text in which no id is found. -/
theorem filter_none {name A : Bytes} (n : Nat) (hA : ¬ str b!"id" <:+: A) : filter name n A = none := by
  cases n with
  | zero => rfl
  | succ n => rw [filter, quoted_eq, (find_none (str_ne _)).2 hA]

theorem find_quote {v R : Bytes} (h : c!"\"" ∉ v) : find b!"\"" (v ++ c!"\"" :: R) = some (v, R) := by
  have := find_gap (w := []) (d := c!"\"") (g := v) (R := R) (fun c hc e => h (by rw [← e]; exact hc))
  rw [← this]; simp

theorem id_alpha : ∀ c ∈ b!"id", isAlpha c = true := by decide

/-- The member with the id. -/
theorem filter_here {name : Bytes} {c : Byte} {m : Member} (n : Nat) (hc : Sep c) (hm : m.Ok) (hk : m.key = b!"id") (hv : c!"\"" ∉ m.val) (R : Bytes) :
    filter name (n + 1) (c :: m.text ++ R) =
      if m.val = name then
        match extract b!"repo" (str b!"id" ++ m.g2 ++ b!":" ++ m.g3 ++ str m.val ++ m.g4 ++ R) with
        | some repo => some (repo, extract b!"path" (str b!"id" ++ m.g2 ++ b!":" ++ m.g3 ++ str m.val ++ m.g4 ++ R))
        | none => none
      else filter name n (c!"\"" :: m.g4 ++ R) := by
  have e : c :: m.text ++ R = (c :: m.g1) ++ str b!"id" ++ (m.g2 ++ b!":" ++ (m.g3 ++ str m.val ++ (m.g4 ++ R))) := by simp [Member.text, hk]
  have hd : (m.g3 ++ str m.val ++ (m.g4 ++ R)).dropWhile (fun c => decide (c = c!" ") || decide (c = c!"\t")) = c!"\"" :: (m.val ++ c!"\"" :: (m.g4 ++ R)) := by
    rw [List.append_assoc, List.dropWhile_append_of_pos (by intro c hc; simpa using hm.gaps.2.2.1 c hc)]
    rw [show str m.val ++ (m.g4 ++ R) = c!"\"" :: (m.val ++ c!"\"" :: (m.g4 ++ R)) by simp [str]]
    exact List.dropWhile_cons_of_neg (by decide)
  rw [filter, e, find_str (by
    intro x hx
    rcases List.mem_cons.1 hx with rfl | hx
    · exact hc
    · exact gap_sep hm.gaps.1 x hx)]
  simp only [find_colon hm.gaps.2.1, hd, if_true, find_quote hv, quoted_eq]
  by_cases h : m.val = name
  · rw [if_pos h, if_pos h]
    have : str b!"id" ++ (m.g2 ++ b!":" ++ (m.g3 ++ str m.val ++ (m.g4 ++ R))) = str b!"id" ++ m.g2 ++ b!":" ++ m.g3 ++ str m.val ++ m.g4 ++ R := by simp
    rw [this]
    cases extract b!"repo" (str b!"id" ++ m.g2 ++ b!":" ++ m.g3 ++ str m.val ++ m.g4 ++ R) <;> rfl
  · rw [if_neg h, if_neg h, List.cons_append]

/-- No id behind the first byte of an object. -/
theorem tail_no {k : Bytes} (hk : ∀ c ∈ k, isAlpha c = true) {ms : List Member} (hm : ∀ m ∈ ms, m.Ok ∧ Quiet k m ∧ m.key ≠ k) : ¬ str k <:+: tail ms := by
  induction ms with
  | nil => simp [tail, str]
  | cons m ms ih =>
    have h := hm m (List.mem_cons_self ..)
    have i := ih fun x hx => hm x (List.mem_cons_of_mem _ hx)
    have e : tail (m :: ms) = [c!","] ++ (m.text ++ tail ms) := by simp [tail]
    rw [e]
    refine not_front (str_ne k) (fun x hx => by rw [List.mem_singleton.1 hx]; exact sep_not hk comma_sep) ?_
    cases ms with
    | nil => simpa [tail] using member_no hk h.1 h.2.1 h.2.2
    | cons m' ms =>
      have e' : tail (m' :: ms) = c!"," :: (m'.text ++ tail ms) := by simp [tail]
      rw [e'] at i ⊢
      exact not_mid (sep_not hk comma_sep) (member_no hk h.1 h.2.1 h.2.2) fun hi => i (hi.trans (List.suffix_cons ..).isInfix)

/-- The members of an object up to one. -/
def front (a : List Member) (m : Member) : Bytes :=
  match a with
  | [] => m.text
  | x :: xs => x.text ++ tail xs ++ c!"," :: m.text

/-- An object as its first byte and its members, each behind one byte. -/
theorem filter_members {name : Bytes} (n : Nat) {c : Byte} (hc : Sep c) (a : List Member) (ha : ∀ m ∈ a, m.Ok ∧ Quiet b!"id" m ∧ m.key ≠ b!"id") (m : Member) (T : Bytes) :
    filter name n (c :: front a m ++ T) =
      filter name n ((if a = [] then c else c!",") :: m.text ++ T) := by
  cases a with
  | nil => rfl
  | cons x xs =>
    have h := ha x (List.mem_cons_self ..)
    have e : c :: (x.text ++ tail xs ++ c!"," :: m.text) ++ T = (c :: (x.text ++ tail xs)) ++ c!"," :: (m.text ++ T) := by simp
    simp only [front, e]
    rw [filter_skip n (sep_not id_alpha comma_sep)]
    · simp
    · refine not_front (g := [c]) (str_ne _) (fun y hy => by rw [List.mem_singleton.1 hy]; exact sep_not id_alpha hc) ?_
      have i := tail_no id_alpha fun y hy => ha y (List.mem_cons_of_mem _ hy)
      cases xs with
      | nil => simpa [tail] using member_no id_alpha h.1 h.2.1 h.2.2
      | cons x' xs =>
        have e' : tail (x' :: xs) = c!"," :: (x'.text ++ tail xs) := by simp [tail]
        rw [e'] at i ⊢
        exact not_mid (sep_not id_alpha comma_sep) (member_no id_alpha h.1 h.2.1 h.2.2) fun hi => i (hi.trans (List.suffix_cons ..).isInfix)

theorem object_split (a : List Member) (m : Member) (b : List Member) :
    object (a ++ m :: b) = c!"{" :: front a m ++ (tail b ++ [c!"}"]) := by
  cases a with
  | nil => simp [object, front]
  | cons x xs => simp [object, tail, front]

theorem sep_if {p : Prop} [Decidable p] {c d : Byte} (hc : Sep c) (hd : Sep d) : Sep (if p then c else d) := by split <;> assumption

/-- An object with an id. -/
theorem filter_item {name P R : Bytes} (n : Nat) (a : List Member) (m : Member) (b : List Member) (hP : ¬ str b!"id" <:+: P) (ha : ∀ m ∈ a, m.Ok ∧ Quiet b!"id" m ∧ m.key ≠ b!"id")
    (hb : ∀ m ∈ b, m.Ok ∧ Quiet b!"id" m ∧ m.key ≠ b!"id") (hm : m.Ok) (hk : m.key = b!"id") (hv : c!"\"" ∉ m.val) :
    filter name (n + 1) (P ++ (object (a ++ m :: b) ++ R)) =
      if m.val = name then
        match extract b!"repo" (str b!"id" ++ m.g2 ++ b!":" ++ m.g3 ++ str m.val ++ m.g4 ++ (tail b ++ c!"}" :: R)) with
        | some repo => some (repo, extract b!"path" (str b!"id" ++ m.g2 ++ b!":" ++ m.g3 ++ str m.val ++ m.g4 ++ (tail b ++ c!"}" :: R)))
        | none => none
      else filter name n (c!"}" :: R) := by
  have e : P ++ (object (a ++ m :: b) ++ R) = P ++ c!"{" :: (front a m ++ (tail b ++ c!"}" :: R)) := by
    rw [object_split]; simp
  rw [e, filter_skip _ (sep_not id_alpha open_sep) hP, ← List.cons_append, filter_members _ open_sep a ha m, filter_here n (sep_if open_sep comma_sep) hm hk hv]
  by_cases h : m.val = name
  · rw [if_pos h, if_pos h]
  · rw [if_neg h, if_neg h]
    have e2 : c!"\"" :: m.g4 ++ (tail b ++ c!"}" :: R) = (c!"\"" :: m.g4 ++ tail b) ++ c!"}" :: R := by simp
    rw [e2, filter_skip _ (sep_not id_alpha brace_sep)]
    have h0 : ¬ str b!"id" <:+: c!"\"" :: m.g4 := by
      have := not_back (a := [c!"\""]) (w := str b!"id") (str_ne _) (fun c hc => sep_not id_alpha (gap_sep hm.gaps.2.2.2 c hc)) (by
        intro h
        have := h.length_le
        simp [str] at this)
      simpa using this
    have i := tail_no id_alpha hb
    cases b with
    | nil => simpa [tail] using h0
    | cons x xs =>
      have e' : tail (x :: xs) = c!"," :: (x.text ++ tail xs) := by simp [tail]
      rw [e'] at i ⊢
      exact not_mid (sep_not id_alpha comma_sep) h0 fun hi => i (hi.trans (List.suffix_cons ..).isInfix)

/-- What is found behind the id. -/
theorem extract_after {k : Bytes} (hk : ∀ c ∈ k, isAlpha c = true) (hi : k ≠ b!"id") {m : Member} (hm : m.Ok) (hq : Quiet k m) {b : List Member} (hb : ∀ m ∈ b, m.Ok ∧ Quiet k m) (R : Bytes) :
    extract k (str b!"id" ++ m.g2 ++ b!":" ++ m.g3 ++ str m.val ++ m.g4 ++ (tail b ++ c!"}" :: R)) = (value k b).or (extract k (c!"}" :: R)) := by
  rw [← extract_tail hk b hb]
  obtain ⟨d, T, e, hd⟩ := tail_cons b R
  rw [e]
  refine extract_skip (sep_not hk hd) ?_
  have hs := fun {c} hc => sep_not hk (c := c) hc
  refine not_back (str_ne k) (fun c hc => hs (gap_sep hm.gaps.2.2.2 c hc)) ?_
  have e : str b!"id" ++ m.g2 ++ b!":" ++ m.g3 ++ str m.val = (str b!"id" ++ m.g2) ++ c!":" :: (m.g3 ++ str m.val) := by simp
  rw [e]
  refine not_mid (hs ⟨by decide, by decide⟩) ?_ (not_front (str_ne k) (fun c hc => hs (gap_sep (near_gap hm.gaps.2.2.1) c hc)) hq)
  exact not_back (str_ne k) (fun c hc => hs (gap_sep hm.gaps.2.1 c hc)) (key_no hk id_alpha hi)

theorem extract_none {k R : Bytes} (h : ¬ str k <:+: R) : extract k R = none := by
  unfold extract
  rw [quoted_eq, (find_none (str_ne k)).2 h]

/-- The array from a place between two objects on. -/
theorem filter_rest {name F repo : Bytes} {b : List Member} (x : Item) (ys : List Item) (hx : Spec.Named x name b) (hr : value b!"repo" b = some repo) (xs : List Item) :
    ∀ (n : Nat) (P : Bytes), ¬ str b!"id" <:+: P → xs.length < n → (∀ y ∈ xs, Gap y.g1 ∧ Gap y.g2 ∧ ∃ i c, Spec.Named y i c ∧ i ≠ name) → Gap x.g1 →
      filter name n (P ++ (array (xs ++ x :: ys) ++ F)) = some (repo, (value b!"path" b).or (extract b!"path" (c!"}" :: (x.g2 ++ (rest ys ++ F))))) := by
  induction xs with
  | nil =>
    intro n P hP hn _ hg
    obtain ⟨n, rfl⟩ : ∃ k, n = k + 1 := ⟨n - 1, by simp at hn; omega⟩
    obtain ⟨a, m, e, hk, hv, hq, ha, hm⟩ := hx
    have e1 : P ++ (array ([] ++ x :: ys) ++ F) = (P ++ x.g1) ++ (object (a ++ m :: b) ++ (x.g2 ++ (rest ys ++ F))) := by
      simp [array, Item.text, e]
    have hin : ∀ y ∈ a ++ b, y.Ok ∧ Quiet b!"id" y ∧ y.key ≠ b!"id" := fun y hy => ⟨(hm y (by
      rcases List.mem_append.1 hy with h | h <;> simp [h])).1, (hm y (by
      rcases List.mem_append.1 hy with h | h <;> simp [h])).2 _ (by simp), ha y hy⟩
    have hm' := hm m (by simp)
    rw [e1, filter_item n a m b (not_back (str_ne _) (fun c hc => sep_not id_alpha (gap_sep hg c hc)) hP) (fun y hy => hin y (by simp [hy]))
      (fun y hy => hin y (by simp [hy])) hm'.1 hk (by rw [hv]; exact hq), if_pos hv,
      extract_after (by decide) (by decide) hm'.1 (hm'.2 _ (by simp)) (fun y hy => ⟨(hm y (by simp [hy])).1, (hm y (by simp [hy])).2 _ (by simp)⟩), hr,
      extract_after (by decide) (by decide) hm'.1 (hm'.2 _ (by simp)) (fun y hy => ⟨(hm y (by simp [hy])).1, (hm y (by simp [hy])).2 _ (by simp)⟩)]
    rfl
  | cons y xs ih =>
    intro n P hP hn hy hg
    simp only [List.length_cons] at hn
    obtain ⟨n, rfl⟩ : ∃ k, n = k + 1 := ⟨n - 1, by omega⟩
    obtain ⟨g1, g2, i, c, ⟨a, m, e, hk, hv, hq, ha, hm⟩, hne⟩ := hy y (List.mem_cons_self ..)
    have hin : ∀ y ∈ a ++ c, y.Ok ∧ Quiet b!"id" y ∧ y.key ≠ b!"id" := fun y hy => ⟨(hm y (by
      rcases List.mem_append.1 hy with h | h <;> simp [h])).1, (hm y (by
      rcases List.mem_append.1 hy with h | h <;> simp [h])).2 _ (by simp), ha y hy⟩
    have hm' := hm m (by simp)
    have hrest : ∀ zs : List Item, zs ≠ [] → rest zs = c!"," :: array zs := by
      intro zs hz
      cases zs with
      | nil => exact absurd rfl hz
      | cons z zs => simp [rest, array]
    have e1 : P ++ (array (y :: xs ++ x :: ys) ++ F) = (P ++ y.g1) ++ (object (a ++ m :: c) ++ (y.g2 ++ (rest (xs ++ x :: ys) ++ F))) := by
      simp [array, Item.text, e]
    have e2 : c!"}" :: (y.g2 ++ (rest (xs ++ x :: ys) ++ F)) = (c!"}" :: y.g2 ++ [c!","]) ++ (array (xs ++ x :: ys) ++ F) := by
      rw [hrest _ (by simp)]; simp
    rw [e1, filter_item n a m c (not_back (str_ne _) (fun c hc => sep_not id_alpha (gap_sep g1 c hc)) hP) (fun y hy => hin y (by simp [hy]))
      (fun y hy => hin y (by simp [hy])) hm'.1 hk (by rw [hv]; exact hq), if_neg (by rw [hv]; exact hne), e2]
    refine ih n _ (not_gap (str_ne _) fun z hz => sep_not id_alpha ?_) (by omega) (fun z hz => hy z (List.mem_cons_of_mem _ hz)) hg
    simp only [List.mem_append, List.mem_cons, List.not_mem_nil, or_false] at hz
    rcases hz with (rfl | hz) | rfl
    · exact brace_sep
    · exact gap_sep g2 z hz
    · exact comma_sep

/-- All bytes get into the buffer, and there is room for one more. -/
theorem slurp_eq : ∀ (k cap : Nat) (buf input : Bytes), input.length < k → buf.length < cap → slurp k cap buf input = .val (buf ++ input)
  | 0, _, _, _, h, _ => by omega
  | k + 1, cap, buf, input, h, hc => by
    unfold slurp
    cases ht : input.take (cap - buf.length) with
    | nil =>
      have : input = [] := by
        cases input with
        | nil => rfl
        | cons c s =>
          obtain ⟨d, hd⟩ : ∃ d, cap - buf.length = d + 1 := ⟨cap - buf.length - 1, by omega⟩
          rw [hd] at ht; cases ht
      subst this
      simp [hc]
    | cons c s =>
      have e : c :: s ++ input.drop (cap - buf.length) = input := by rw [← ht]; exact List.take_append_drop ..
      have l := congrArg List.length ht
      have l2 := congrArg List.length e
      simp only [List.length_append, List.length_cons, List.length_take] at l l2
      simp only
      rw [slurp_eq k _ _ _ (by omega) (by simp only [List.length_append, List.length_cons]; split <;> omega), List.append_assoc, e]

end Verif.Remote
