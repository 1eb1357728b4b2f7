/-
Helper lemmas for C163 and C164: files in BibTeX, and bibliographies.
-/
import Verif.Model.Bibliography
import Verif.Spec.Bibliography
import Verif.Proof.Citations
import Verif.Proof.Aria

namespace Verif.Bibliography
open Spec
open Citations (Entry Citation white_iff span_iff)
open Citations.Spec (White Ends)
open Index (span_stop span_all span_split)
open Embed (find)

theorem blank_space {w : Bytes} (h : Blank w) : ∀ c ∈ w, isSpace c = true := fun c hc => (white_iff c).2 (h c hc)

theorem solid_ends {s z : Bytes} (h : Solid s) : Ends (fun c => isSpace c = true) (s ++ z) := by
  obtain ⟨⟨c, t, rfl, hc⟩, _⟩ := h
  intro d q e hd
  simp only [List.cons_append, List.cons.injEq] at e
  exact hc ((white_iff c).1 (e.1 ▸ hd))

theorem solid_ne {s : Bytes} (h : Solid s) : s ≠ [] := by
  obtain ⟨⟨c, t, rfl, _⟩, _⟩ := h
  simp

theorem trimEnd_solid {v w : Bytes} (hv : Solid v) (hw : Blank w) : trimEnd (v ++ w) = v := by
  unfold trimEnd
  rw [List.reverse_append]
  rw [(span_iff (p := isSpace) (a := w.reverse) (r := v.reverse) (fun c hc => blank_space hw c (List.mem_reverse.1 hc)) ?_).2, List.reverse_reverse]
  obtain ⟨_, t, c, rfl, hc⟩ := hv
  intro d q e hd
  simp only [List.reverse_append, List.reverse_cons, List.reverse_nil, List.nil_append, List.cons_append, List.cons.injEq] at e
  exact hc ((white_iff c).1 (e.1 ▸ hd))

theorem drop_blank {w s : Bytes} (hw : Blank w) (hs : Ends (fun c => isSpace c = true) s) : (w ++ s).dropWhile isSpace = s :=
  (span_iff (blank_space hw) hs).2

theorem close_braces {a : Bytes} (h : Braces a) : ∀ (d : Nat) (s : Bytes), close d (a ++ s) = (close d s).map fun p => (a ++ p.1, p.2) := by
  induction h with
  | nil => intro d s; simp
  | @char c a h1 h2 _ ih =>
    intro d s
    rw [List.cons_append, close.eq_def]
    simp only []
    rw [if_neg h1, if_neg h2, ih]
    cases close d s <;> rfl
  | @group a b _ _ iha ihb =>
    intro d s
    rw [show b!"{" ++ a ++ b!"}" ++ b ++ s = c!"{" :: (a ++ (c!"}" :: (b ++ s))) by simp, close.eq_def]
    simp only []
    rw [if_pos trivial, iha, close.eq_def]
    simp only []
    rw [if_neg (by decide), if_pos trivial, ihb]
    cases close d s <;> simp

theorem close_raw {raw : Bytes} (h : Braces raw) (r : Bytes) : close 0 (raw ++ b!"}" ++ r) = some (raw, r) := by
  rw [List.append_assoc, close_braces h]
  simp [close]

theorem removeBraces_says {raw v w : Bytes} (h : raw.filter (fun c => c != c!"{" && c != c!"}") = v ++ w) (hw : Blank w) (hv : v = [] ∧ w = [] ∨ Solid v) :
    removeBraces raw = ⟨v, 0⟩ := by
  unfold removeBraces
  simp only []
  rw [h]
  rcases hv with ⟨rfl, rfl⟩ | hv
  · rfl
  · have := span_iff (p := isSpace) (a := []) (r := v ++ w) (by simp) (solid_ends hv)
    rw [List.nil_append] at this
    rw [this.1, this.2, trimEnd_solid hv hw]
    rfl

/-- A text that begins with a comma or a closing brace. -/
def Closed (z : Bytes) : Prop := ∃ c t, z = c :: t ∧ (c = c!"," ∨ c = c!"}")

theorem field_of {f n v w z : Bytes} (h : Field f n v) (hw : Blank w) (hz : Closed z) :
    ∃ r, field (f ++ w ++ z) = some (n, ⟨v, 0⟩, r) ∧ r.dropWhile sep = z.dropWhile sep := by
  obtain ⟨w1, w2, b, rfl, hw1, hw2, hn, he, _, _, hs⟩ := h
  have h1 : (n ++ w1 ++ b!"=" ++ w2 ++ b ++ w ++ z).dropWhile isSpace = n ++ w1 ++ c!"=" :: (w2 ++ (b ++ w ++ z)) := by
    rw [show n ++ w1 ++ b!"=" ++ w2 ++ b ++ w ++ z = n ++ (w1 ++ c!"=" :: (w2 ++ (b ++ w ++ z))) by simp]
    have := (span_iff (p := isSpace) (a := []) (r := n ++ (w1 ++ c!"=" :: (w2 ++ (b ++ w ++ z)))) (by simp) (solid_ends hn)).2
    rw [List.nil_append] at this
    rw [this]
    simp
  have h2 := span_stop (p := (· != c!"=")) (a := n ++ w1) (b := w2 ++ (b ++ w ++ z)) (c := c!"=") (by
    intro x hx
    simp only [bne_iff_ne, ne_eq]
    rintro rfl
    rcases List.mem_append.1 hx with hx | hx
    · exact he hx
    · have := hw1 _ hx
      revert this
      unfold White
      decide) (by simp)
  unfold field
  simp only []
  rw [h1, if_pos (by simp), h2.1, h2.2, trimEnd_solid hn hw1, if_neg (solid_ne hn), List.drop_succ_cons, List.drop_zero]
  rcases hs with ⟨raw, w3, rfl, hr, hf, hw3, hv⟩ | ⟨w3, rfl, hw3, hv, h0, hc⟩
  · have h3 : (w2 ++ (b!"{" ++ raw ++ b!"}" ++ w ++ z)).dropWhile isSpace = c!"{" :: (raw ++ b!"}" ++ (w ++ z)) := by
      rw [show b!"{" ++ raw ++ b!"}" ++ w ++ z = c!"{" :: (raw ++ b!"}" ++ (w ++ z)) by simp]
      refine drop_blank hw2 ?_
      intro d q e hd
      simp only [List.cons.injEq] at e
      rw [← e.1] at hd
      revert hd
      decide
    rw [h3]
    simp only []
    rw [if_pos trivial, close_raw hr]
    simp only []
    rw [removeBraces_says hf hw3 hv]
    refine ⟨_, rfl, ?_⟩
    clear h1 h2 h3
    induction w with
    | nil => rfl
    | cons c w ih =>
      have : sep c = true := by simp [sep, (white_iff c).2 (hw c (by simp))]
      rw [List.cons_append, List.dropWhile_cons_of_pos this]
      exact ih fun x hx => hw x (by simp [hx])
  · have h3 : (w2 ++ (v ++ w3 ++ w ++ z)).dropWhile isSpace = v ++ (w3 ++ w) ++ z := by
      rw [show v ++ w3 ++ w ++ z = v ++ (w3 ++ w ++ z) by simp, drop_blank hw2 (solid_ends hv)]
      simp
    obtain ⟨c, t, rfl, hz⟩ := hz
    have h4 := span_stop (p := fun c => c != c!"," && c != c!"}") (a := v ++ (w3 ++ w)) (b := t) (c := c) (by
      intro x hx
      simp only [Bool.and_eq_true, bne_iff_ne, ne_eq]
      rcases List.mem_append.1 hx with hx | hx
      · exact hc x hx
      · have : White x := by
          rcases List.mem_append.1 hx with hx | hx
          · exact hw3 x hx
          · exact hw x hx
        constructor <;> rintro rfl <;> revert this <;> unfold White <;> decide) (by rcases hz with rfl | rfl <;> decide)
    have h5 : trimEnd (v ++ (w3 ++ w)) = v := trimEnd_solid hv (by
      intro x hx
      rcases List.mem_append.1 hx with hx | hx
      · exact hw3 x hx
      · exact hw x hx)
    rw [h3]
    obtain ⟨⟨d, q, rfl, hd⟩, _⟩ := hv
    rw [h4.1, h4.2, h5]
    simp only [List.cons_append]
    rw [if_neg (by simpa using h0)]
    exact ⟨_, rfl, rfl⟩

/-- A field of an entry. -/
def put (n v : Bytes) (e : Record) : Record :=
  let m := n.map toLower
  { id := e.id
    title := if m = b!"title" then some ⟨v, 0⟩ else e.title
    author := if m = b!"author" then some ⟨v, 0⟩ else e.author
    year := if m = b!"year" then some ⟨v, 0⟩ else e.year
    container := if m = b!"journal" then some ⟨v, 0⟩ else e.container
    publisher := if m = b!"publisher" then some ⟨v, 0⟩ else e.publisher
    volume := if m = b!"volume" then some ⟨v, 0⟩ else e.volume
    page := if m = b!"pages" then some ⟨v, 0⟩ else e.page }

theorem assign_put (n v : Bytes) (e : Record) : assign n ⟨v, 0⟩ e = .val (put n v e) := by
  unfold assign put
  generalize n.map toLower = m
  simp only []
  split
  · rename_i h; subst h; rfl
  · rename_i h1
    split
    · rename_i h; subst h; rfl
    · rename_i h2
      split
      · rename_i h; subst h; rfl
      · rename_i h3
        split
        · rename_i h; subst h; rfl
        · rename_i h4
          split
          · rename_i h; subst h; rfl
          · rename_i h5
            split
            · rename_i h; subst h; rfl
            · rename_i h6
              split
              · rename_i h; subst h; rfl
              · rename_i h7
                simp only [h1, h2, h3, h4, h5, h6, h7, if_false, free, if_true, C.bind]

/-- The fields of an entry. -/
def puts' : List (Bytes × Bytes) → Record → Record
  | [], e => e
  | (n, v) :: l, e => puts' l (put n v e)

theorem sep_space {c : Byte} (h : isSpace c = true) : sep c = true := by simp [sep, h]

theorem fields_step (n : Nat) (e : Record) {s : Bytes} {c : Byte} {t : Bytes} (hs : s = c :: t) (hc : isSpace c = false) (h1 : c ≠ c!",") (h2 : c ≠ c!"}") :
    fields (n + 1) e s = match field s with
      | some (k, v, r) => (assign k v e).bind fun e => fields n e (r.dropWhile sep)
      | none => .val e := by
  subst hs
  rw [fields, if_neg h2]
  simp only [if_neg h1]
  rw [List.dropWhile_cons_of_neg (by simp [hc]), List.head?_cons, if_neg (by simpa using h2)]
  cases field (c :: t) <;> rfl

theorem fields_of {s : Bytes} {l : List (Bytes × Bytes)} (h : Fields s l) : ∀ (z : Bytes) (n : Nat) (e : Record), (s ++ b!"}" ++ z).length ≤ n →
    fields n e ((s ++ b!"}" ++ z).dropWhile sep) = .val (puts' l e) := by
  induction h with
  | nil =>
    intro z n e hn
    rw [show [] ++ b!"}" ++ z = c!"}" :: z from rfl, List.dropWhile_cons_of_neg (by decide)]
    cases n with
    | zero => simp at hn
    | succ n => rw [fields, if_pos rfl]; rfl
  | @comma w hw =>
    intro z n e hn
    have : (b!"," ++ w ++ b!"}" ++ z).dropWhile sep = c!"}" :: z := by
      rw [List.append_assoc]
      refine (span_stop (p := sep) (a := b!"," ++ w) (b := z) (c := c!"}") ?_ (by decide)).2
      intro x hx
      simp only [List.cons_append, List.nil_append, List.mem_cons] at hx
      rcases hx with rfl | hx
      · decide
      · exact sep_space (blank_space hw x hx)
    rw [this]
    cases n with
    | zero => simp at hn
    | succ n => rw [fields, if_pos rfl]; rfl
  | @cons w f w' s n' v l hw hf hw' hs ih =>
    intro z n e hn
    have hf' := hf
    obtain ⟨w1, w2, b, ef, _, _, hsol, _, h1, h2, _⟩ := hf'
    obtain ⟨⟨c, q, ec, hc⟩, _⟩ := hsol
    subst ec
    have hc' : isSpace c = false := by
      rw [← Bool.not_eq_true, white_iff]
      exact hc
    have h1' : c ≠ c!"," := by simpa using h1
    have h2' : c ≠ c!"}" := by simpa using h2
    have hsep : sep c = false := by simp [sep, hc', h1']
    have hd : (b!"," ++ w ++ f ++ w' ++ s ++ b!"}" ++ z).dropWhile sep = f ++ w' ++ (s ++ b!"}" ++ z) := by
      rw [show b!"," ++ w ++ f ++ w' ++ s ++ b!"}" ++ z = (b!"," ++ w) ++ (f ++ w' ++ (s ++ b!"}" ++ z)) by simp]
      refine (span_iff (p := sep) (a := b!"," ++ w) (r := f ++ w' ++ (s ++ b!"}" ++ z)) ?_ ?_).2
      · intro x hx
        simp only [List.cons_append, List.nil_append, List.mem_cons] at hx
        rcases hx with rfl | hx
        · decide
        · exact sep_space (blank_space hw x hx)
      · intro d t ed hd
        rw [ef] at ed
        simp only [List.cons_append, List.cons.injEq] at ed
        rw [← ed.1, hsep] at hd
        simp at hd
    have hz : Closed (s ++ b!"}" ++ z) := by
      cases hs with
      | nil => exact ⟨c!"}", z, rfl, Or.inr rfl⟩
      | @comma w => exact ⟨c!",", w ++ b!"}" ++ z, rfl, Or.inl rfl⟩
      | @cons w0 f0 w0' s0 => exact ⟨c!",", w0 ++ f0 ++ w0' ++ s0 ++ b!"}" ++ z, by simp, Or.inl rfl⟩
    obtain ⟨r, hr1, hr2⟩ := field_of hf hw' hz
    rw [hd]
    cases n with
    | zero => simp at hn
    | succ n =>
      rw [fields_step n e (c := c) (t := q ++ w1 ++ b!"=" ++ w2 ++ b ++ w' ++ (s ++ b!"}" ++ z)) (by rw [ef]; simp) hc' h1' h2', hr1]
      simp only []
      rw [assign_put]
      show fields n (put (c :: q) v e) (r.dropWhile sep) = _
      rw [hr2, ih z n _ (by
        simp only [List.length_append, List.length_cons, List.length_nil] at hn ⊢
        omega)]
      rfl

theorem fields_closed {s : Bytes} {l : List (Bytes × Bytes)} (h : Fields s l) (z : Bytes) : Closed (s ++ b!"}" ++ z) := by
  cases h with
  | nil => exact ⟨c!"}", z, rfl, Or.inr rfl⟩
  | @comma w => exact ⟨c!",", w ++ b!"}" ++ z, rfl, Or.inl rfl⟩
  | @cons w0 f0 w0' s0 => exact ⟨c!",", w0 ++ f0 ++ w0' ++ s0 ++ b!"}" ++ z, by simp, Or.inl rfl⟩

/-- The loop begins at the comma. -/
theorem fields_first {s : Bytes} {l : List (Bytes × Bytes)} (h : Fields s l) (z : Bytes) (n : Nat) (e : Record) (hn : (s ++ b!"}" ++ z).length ≤ n) :
    fields n e (s ++ b!"}" ++ z) = .val (puts' l e) := by
  have main := fields_of h z n e hn
  cases n with
  | zero => simp at hn
  | succ n =>
    rw [← main]
    cases h with
    | nil => rfl
    | @comma w hw =>
      have hd : (w ++ c!"}" :: z).dropWhile isSpace = c!"}" :: z := (span_stop (blank_space hw) (by decide)).2
      have : (b!"," ++ w ++ b!"}" ++ z).dropWhile sep = c!"}" :: z := by
        rw [List.append_assoc]
        refine (span_stop (p := sep) (a := b!"," ++ w) (b := z) (c := c!"}") ?_ (by decide)).2
        intro x hx
        simp only [List.cons_append, List.nil_append, List.mem_cons] at hx
        rcases hx with rfl | hx
        · decide
        · exact sep_space (blank_space hw x hx)
      rw [this, show b!"," ++ w ++ b!"}" ++ z = c!"," :: (w ++ c!"}" :: z) by simp, fields, if_neg (by decide)]
      simp only [if_true]
      rw [hd, fields, if_pos rfl]
      simp
    | @cons w f w' s n' v l hw hf hw' hs =>
      obtain ⟨w1, w2, b, ef, _, _, hsol, _, h1, h2, _⟩ := hf
      obtain ⟨⟨c, q, ec, hc⟩, _⟩ := hsol
      subst ec
      have hc' : isSpace c = false := by
        rw [← Bool.not_eq_true, white_iff]
        exact hc
      have h1' : c ≠ c!"," := by simpa using h1
      have h2' : c ≠ c!"}" := by simpa using h2
      have hsep : sep c = false := by simp [sep, hc', h1']
      let y := q ++ w1 ++ b!"=" ++ w2 ++ b ++ w' ++ (s ++ b!"}" ++ z)
      have e1 : b!"," ++ w ++ f ++ w' ++ s ++ b!"}" ++ z = c!"," :: (w ++ c :: y) := by rw [ef]; simp [y]
      have e2 : (b!"," ++ w ++ f ++ w' ++ s ++ b!"}" ++ z).dropWhile sep = c :: y := by
        rw [e1, ← List.cons_append]
        refine (span_stop (p := sep) ?_ hsep).2
        intro x hx
        rcases List.mem_cons.1 hx with rfl | hx
        · decide
        · exact sep_space (blank_space hw x hx)
      have e3 : (w ++ c :: y).dropWhile isSpace = c :: y := (span_stop (blank_space hw) hc').2
      rw [e2, e1, fields_step n e rfl hc' h1' h2', fields, if_neg (by decide)]
      simp only [if_true]
      rw [e3, List.head?_cons, if_neg (by simpa using h2')]
      cases field (c :: y) <;> rfl

/-- The strings of an entry begin with their blocks. -/
def Whole (e : Record) : Prop := ∀ v ∈ strings e, v.off = 0

theorem puts'_id (l : List (Bytes × Bytes)) (e : Record) : (puts' l e).id = e.id := by
  induction l generalizing e with
  | nil => rfl
  | cons p l ih => rw [puts', ih]; rfl

theorem value_cons (k n v : Bytes) (l : List (Bytes × Bytes)) : value k ((n, v) :: l) = (value k l).or (if n.map toLower = k then some v else none) := by
  unfold value
  rw [List.reverse_cons, List.find?_append]
  cases h : l.reverse.find? fun f => f.1.map toLower == k with
  | some p => simp
  | none =>
    by_cases hn : n.map toLower = k <;> simp [hn]

theorem puts'_get (l : List (Bytes × Bytes)) (e : Record) :
    (puts' l e).title = ((value b!"title" l).map (⟨·, 0⟩)).or e.title ∧ (puts' l e).author = ((value b!"author" l).map (⟨·, 0⟩)).or e.author ∧
    (puts' l e).year = ((value b!"year" l).map (⟨·, 0⟩)).or e.year ∧ (puts' l e).container = ((value b!"journal" l).map (⟨·, 0⟩)).or e.container ∧
    (puts' l e).publisher = ((value b!"publisher" l).map (⟨·, 0⟩)).or e.publisher ∧ (puts' l e).volume = ((value b!"volume" l).map (⟨·, 0⟩)).or e.volume ∧
    (puts' l e).page = ((value b!"pages" l).map (⟨·, 0⟩)).or e.page := by
  have key : ∀ (k n v : Bytes) (l : List (Bytes × Bytes)) (o : Option Value),
      ((value k l).map (Value.mk · 0)).or (if n.map toLower = k then some ⟨v, 0⟩ else o) = ((value k ((n, v) :: l)).map (Value.mk · 0)).or o := by
    intro k n v l o
    rw [value_cons]
    cases value k l with
    | some x => simp
    | none => by_cases hn : n.map toLower = k <;> simp [hn]
  induction l generalizing e with
  | nil => simp [puts', value]
  | cons p l ih =>
    obtain ⟨n, v⟩ := p
    obtain ⟨h1, h2, h3, h4, h5, h6, h7⟩ := ih (put n v e)
    rw [puts', h1, h2, h3, h4, h5, h6, h7]
    exact ⟨key _ n v l _, key _ n v l _, key _ n v l _, key _ n v l _, key _ n v l _, key _ n v l _, key _ n v l _⟩

theorem seen_puts' (id : Bytes) (l : List (Bytes × Bytes)) : seen (puts' l { id := id }) = Spec.entry id l := by
  obtain ⟨h1, h2, h3, h4, h5, h6, h7⟩ := puts'_get l { id := id }
  have key : ∀ o : Option Bytes, ((o.map (Value.mk · 0)).or none).map (·.text) = o := by
    intro o
    cases o <;> rfl
  unfold seen Spec.entry
  rw [h1, h2, h3, h4, h5, h6, h7, puts'_id]
  simp only [key]

theorem whole_puts' (id : Bytes) (l : List (Bytes × Bytes)) : Whole (puts' l { id := id }) := by
  obtain ⟨h1, h2, h3, h4, h5, h6, h7⟩ := puts'_get l { id := id }
  have key : ∀ (o : Option Bytes) (v : Value), (o.map (Value.mk · 0)).or none = some v → v.off = 0 := by
    intro o v h
    cases o with
    | none => simp at h
    | some o =>
      simp only [Option.map_some, Option.some_or, Option.some.injEq] at h
      rw [← h]
  intro v hv
  unfold strings at hv
  rw [h1, h2, h3, h4, h5, h6, h7] at hv
  simp only [List.mem_filterMap, List.mem_cons, List.not_mem_nil, or_false, id_eq, exists_eq_right] at hv
  rcases hv with h | h | h | h | h | h | h <;> exact key _ v h.symm

theorem freeAll_whole {es : List Record} (h : ∀ e ∈ es, Whole e) : freeAll es = .val () := by
  induction es with
  | nil => rfl
  | cons e es ih =>
    rw [freeAll, if_pos (by
      rw [List.all_eq_true]
      intro v hv
      simpa using h e (by simp) v hv)]
    exact ih fun e' he => h e' (by simp [he])

theorem drop_at {x s : Bytes} (h : c!"@" ∉ x) : (x ++ s).dropWhile (· != c!"@") = s.dropWhile (· != c!"@") := by
  induction x with
  | nil => rfl
  | cons c x ih =>
    have : (c != c!"@") = true := by
      simp only [bne_iff_ne, ne_eq]
      rintro rfl
      simp at h
    rw [List.cons_append, List.dropWhile_cons_of_pos (p := (· != c!"@")) this]
    exact ih fun hm => h (by simp [hm])

theorem blank_at {w : Bytes} (h : Blank w) : c!"@" ∉ w := by
  intro hm
  have := h _ hm
  revert this
  unfold White
  decide

theorem entries_file {s : Bytes} {l : List (Bytes × List (Bytes × Bytes))} (h : File s l) : ∀ (x : Bytes) (n : Nat) (es : List Record), c!"@" ∉ x → (x ++ s).length < n →
    entries n es (x ++ s) = .val ((l.map fun p => puts' p.2 { id := p.1 }).reverse ++ es) := by
  induction h with
  | @nil s hs =>
    intro x n es hx hn
    cases n with
    | zero => omega
    | succ n =>
      have : (x ++ s).dropWhile (· != c!"@") = [] := by
        rw [drop_at hx]
        exact (span_all (p := (· != c!"@")) (a := s) fun c hc => by
          simp only [bne_iff_ne, ne_eq]
          rintro rfl
          exact hs hc).2
      rw [entries, this]
      rfl
  | @cons t s r id l es' ht hi _ ih =>
    intro x n es hx hn
    obtain ⟨type, w, w', f, rfl, ht0, htc, hw, hw', hid, hidc, hf, hat⟩ := hi
    cases n with
    | zero => omega
    | succ n =>
      let q := type ++ c!"{" :: (w ++ (id ++ w' ++ (f ++ b!"}" ++ r)))
      have eq : b!"@" ++ type ++ b!"{" ++ w ++ id ++ w' ++ f ++ b!"}" ++ r = c!"@" :: q := by simp [q]
      have e1 : (x ++ (t ++ (b!"@" ++ type ++ b!"{" ++ w ++ id ++ w' ++ f ++ b!"}") ++ r)).dropWhile (· != c!"@") = c!"@" :: q := by
        rw [show x ++ (t ++ (b!"@" ++ type ++ b!"{" ++ w ++ id ++ w' ++ f ++ b!"}") ++ r) = (x ++ t) ++ (b!"@" ++ type ++ b!"{" ++ w ++ id ++ w' ++ f ++ b!"}" ++ r) by simp,
          drop_at (by simp [hx, ht]), eq, List.dropWhile_cons_of_neg (by simp)]
      have e2 := span_stop (p := fun c => c != c!"{" && !isSpace c) (a := type) (b := w ++ (id ++ w' ++ (f ++ b!"}" ++ r))) (c := c!"{") (by
        intro c hc
        have h1 := htc c hc
        have h2 : isSpace c = false := by
          rw [← Bool.not_eq_true, white_iff]
          exact h1.2
        simp [h1.1, h2]) (by simp)
      have e3 : (w ++ (id ++ w' ++ (f ++ b!"}" ++ r))).dropWhile sep = id ++ w' ++ (f ++ b!"}" ++ r) := by
        refine (span_iff (p := sep) (fun c hc => sep_space (blank_space hw c hc)) ?_).2
        intro d z ed hd
        obtain ⟨⟨c, id', rfl, hc⟩, _⟩ := hid
        simp only [List.cons_append, List.cons.injEq] at ed
        have h1 : isSpace c = false := by
          rw [← Bool.not_eq_true, white_iff]
          exact hc
        have h2 := (hidc c (by simp)).1
        rw [← ed.1] at hd
        simp [sep, h1, h2] at hd
      obtain ⟨d, z, ez, hd⟩ := fields_closed hf r
      have e4 := span_stop (p := fun c => c != c!"," && c != c!"}") (a := id ++ w') (b := z) (c := d) (by
        intro c hc
        simp only [Bool.and_eq_true, bne_iff_ne, ne_eq]
        rcases List.mem_append.1 hc with hc | hc
        · exact hidc c hc
        · have := hw' c hc
          constructor <;> rintro rfl <;> revert this <;> unfold White <;> decide) (by rcases hd with rfl | rfl <;> decide)
      rw [← ez] at e4
      rw [entries, e1]
      simp only [q]
      rw [e2.1, e2.2, List.drop_succ_cons, List.drop_zero, e3, e4.1, e4.2, List.head?_cons, if_neg (by
        have := solid_ne hid
        simp [ht0, this]), trimEnd_solid hid hw']
      rw [fields_first hf r _ _ (by
        simp only [List.length_append, List.length_cons, List.length_nil] at hn ⊢
        omega)]
      show (match (c!"@" :: q).dropWhile (· != c!"}") with
          | [] => C.ub
          | _ :: r => entries n (puts' l { id := id } :: es) r) = _
      have tail : c!"@" ∉ type ++ b!"{" ++ w ++ id ++ w' ++ f ++ b!"}" := by
        simp only [List.mem_append] at hat ⊢
        have h1 := blank_at hw
        have h2 := blank_at hw'
        simp_all
      obtain ⟨a, b, eab, h1, h2, h3, h4⟩ := span_split (· != c!"}") (type ++ b!"{" ++ w ++ id ++ w' ++ f ++ b!"}")
      rcases h2 with rfl | ⟨c, b, rfl, hc⟩
      · exfalso
        rw [List.append_nil] at eab
        have := h1 c!"}" (by rw [← eab]; simp)
        simp at this
      · have hc : c = c!"}" := by simpa using hc
        subst hc
        have e5 : (c!"@" :: q).dropWhile (· != c!"}") = c!"}" :: (b ++ r) := by
          rw [← eq, show b!"@" ++ type ++ b!"{" ++ w ++ id ++ w' ++ f ++ b!"}" ++ r = (b!"@" ++ a) ++ c!"}" :: (b ++ r) by
            have := congrArg (fun y => b!"@" ++ y ++ r) eab
            simpa using this]
          refine (span_stop (p := (· != c!"}")) ?_ (by simp)).2
          intro y hy
          simp only [List.cons_append, List.nil_append, List.mem_cons] at hy
          rcases hy with rfl | hy
          · decide
          · exact h1 y hy
        rw [e5]
        simp only []
        have hb : c!"@" ∉ b := fun hm => tail (by rw [eab]; simp [hm])
        have hlen := congrArg List.length eab
        rw [ih b n _ hb (by
          simp only [List.length_append, List.length_cons, List.length_nil] at hn hlen ⊢
          omega)]
        simp

/-! Files are merged. -/

theorem merge_find (m f : List Entry) (k : Bytes) :
    (merge m f).find? (fun e => e.id == k) = (m.find? fun e => e.id == k).or (f.find? fun e => e.id == k) := by
  induction f generalizing m with
  | nil => simp [merge]
  | cons e f ih =>
    have : merge m (e :: f) = merge (if m.any fun x => x.id == e.id then m else e :: m) f := rfl
    rw [this, ih]
    by_cases hk : e.id = k
    · subst hk
      cases h : m.find? fun x => x.id == e.id with
      | some x =>
        have : (m.any fun x => x.id == e.id) = true := by
          have h1 := List.find?_some h
          have h2 := List.mem_of_find?_eq_some h
          exact List.any_eq_true.2 ⟨x, h2, h1⟩
        rw [if_pos this, h]
        rfl
      | none =>
        have : ¬ (m.any fun x => x.id == e.id) = true := by
          rw [List.any_eq_true]
          rintro ⟨x, h1, h2⟩
          exact absurd h2 (by simpa using List.find?_eq_none.1 h x h1)
        rw [if_neg this]
        simp
    · split
      · simp [hk]
      · simp [hk]

theorem merge_nodup {m : List Entry} (h : (m.map (·.id)).Nodup) (f : List Entry) : ((merge m f).map (·.id)).Nodup := by
  induction f generalizing m with
  | nil => exact h
  | cons e f ih =>
    have : merge m (e :: f) = merge (if m.any fun x => x.id == e.id then m else e :: m) f := rfl
    rw [this]
    apply ih
    split
    · exact h
    · rename_i hn
      rw [List.map_cons, List.nodup_cons]
      refine ⟨?_, h⟩
      intro hm
      obtain ⟨x, hx, he⟩ := List.mem_map.1 hm
      exact hn (List.any_eq_true.2 ⟨x, hx, by simp [he]⟩)

/-! An entry of the bibliography. -/

/-- The parts, with text before them or not. -/
def run : Bool → List (Bytes × Bytes) → Bytes
  | _, [] => []
  | c, p :: l => (if c then p.1 else []) ++ p.2 ++ run true l

theorem run_append (c : Bool) (a b : List (Bytes × Bytes)) : run c (a ++ b) = run c a ++ run (c || !a.isEmpty) b := by
  induction a generalizing c with
  | nil => simp [run]
  | cons p a ih => simp [run, ih]

theorem run_true (l : List (Bytes × Bytes)) : run true l = l.flatMap fun p => p.1 ++ p.2 := by
  induction l with
  | nil => rfl
  | cons p l ih => simp [run, ih]

theorem content_run (l : List (Bytes × Bytes)) : content l = run false l := by
  cases l with
  | nil => rfl
  | cons p l => simp [content, run, run_true]

/-- One part. -/
def part (sp pre post : Bytes) (v : Option Bytes) : List (Bytes × Bytes) := if v.getD [] = [] then [] else [(sp, pre ++ v.getD [] ++ post)]

theorem joined_val (sp : Bytes) (v : Option Bytes) (o : Bytes) (c : Bool) (h : o.length + (run c (part sp [] [] v)).length < 2048) :
    joined sp v ⟨o, c⟩ = ⟨o ++ run c (part sp [] [] v), c || !(part sp [] [] v).isEmpty⟩ := by
  unfold joined
  cases v with
  | none => simp [part, run]
  | some v =>
    by_cases hv : v = []
    · simp [part, run, hv]
    · have e : part sp [] [] (some v) = [(sp, v)] := by simp [part, hv]
      rw [e] at h ⊢
      cases c with
      | false =>
        simp only [run, Bool.false_eq_true, if_false, List.nil_append, List.append_nil] at h
        simp [hv, run, h]
      | true =>
        simp only [run, if_true, List.append_nil] at h
        simp only [hv, if_false, run, if_true, List.append_nil, if_pos h]
        simp

theorem separate_val (sp pre post : Bytes) (v : Option Bytes) (o : Bytes) (c : Bool) (h : o.length + (run c (part sp pre post v)).length < 2048) :
    separate sp pre post v ⟨o, c⟩ = ⟨o ++ run c (part sp pre post v), c || !(part sp pre post v).isEmpty⟩ := by
  unfold separate
  cases v with
  | none => simp [part, run]
  | some v =>
    by_cases hv : v = []
    · simp [part, run, hv]
    · have e : part sp pre post (some v) = [(sp, pre ++ v ++ post)] := by simp [part, hv]
      rw [e] at h ⊢
      cases c with
      | false =>
        simp only [run, Bool.false_eq_true, if_false, List.nil_append, List.append_nil] at h
        simp only [hv, if_false, run, Bool.false_eq_true, if_pos h]
        simp
      | true =>
        simp only [run, if_true, List.append_nil, List.length_append] at h
        have h1 : piece sp o = o ++ sp := by
          unfold piece
          rw [if_pos (by omega)]
        simp only [hv, if_false, run, if_true, h1]
        rw [if_pos (by simp only [List.length_append]; omega)]
        simp

/-- What is written when these parts are done. -/
def done (o : Bytes) (l : List (Bytes × Bytes)) : Out := ⟨o ++ run false l, !l.isEmpty⟩

theorem done_append (o : Bytes) (l m : List (Bytes × Bytes)) : done o (l ++ m) = ⟨o ++ run false l ++ run (!l.isEmpty) m, !l.isEmpty || !m.isEmpty⟩ := by
  unfold done
  rw [run_append]
  cases l <;> simp

theorem joined_done (sp : Bytes) (v : Option Bytes) (o : Bytes) (l : List (Bytes × Bytes)) (h : (done o (l ++ part sp [] [] v)).out.length < 2048) :
    joined sp v (done o l) = done o (l ++ part sp [] [] v) := by
  rw [done_append] at h ⊢
  simp only [List.length_append] at h
  unfold done
  rw [joined_val _ _ _ _ (by rw [List.length_append]; omega)]

theorem separate_done (sp pre post : Bytes) (v : Option Bytes) (o : Bytes) (l : List (Bytes × Bytes)) (h : (done o (l ++ part sp pre post v)).out.length < 2048) :
    separate sp pre post v (done o l) = done o (l ++ part sp pre post v) := by
  rw [done_append] at h ⊢
  simp only [List.length_append] at h
  unfold done
  rw [separate_val _ _ _ _ _ _ (by rw [List.length_append]; omega)]

theorem done_le (o : Bytes) (l m : List (Bytes × Bytes)) (h : (done o (l ++ m)).out.length < 2048) : (done o l).out.length < 2048 := by
  rw [done_append] at h
  simp only [List.length_append] at h
  simp only [done, List.length_append]
  omega

theorem format_val (e : Entry) (h : (entryHtml e).length < 2048) : format e = some (entryHtml e) := by
  have hc : content (parts e) = run false (part [] [] [] e.author ++ part b!" " [] [] e.year ++ part b!". " b!"<em>" b!"</em>" e.title ++
      part b!". " b!"<em>" b!"</em>" e.container ++ part b!" " [] [] e.volume ++ part b!": " [] [] e.page ++ part b!". " [] [] e.publisher) := content_run _
  have he : entryHtml e = b!"<div id=\"ref-" ++ e.id ++ b!"\" class=\"csl-entry\">" ++ content (parts e) ++ b!"</div>\n" := rfl
  unfold format
  simp only []
  generalize b!"<div id=\"ref-" ++ e.id ++ b!"\" class=\"csl-entry\">" = o at he ⊢
  rw [hc] at he
  have h7 : (done o (part [] [] [] e.author ++ part b!" " [] [] e.year ++ part b!". " b!"<em>" b!"</em>" e.title ++
      part b!". " b!"<em>" b!"</em>" e.container ++ part b!" " [] [] e.volume ++ part b!": " [] [] e.page ++ part b!". " [] [] e.publisher)).out.length + 7 < 2048 := by
    rw [he] at h
    simp only [done, List.length_append, List.length_cons, List.length_nil] at h ⊢
    exact h
  have h7' := Nat.lt_of_le_of_lt (Nat.le_add_right _ 7) h7
  have h6 := done_le _ _ _ h7'
  have h5 := done_le _ _ _ h6
  have h4 := done_le _ _ _ h5
  have h3 := done_le _ _ _ h4
  have h2 := done_le _ _ _ h3
  have h1 := done_le _ _ _ h2
  have h0 : o.length < 2048 := by
    simp only [done, List.length_append] at h1
    omega
  have e0 : (⟨o, false⟩ : Out) = done o [] := by simp [done, run]
  have e1 := joined_done [] e.author o [] (by rw [List.nil_append]; exact h1)
  rw [List.nil_append] at e1
  rw [if_pos h0, e0, e1, joined_done _ _ _ _ h2, separate_done _ _ _ _ _ _ h3, separate_done _ _ _ _ _ _ h4, separate_done _ _ _ _ _ _ h5,
    joined_done _ _ _ _ h6, separate_done _ _ _ _ _ _ h7', List.take_of_length_le (by
      simp only [List.length_cons, List.length_nil]
      omega), he]
  rfl

theorem joined_len (sp : Bytes) (v : Option Bytes) (b : Out) (h : b.out.length < 2048) : (joined sp v b).out.length < 2048 := by
  unfold joined
  split
  · split
    · exact h
    · generalize (if b.content = true then sp ++ _ else _) = z
      simp only []
      split
      · rename_i h2
        simpa using h2
      · exact h
  · exact h

theorem separate_len (sp pre post : Bytes) (v : Option Bytes) (b : Out) (h : b.out.length < 2048) : (separate sp pre post v b).out.length < 2048 := by
  have hp : (if b.content then piece sp b.out else b.out).length < 2048 := by
    split
    · unfold piece
      split
      · simpa using ‹_›
      · exact h
    · exact h
  unfold separate
  split
  · split
    · exact h
    · generalize (if b.content = true then piece sp b.out else b.out) = z at hp ⊢
      simp only []
      split
      · rename_i h2
        simp only [List.length_append] at h2 ⊢
        exact h2
      · exact hp
  · exact h

theorem format_len {e : Entry} {o : Bytes} (h : format e = some o) : o.length < 2048 := by
  unfold format at h
  simp only [] at h
  split at h
  · rename_i hs
    simp only [Option.some.injEq] at h
    rw [← h, List.length_append, List.length_take]
    have := separate_len b!". " [] [] e.publisher _ (joined_len b!": " e.page _ (separate_len b!" " [] [] e.volume _ (separate_len b!". " b!"<em>" b!"</em>" e.container _
      (separate_len b!". " b!"<em>" b!"</em>" e.title _ (joined_len b!" " e.year _ (joined_len [] e.author ⟨_, false⟩ hs))))))
    omega
  · simp at h

/-! The entries that are cited. -/

theorem findIdx_find (bib : List Entry) (p : Entry → Bool) :
    (bib.findIdx? p = none ∧ bib.find? p = none) ∨ ∃ i e, bib.findIdx? p = some i ∧ bib[i]? = some e ∧ bib.find? p = some e := by
  induction bib with
  | nil => left; simp
  | cons x bib ih =>
    by_cases hx : p x = true
    · right
      exact ⟨0, x, by simp [List.findIdx?_cons, hx], by simp, by simp [hx]⟩
    · rcases ih with ⟨h1, h2⟩ | ⟨i, e, h1, h2, h3⟩
      · left
        simp [List.findIdx?_cons, hx, h1, h2]
      · right
        exact ⟨i + 1, e, by simp [List.findIdx?_cons, hx, h1], by simpa using h2, by simp [hx, h3]⟩

/-- The numbers `l` are those of the entries `es`, which are the ones of the citations `u`. -/
def Inv (bib : List Entry) (u : List Citation) (l : List Nat) (es : List Entry) : Prop :=
  Listed bib u es ∧ (l.filterMap fun i => bib[i]?) = es ∧ ∀ i, i ∈ l ↔ ∃ e ∈ es, bib.findIdx? (fun x => x.id == e.id) = some i

theorem inv_step {bib : List Entry} {u : List Citation} {l : List Nat} {es : List Entry} (h : Inv bib u l es) (x : Citation) :
    ∃ es', Inv bib (u ++ [x]) (match bib.findIdx? fun e => e.id == x.key with
      | some i => if i ∈ l then l else l ++ [i]
      | none => l) es' := by
  obtain ⟨⟨hn, hm, ho⟩, hf, hi⟩ := h
  have order : ∀ a e b, es = a ++ e :: b → ∃ u' x' v, u ++ [x] = u' ++ x' :: v ∧ x'.key = e.id ∧ ∀ y ∈ u', bib.find? (fun e => e.id == y.key) = none ∨ ∃ d ∈ a, d.id = y.key := by
    intro a e b h
    obtain ⟨u', x', v, rfl, h1, h2⟩ := ho a e b h
    exact ⟨u', x', v ++ [x], by simp, h1, h2⟩
  rcases findIdx_find bib fun e => e.id == x.key with ⟨h1, h2⟩ | ⟨i, e, h1, h2, h3⟩
  · refine ⟨es, ⟨hn, ?_, order⟩, ?_, ?_⟩
    · intro e
      rw [hm]
      constructor
      · rintro ⟨y, hy, he⟩
        exact ⟨y, by simp [hy], he⟩
      · rintro ⟨y, hy, he⟩
        rcases List.mem_append.1 hy with hy | hy
        · exact ⟨y, hy, he⟩
        · simp only [List.mem_singleton] at hy
          rw [hy, h2] at he
          simp at he
    · rw [h1]
      exact hf
    · rw [h1]
      exact hi
  · have hid : e.id = x.key := by simpa using List.find?_some h3
    rw [h1]
    simp only []
    by_cases hil : i ∈ l
    · rw [if_pos hil]
      have hee : e ∈ es := by
        rw [← hf]
        exact List.mem_filterMap.2 ⟨i, hil, h2⟩
      refine ⟨es, ⟨hn, ?_, order⟩, hf, hi⟩
      intro e'
      rw [hm]
      constructor
      · rintro ⟨y, hy, he⟩
        exact ⟨y, by simp [hy], he⟩
      · rintro ⟨y, hy, he⟩
        rcases List.mem_append.1 hy with hy | hy
        · exact ⟨y, hy, he⟩
        · simp only [List.mem_singleton] at hy
          rw [hy, h3] at he
          simp only [Option.some.injEq] at he
          subst he
          exact (hm e).1 hee
    · rw [if_neg hil]
      have hne : ∀ d ∈ es, d.id ≠ e.id := by
        intro d hd he
        apply hil
        rw [hi]
        exact ⟨d, hd, by rw [he, hid]; exact h1⟩
      refine ⟨es ++ [e], ⟨?_, ?_, ?_⟩, ?_, ?_⟩
      · rw [List.map_append, List.nodup_append]
        refine ⟨hn, by simp, ?_⟩
        intro a ha b hb
        obtain ⟨d, hd, rfl⟩ := List.mem_map.1 ha
        simp only [List.map_cons, List.map_nil, List.mem_singleton] at hb
        rw [hb]
        exact hne d hd
      · intro e'
        rw [List.mem_append, hm, List.mem_singleton]
        constructor
        · rintro (⟨y, hy, he⟩ | rfl)
          · exact ⟨y, by simp [hy], he⟩
          · exact ⟨x, by simp, h3⟩
        · rintro ⟨y, hy, he⟩
          rcases List.mem_append.1 hy with hy | hy
          · exact Or.inl ⟨y, hy, he⟩
          · simp only [List.mem_singleton] at hy
            rw [hy, h3] at he
            simp only [Option.some.injEq] at he
            exact Or.inr he.symm
      · intro a d b hab
        rcases List.eq_nil_or_concat b with rfl | ⟨b, d', rfl⟩
        · obtain ⟨rfl, hd⟩ := List.append_inj' hab rfl
          simp only [List.cons.injEq, and_true] at hd
          subst hd
          refine ⟨u, x, [], rfl, hid.symm, ?_⟩
          intro y hy
          cases hy' : bib.find? fun e => e.id == y.key with
          | none => exact Or.inl rfl
          | some d =>
            right
            exact ⟨d, (hm d).2 ⟨y, hy, hy'⟩, by simpa using List.find?_some hy'⟩
        · rw [List.concat_eq_append, ← List.cons_append, ← List.append_assoc] at hab
          obtain ⟨h4, _⟩ := List.append_inj' hab rfl
          exact order a d b h4
      · rw [List.filterMap_append, hf]
        simp [h2]
      · intro j
        rw [List.mem_append, List.mem_singleton, hi]
        constructor
        · rintro (⟨d, hd, he⟩ | rfl)
          · exact ⟨d, by simp [hd], he⟩
          · exact ⟨e, by simp, by rw [hid]; exact h1⟩
        · rintro ⟨d, hd, he⟩
          rcases List.mem_append.1 hd with hd | hd
          · exact Or.inl ⟨d, hd, he⟩
          · simp only [List.mem_singleton] at hd
            rw [hd, hid, h1] at he
            simp only [Option.some.injEq] at he
            exact Or.inr he.symm

theorem cited_inv {bib : List Entry} (cs : List Citation) : ∀ {u : List Citation} {l : List Nat} {es : List Entry}, Inv bib u l es →
    ∃ es', Inv bib (u ++ cs) (cited bib l cs) es' := by
  induction cs with
  | nil =>
    intro u l es h
    rw [List.append_nil]
    exact ⟨es, h⟩
  | cons x cs ih =>
    intro u l es h
    obtain ⟨es', h'⟩ := inv_step h x
    obtain ⟨es'', h''⟩ := ih h'
    refine ⟨es'', ?_⟩
    rw [List.append_assoc, List.singleton_append] at h''
    rw [cited]
    cases hi : bib.findIdx? fun e => e.id == x.key with
    | none => rw [hi] at h''; exact h''
    | some i => rw [hi] at h''; exact h''

theorem cited_listed (bib : List Entry) (cs : List Citation) : Listed bib cs ((cited bib [] cs).filterMap fun i => bib[i]?) ∧
    (cited bib [] cs = [] ↔ (cited bib [] cs).filterMap (fun i => bib[i]?) = []) := by
  have h0 : Inv bib [] [] [] := by
    refine ⟨⟨by simp, by simp, ?_⟩, by simp, by simp⟩
    intro a e b h
    simp at h
  obtain ⟨es, hl, hf, hi⟩ := cited_inv cs h0
  rw [List.nil_append] at hl
  rw [hf]
  refine ⟨hl, ?_, ?_⟩
  · intro h
    rw [h] at hf
    exact hf.symm
  · intro h
    rw [List.eq_nil_iff_forall_not_mem]
    intro i hm
    rw [hi] at hm
    simp [h] at hm

/-- Two lists of the entries are the same. -/
theorem listed_unique {bib : List Entry} {cs : List Citation} {a b : List Entry} (ha : Listed bib cs a) (hb : Listed bib cs b) : a = b := by
  have first : ∀ {a b : List Entry}, Listed bib cs a → Listed bib cs b → ∀ p x q, a = p ++ x :: q → ∀ r y t, b = p ++ y :: t → r = p → x = y := by
    intro a b ha hb p x q e1 r y t e2 _
    obtain ⟨u, c, v, h1, h2, h3⟩ := ha.2.2 p x q e1
    obtain ⟨u', c', v', h1', h2', h3'⟩ := hb.2.2 p y t e2
    have fx : bib.find? (fun e => e.id == x.id) = some x := by
      obtain ⟨z, _, hz⟩ := (ha.2.1 x).1 (by rw [e1]; simp)
      have : x.id = z.key := by simpa using List.find?_some hz
      rw [this]
      exact hz
    have fy : bib.find? (fun e => e.id == y.id) = some y := by
      obtain ⟨z, _, hz⟩ := (hb.2.1 y).1 (by rw [e2]; simp)
      have : y.id = z.key := by simpa using List.find?_some hz
      rw [this]
      exact hz
    have nx : ∀ d ∈ p, d.id ≠ x.id := by
      intro d hd he
      have := ha.1
      rw [e1, List.map_append, List.nodup_append] at this
      exact this.2.2 d.id (List.mem_map.2 ⟨d, hd, rfl⟩) x.id (by simp) he
    have ny : ∀ d ∈ p, d.id ≠ y.id := by
      intro d hd he
      have := hb.1
      rw [e2, List.map_append, List.nodup_append] at this
      exact this.2.2 d.id (List.mem_map.2 ⟨d, hd, rfl⟩) y.id (by simp) he
    have hne : c' ∉ u := by
      intro hm
      rcases h3 c' hm with h | ⟨d, hd, he⟩
      · rw [h2', fy] at h
        simp at h
      · exact ny d hd (he.trans h2')
    have hne' : c ∉ u' := by
      intro hm
      rcases h3' c hm with h | ⟨d, hd, he⟩
      · rw [h2, fx] at h
        simp at h
      · exact nx d hd (he.trans h2)
    have hlen : u.length = u'.length := by
      have e := h1.symm.trans h1'
      rcases Nat.lt_trichotomy u.length u'.length with h | h | h
      · exfalso
        apply hne'
        have := congrArg (fun z => z[u.length]?) e
        simp only [List.getElem?_append_right (Nat.le_refl _), List.getElem?_append_left h, Nat.sub_self, List.getElem?_cons_zero] at this
        exact List.mem_of_getElem? this.symm
      · exact h
      · exfalso
        apply hne
        have := congrArg (fun z => z[u'.length]?) e
        simp only [List.getElem?_append_right (Nat.le_refl _), List.getElem?_append_left h, Nat.sub_self, List.getElem?_cons_zero] at this
        exact List.mem_of_getElem? this
    obtain ⟨_, e⟩ := List.append_inj (h1.symm.trans h1') hlen
    simp only [List.cons.injEq] at e
    have : x.id = y.id := by rw [← h2, ← h2', e.1]
    rw [this, fy] at fx
    simpa using fx.symm
  have sub : ∀ {a b : List Entry}, Listed bib cs a → Listed bib cs b → ∀ p q, a = p ++ q → p ++ q ≠ b → p ++ [] = b → False := by
    intro a b ha hb p q e h1 h2
    rw [List.append_nil] at h2
    cases q with
    | nil => exact h1 (by simpa using h2)
    | cons x q =>
      have hx : x ∈ b := by
        rw [hb.2.1, ← ha.2.1, e]
        simp
      have := ha.1
      rw [e, List.map_append, List.nodup_append] at this
      rw [← h2] at hx
      exact this.2.2 x.id (List.mem_map.2 ⟨x, hx, rfl⟩) x.id (by simp) rfl
  have main : ∀ q t p, a = p ++ q → b = p ++ t → q = t := by
    intro q
    induction q with
    | nil =>
      intro t p e1 e2
      cases t with
      | nil => rfl
      | cons y t =>
        exfalso
        refine sub hb ha p (y :: t) e2 ?_ e1.symm
        rw [e1]
        simp
    | cons x q ih =>
      intro t p e1 e2
      cases t with
      | nil =>
        exfalso
        refine sub ha hb p (x :: q) e1 ?_ e2.symm
        rw [e2]
        simp
      | cons y t =>
        have := first ha hb p x q e1 p y t e2 rfl
        subst this
        rw [ih t (p ++ [x]) (by simp [e1]) (by simp [e2])]
  exact main a b [] rfl rfl

/-! The bibliography. -/

theorem body_val (es : List Entry) : ∀ (cap : Nat) (o : Bytes), o.length < cap →
    ∃ cap', body es cap o = (cap', o ++ (es.filterMap format).flatten) ∧ cap ≤ cap' ∧ (o ++ (es.filterMap format).flatten).length < cap' := by
  induction es with
  | nil =>
    intro cap o h
    exact ⟨cap, by simp [body], Nat.le_refl _, by simpa using h⟩
  | cons e es ih =>
    intro cap o h
    rw [body]
    cases hf : format e with
    | none =>
      obtain ⟨c, h1, h2, h3⟩ := ih cap o h
      rw [List.filterMap_cons, hf]
      exact ⟨c, h1, h2, h3⟩
    | some t =>
      simp only []
      obtain ⟨c, h1, h2, h3⟩ := ih (if cap - o.length ≤ t.length then (o.length + t.length + 1) * 2 else cap) (o ++ t) (by
        rw [List.length_append]
        split <;> omega)
      rw [h1, List.filterMap_cons, hf]
      refine ⟨c, ?_, ?_, ?_⟩
      · simp
      · refine Nat.le_trans ?_ h2
        split <;> omega
      · simpa using h3

theorem formats_val {es : List Entry} (h : ∀ e ∈ es, (entryHtml e).length < 2048) : (es.filterMap format).flatten = es.flatMap entryHtml := by
  induction es with
  | nil => rfl
  | cons e es ih =>
    rw [List.filterMap_cons, format_val e (h e (by simp)), List.flatMap_cons, ← ih fun e' he => h e' (by simp [he])]
    rfl

/-! The place of the bibliography. -/

theorem find_first {w s x y : Bytes} (hw : w ≠ []) (h : find w s = some (x, y)) : First w s x y := by
  refine ⟨Embed.find_some h, ?_⟩
  intro a b e
  obtain ⟨a', b', h1, h2⟩ := Aria.find_le hw a b e
  rw [h] at h1
  simp only [Option.some.injEq, Prod.mk.injEq] at h1
  rw [h1.1]
  exact h2

theorem first_find {w s x y : Bytes} (hw : w ≠ []) (h : First w s x y) : find w s = some (x, y) := by
  obtain ⟨e, hm⟩ := h
  obtain ⟨a, b, h1, h2⟩ := Aria.find_le hw x y e
  have h3 := Embed.find_some h1
  have h4 := hm a b h3
  have h5 := h3.symm.trans e
  rw [List.append_assoc, List.append_assoc] at h5
  obtain ⟨rfl, h6⟩ := List.append_inj h5 (by omega)
  rw [List.append_cancel_left h6] at h1
  exact h1

theorem find_skip {w z b : Bytes} (hz : c!"<" ∉ z) : find (c!"<" :: w) (z ++ b) = (find (c!"<" :: w) b).map fun r => (z ++ r.1, r.2) := by
  induction z with
  | nil =>
    rw [List.nil_append]
    cases find (c!"<" :: w) b <;> simp
  | cons c z ih =>
    have hc : c ≠ c!"<" := by
      rintro rfl
      simp at hz
    rw [List.cons_append, find, if_neg (by
      intro h
      obtain ⟨t, ht⟩ := h
      simp only [List.cons_append, List.cons.injEq] at ht
      exact hc ht.1.symm), ih fun hm => hz (by simp [hm])]
    cases find (c!"<" :: w) b <;> simp

theorem find_div (b : Bytes) : find b!"</div>" (b!"<div id=\"refs\">" ++ b) = (find b!"</div>" b).map fun r => (b!"<div id=\"refs\">" ++ r.1, r.2) := by
  rw [show b!"<div id=\"refs\">" ++ b = c!"<" :: (b!"div id=\"refs\">" ++ b) from rfl, find, if_neg (by
    intro h
    obtain ⟨t, ht⟩ := h
    simp at ht)]
  rw [show b!"</div>" = c!"<" :: b!"/div>" from rfl, find_skip (by decide)]
  cases find (c!"<" :: b!"/div>") b <;> rfl

end Verif.Bibliography
