import Verif.Proof.Yaml

namespace Verif.Yaml

open Spec Metadata

/-! ## C223: names of front matter -/

/-- `a: {b: [x, y], c: [{d: z}]}` -/
def sample : Doc :=
  [.map [(1, 2)], .scalar b!"a", .map [(3, 4), (7, 8)], .scalar b!"b", .seq [5, 6], .scalar b!"x", .scalar b!"y", .scalar b!"c", .seq [9],
   .map [(10, 11)], .scalar b!"d", .scalar b!"z"]

/-- C223: the items of the metadata are the texts of the front matter, each under the name of its path, of which only the first 511
bytes are kept.  Missing for the full property is the rest of longer names; keys that are empty and NUL in texts are left out. -/
theorem C223_partial {d : Doc} (hd : Proper d) {ps : List (Nat × Nat)} (hr : node d 0 = some (.map ps)) {n : Nat} {m : Meta}
    (h : items d n = some m) (name t : Bytes) :
    (name, t) ∈ m ↔ ∃ path, Leaf d (.map ps) path t ∧ name = (dotted path).take 511 := by
  unfold items at h
  rw [hr] at h
  have := flat_mem hd (q := []) (by simp) (node_mem hr) h (name, t)
  rw [this]
  simp only [List.not_mem_nil, false_or, Named, List.nil_append]
  constructor
  · rintro ⟨path, h1, -, h2⟩; exact ⟨path, h1, h2⟩
  · rintro ⟨path, h1, h2⟩
    refine ⟨path, h1, ?_, h2⟩
    cases h1
    simp

/-- C223: so a text is found under the name of its path, if no other text has a name that is equal but for the case. -/
theorem C223_get {d : Doc} (hd : Proper d) {ps : List (Nat × Nat)} (hr : node d 0 = some (.map ps)) {n : Nat} {m : Meta}
    (h : items d n = some m) {path : List Bytes} {t : Bytes} (hl : Leaf d (.map ps) path t) (hlen : (dotted path).length ≤ 511)
    (hu : ∀ path' t', Leaf d (.map ps) path' t' → ciEq ((dotted path').take 511) (dotted path) = true → t' = t) :
    Metadata.get m (dotted path) = some t := by
  have hm : (dotted path, t) ∈ m := (C223_partial hd hr h _ _).2 ⟨path, hl, by rw [List.take_of_length_le hlen]⟩
  have hne : dotted path ≠ [] := by
    cases hl with
    | @value _ i j key v path _ h3 h4 h5 h6 =>
      have hk : key ≠ [] := fun e => (hd _ (node_mem hr) _ h3).2.2 (by simp only; rw [h4, e])
      cases path with
      | nil => simpa [dotted, List.intercalate] using hk
      | cons b l => rw [dotted_cons]; simp
  have hg := getCi_unique hne hm fun e he hc => by
    obtain ⟨path', h1, h2⟩ := (C223_partial hd hr h e.1 e.2).1 he
    exact hu path' e.2 h1 (by rw [← h2]; exact hc)
  unfold Metadata.get
  rw [if_neg (fun e => by rw [e] at hm; cases hm), if_neg (fun e => hne (List.length_eq_zero_iff.1 e)), hg]

example : Proper sample ∧ items sample 5 = some [(b!"a.c.0.d", b!"z"), (b!"a.b", b!"x, y")] ∧
    Leaf sample (.map [(1, 2)]) [b!"a", b!"c", b!"0", b!"d"] b!"z" := by
  refine ⟨?_, by decide +kernel, ?_⟩
  · intro v hv
    simp only [sample, List.mem_cons, List.not_mem_nil, or_false] at hv
    rcases hv with rfl | rfl | rfl | rfl | rfl | rfl | rfl | rfl | rfl | rfl | rfl | rfl <;> decide +kernel
  · refine .value (k := 1) (j := 2) (by simp) rfl rfl (.value (k := 7) (j := 8) (by simp) rfl rfl ?_)
    refine .item (n := 0) (i := 9) ?_ rfl rfl (.value (k := 10) (j := 11) (by simp) rfl rfl (.scalar _))
    rintro ⟨ts, h⟩
    unfold Texts at h
    cases ts with
    | nil => cases h
    | cons a ts =>
      simp only [List.map_cons, List.cons.injEq] at h
      have := h.1
      simp [node, sample] at this

/-- C223 does not hold in full: no item has a name of more than 511 bytes. -/
theorem C223_long_fails {d : Doc} (hd : Proper d) {ps : List (Nat × Nat)} (hr : node d 0 = some (.map ps)) {n : Nat} {m : Meta}
    (h : items d n = some m) {path : List Bytes} {t : Bytes} (hlen : 511 < (dotted path).length) : (dotted path, t) ∉ m := by
  intro hm
  obtain ⟨path', -, h2⟩ := (C223_partial hd hr h _ _).1 hm
  have := congrArg List.length h2
  rw [List.length_take] at this
  omega

/-! ## C224: anchors -/

/-- C224: the metadata are read in finitely many steps exactly if there is an end to what is below the root of the document. -/
theorem C224_iff (d : Doc) {ps : List (Nat × Nat)} (hr : node d 0 = some (.map ps)) :
    (∃ n m, items d n = some m) ↔ ¬ Endless d (.map ps) := by
  unfold items
  rw [hr]
  constructor
  · rintro ⟨n, m, h⟩
    exact flat_ends h
  · intro h
    obtain ⟨N, hN⟩ := flat_total (acc_of_not_endless h)
    obtain ⟨r, hr⟩ := hN N (by omega) [] []
    exact ⟨N, r, hr⟩

/-- C224 does not hold: `a: &x [*x]`. -/
theorem C224_fails : ∀ n, items [.map [(1, 2)], .scalar b!"a", .seq [2]] n = none := by
  intro n
  cases h : items [.map [(1, 2)], .scalar b!"a", .seq [2]] n with
  | none => rfl
  | some m =>
    refine absurd ?_ ((C224_iff [.map [(1, 2)], .scalar b!"a", .seq [2]] (ps := [(1, 2)]) rfl).1 ⟨n, m, h⟩)
    refine ⟨fun n => if n = 0 then .map [(1, 2)] else .seq [2], rfl, fun k => ?_⟩
    cases k with
    | zero => exact .value (k := 1) (j := 2) (by simp) rfl rfl
    | succ k => exact .item (i := 2) (by simp) rfl

example : ∃ n m, items sample n = some m := ⟨5, _, rfl⟩

/-! ## C225: bundles of plugins -/

theorem foldl_mem {α : Type} {f : Meta → α → Meta} {P : α → Item → Prop} {l : List α}
    (h : ∀ x ∈ l, ∀ m e, e ∈ f m x ↔ e ∈ m ∨ P x e) (m : Meta) (e : Item) : e ∈ l.foldl f m ↔ e ∈ m ∨ ∃ x ∈ l, P x e := by
  induction l generalizing m with
  | nil => simp
  | cons a l ih =>
    rw [List.foldl_cons, ih (fun x hx => h x (by simp [hx])), h a (by simp)]
    simp only [List.mem_cons, exists_eq_or_imp]
    exact or_assoc

theorem mapping_mem {d : Doc} (hd : Proper d) (ps : List (Nat × Nat)) (e : Item) : e ∈ mapping d ps ↔ Entry d ps e.1 e.2 := by
  have hc : ∀ {i : Nat} {t : Bytes}, node d i = some (.scalar t) → cstr t = t := fun h => cstr_id (proper_scalar hd (node_mem h))
  have hc' : ∀ {i j : Nat} {t u : Bytes}, node d i = some (.scalar t) → node d j = some (.scalar u) → cstr (t ++ c!"." :: u) = t ++ c!"." :: u := by
    intro i j t u h h'
    refine cstr_id ?_
    have h1 := proper_scalar hd (node_mem h)
    have h2 := proper_scalar hd (node_mem h')
    simp only [List.mem_append, List.mem_cons, not_or]
    exact ⟨h1, by decide, h2⟩
  unfold mapping
  rw [foldl_mem (P := fun x e => Entry d [x] e.1 e.2)]
  · simp only [List.not_mem_nil, false_or]
    obtain ⟨k, t⟩ := e
    constructor
    · rintro ⟨x, hx, h⟩
      cases h with
      | text h1 h2 h3 => rw [List.mem_singleton] at h1; subst h1; exact .text hx h2 h3
      | nested h1 h2 h3 h4 h5 h6 => rw [List.mem_singleton] at h1; subst h1; exact .nested hx h2 h3 h4 h5 h6
    · intro h
      cases h with
      | text h1 h2 h3 => exact ⟨_, h1, .text (List.mem_singleton.2 rfl) h2 h3⟩
      | nested h1 h2 h3 h4 h5 h6 => exact ⟨_, h1, .nested (List.mem_singleton.2 rfl) h2 h3 h4 h5 h6⟩
  · rintro ⟨i, j⟩ _ m e
    unfold pair
    split
    · rename_i k v h1 h2
      simp only at h1 h2
      simp only [addItem, List.mem_cons, hc h1, hc h2]
      rw [or_comm]
      refine or_congr Iff.rfl ⟨?_, ?_⟩
      · rintro rfl
        exact .text (List.mem_singleton.2 rfl) h1 h2
      · obtain ⟨k', t⟩ := e
        intro h
        cases h with
        | text h3 h4 h5 =>
          rw [List.mem_singleton] at h3
          cases h3
          rw [h1] at h4
          rw [h2] at h5
          cases h4
          cases h5
          rfl
        | nested h3 h4 h5 _ _ _ =>
          rw [List.mem_singleton] at h3
          cases h3
          rw [h2] at h5
          cases h5
    · rename_i k ns h1 h2
      simp only at h1 h2
      rw [foldl_mem (P := fun y e => ∃ k' t, node d y.1 = some (.scalar k') ∧ node d y.2 = some (.scalar t) ∧ e = (k ++ c!"." :: k', t))]
      · refine or_congr Iff.rfl ⟨?_, ?_⟩
        · rintro ⟨⟨i', j'⟩, hy, k', t, h3, h4, rfl⟩
          have := Entry.nested (d := d) (ps := [(i, j)]) (List.mem_singleton.2 rfl) h1 h2 hy h3 h4
          simpa using this
        · obtain ⟨k', t⟩ := e
          intro h
          cases h with
          | text h3 h4 h5 =>
            rw [List.mem_singleton] at h3
            cases h3
            rw [h2] at h5
            cases h5
          | nested h3 h4 h5 h6 h7 h8 =>
            rw [List.mem_singleton] at h3
            cases h3
            rw [h1] at h4
            rw [h2] at h5
            cases h4
            cases h5
            exact ⟨_, h6, _, _, h7, h8, by simp⟩
      · rintro ⟨i', j'⟩ _ m e
        dsimp only
        split
        · rename_i k' v h3 h4
          simp only [addItem, List.mem_cons, hc' h1 h3, hc h4]
          rw [or_comm]
          refine or_congr Iff.rfl ⟨fun h => ⟨k', v, h3, h4, h⟩, ?_⟩
          rintro ⟨k2, v2, h5, h6, h7⟩
          rw [h3] at h5
          rw [h4] at h6
          cases h5
          cases h6
          exact h7
        · rename_i hno
          constructor
          · exact .inl
          · rintro (h | ⟨k2, v2, h5, h6, -⟩)
            · exact h
            · exact (hno k2 v2 h5 h6).elim
    · rename_i hn1 hn2
      constructor
      · exact .inl
      · rintro (h | h)
        · exact h
        · obtain ⟨k', t⟩ := e
          cases h with
          | text h3 h4 h5 =>
            rw [List.mem_singleton] at h3
            cases h3
            exact (hn1 _ _ h4 h5).elim
          | nested h3 h4 h5 _ _ _ =>
            rw [List.mem_singleton] at h3
            cases h3
            exact (hn2 _ _ h4 h5).elim

/-- C225: a manifest with a key `bundle` is a bundle with one plugin for each mapping in it, in their order, and each plugin has the
texts of its mapping and, with the names joined by a dot, those of the mappings in it; nothing else. -/
theorem C225_bundle {d : Doc} (hd : Proper d) {ps : List (Nat × Nat)} (hr : node d 0 = some (.map ps)) {i j : Nat} {is : List Nat}
    (hx : (i, j) ∈ ps) (hi : node d i = some (.scalar b!"bundle")) (hj : node d j = some (.seq is))
    (hu : ∀ x ∈ ps, node d x.1 = some (.scalar b!"bundle") → x.2 = j) :
    ∃ f, bundle d = some ((is.filterMap fun k => (node d k).bind pairs).map f) ∧ ∀ ns name t, (name, t) ∈ f ns ↔ Entry d ns name t := by
  refine ⟨mapping d, ?_, fun ns name t => mapping_mem hd ns (name, t)⟩
  have hf : findBundle d ps = some (.seq is) := by
    clear hr
    induction ps with
    | nil => cases hx
    | cons x ps ih =>
      have hrest : (∀ k, node d x.1 = some (.scalar k) → k ≠ b!"bundle") → findBundle d ps = some (.seq is) := by
        intro hk
        rcases List.mem_cons.1 hx with rfl | h
        · exact absurd rfl (hk _ hi)
        · exact ih h (fun y hy => hu y (by simp [hy]))
      unfold findBundle
      split
      · rename_i k hk
        rw [cstr_id (proper_scalar hd (node_mem hk))]
        split
        · rename_i e
          subst e
          rw [hu x (by simp) hk, hj]
        · rename_i hne
          exact hrest (fun k' h' => by rw [hk] at h'; cases h'; exact hne)
      · rename_i hno
        exact hrest (fun k' h' => absurd h' (hno k'))
  unfold bundle
  rw [hr]
  simp only
  rw [hf]
  simp only [List.map_filterMap]
  congr 2
  funext k
  cases node d k with
  | none => rfl
  | some v => cases v <;> rfl

/-- C225: without such a key, or with another value of it, there is no bundle. -/
theorem C225_none {d : Doc} (hd : Proper d) (h : ∀ ps i j is, node d 0 = some (.map ps) → (i, j) ∈ ps →
    node d i = some (.scalar b!"bundle") → node d j ≠ some (.seq is)) : bundle d = none := by
  unfold bundle
  split
  · rename_i ps hr
    have hf : ∀ qs : List (Nat × Nat), (∀ x ∈ qs, x ∈ ps) → ∀ is, findBundle d qs ≠ some (.seq is) := by
      intro qs
      induction qs with
      | nil => exact fun _ is e => by cases e
      | cons x qs ih =>
        intro hq is
        have ih := ih (fun y hy => hq y (by simp [hy])) is
        unfold findBundle
        split
        · rename_i k hk
          rw [cstr_id (proper_scalar hd (node_mem hk))]
          split
          · rename_i e
            subst e
            exact h ps x.1 x.2 is hr (hq x (by simp)) hk
          · exact ih
        · exact ih
    split
    · exact absurd ‹_› (hf ps (fun _ h => h) _)
    · rfl
  · rfl

/-- `bundle: [{id: p, handler: {command: q}}]` -/
example : bundle [.map [(1, 2)], .scalar b!"bundle", .seq [3], .map [(4, 5), (6, 7)], .scalar b!"id", .scalar b!"p", .scalar b!"handler",
    .map [(8, 9)], .scalar b!"command", .scalar b!"q"] = some [[(b!"handler.command", b!"q"), (b!"id", b!"p")]] := by decide +kernel

/-! ## C226: chains of transforms -/

/-- C226: a key with transforms as it is written is read back as this key with these transforms. -/
theorem C226_written {key : Bytes} {ts : List Tr} (hk : c!":" ∉ key) (h : ∀ t ∈ ts, Good t) :
    parseChain (pattern key ts) = (some key, ts) := by
  obtain ⟨h1, h2⟩ := span_stop (f := (· != c!":")) (a := key) (c := c!":") (r := List.intercalate b!":" (ts.map written))
    (fun x hx => by simp only [bne_iff_ne]; exact fun e => hk (e ▸ hx)) (by decide)
  have e : pattern key ts = key ++ c!":" :: List.intercalate b!":" (ts.map written) := by simp [pattern]
  unfold parseChain
  rw [e, h2]
  simp only
  rw [chainLoop_written h, h1]

/-- C226: so the value of the variable is the text of the key, with the transforms applied in their order. -/
theorem C226_value {key : Bytes} {ts : List Tr} (hk : c!":" ∉ key) (h : ∀ t ∈ ts, Good t) (hne : ts ≠ [])
    (apply : List Tr → Bytes → Bytes) (md : Meta) :
    patternValue true (chain apply md) md (pattern key ts) = (Metadata.get md key).map (apply ts) := by
  have hc : (pattern key ts).contains c!":" = true := by simp [pattern]
  unfold patternValue
  rw [hc]
  simp only [Bool.and_self, if_true]
  unfold chain
  rw [C226_written hk h]
  match ts, hne with
  | t :: ts, _ => rfl

example : parseChain b!"title:replace(a,b):upper" = (some b!"title", [⟨b!"replace", some b!"a,b"⟩, ⟨b!"upper", none⟩]) ∧
    (∀ t ∈ [⟨b!"replace", some b!"a,b"⟩, ⟨b!"upper", none⟩], Good t) ∧
    pattern b!"title" [⟨b!"replace", some b!"a,b"⟩, ⟨b!"upper", none⟩] = b!"title:replace(a,b):upper" := by
  refine ⟨?_, ?_, by decide +kernel⟩
  · have h : pattern b!"title" [⟨b!"replace", some b!"a,b"⟩, ⟨b!"upper", none⟩] = b!"title:replace(a,b):upper" := by decide +kernel
    rw [← h]
    refine C226_written (by decide) ?_
    intro t ht
    simp only [List.mem_cons, List.not_mem_nil, or_false] at ht
    rcases ht with rfl | rfl <;> exact ⟨by decide, by decide, by decide, by rintro o ⟨⟩ <;> decide⟩
  · intro t ht
    simp only [List.mem_cons, List.not_mem_nil, or_false] at ht
    rcases ht with rfl | rfl <;> exact ⟨by decide, by decide, by decide, by rintro o ⟨⟩ <;> decide⟩

/-- C226: a parenthesis that is not closed makes the whole pattern a key. -/
theorem C226_open {key name rest : Bytes} (hk : c!":" ∉ key) (hn : c!":" ∉ name ∧ c!"(" ∉ name) (hr : c!")" ∉ rest)
    (apply : List Tr → Bytes → Bytes) (md : Meta) :
    chain apply md (key ++ b!":" ++ name ++ b!"(" ++ rest) = Metadata.get md (key ++ b!":" ++ name ++ b!"(" ++ rest) := by
  have e : key ++ b!":" ++ name ++ b!"(" ++ rest = key ++ c!":" :: (name ++ c!"(" :: rest) := by simp
  rw [e]
  obtain ⟨-, h2⟩ := span_stop (f := (· != c!":")) (a := key) (c := c!":") (r := name ++ c!"(" :: rest)
    (fun x hx => by simp only [bne_iff_ne]; exact fun e => hk (e ▸ hx)) (by decide)
  obtain ⟨-, h4⟩ := span_stop (f := inName) (a := name) (c := c!"(") (r := rest) (fun x hx => by
    simp only [inName, Bool.and_eq_true, bne_iff_ne]
    exact ⟨fun e => hn.1 (e ▸ hx), fun e => hn.2 (e ▸ hx)⟩) (by decide)
  obtain ⟨-, h6⟩ := span_all (f := (· != c!")")) (a := rest) (fun x hx => by
    simp only [bne_iff_ne]; exact fun e => hr (e ▸ hx))
  have ho : options ((name ++ c!"(" :: rest).dropWhile inName) = none := by
    rw [h4, options_cons, if_pos rfl, h6]
  have hl : chainLoop (name ++ c!"(" :: rest) = none := by
    rw [chainLoop, if_neg (by simp)]
    split
    · rfl
    · rename_i e1
      rw [ho] at e1
      cases e1
  unfold chain parseChain
  rw [h2]
  simp only
  rw [hl]

/-- C226 does not hold for options with a parenthesis: they end at the first one that closes, and what comes then, transforms as well,
is dropped. -/
theorem C226_nested_fails {key name o rest : Bytes} {x : Byte} (hk : c!":" ∉ key) (hn : c!":" ∉ name ∧ c!"(" ∉ name) (ho : c!")" ∉ o)
    (hx : x ≠ c!":") : parseChain (key ++ b!":" ++ name ++ b!"(" ++ o ++ b!")" ++ x :: rest) = (some key, [⟨name, some o⟩]) := by
  have e : key ++ b!":" ++ name ++ b!"(" ++ o ++ b!")" ++ x :: rest = key ++ c!":" :: (name ++ c!"(" :: (o ++ c!")" :: x :: rest)) := by simp
  rw [e]
  obtain ⟨h1, h2⟩ := span_stop (f := (· != c!":")) (a := key) (c := c!":") (r := name ++ c!"(" :: (o ++ c!")" :: x :: rest))
    (fun x hx => by simp only [bne_iff_ne]; exact fun e => hk (e ▸ hx)) (by decide)
  obtain ⟨h3, h4⟩ := span_stop (f := inName) (a := name) (c := c!"(") (r := o ++ c!")" :: x :: rest) (fun x hx => by
    simp only [inName, Bool.and_eq_true, bne_iff_ne]
    exact ⟨fun e => hn.1 (e ▸ hx), fun e => hn.2 (e ▸ hx)⟩) (by decide)
  obtain ⟨h5, h6⟩ := span_stop (f := (· != c!")")) (a := o) (c := c!")") (r := x :: rest)
    (fun x hx => by simp only [bne_iff_ne]; exact fun e => ho (e ▸ hx)) (by decide)
  have hop : options ((name ++ c!"(" :: (o ++ c!")" :: x :: rest)).dropWhile inName) = some (some o, x :: rest) := by
    rw [h4, options_cons, if_pos rfl, h6, h5]
  have hl : chainLoop (name ++ c!"(" :: (o ++ c!")" :: x :: rest)) = some [⟨name, some o⟩] := by
    rw [chainLoop, if_neg (by simp)]
    split
    · rename_i e1
      rw [hop] at e1
      cases e1
    · rename_i e1
      rw [hop] at e1
      simp only [Option.some.injEq, Prod.mk.injEq] at e1
      obtain ⟨rfl, rfl⟩ := e1
      simp [hx, h3]
  unfold parseChain
  rw [h2]
  simp only
  rw [hl, h1]

/-- `[%title:replace((a),b):upper]` -/
example : parseChain b!"title:replace((a),b):upper" = (some b!"title", [⟨b!"replace", some b!"(a"⟩]) :=
  C226_nested_fails (key := b!"title") (name := b!"replace") (o := b!"(a") (x := c!",") (rest := b!"b):upper") (by decide) (by decide)
    (by decide) (by decide)

end Verif.Yaml
