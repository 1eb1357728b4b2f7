import Verif.Spec.Yaml
import Verif.Proof.InlineNotes

namespace Verif.Yaml

open Spec Metadata

theorem decimal_number (n : Nat) : Man.decimal n = number n := InlineNotes.decimal_number n

theorem cstr_id {t : Bytes} (h : 0 ∉ t) : cstr t = t := by
  induction t with
  | nil => rfl
  | cons c t ih =>
    simp only [List.mem_cons, not_or] at h
    have hc : (c != 0) = true := by simp; exact fun e => h.1 e.symm
    simp only [cstr, List.takeWhile_cons, hc, if_true]
    rw [show t.takeWhile (· != 0) = t from ih h.2]

theorem node_mem {d : Doc} {i : Nat} {v : Node} (h : node d i = some v) : v ∈ d := List.mem_of_getElem? h

theorem node_some {d : Doc} {i : Nat} (h : i < d.length) : ∃ v, node d i = some v := ⟨d[i], List.getElem?_eq_getElem h⟩

theorem proper_scalar {d : Doc} (hd : Proper d) {t : Bytes} (h : .scalar t ∈ d) : 0 ∉ t := hd _ h

theorem join_eq (l : List Bytes) : join l = List.intercalate b!", " l := by
  induction l with
  | nil => rfl
  | cons a l ih =>
    cases l with
    | nil => simp [join, List.intercalate]
    | cons b l =>
      rw [show join (a :: b :: l) = a ++ b!", " ++ join (b :: l) from rfl, ih]
      simp [List.intercalate, List.intersperse]

theorem dotted_cons (a b : Bytes) (l : List Bytes) : dotted (a :: b :: l) = a ++ c!"." :: dotted (b :: l) := by
  simp [dotted, List.intercalate, List.intersperse]

theorem dotted_snoc (l : List Bytes) (k : Bytes) (h : l ≠ []) : dotted (l ++ [k]) = dotted l ++ c!"." :: k := by
  induction l with
  | nil => exact absurd rfl h
  | cons a l ih =>
    cases l with
    | nil => simp [dotted, List.intercalate]
    | cons b l =>
      rw [dotted_cons]
      simp only [List.cons_append]
      rw [dotted_cons]
      have := ih (by simp)
      simp only [List.cons_append] at this
      rw [this]
      simp

theorem dotted_nil_iff {q : List Bytes} (h : ∀ k ∈ q, k ≠ []) : dotted q = [] ↔ q = [] := by
  constructor
  · intro e
    cases q with
    | nil => rfl
    | cons a q =>
      have ha := h a (by simp)
      cases q with
      | nil => simp [dotted, List.intercalate] at e; exact absurd e ha
      | cons b q => rw [dotted_cons] at e; simp at e
  · rintro rfl; rfl

theorem take_nil_iff {b : Bytes} : b.take 511 = [] ↔ b = [] := by
  cases b <;> simp

theorem label_dotted {q : List Bytes} (h : ∀ k ∈ q, k ≠ []) (k : Bytes) :
    label ((dotted q).take 511) k = (dotted (q ++ [k])).take 511 := by
  unfold label
  by_cases hq : q = []
  · subst hq
    simp [dotted, List.intercalate]
  · have hne : dotted q ≠ [] := fun e => hq ((dotted_nil_iff h).1 e)
    rw [if_neg (fun e => hne (take_nil_iff.1 e)), dotted_snoc q k hq]
    by_cases hl : 511 ≤ (dotted q).length
    · rw [List.take_append_of_le_length (by simp; omega), List.take_append_of_le_length hl, List.take_take, Nat.min_self]
    · rw [List.take_of_length_le (l := dotted q) (by omega)]

theorem scalars_texts {d : Doc} (hd : Proper d) {is : List Nat} (hi : ∀ i ∈ is, i < d.length) (vs : List Bytes) :
    scalars d is = some vs ↔ Texts d is vs := by
  induction is generalizing vs with
  | nil =>
    unfold Texts
    cases vs <;> simp [scalars]
  | cons i is ih =>
    obtain ⟨v, hv⟩ := node_some (hi i (by simp))
    have ih := ih (fun j hj => hi j (by simp [hj]))
    rw [scalars]
    unfold Texts at ih ⊢
    rw [List.map_cons, hv]
    cases v with
    | scalar t =>
      have ht := cstr_id (proper_scalar hd (node_mem hv))
      simp only [ht]
      cases vs with
      | nil => simp
      | cons w ws =>
        simp only [Option.map_eq_some_iff, List.cons.injEq, List.map_cons, Option.some.injEq, Node.scalar.injEq]
        constructor
        · rintro ⟨a, ha, rfl, rfl⟩
          exact ⟨rfl, (ih _).1 ha⟩
        · rintro ⟨rfl, h⟩
          exact ⟨ws, (ih _).2 h, rfl, rfl⟩
    | seq l => cases vs <;> simp
    | map l => cases vs <;> simp

theorem fold_mem {α : Type} {f : Meta → α → Option Meta} {P : α → Item → Prop} {l : List α}
    (h : ∀ x ∈ l, ∀ m r, f m x = some r → ∀ e, e ∈ r ↔ e ∈ m ∨ P x e) {m r : Meta} (hr : l.foldlM f m = some r) (e : Item) :
    e ∈ r ↔ e ∈ m ∨ ∃ x ∈ l, P x e := by
  induction l generalizing m with
  | nil => simp at hr; simp [hr]
  | cons a l ih =>
    simp only [List.foldlM_cons, Option.bind_eq_bind, Option.bind_eq_some_iff] at hr
    obtain ⟨m', h1, h2⟩ := hr
    rw [ih (fun x hx => h x (by simp [hx])) h2, h a (by simp) _ _ h1]
    simp only [List.mem_cons, exists_eq_or_imp]
    exact or_assoc

theorem flat_scalar (d : Doc) (n : Nat) (p v : Bytes) (m : Meta) : flat d (n + 1) p (.scalar v) m = some (entry p (cstr v) m) := rfl

theorem flat_seq (d : Doc) (n : Nat) (p : Bytes) (is : List Nat) (m : Meta) : flat d (n + 1) p (.seq is) m =
    match scalars d is with
    | some [] => some m
    | some vs => some (entry p (join vs) m)
    | none =>
      (is.zipIdx).foldlM (fun m x =>
        match node d x.1 with
        | some ch => flat d n (label p (Man.decimal x.2)) ch m
        | none => some m) m := rfl

theorem flat_map (d : Doc) (n : Nat) (p : Bytes) (ps : List (Nat × Nat)) (m : Meta) : flat d (n + 1) p (.map ps) m =
    ps.foldlM (fun m x =>
      match node d x.1, node d x.2 with
      | some (.scalar k), some v => flat d n (label p (cstr k)) v m
      | _, _ => some m) m := rfl

/-- The names and texts below a node. -/
def Named (d : Doc) (q : List Bytes) (v : Node) (e : Item) : Prop :=
  ∃ path, Leaf d v path e.2 ∧ q ++ path ≠ [] ∧ e.1 = (dotted (q ++ path)).take 511

theorem entry_mem {p v : Bytes} {m : Meta} {e : Item} : e ∈ entry p v m ↔ e ∈ m ∨ (p ≠ [] ∧ e = (p, v)) := by
  unfold entry addItem
  split
  · simp [*]
  · rename_i h
    simp [h, or_comm]

theorem number_ne (n : Nat) : number n ≠ [] := by
  rw [← decimal_number, Man.decimal]
  split <;> simp

theorem flat_mem {d : Doc} (hd : Proper d) {n : Nat} {q : List Bytes} (hq : ∀ k ∈ q, k ≠ []) {v : Node} (hv : v ∈ d) {m r : Meta}
    (h : flat d n ((dotted q).take 511) v m = some r) (e : Item) : e ∈ r ↔ e ∈ m ∨ Named d q v e := by
  induction n generalizing q v m r e with
  | zero => cases h
  | succ n ih =>
    match v, hv with
    | .scalar t, hv =>
      rw [flat_scalar, cstr_id (proper_scalar hd hv)] at h
      cases h
      rw [entry_mem]
      refine or_congr Iff.rfl ⟨?_, ?_⟩
      · rintro ⟨h1, rfl⟩
        have : q ≠ [] := fun e => h1 (by rw [e]; rfl)
        exact ⟨[], .scalar t, by simpa using this, by simp⟩
      · rintro ⟨path, hl, h1, h2⟩
        cases e with | mk k t' =>
        cases hl
        simp at h1 h2
        refine ⟨fun e => h1 ((dotted_nil_iff hq).1 (take_nil_iff.1 e)), by rw [h2]⟩
    | .seq is, hv =>
      have hi := hd _ hv
      simp only at hi
      rw [flat_seq] at h
      have hs := scalars_texts hd hi
      split at h
      · rename_i e0
        cases h
        have ht := (hs _).1 e0
        constructor
        · exact .inl
        · rintro (h | ⟨path, hl, h1, h2⟩)
          · exact h
          · exfalso
            cases e with | mk k t' =>
            cases hl with
            | texts h0 hts => have := (hs _).2 hts; rw [e0] at this; cases this; exact h0 rfl
            | item hno _ _ _ => exact hno ⟨[], ht⟩
      · rename_i vs hne e0
        cases h
        have ht := (hs _).1 e0
        rw [entry_mem, join_eq]
        refine or_congr Iff.rfl ⟨?_, ?_⟩
        · rintro ⟨h1, rfl⟩
          have : q ≠ [] := fun e => h1 (by rw [e]; rfl)
          exact ⟨[], .texts (fun e => hne e) ht, by simpa using this, by simp⟩
        · rintro ⟨path, hl, h1, h2⟩
          cases e with | mk k t' =>
          cases hl with
          | texts h0 hts =>
            have := (hs _).2 hts
            rw [e0] at this
            cases this
            rw [List.append_nil] at h1 h2
            simp only at h2
            refine ⟨fun e => h1 ((dotted_nil_iff hq).1 (take_nil_iff.1 e)), by rw [h2]; rfl⟩
          | item hno _ _ _ => exact absurd ⟨_, ht⟩ hno
      · rename_i e0
        have hno : ¬ ∃ ts, Texts d is ts := by
          rintro ⟨ts, hts⟩
          have := (hs _).2 hts
          rw [e0] at this
          cases this
        rw [fold_mem (P := fun x e => ∃ v, node d x.1 = some v ∧ Named d (q ++ [number x.2]) v e) ?_ h e]
        · refine or_congr Iff.rfl ⟨?_, ?_⟩
          · rintro ⟨⟨i, k⟩, hx, v, hv', path, hl, h1, h2⟩
            have hx := List.mem_zipIdx' hx
            refine ⟨number k :: path, .item hno (i := i) ?_ hv' hl, by simp, by rw [h2]; simp⟩
            obtain ⟨h3, h4⟩ := hx
            rw [List.getElem?_eq_getElem h3, h4]
          · rintro ⟨path, hl, h1, h2⟩
            cases e with | mk k t' =>
            cases hl with
            | texts h0 hts => exact absurd ⟨_, hts⟩ hno
            | @item _ i n' v path _ _ h3 h4 h5 =>
              refine ⟨(i, n'), ?_, v, h4, path, h5, by simp, by rw [h2]; simp⟩
              rw [List.mem_zipIdx_iff_getElem?]
              exact h3
        · intro x _ m r hr e
          split at hr
          · rename_i ch hch
            rw [decimal_number, label_dotted hq] at hr
            rw [ih (fun k hk => by
              rcases List.mem_append.1 hk with h | h
              · exact hq _ h
              · rw [List.mem_singleton.1 h]; exact number_ne _) (node_mem hch) hr e]
            refine or_congr Iff.rfl ⟨fun h => ⟨_, hch, h⟩, ?_⟩
            rintro ⟨v, hv', h⟩
            rw [hch] at hv'
            cases hv'
            exact h
          · rename_i hch
            cases hr
            constructor
            · exact .inl
            · rintro (h | ⟨v, hv', _⟩)
              · exact h
              · rw [hch] at hv'; cases hv'
    | .map ps, hv =>
      have hi := hd _ hv
      simp only at hi
      rw [flat_map] at h
      rw [fold_mem (P := fun x e => ∃ k v, node d x.1 = some (.scalar k) ∧ node d x.2 = some v ∧ Named d (q ++ [k]) v e) ?_ h e]
      · refine or_congr Iff.rfl ⟨?_, ?_⟩
        · rintro ⟨⟨i, j⟩, hx, k, v, h3, h4, path, hl, h1, h2⟩
          exact ⟨k :: path, .value hx h3 h4 hl, by simp, by rw [h2]; simp⟩
        · rintro ⟨path, hl, h1, h2⟩
          cases e with | mk k t' =>
          cases hl with
          | @value _ i j key v path _ h3 h4 h5 h6 =>
            exact ⟨(i, j), h3, key, v, h4, h5, path, h6, by simp, by rw [h2]; simp⟩
      · intro x hx m r hr e
        split at hr
        · rename_i k v hk hv'
          have hkc := proper_scalar hd (node_mem hk)
          rw [cstr_id hkc, label_dotted hq] at hr
          have hkne : k ≠ [] := fun e => (hi x hx).2.2 (by rw [hk, e])
          rw [ih (fun k' hk' => by
            rcases List.mem_append.1 hk' with h | h
            · exact hq _ h
            · rw [List.mem_singleton.1 h]; exact hkne) (node_mem hv') hr e]
          refine or_congr Iff.rfl ⟨fun h => ⟨_, _, hk, hv', h⟩, ?_⟩
          rintro ⟨k', v', h1, h2, h⟩
          rw [hk] at h1
          rw [hv'] at h2
          cases h1
          cases h2
          exact h
        · rename_i hno
          cases hr
          constructor
          · exact .inl
          · rintro (h | ⟨k, v, h1, h2, _⟩)
            · exact h
            · exact (hno k v h1 h2).elim

/-! ### The end of the calls -/

theorem fold_some {α : Type} {f : Meta → α → Option Meta} {l : List α} {m r : Meta} (h : l.foldlM f m = some r) {x : α} (hx : x ∈ l) :
    ∃ m' r', f m' x = some r' := by
  induction l generalizing m with
  | nil => cases hx
  | cons a l ih =>
    simp only [List.foldlM_cons, Option.bind_eq_bind, Option.bind_eq_some_iff] at h
    obtain ⟨m', h1, h2⟩ := h
    rcases List.mem_cons.1 hx with rfl | hx
    · exact ⟨_, _, h1⟩
    · exact ih h2 hx

theorem fold_total {α : Type} {f : Meta → α → Option Meta} {l : List α} (h : ∀ x ∈ l, ∀ m, ∃ r, f m x = some r) (m : Meta) :
    ∃ r, l.foldlM f m = some r := by
  induction l generalizing m with
  | nil => exact ⟨m, rfl⟩
  | cons a l ih =>
    obtain ⟨m', h1⟩ := h a (by simp) m
    obtain ⟨r, h2⟩ := ih (fun x hx => h x (by simp [hx])) m'
    exact ⟨r, by simp [h1, h2]⟩

theorem scalars_below {d : Doc} {is : List Nat} {vs : List Bytes} (h : scalars d is = some vs) {i : Nat} (hi : i ∈ is) {v : Node}
    (hv : node d i = some v) : ∃ t, v = .scalar t := by
  induction is generalizing vs with
  | nil => cases hi
  | cons j is ih =>
    rw [scalars] at h
    rcases List.mem_cons.1 hi with rfl | hi
    · rw [hv] at h
      cases v with
      | scalar t => exact ⟨t, rfl⟩
      | seq => cases h
      | map => cases h
    · split at h
      · obtain ⟨a, ha, -⟩ := Option.map_eq_some_iff.1 h
        exact ih ha hi
      · cases h
      · exact ih h hi

theorem endless_next {d : Doc} {v : Node} (h : Endless d v) : ∃ w, Below d v w ∧ Endless d w := by
  obtain ⟨f, rfl, hf⟩ := h
  exact ⟨f 1, hf 0, fun k => f (k + 1), rfl, fun k => hf (k + 1)⟩

theorem endless_scalar {d : Doc} {t : Bytes} : ¬ Endless d (.scalar t) := by
  intro h
  obtain ⟨w, hw, -⟩ := endless_next h
  cases hw

theorem flat_ends {d : Doc} {n : Nat} {p : Bytes} {v : Node} {m r : Meta} (h : flat d n p v m = some r) : ¬ Endless d v := by
  induction n generalizing p v m r with
  | zero => cases h
  | succ n ih =>
    intro he
    obtain ⟨w, hb, hw⟩ := endless_next he
    cases hb with
    | @item is i _ hi hn =>
      rw [flat_seq] at h
      have hs : ∀ vs, scalars d is ≠ some vs := by
        intro vs e
        obtain ⟨t, rfl⟩ := scalars_below e hi hn
        exact endless_scalar hw
      split at h
      · exact hs _ ‹_›
      · exact hs _ ‹_›
      · obtain ⟨k, hk, hik⟩ := List.mem_iff_getElem.1 hi
        have hx : (i, k) ∈ is.zipIdx := by rw [List.mem_zipIdx_iff_getElem?]; simp [List.getElem?_eq_getElem hk, hik]
        obtain ⟨m', r', h'⟩ := fold_some h hx
        rw [hn] at h'
        exact ih h' hw
    | @value ps k j key _ hx hk hj =>
      rw [flat_map] at h
      obtain ⟨m', r', h'⟩ := fold_some h hx
      rw [hk, hj] at h'
      exact ih h' hw

theorem not_acc_next {α : Type} {R : α → α → Prop} {a : α} (h : ¬ Acc R a) : ∃ b, R b a ∧ ¬ Acc R b :=
  Classical.byContradiction fun hn => h ⟨a, fun b hb => Classical.byContradiction fun hb' => hn ⟨b, hb, hb'⟩⟩

theorem acc_of_not_endless {d : Doc} {v : Node} (h : ¬ Endless d v) : Acc (fun b a => Below d a b) v := by
  refine Classical.byContradiction fun hn => h ?_
  let S := { a : Node // ¬ Acc (fun b a => Below d a b) a }
  let next : S → S := fun a => ⟨(not_acc_next a.2).choose, (not_acc_next a.2).choose_spec.2⟩
  let f : Nat → S := fun n => Nat.rec ⟨v, hn⟩ (fun _ a => next a) n
  exact ⟨fun n => (f n).1, rfl, fun n => (not_acc_next (f n).2).choose_spec.1⟩

theorem bound {α : Type} (l : List α) (Q : α → Nat → Prop) (h : ∀ x ∈ l, ∃ N, ∀ n ≥ N, Q x n) : ∃ N, ∀ x ∈ l, ∀ n ≥ N, Q x n := by
  induction l with
  | nil => exact ⟨0, fun x hx => by cases hx⟩
  | cons a l ih =>
    obtain ⟨N1, h1⟩ := h a (by simp)
    obtain ⟨N2, h2⟩ := ih (fun x hx => h x (by simp [hx]))
    refine ⟨max N1 N2, fun x hx n hn => ?_⟩
    rcases List.mem_cons.1 hx with rfl | hx
    · exact h1 n (by omega)
    · exact h2 x hx n (by omega)

theorem flat_total {d : Doc} {v : Node} (h : Acc (fun b a => Below d a b) v) : ∃ N, ∀ n ≥ N, ∀ p m, ∃ r, flat d n p v m = some r := by
  induction h with
  | intro v _ ih =>
    cases v with
    | scalar t =>
      refine ⟨1, fun n hn p m => ?_⟩
      obtain ⟨k, rfl⟩ : ∃ k, n = k + 1 := ⟨n - 1, by omega⟩
      exact ⟨_, flat_scalar ..⟩
    | seq is =>
      obtain ⟨N, hN⟩ := bound is (fun i n => ∀ v, node d i = some v → ∀ p m, ∃ r, flat d n p v m = some r) (by
        intro i hi
        cases hv : node d i with
        | none => exact ⟨0, fun n _ v e => by cases e⟩
        | some v =>
          obtain ⟨N, hN⟩ := ih v (.item hi hv)
          exact ⟨N, fun n hn v' e => by cases e; exact hN n hn⟩)
      refine ⟨N + 1, fun n hn p m => ?_⟩
      obtain ⟨k, rfl⟩ : ∃ k, n = k + 1 := ⟨n - 1, by omega⟩
      rw [flat_seq]
      split
      · exact ⟨_, rfl⟩
      · exact ⟨_, rfl⟩
      · refine fold_total ?_ m
        rintro ⟨i, j⟩ hx m
        obtain ⟨h3, h4⟩ := List.mem_zipIdx' hx
        split
        · rename_i ch hch
          exact hN i (by rw [h4]; exact List.getElem_mem ..) k (by omega) ch hch _ _
        · exact ⟨_, rfl⟩
    | map ps =>
      obtain ⟨N, hN⟩ := bound ps (fun x n => ∀ k v, node d x.1 = some (.scalar k) → node d x.2 = some v → ∀ p m, ∃ r, flat d n p v m = some r) (by
        rintro ⟨i, j⟩ hx
        cases hk : node d i with
        | none => exact ⟨0, fun n _ k v e => by cases e⟩
        | some w =>
          cases hv : node d j with
          | none => exact ⟨0, fun n _ k v _ e => by cases e⟩
          | some v =>
            cases w with
            | scalar key =>
              obtain ⟨N, hN⟩ := ih v (.value hx hk hv)
              exact ⟨N, fun n hn k v' _ e => by cases e; exact hN n hn⟩
            | seq => exact ⟨0, fun n _ k v e => by cases e⟩
            | map => exact ⟨0, fun n _ k v e => by cases e⟩)
      refine ⟨N + 1, fun n hn p m => ?_⟩
      obtain ⟨k, rfl⟩ : ∃ k, n = k + 1 := ⟨n - 1, by omega⟩
      rw [flat_map]
      refine fold_total ?_ m
      intro x hx m
      split
      · rename_i key v hk hv
        exact hN x hx k (by omega) key v hk hv _ _
      · exact ⟨_, rfl⟩

/-! ### Chains -/

theorem span_stop {f : Byte → Bool} {a : Bytes} {c : Byte} {r : Bytes} (ha : ∀ x ∈ a, f x = true) (hc : f c = false) :
    (a ++ c :: r).takeWhile f = a ∧ (a ++ c :: r).dropWhile f = c :: r := by
  induction a with
  | nil => simp [hc]
  | cons b a ih =>
    have hb := ha b (by simp)
    obtain ⟨h1, h2⟩ := ih (fun x hx => ha x (by simp [hx]))
    simp [hb, h1, h2]

theorem span_all {f : Byte → Bool} {a : Bytes} (ha : ∀ x ∈ a, f x = true) : a.takeWhile f = a ∧ a.dropWhile f = [] := by
  induction a with
  | nil => simp
  | cons b a ih =>
    have hb := ha b (by simp)
    obtain ⟨h1, h2⟩ := ih (fun x hx => ha x (by simp [hx]))
    simp [hb, h1, h2]

theorem inName_iff {t : Tr} (h : Good t) : ∀ x ∈ t.name, inName x = true := by
  intro x hx
  simp only [inName, Bool.and_eq_true, bne_iff_ne]
  exact ⟨fun e => h.2.1 (e ▸ hx), fun e => h.2.2.1 (e ▸ hx)⟩

theorem written_span {t : Tr} (h : Good t) {rest : Bytes} (hr : rest = [] ∨ ∃ r, rest = c!":" :: r) :
    (written t ++ rest).takeWhile inName = t.name ∧ options ((written t ++ rest).dropWhile inName) = some (t.options, rest) ∧
    written t ++ rest ≠ [] := by
  obtain ⟨name, opts⟩ := t
  have hn := inName_iff h
  have hne := h.1
  simp only at hn hne
  cases opts with
  | none =>
    simp only [written]
    rcases hr with rfl | ⟨r, rfl⟩
    · rw [List.append_nil]
      obtain ⟨h1, h2⟩ := span_all hn
      exact ⟨h1, by rw [h2]; rfl, hne⟩
    · obtain ⟨h1, h2⟩ := span_stop (f := inName) (c := c!":") (r := r) hn (by decide)
      refine ⟨h1, ?_, by simp⟩
      rw [h2, options_cons, if_neg (by decide)]
  | some o =>
    have ho := h.2.2.2 o rfl
    have e : written ⟨name, some o⟩ ++ rest = name ++ c!"(" :: (o ++ c!")" :: rest) := by simp [written]
    rw [e]
    obtain ⟨h1, h2⟩ := span_stop (f := inName) (c := c!"(") (r := o ++ c!")" :: rest) hn (by decide)
    refine ⟨h1, ?_, by simp⟩
    obtain ⟨h3, h4⟩ := span_stop (f := (· != c!")")) (a := o) (c := c!")") (r := rest)
      (fun x hx => by simp only [bne_iff_ne]; exact fun e => ho (e ▸ hx)) (by decide)
    rw [h2, options_cons, if_pos rfl, h4, h3]

theorem chainLoop_written {ts : List Tr} (h : ∀ t ∈ ts, Good t) : chainLoop (List.intercalate b!":" (ts.map written)) = some ts := by
  induction ts with
  | nil => rw [chainLoop]; simp [List.intercalate]
  | cons t ts ih =>
    have ht := h t (by simp)
    have ih := ih (fun x hx => h x (by simp [hx]))
    cases ts with
    | nil =>
      obtain ⟨h1, h2, h3⟩ := written_span ht (rest := []) (.inl rfl)
      rw [List.append_nil] at h1 h2 h3
      have e : List.intercalate b!":" ([t].map written) = written t := by simp [List.intercalate]
      rw [e, chainLoop, if_neg h3]
      split
      · rename_i e1; rw [h2] at e1; cases e1
      · rename_i e1
        rw [h2] at e1
        simp only [Option.some.injEq, Prod.mk.injEq] at e1
        obtain ⟨rfl, rfl⟩ := e1
        simp [h1]
    | cons u ts =>
      have e : List.intercalate b!":" ((t :: u :: ts).map written) = written t ++ c!":" :: List.intercalate b!":" ((u :: ts).map written) := by
        simp [List.intercalate, List.intersperse]
      rw [e]
      obtain ⟨h1, h2, h3⟩ := written_span ht (rest := c!":" :: List.intercalate b!":" ((u :: ts).map written)) (.inr ⟨_, rfl⟩)
      rw [chainLoop, if_neg h3]
      split
      · rename_i e1; rw [h2] at e1; cases e1
      · rename_i o r e1
        rw [h2] at e1
        simp only [Option.some.injEq, Prod.mk.injEq] at e1
        obtain ⟨rfl, rfl⟩ := e1
        simp only [if_true]
        rw [ih, h1]
        rfl

theorem getCi_unique {m : Meta} {k v : Bytes} (hk : k ≠ []) (hm : (k, v) ∈ m) (hu : ∀ e ∈ m, ciEq e.1 k = true → e.2 = v) :
    getCi m k = some v := by
  induction m with
  | nil => cases hm
  | cons e m ih =>
    obtain ⟨a, b⟩ := e
    rw [getCi]
    have hrec : (k, v) ∈ m → getCi m k = some v := fun h => ih h (fun e he => hu e (by simp [he]))
    split
    · rename_i h0
      rcases List.mem_cons.1 hm with h | h
      · cases h
        exact absurd (List.length_eq_zero_iff.1 h0) hk
      · exact hrec h
    · split
      · rename_i hc
        rw [show b = v from hu (a, b) (by simp) hc]
      · rename_i hc
        rcases List.mem_cons.1 hm with h | h
        · cases h
          exact absurd (by simp [ciEq]) hc
        · exact hrec h

end Verif.Yaml
