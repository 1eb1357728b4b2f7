import Verif.Proof.AstJsonText
import Verif.Model.Filters

namespace Verif.AstJson
open JsonText (Ws Char IsString IsNumber Digits Val Elems Members IsText)

/-! ### Documents that stay as they are -/

theorem noControl_iff (s : Bytes) : noControl s = s ↔ Printable s := by
  have key : ∀ c, (if c < 0x20 ∧ c ≠ 10 ∧ c ≠ 13 ∧ c ≠ 9 then c!"?" else c) = c ↔ 0x20 ≤ c ∨ c = 9 ∨ c = 10 ∨ c = 13 :=
    forall_byte (by decide +kernel)
  induction s with
  | nil => simp [noControl, Printable]
  | cons c t ih =>
    rw [noControl, List.map_cons, List.cons.injEq, key c]
    exact (and_congr_right' ih).trans (List.forall_mem_cons (p := fun c => 0x20 ≤ c ∨ c = 9 ∨ c = 10 ∨ c = 13)).symm

theorem toList_eq_cons {i : Inl} {o : Option Inl} {r : List Inl} (h : o.toList = i :: r) : o = some i ∧ r = [] := by
  cases o with
  | none => simp at h
  | some j => simp at h; exact ⟨by rw [h.1], h.2⟩

mutual
theorem stays_inl (i : Inl) : keptInl i = some i ↔ InlStays i := by
  match i with
  | .text s =>
    simp only [keptInl, Option.some.injEq, Inl.text.injEq, noControl_iff]
    exact ⟨.text, fun h => by cases h; assumption⟩
  | .soft => exact ⟨fun _ => .soft, fun _ => rfl⟩
  | .line => exact ⟨fun _ => .line, fun _ => rfl⟩
  | .code s =>
    simp only [keptInl, Option.some.injEq, Inl.code.injEq, noControl_iff]
    exact ⟨.code, fun h => by cases h; assumption⟩
  | .html s =>
    simp only [keptInl, Option.some.injEq, Inl.html.injEq, noControl_iff]
    exact ⟨.html, fun h => by cases h; assumption⟩
  | .link u t k => simp only [keptInl]; exact ⟨fun h => by simp at h, fun h => by cases h⟩
  | .image u t k => simp only [keptInl]; exact ⟨fun h => by simp at h, fun h => by cases h⟩
  | .other s k => simp only [keptInl]; exact ⟨fun h => by simp at h, fun h => by cases h⟩
  | .emph k =>
    have h := stays_inls k
    simp only [keptInl, Option.some.injEq, Inl.emph.injEq, h]
    constructor
    · rintro (rfl | ⟨i, rfl, hi⟩)
      · exact .emphEmpty
      · exact .emph hi
    · intro h
      cases h with
      | emphEmpty => exact .inl rfl
      | emph hi => exact .inr ⟨_, rfl, hi⟩
  | .strong k =>
    have h := stays_inls k
    simp only [keptInl, Option.some.injEq, Inl.strong.injEq, h]
    constructor
    · rintro (rfl | ⟨i, rfl, hi⟩)
      · exact .strongEmpty
      · exact .strong hi
    · intro h
      cases h with
      | strongEmpty => exact .inl rfl
      | strong hi => exact .inr ⟨_, rfl, hi⟩
theorem stays_inls (k : List Inl) : (keptFirst k).toList = k ↔ k = [] ∨ ∃ i, k = [i] ∧ InlStays i := by
  match k with
  | [] => simp [keptFirst]
  | i :: r =>
    have h1 := stays_inl i
    constructor
    · intro h
      obtain ⟨h2, rfl⟩ := toList_eq_cons h
      simp only [keptFirst, Option.or_none] at h2
      exact .inr ⟨i, rfl, h1.1 h2⟩
    · rintro (h | ⟨j, h, hj⟩)
      · simp at h
      · simp at h
        obtain ⟨rfl, rfl⟩ := h
        simp [keptFirst, h1.2 hj]
end

theorem chop_iff (s : Bytes) : noControl (chop s) = s ↔ Printable s ∧ s.getLast? ≠ some c!"\n" := by
  unfold chop
  split
  · rename_i h
    constructor
    · intro he
      have := congrArg List.length he
      have h2 : s ≠ [] := by intro e; simp [e] at h
      have := List.length_pos_iff.2 h2
      simp [noControl] at *
      omega
    · rintro ⟨_, h2⟩; exact absurd h h2
  · rename_i h
    rw [noControl_iff]
    exact ⟨fun hp => ⟨hp, h⟩, fun hp => hp.1⟩

theorem stays_blk (b : Blk) : (hasCode b = false ∧ keptBlk b = some b) ↔ BlkStays b := by
  cases b with
  | para k =>
    simp only [hasCode, keptBlk, Option.some.injEq, Blk.para.injEq, stays_inls, true_and]
    constructor
    · rintro (rfl | ⟨i, rfl, hi⟩)
      · exact .paraEmpty
      · exact .para hi
    · intro h
      cases h with
      | paraEmpty => exact .inl rfl
      | para hi => exact .inr ⟨_, rfl, hi⟩
  | heading l k =>
    simp only [hasCode, keptBlk, Option.some.injEq, Blk.heading.injEq, stays_inls, true_and]
    constructor
    · rintro ⟨hl, h⟩
      have hl : 1 ≤ l ∧ l ≤ 6 := by
        split at hl
        · assumption
        · omega
      rcases h with rfl | ⟨i, rfl, hi⟩
      · exact .headingEmpty hl.1 hl.2
      · exact .heading hl.1 hl.2 hi
    · intro h
      cases h with
      | headingEmpty h1 h2 => exact ⟨by simp [h1, h2], .inl rfl⟩
      | heading h1 h2 hi => exact ⟨by simp [h1, h2], .inr ⟨_, rfl, hi⟩⟩
  | rule => exact ⟨fun _ => .rule, fun _ => ⟨rfl, rfl⟩⟩
  | html s =>
    simp only [hasCode, keptBlk, Option.some.injEq, Blk.html.injEq, noControl_iff, true_and]
    exact ⟨.html, fun h => by cases h; assumption⟩
  | code info s =>
    simp only [hasCode, keptBlk, Option.some.injEq, Blk.code.injEq, chop_iff]
    constructor
    · rintro ⟨h1, _, h2, h3⟩
      have : info = b!"inc" := by simpa using h1
      subst this
      exact .inc h2 h3
    · intro h
      cases h with
      | inc h1 h2 => exact ⟨by simp, by decide, h1, h2⟩
  | bullet items =>
    refine ⟨fun h => ?_, fun h => by cases h⟩
    have := h.2
    simp only [keptBlk] at this
    split at this <;> simp at this
  | ordered start items =>
    refine ⟨fun h => ?_, fun h => by cases h⟩
    have := h.2
    simp [keptBlk] at this
  | quote k =>
    refine ⟨fun h => ?_, fun h => by cases h; exact ⟨rfl, rfl⟩⟩
    have := h.2
    simp only [keptBlk] at this
    split at this
    · exact .quoteEmpty
    · simp at this
  | other s =>
    refine ⟨fun h => ?_, fun h => by cases h⟩
    have := h.2
    simp [keptBlk] at this

theorem stays_doc (doc : List Blk) : kept doc = some doc ↔ ∀ b ∈ doc, BlkStays b := by
  induction doc with
  | nil => simp [kept]
  | cons b r ih =>
    rw [List.forall_mem_cons, ← ih, ← stays_blk b, kept]
    cases hc : hasCode b with
    | true => simp
    | false =>
      cases hk : keptBlk b with
      | none =>
        simp only [Bool.false_eq_true, if_false, true_and]
        split <;> simp
      | some c =>
        cases hr : kept r with
        | none => simp
        | some l => simp

/-! ### No NUL byte is written -/

def NZ (w : Bytes) : Prop := ∀ c ∈ w, c ≠ 0

instance (w : Bytes) : Decidable (NZ w) := by unfold NZ; infer_instance

theorem nz_append {a b : Bytes} (ha : NZ a) (hb : NZ b) : NZ (a ++ b) := by
  intro c hc
  rcases List.mem_append.1 hc with h | h
  · exact ha c h
  · exact hb c h

theorem nz_ws {a : Bytes} (h : Ws a) : NZ a := by
  intro c hc
  rcases h c hc with rfl | rfl | rfl | rfl <;> decide

theorem nz_string {w : Bytes} (h : IsString w) : NZ w := by
  obtain ⟨cs, hc, rfl⟩ := h
  refine nz_append (a := c!"\"" :: cs.flatten) ?_ (by decide)
  intro c hm
  rcases List.mem_cons.1 hm with rfl | hm
  · decide
  · obtain ⟨x, hx, hcx⟩ := List.mem_flatten.1 hm
    have hx := hc x hx
    cases hx with
    | plain d _ _ h => simp at hcx; subst hcx; intro e; subst e; simp at h
    | escape e he =>
      have key : ∀ e, e ∈ b!"\"\\/bfnrt" → e ≠ 0 := forall_byte (by decide +kernel)
      simp only [List.mem_cons, List.not_mem_nil, or_false] at hcx
      rcases hcx with rfl | rfl
      · decide
      · exact key _ he
    | unicode p q r s h =>
      have key : ∀ x, (Html.hexVal x).isSome = true → x ≠ 0 := forall_byte (by decide +kernel)
      rcases List.mem_cons.1 hcx with rfl | hcx
      · decide
      · rcases List.mem_cons.1 hcx with rfl | hcx
        · decide
        · exact key c (h c hcx)

theorem nz_token {w : Bytes} (h : Token w) : NZ w := by
  intro c hc e
  have := (h.2 c hc).1
  subst e
  exact absurd this (by decide)

mutual
theorem nz_val {w : Bytes} (h : Val w) : NZ w := by
  cases h with
  | str h => exact nz_string h
  | num h => exact nz_token (token_num h)
  | word h => exact nz_token (token_word h)
  | arrayEmpty h => exact nz_append (nz_append (by decide) (nz_ws h)) (by decide)
  | array h => exact nz_append (nz_append (by decide) (nz_elems h)) (by decide)
  | objectEmpty h => exact nz_append (nz_append (by decide) (nz_ws h)) (by decide)
  | object h => exact nz_append (nz_append (by decide) (nz_members h)) (by decide)
termination_by 2 * w.length
decreasing_by all_goals simp_all <;> omega
theorem nz_elems {w : Bytes} (h : Elems w) : NZ w := by
  cases h with
  | one ha hv hb => exact nz_append (nz_append (nz_ws ha) (nz_val hv)) (nz_ws hb)
  | more ha hv hb he => exact nz_append (nz_append (nz_append (nz_append (nz_ws ha) (nz_val hv)) (nz_ws hb)) (by decide)) (nz_elems he)
termination_by 2 * w.length + 1
decreasing_by all_goals simp_all <;> omega
theorem nz_members {w : Bytes} (h : Members w) : NZ w := by
  cases h with
  | one ha hk hb hc hv hd =>
    exact nz_append (nz_append (nz_append (nz_append (nz_append (nz_append (nz_ws ha) (nz_string hk)) (nz_ws hb)) (by decide)) (nz_ws hc)) (nz_val hv)) (nz_ws hd)
  | more ha hk hb hc hv hd hm =>
    exact nz_append (nz_append (nz_append (nz_append (nz_append (nz_append (nz_append (nz_append (nz_ws ha) (nz_string hk)) (nz_ws hb)) (by decide)) (nz_ws hc)) (nz_val hv)) (nz_ws hd)) (by decide)) (nz_members hm)
termination_by 2 * w.length + 1
decreasing_by all_goals simp_all <;> omega
end

theorem nz_join (xs : List Bytes) (h : ∀ x ∈ xs, NZ x) : NZ (join xs) := by
  match xs with
  | [] => intro c hc; simp [join] at hc
  | [x] => exact h x (by simp)
  | x :: y :: r => exact nz_append (nz_append (h x (by simp)) (by decide)) (nz_join (y :: r) fun z hz => h z (by simp [hz]))

theorem nz_obj (T C : Bytes) (h : NZ C) : NZ (obj T C) := by
  have hq : ∀ s, NZ (quoted s) := fun s => nz_string (quoted_string s)
  exact nz_append (nz_append (nz_append (nz_append (nz_append (nz_append (nz_append (nz_append (by decide) (hq _)) (by decide)) (hq _)) (by decide)) (hq _)) (by decide)) h) (by decide)

mutual
theorem nz_blk (b : Blk) : NZ (writeBlk b) := by
  have hq : ∀ s, NZ (quoted s) := fun s => nz_string (quoted_string s)
  match b with
  | .para k => rw [writeBlk_obj]; exact nz_obj _ _ (nz_val (val_inls k).1)
  | .heading l k => rw [writeBlk_obj]; exact nz_obj _ _ (nz_val (val_heading l k))
  | .rule => rw [writeBlk_obj]; exact nz_obj _ _ (nz_val val_empty)
  | .html s => rw [writeBlk_obj]; exact nz_obj _ _ (nz_val (val_two (val_str _) (val_str s)))
  | .other s => rw [writeBlk_obj]; exact nz_obj _ _ (nz_val (val_inls _).1)
  | .code info s =>
    rw [writeBlk_obj]
    refine nz_obj _ _ (nz_append (nz_append ?_ (hq _)) (by decide))
    refine nz_append (nz_append (nz_append (nz_append (by decide) (hq _)) (by decide)) ?_) ?_
    · split
      · exact hq _
      · intro c hc; simp at hc
    · split <;> decide
  | .bullet items =>
    have h := nz_items items
    rw [writeBlk_obj]
    exact nz_obj _ _ (nz_append (nz_append (by decide) (nz_join _ h)) (by decide))
  | .ordered start items =>
    have h := nz_items items
    rw [writeBlk_obj]
    exact nz_obj _ _ (nz_append (nz_append (nz_append (by decide) (nz_val (val_attrB start))) (by decide))
      (nz_append (nz_append (by decide) (nz_join _ h)) (by decide)))
  | .quote k =>
    have h := nz_blks k
    rw [writeBlk_obj]
    exact nz_obj _ _ (nz_append (nz_append (by decide) (nz_join _ h)) (by decide))
theorem nz_blks (k : List Blk) : ∀ x ∈ k.map writeBlk, NZ x := by
  match k with
  | [] => intro x hx; simp at hx
  | b :: r =>
    have h1 := nz_blk b
    have h2 := nz_blks r
    intro x hx
    rcases List.mem_cons.1 hx with rfl | hx
    · exact h1
    · exact h2 x hx
theorem nz_items (k : List (List Blk)) : ∀ x ∈ k.map item, NZ x := by
  match k with
  | [] => intro x hx; simp at hx
  | b :: r =>
    have h1 := nz_blks b
    have h2 := nz_items r
    intro x hx
    rcases List.mem_cons.1 hx with rfl | hx
    · rw [item, writeBlks_join]; exact nz_append (nz_append (by decide) (nz_join _ h1)) (by decide)
    · exact h2 x hx
end

theorem nz_doc (doc : List Blk) : NZ (toJson doc) := by
  rw [toJson, writeBlks_join]
  exact nz_append (nz_append (nz_append (by decide) (by decide)) (nz_join _ (nz_blks doc))) (by decide)

/-! ### Other members -/

theorem loop_rest (k : List Blk) (hk : k ≠ []) (hc : hasCodes k = false) (l : List Blk) (hl : kept k = some l) (rest : Bytes) (n : Nat)
    (hn : 3 * (writeBlks k).length ≤ n) : blockLoop n (writeBlks k ++ c!"]" :: rest) = (l, c!"]" :: rest) := by
  have hw : ∀ b r, ws (writeBlk b ++ r) = writeBlk b ++ r := fun b r => by rw [writeBlk_obj]; exact ws_cons (by decide) _
  have hlen : ∀ b, 13 ≤ (writeBlk b).length := fun b => by rw [writeBlk_obj]; have := obj_length (tagB b) (contB b); omega
  match k with
  | [] => exact absurd rfl hk
  | [b] =>
    have hb := hlen b
    simp only [writeBlks] at hn ⊢
    obtain ⟨m, rfl⟩ : ∃ m, n = m + 2 := ⟨n - 2, by omega⟩
    simp only [hasCodes, Bool.or_false] at hc
    rw [blockLoop, hw, block_ok b hc _ _ (by omega)]
    simp only [kept, hc, Bool.false_eq_true, if_false] at hl
    cases hb : keptBlk b with
    | none => simp [hb] at hl; subst hl; simp
    | some c => simp [hb] at hl; subst hl; simp [ws_cons (show isSpace c!"]" = false by decide)]
  | b :: b2 :: r =>
    have hb := hlen b
    simp only [writeBlks, List.length_append, List.length_cons, List.length_nil] at hn
    obtain ⟨m, rfl⟩ : ∃ m, n = m + 2 := ⟨n - 2, by omega⟩
    rw [hasCodes, Bool.or_eq_false_iff] at hc
    have hs : writeBlks (b :: b2 :: r) ++ c!"]" :: rest = writeBlk b ++ c!"," :: (writeBlks (b2 :: r) ++ c!"]" :: rest) := by simp [writeBlks]
    rw [hs, blockLoop, hw, block_ok b hc.1 _ _ (by omega)]
    rw [kept, if_neg (by simp [hc.1])] at hl
    cases hb : keptBlk b with
    | none => simp [hb] at hl
    | some c =>
      cases h2 : kept (b2 :: r) with
      | none => simp [hb, h2] at hl
      | some l2 =>
        simp [hb, h2] at hl
        have ih := loop_rest (b2 :: r) (by simp) hc.2 l2 h2 rest (m + 1) (by omega)
        simp only [Option.map_some, ws_cons (show isSpace c!"," = false by decide), List.head?_cons, List.drop_succ_cons, List.drop_zero]
        rw [if_pos trivial, ih, ← hl]
        rfl

theorem noControl_blocks (k : Bytes) (h : noControl k = b!"blocks") : k = b!"blocks" := by
  have key : ∀ c d, (if c < 0x20 ∧ c ≠ 10 ∧ c ≠ 13 ∧ c ≠ 9 then c!"?" else c) = d → d ≠ c!"?" → c = d := by
    intro c d h hd
    split at h
    · exact absurd h.symm hd
    · exact h
  have aux : ∀ (k w : Bytes), (∀ d ∈ w, d ≠ c!"?") → noControl k = w → k = w := by
    intro k
    induction k with
    | nil => intro w _ h; exact h
    | cons c t ih =>
      intro w hw h
      cases w with
      | nil => simp [noControl] at h
      | cons d w =>
        rw [noControl, List.map_cons, List.cons.injEq] at h
        rw [key c d h.1 (hw d (by simp)), ih w (fun e he => hw e (by simp [he])) h.2]
  exact aux k _ (by decide) h

/-- Members in front of the blocks. -/
def front (ms : List (Bytes × Bytes)) : Bytes := ms.flatMap fun m => quoted m.1 ++ b!":" ++ m.2 ++ b!","
/-- Members behind the blocks. -/
def back (ms : List (Bytes × Bytes)) : Bytes := ms.flatMap fun m => b!"," ++ quoted m.1 ++ b!":" ++ m.2

theorem docFields_front (ms : List (Bytes × Bytes)) (h : ∀ m ∈ ms, m.1 ≠ b!"blocks" ∧ Val m.2) (acc : List Blk) (r : Bytes) (n : Nat)
    (hn : 2 * (front ms).length ≤ n) : ∃ k, n ≤ k + (front ms).length ∧ docFields n acc (front ms ++ r) = docFields k acc r := by
  induction ms generalizing n with
  | nil => exact ⟨n, by omega, rfl⟩
  | cons m ms ih =>
    obtain ⟨h1, h2⟩ := h m (by simp)
    have hq := quoted_length m.1
    have hl : (front (m :: ms)).length = (quoted m.1).length + 1 + m.2.length + 1 + (front ms).length := by simp [front]; omega
    obtain ⟨n, rfl⟩ : ∃ n', n = n' + 1 := ⟨n - 1, by omega⟩
    obtain ⟨k, hk1, hk2⟩ := ih (fun x hx => h x (by simp [hx])) n (by omega)
    refine ⟨k, by omega, ?_⟩
    have hs : front (m :: ms) ++ r = quoted m.1 ++ c!":" :: (m.2 ++ c!"," :: (front ms ++ r)) := by simp [front]
    rw [hs, docFields_skip n acc m.1 m.2 _ (fun e => h1 (noControl_blocks _ e)) h2 (by omega), hk2]

theorem docFields_back (ms : List (Bytes × Bytes)) (hm : ms ≠ []) (h : ∀ m ∈ ms, m.1 ≠ b!"blocks" ∧ Val m.2) (acc : List Blk) (n : Nat)
    (hn : 2 * (back ms).length ≤ n) : docFields n acc ((back ms).drop 1 ++ b!"}") = some acc := by
  match ms with
  | [] => exact absurd rfl hm
  | [m] =>
    obtain ⟨h1, h2⟩ := h m (by simp)
    have hq := quoted_length m.1
    have hl : (back [m]).length = 1 + (quoted m.1).length + 1 + m.2.length := by simp [back]; omega
    obtain ⟨n, rfl⟩ : ∃ n', n = n' + 1 := ⟨n - 1, by omega⟩
    have hs : (back [m]).drop 1 ++ b!"}" = quoted m.1 ++ c!":" :: (m.2 ++ c!"}" :: []) := by simp [back]
    rw [hs, docFields, if_neg (head_q _ _ _ (by decide)), str_key]
    simp only [need_eq (show isSpace c!":" = false by decide), Option.bind_some, if_neg fun e => h1 (noControl_blocks _ e)]
    rw [needSkip_val h2 n _ (stop_brace _) (by omega)]
    rfl
  | m :: m2 :: ms =>
    obtain ⟨h1, h2⟩ := h m (by simp)
    have hq := quoted_length m.1
    have hl : (back (m :: m2 :: ms)).length = 1 + (quoted m.1).length + 1 + m.2.length + (back (m2 :: ms)).length := by simp [back]; omega
    obtain ⟨n, rfl⟩ : ∃ n', n = n' + 1 := ⟨n - 1, by omega⟩
    have hs : (back (m :: m2 :: ms)).drop 1 ++ b!"}" = quoted m.1 ++ c!":" :: (m.2 ++ c!"," :: ((back (m2 :: ms)).drop 1 ++ b!"}")) := by simp [back]
    rw [hs, docFields_skip n acc m.1 m.2 _ (fun e => h1 (noControl_blocks _ e)) h2 (by omega)]
    exact docFields_back (m2 :: ms) (by simp) (fun x hx => h x (by simp [hx])) acc n (by omega)

theorem blocks_written (doc : List Blk) (hc : hasCodes doc = false) (l : List Blk) (hk : kept doc = some l) (rest : Bytes) (n : Nat)
    (hn : 3 * (writeBlks doc).length + 2 ≤ n) : (blocks n (c!"[" :: (writeBlks doc ++ c!"]" :: rest))).1.getD [] = l ∧
      (blocks n (c!"[" :: (writeBlks doc ++ c!"]" :: rest))).2 = rest := by
  obtain ⟨n, rfl⟩ : ∃ n', n = n' + 1 := ⟨n - 1, by omega⟩
  cases doc with
  | nil =>
    simp [kept] at hk
    subst hk
    rw [blocks, char_eq (by decide)]
    simp only [writeBlks, List.nil_append, ws_cons (show isSpace c!"]" = false by decide)]
    exact ⟨rfl, rfl⟩
  | cons b r =>
    have hh : (ws (writeBlks (b :: r) ++ c!"]" :: rest)).head? ≠ some c!"]" := by
      have h1 : ∃ t, writeBlks (b :: r) = c!"{" :: t := by
        cases r <;> simp [writeBlks, writeBlk_obj, obj, head]
      obtain ⟨t, ht⟩ := h1
      rw [ht, List.cons_append, ws_cons (by decide)]; simp
    have h3 := loop_rest (b :: r) (by simp) hc l hk rest n (by omega)
    rw [blocks, char_eq (by decide)]
    simp only [if_neg hh, h3, char_eq (show isSpace c!"]" = false by decide)]
    simp

theorem read_members (pre post : List (Bytes × Bytes)) (h1 : ∀ m ∈ pre, m.1 ≠ b!"blocks" ∧ Val m.2) (h2 : ∀ m ∈ post, m.1 ≠ b!"blocks" ∧ Val m.2)
    (doc l : List Blk) (hc : hasCodes doc = false) (hk : kept doc = some l) :
    fromJson (b!"{" ++ front pre ++ quoted b!"blocks" ++ b!":" ++ (b!"[" ++ writeBlks doc ++ b!"]") ++ back post ++ b!"}") = some l := by
  rw [fromJson]
  have hs : b!"{" ++ front pre ++ quoted b!"blocks" ++ b!":" ++ (b!"[" ++ writeBlks doc ++ b!"]") ++ back post ++ b!"}" =
      c!"{" :: (front pre ++ (quoted b!"blocks" ++ c!":" :: (c!"[" :: (writeBlks doc ++ c!"]" :: (back post ++ b!"}"))))) := by simp
  have hl : (c!"{" :: (front pre ++ (quoted b!"blocks" ++ c!":" :: (c!"[" :: (writeBlks doc ++ c!"]" :: (back post ++ b!"}")))))).length ≥
      (front pre).length + (writeBlks doc).length + (back post).length + 5 := by simp; omega
  rw [hs]
  generalize hN : 3 * (c!"{" :: (front pre ++ (quoted b!"blocks" ++ c!":" :: (c!"[" :: (writeBlks doc ++ c!"]" :: (back post ++ b!"}")))))).length + 3 = N
  rw [need_eq (by decide), Option.bind_some]
  obtain ⟨k, k1, k2⟩ := docFields_front pre h1 [] (quoted b!"blocks" ++ c!":" :: (c!"[" :: (writeBlks doc ++ c!"]" :: (back post ++ b!"}")))) N (by omega)
  rw [k2]
  obtain ⟨k, rfl⟩ : ∃ k', k = k' + 1 := ⟨k - 1, by omega⟩
  obtain ⟨e1, e2⟩ := blocks_written doc hc l hk (back post ++ b!"}") k (by omega)
  rw [docFields, if_neg (head_q _ _ _ (by decide)), str_key]
  simp only [need_eq (show isSpace c!":" = false by decide), Option.bind_some]
  rw [if_pos (by decide)]
  simp only [e1, e2, List.nil_append]
  cases post with
  | nil =>
    rw [show back [] = [] from rfl, List.nil_append, ws_cons (by decide), if_neg (by decide)]
  | cons m ms =>
    have hb : ∃ t, back (m :: ms) = c!"," :: t := by simp [back]
    obtain ⟨t, ht⟩ := hb
    have := docFields_back (m :: ms) (by simp) h2 l k (by omega)
    rw [ht] at this ⊢
    rw [List.cons_append, ws_cons (by decide), if_pos (by rfl)]
    exact this

end Verif.AstJson
