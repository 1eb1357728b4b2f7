import Verif.Proof.AstJsonBlk

namespace Verif.AstJson
open JsonText (Ws Char IsString IsNumber Digits Val Elems Members)

theorem cont_ok (b : Blk) (h : hasCode b = false) (rest : Bytes) (n : Nat) (hn : 2 * (contB b).length + 1 ≤ n) :
    skip n (contB b ++ c!"}" :: rest) = (true, c!"}" :: rest) := by
  have hv : ∀ {v}, Val v → 2 * v.length + 1 ≤ n → skip n (v ++ c!"}" :: rest) = (true, c!"}" :: rest) :=
    fun h hn => skip_val h _ n (stop_brace rest) (by omega)
  cases b with
  | para k => exact hv (val_inls k).1 hn
  | heading l k => exact hv (val_heading l k) hn
  | rule => exact hv val_empty hn
  | html s => exact hv (val_two (val_str _) (val_str s)) hn
  | other s => exact hv (val_inls _).1 hn
  | code info s =>
    have : info = b!"inc" := by simpa [hasCode] using h
    subst this
    rw [contB, codeAttr_inc] at hn ⊢
    exact hv (val_two val_incAttr (val_str _)) hn
  | bullet items => exact (arr_ok _ ((sk_items items).1 h)).2 _ n (by simp only [contB] at hn; omega)
  | ordered start items => exact ordered_cont_ok _ _ ((sk_items items).1 h) rest n hn
  | quote k => exact (arr_ok _ ((sk_blks k).1 h)).2 _ n (by simp only [contB] at hn; omega)

theorem cont_bad (b : Blk) (h : hasCode b = true) (hb : ∀ i s, b ≠ .code i s) (rest : Bytes) (n : Nat) (hn : 2 * (contB b).length + 1 ≤ n) :
    ∃ r, skip n (contB b ++ c!"}" :: rest) = (false, c!"]" :: c!"}" :: r) := by
  cases b with
  | bullet items => exact (arr_bad _ ((sk_items items).2 h).1 ((sk_items items).2 h).2).2 _ n (by simp only [contB] at hn; omega)
  | ordered start items => exact ordered_cont_bad _ _ ((sk_items items).2 h).1 ((sk_items items).2 h).2 rest n hn
  | quote k => exact (arr_bad _ ((sk_blks k).2 h).1 ((sk_blks k).2 h).2).2 _ n (by simp only [contB] at hn; omega)
  | code i s => exact absurd rfl (hb i s)
  | _ => simp [hasCode] at h

theorem cont_ws (b : Blk) (r : Bytes) : ws (contB b ++ r) = contB b ++ r := by
  have : ∃ t, contB b = c!"[" :: t := by
    cases b with
    | code info s => exact ⟨_, rfl⟩
    | _ => exact ⟨_, rfl⟩
  obtain ⟨t, ht⟩ := this
  rw [ht]; exact ws_cons (by decide) _

/-! ### One block -/

/-- What `block` makes of an object. -/
def res (n : Nat) (tag c : Bytes) : Option (Option Blk) :=
  if tag = b!"Para" then some (some (.para (inlines n c).toList))
  else if tag = b!"Header" then (heading n c).map some
  else if tag = b!"HorizontalRule" then (needSkip n c).map fun _ => some .rule
  else if tag = b!"RawBlock" then (rawBlock n c).map some
  else if tag = b!"CodeBlock" then (codeBlock n c).map some
  else if tag = b!"BulletList" ∨ tag = b!"OrderedList" then
    (listStart n (tag = b!"OrderedList") c).bind fun r =>
      (need c!"[" r).bind fun r =>
        (itemLoop n (ws r)).bind fun (items, r) =>
          (need c!"]" r).bind fun r => (need c!"]" r).map fun _ =>
            some (if tag = b!"OrderedList" then .ordered 1 items else .bullet items)
  else if tag = b!"BlockQuote" then
    (need c!"[" c).bind fun r =>
      let (k, r) := blocks n r
      (need c!"]" r).map fun _ => some (.quote (k.getD []))
  else if tag = b!"Div" then
    (pastAttr n c).bind fun r =>
      let (k, r) := blocks n r
      (need c!"]" r).bind fun _ => k.map fun _ => none
  else some (some (.para []))

theorem block_eq (n : Nat) (X : Bytes) : block (n + 1) (c!"{" :: X) =
    match fields true n {} X with
    | (none, r) => (none, r)
    | (some (tag, c), r) => (res n tag c, r) := by
  rw [block, char_eq (by decide)]
  rfl

theorem need_eq {c : Byte} (h : isSpace c = false) (t : Bytes) : need c (c :: t) = some t := by simp [need, char_eq h]
theorem need_ne {c d : Byte} (h : isSpace d = false) (hd : d ≠ c) (t : Bytes) : need c (d :: t) = none := by simp [need, char_ne h hd]
theorem needSkip_val {v : Bytes} (h : Val v) (n : Nat) (r : Bytes) (hr : Stop r) (hn : 2 * v.length ≤ n) : needSkip n (v ++ r) = some r := by
  simp [needSkip, skip_val h r n hr hn]
theorem needStr_quoted (s r : Bytes) : needStr (quoted s ++ r) = some (noControl s, r) := by simp [needStr, str_quoted]

theorem res_heading (l : Nat) (k : List Inl) (n : Nat) (hn : 3 * (contB (.heading l k)).length ≤ n) :
    heading n (contB (.heading l k)) = keptBlk (.heading l k) := by
  have hs : contB (.heading l k) = c!"[" :: (decimal (if l = 0 then 1 else l) ++ c!"," :: (noAttr ++ c!"," :: ((b!"[" ++ writeInls k ++ b!"]") ++ b!"]"))) := by
    simp [contB]
  rw [hs] at hn
  simp only [List.length_cons, List.length_append] at hn
  rw [hs, heading, need_eq (by decide)]
  simp only [Option.bind_eq_bind, Option.bind_some, int_decimal, need_eq (show isSpace c!"," = false by decide)]
  rw [needSkip_val val_noAttr n _ (stop_comma _) (by omega)]
  simp only [Option.bind_some, need_eq (show isSpace c!"," = false by decide)]
  rw [(val_inls k).2 _ n (by simp only [List.length_append, List.length_cons, List.length_nil] at hn ⊢; omega), keptBlk]
  congr 2
  by_cases h0 : l = 0
  · subst h0; rfl
  · rw [if_neg h0, if_neg h0]
    by_cases h6 : l ≤ 6
    · rw [if_pos h6, if_pos ⟨by omega, h6⟩]
    · rw [if_neg h6, if_neg (by omega)]

theorem res_html (s : Bytes) (n : Nat) (hn : 3 * (contB (.html s)).length ≤ n) : rawBlock n (contB (.html s)) = keptBlk (.html s) := by
  have hs : contB (.html s) = c!"[" :: (quoted b!"html" ++ c!"," :: (quoted s ++ [c!"]"])) := by simp [contB]
  rw [hs] at hn
  simp only [List.length_cons, List.length_append] at hn
  rw [hs, rawBlock, need_eq (by decide)]
  simp only [Option.bind_eq_bind, Option.bind_some]
  rw [needSkip_val (val_str _) n _ (stop_comma _) (by omega)]
  simp only [Option.bind_some, need_eq (show isSpace c!"," = false by decide), needStr_quoted, need_eq (show isSpace c!"]" = false by decide), keptBlk]

theorem res_code (s : Bytes) (n : Nat) (hn : 3 * (contB (.code b!"inc" s)).length ≤ n) :
    codeBlock n (contB (.code b!"inc" s)) = keptBlk (.code b!"inc" s) := by
  have hs : contB (.code b!"inc" s) =
      c!"[" :: c!"[" :: (quoted [] ++ c!"," :: c!"[" :: (quoted b!"inc" ++ c!"]" :: c!"," :: (b!"[[\"inc\",\"yes\"]]" ++ c!"]" :: c!"," :: (quoted (chop s) ++ [c!"]"])))) := by
    rw [contB, codeAttr_inc, show quoted [] = b!"\"\"" by decide +kernel, show quoted b!"inc" = b!"\"inc\"" by decide +kernel]
    simp
  have hv : Val b!"[[\"inc\",\"yes\"]]" := by
    have := Val.array (elems_one (val_two (val_str b!"inc") (val_str b!"yes")))
    rw [show b!"[" ++ (b!"[" ++ quoted b!"inc" ++ b!"," ++ quoted b!"yes" ++ b!"]") ++ b!"]" = b!"[[\"inc\",\"yes\"]]" by decide +kernel] at this
    exact this
  rw [hs] at hn
  simp only [List.length_cons, List.length_append] at hn
  have hw : ∀ r, ws (quoted b!"inc" ++ r) = quoted b!"inc" ++ r := fun r => by rw [quoted_eq]; exact ws_cons (by decide) _
  have hh : ∀ r, (quoted b!"inc" ++ r).head? ≠ some c!"]" := fun r => by rw [quoted_eq]; simp
  rw [hs, codeBlock, need_eq (by decide)]
  simp only [Option.bind_eq_bind, Option.bind_some, need_eq (show isSpace c!"[" = false by decide), str_quoted,
    need_eq (show isSpace c!"," = false by decide), hw]
  rw [if_pos (hh _)]
  simp only [need_eq (show isSpace c!"]" = false by decide), need_eq (show isSpace c!"," = false by decide), Option.bind_some]
  rw [needSkip_val hv n _ (stop_close _) (by simp only [List.length_cons, List.length_nil]; omega)]
  simp only [Option.bind_some, need_eq (show isSpace c!"," = false by decide), need_eq (show isSpace c!"]" = false by decide), needStr_quoted, keptBlk]
  rfl

theorem res_blk (b : Blk) (h : hasCode b = false) (n : Nat) (hn : 3 * (contB b).length ≤ n) :
    res n (tagB b) (contB b) = (keptBlk b).map some := by
  have c0 : isSpace c!"[" = false := by decide
  have c1 : isSpace c!"]" = false := by decide
  have c2 : isSpace c!"{" = false := by decide
  cases b with
  | para k =>
    have := (val_inls k).2 [] n hn
    rw [List.append_nil] at this
    simp only [tagB, contB, res, if_true, this, keptBlk, Option.map_some]
  | other s =>
    have := (val_inls [.text s]).2 [] n hn
    rw [List.append_nil] at this
    simp only [tagB, contB, res, if_true, this, keptBlk, Option.map_some]
    rfl
  | heading l k =>
    simp only [tagB, res]
    rw [if_neg (by decide), if_pos trivial, res_heading l k n hn]
  | rule =>
    simp only [tagB, res]
    rw [if_neg (by decide), if_neg (by decide), if_pos trivial]
    have := needSkip_val val_empty n [] (by intro c hc; simp at hc) (by simp [contB] at hn ⊢; omega)
    rw [List.append_nil] at this
    simp [contB, this, keptBlk]
  | html s =>
    simp only [tagB, res]
    rw [if_neg (by decide), if_neg (by decide), if_neg (by decide), if_pos trivial, res_html s n hn]
  | code info s =>
    have : info = b!"inc" := by simpa [hasCode] using h
    subst this
    simp only [tagB, res]
    rw [if_neg (by decide), if_neg (by decide), if_neg (by decide), if_neg (by decide), if_pos trivial, res_code s n hn]
  | ordered start items =>
    have hL : listStart n true (contB (.ordered start items)) = none := by
      have hi : ∀ r, int (attrB start ++ r) = (0, attrB start ++ r) := by
        intro r
        have : ∃ t, attrB start = c!"[" :: t := ⟨_, rfl⟩
        obtain ⟨t, ht⟩ := this
        rw [ht, List.cons_append, int, ws_cons c0]
        simp [show isDigit c!"[" = false by decide]
      have hs : contB (.ordered start items) = c!"[" :: (attrB start ++ c!"," :: (b!"[" ++ join (items.map item) ++ b!"]")) := by simp [contB]
      rw [hs, listStart, need_eq c0]
      simp only [Option.bind_eq_bind, Option.bind_some, Bool.not_true, hi]
      rw [attrB]
      simp only [List.append_assoc, List.cons_append, List.nil_append, need_ne c0 (show c!"[" ≠ c!"," by decide)]
      rfl
    simp only [tagB, res]
    rw [if_neg (by decide), if_neg (by decide), if_neg (by decide), if_neg (by decide), if_neg (by decide), if_pos (by decide)]
    rw [show decide True = true from rfl, hL]
    rfl
  | bullet items =>
    have hL : ∀ t, listStart n false (c!"[" :: t) = some t := by
      intro t; rw [listStart, need_eq c0]; rfl
    obtain ⟨m, rfl⟩ : ∃ m, n = m + 1 := ⟨n - 1, by simp [contB] at hn; omega⟩
    rw [show tagB (.bullet items) = b!"BulletList" from rfl, res]
    rw [if_neg (by decide), if_neg (by decide), if_neg (by decide), if_neg (by decide), if_neg (by decide), if_pos (by decide)]
    rw [show decide (b!"BulletList" = b!"OrderedList") = false from rfl]
    match items with
    | [] =>
      rw [show contB (.bullet []) = c!"[" :: c!"]" :: [] from rfl, hL]
      simp only [Option.bind_some, need_ne c1 (show c!"]" ≠ c!"[" by decide)]
      rfl
    | [[]] =>
      rw [show contB (.bullet [[]]) = c!"[" :: c!"[" :: c!"]" :: c!"]" :: [] from rfl, hL]
      simp only [Option.bind_some, need_eq c0, ws_cons c1]
      rw [itemLoop, if_pos (by rfl)]
      simp only [Option.bind_some, need_eq c1]
      rfl
    | [] :: i :: r =>
      have : ∃ t, contB (.bullet ([] :: i :: r)) = c!"[" :: c!"[" :: c!"]" :: c!"," :: t := ⟨_, rfl⟩
      obtain ⟨t, ht⟩ := this
      rw [ht, hL]
      simp only [Option.bind_some, need_eq c0, ws_cons c1]
      rw [itemLoop, if_pos (by rfl)]
      simp only [Option.bind_some, need_eq c1, need_ne (show isSpace c!"," = false by decide) (show c!"," ≠ c!"]" by decide)]
      rfl
    | (b :: bs) :: r =>
      have : ∃ t, contB (.bullet ((b :: bs) :: r)) = c!"[" :: c!"[" :: c!"{" :: t := by
        have h1 : ∃ t, writeBlks (b :: bs) = c!"{" :: t := by
          cases bs <;> simp [writeBlks, writeBlk_obj, obj, head]
        obtain ⟨t, ht⟩ := h1
        cases r <;> simp [contB, join, item, ht]
      obtain ⟨t, ht⟩ := this
      rw [ht, hL]
      simp only [Option.bind_some, need_eq c0, ws_cons c2]
      rw [itemLoop, if_neg (by simp)]
      simp only [need_ne c2 (show c!"{" ≠ c!"[" by decide)]
      rfl
  | quote k =>
    obtain ⟨m, rfl⟩ : ∃ m, n = m + 1 := ⟨n - 1, by simp [contB] at hn; omega⟩
    simp only [tagB, res]
    rw [if_neg (by decide), if_neg (by decide), if_neg (by decide), if_neg (by decide), if_neg (by decide), if_neg (by decide), if_pos trivial]
    match k with
    | [] =>
      rw [show contB (.quote []) = c!"[" :: c!"]" :: [] from rfl, need_eq c0]
      simp only [Option.bind_some]
      rw [blocks, char_ne c1 (by decide)]
      simp only [need_eq c1]
      rfl
    | b :: bs =>
      have : ∃ t, contB (.quote (b :: bs)) = c!"[" :: c!"{" :: t := by
        cases bs <;> simp [contB, join, writeBlk_obj, obj, head]
      obtain ⟨t, ht⟩ := this
      rw [ht, need_eq c0]
      simp only [Option.bind_some]
      rw [blocks, char_ne c2 (by decide)]
      simp only [need_ne c2 (show c!"{" ≠ c!"]" by decide)]
      rfl

theorem tagB_nc (b : Blk) : noControl (tagB b) = tagB b := by cases b <;> simp only [tagB] <;> decide

theorem block_ok (b : Blk) (h : hasCode b = false) (rest : Bytes) (n : Nat) (hn : 3 * (writeBlk b).length ≤ n + 10) :
    block n (writeBlk b ++ rest) = ((keptBlk b).map some, rest) := by
  rw [writeBlk_obj] at hn ⊢
  have hl := obj_length (tagB b) (contB b)
  obtain ⟨m, rfl⟩ : ∃ m, n = m + 4 := ⟨n - 4, by omega⟩
  rw [obj_body, block_eq, fields_obj true m _ _ rest (cont_ws b _) (cont_ok b h rest _ (by omega)), tagB_nc]
  simp only [res_blk b h (m + 3) (by omega)]

theorem block_bad (b : Blk) (h : hasCode b = true) (rest : Bytes) (n : Nat) (hn : 3 * (writeBlk b).length ≤ n + 10) :
    ∃ r, block n (writeBlk b ++ rest) = (none, c!"]" :: c!"}" :: r) := by
  rw [writeBlk_obj] at hn ⊢
  have hl := obj_length (tagB b) (contB b)
  obtain ⟨m, rfl⟩ : ∃ m, n = m + 4 := ⟨n - 4, by omega⟩
  rw [obj_body, block_eq]
  by_cases hb : ∀ i s, b ≠ .code i s
  · obtain ⟨r, hr⟩ := cont_bad b h hb rest (m + 1) (by omega)
    exact ⟨r, by rw [fields_bad true m _ _ _ (cont_ws b _) hr]⟩
  · have : ∃ i s, b = .code i s := by
      cases b with
      | code i s => exact ⟨i, s, rfl⟩
      | _ => exact absurd (by intro i s hh; cases hh) hb
    obtain ⟨info, s, rfl⟩ := this
    have hi : info ≠ b!"inc" := by simpa [hasCode] using h
    have hc : contB (.code info s) ++ c!"}" :: rest = codeHead info ++ (c!"," :: (quoted (chop s) ++ (c!"]" :: c!"}" :: rest))) := by
      rw [contB, codeAttr_other info hi]; simp
    have hlen : (codeHead info).length ≤ (contB (.code info s)).length := by
      rw [contB, codeAttr_other info hi]; simp
    refine ⟨rest, ?_⟩
    rw [fields_c true m _ _ (cont_ws _ _), hc, skip_val (val_codeHead info) _ _ (stop_comma _) (by omega)]
    simp only [drop_comma]
    rw [fields, if_neg (head_q _ _ _ (by decide)), str_key]
    simp only [char_ne (show isSpace c!"]" = false by decide) (show c!"]" ≠ c!":" by decide)]

/-! ### The document -/

theorem loop_doc (k : List Blk) (hk : k ≠ []) (n : Nat) (hn : 3 * (writeBlks k).length ≤ n) :
    (∀ l, kept k = some l → ∃ r, blockLoop n (writeBlks k ++ b!"]}") = (l, c!"]" :: c!"}" :: r)) ∧
    (kept k = none → ∃ l r, blockLoop n (writeBlks k ++ b!"]}") = (l, c!"," :: c!"{" :: r)) := by
  have hw : ∀ b r, ws (writeBlk b ++ r) = writeBlk b ++ r := fun b r => by rw [writeBlk_obj]; exact ws_cons (by decide) _
  have hlen : ∀ b, 13 ≤ (writeBlk b).length := fun b => by rw [writeBlk_obj]; have := obj_length (tagB b) (contB b); omega
  match k with
  | [] => exact absurd rfl hk
  | [b] =>
    have hb := hlen b
    simp only [writeBlks] at hn ⊢
    obtain ⟨m, rfl⟩ : ∃ m, n = m + 2 := ⟨n - 2, by omega⟩
    rw [blockLoop, hw]
    cases hc : hasCode b
    · rw [block_ok b hc _ _ (by omega)]
      cases hb : keptBlk b with
      | none =>
        simp only [kept, hc, hb, if_true, Option.map_none]
        simp
      | some c =>
        simp only [kept, hc, hb, Option.map_some, ws_cons (show isSpace c!"]" = false by decide)]
        simp
    · obtain ⟨r, hr⟩ := block_bad b hc b!"]}" (m + 1) (by omega)
      rw [hr]
      simp [kept, hc]
  | b :: b2 :: r =>
    have hb := hlen b
    simp only [writeBlks, List.length_append, List.length_cons, List.length_nil] at hn
    obtain ⟨m, rfl⟩ : ∃ m, n = m + 2 := ⟨n - 2, by omega⟩
    have ih := loop_doc (b2 :: r) (by simp) (m + 1) (by omega)
    have hs : writeBlks (b :: b2 :: r) ++ b!"]}" = writeBlk b ++ c!"," :: (writeBlks (b2 :: r) ++ b!"]}") := by simp [writeBlks]
    rw [hs, blockLoop, hw]
    cases hc : hasCode b
    · rw [block_ok b hc _ _ (by omega)]
      cases hb : keptBlk b with
      | none =>
        have h1 : ∃ t, writeBlks (b2 :: r) = c!"{" :: t := by
          cases r <;> simp [writeBlks, writeBlk_obj, obj, head]
        obtain ⟨t, ht⟩ := h1
        simp [kept, hc, hb, ht]
      | some c =>
        have hkept : kept (b :: b2 :: r) = (kept (b2 :: r)).map (c :: ·) := by
          rw [kept, if_neg (by simp [hc]), hb]
        simp only [Option.map_some, ws_cons (show isSpace c!"," = false by decide), List.head?_cons, List.drop_succ_cons, List.drop_zero]
        rw [hkept, if_pos trivial]
        constructor
        · intro l hl
          cases h2 : kept (b2 :: r) with
          | none => simp [h2] at hl
          | some l2 =>
            simp [h2] at hl
            obtain ⟨r2, hr2⟩ := ih.1 l2 h2
            exact ⟨r2, by rw [hr2, ← hl]; rfl⟩
        · intro hl
          cases h2 : kept (b2 :: r) with
          | some l2 => simp [h2] at hl
          | none =>
            obtain ⟨l2, r2, hr2⟩ := ih.2 h2
            exact ⟨_, r2, by rw [hr2]⟩
    · obtain ⟨r2, hr⟩ := block_bad b hc (c!"," :: (writeBlks (b2 :: r) ++ b!"]}")) (m + 1) (by omega)
      rw [hr]
      simp [kept, hc]

theorem val_version : Val b!"[1,23,1]" := by
  have h : ∀ n, n ≠ 0 → Val (decimal n) := fun n hn => .num (decimal_number n hn)
  have := val_three (h 1 (by decide)) (h 23 (by decide)) (h 1 (by decide))
  rw [show b!"[" ++ decimal 1 ++ b!"," ++ decimal 23 ++ b!"," ++ decimal 1 ++ b!"]" = b!"[1,23,1]" by decide +kernel] at this
  exact this

theorem val_meta : Val b!"{}" := by simpa using Val.objectEmpty ws_nil

theorem toJson_eq (doc : List Blk) : toJson doc =
    c!"{" :: (quoted b!"pandoc-api-version" ++ c!":" :: (b!"[1,23,1]" ++ c!"," :: (quoted b!"meta" ++ c!":" :: (b!"{}" ++ c!"," ::
      (quoted b!"blocks" ++ c!":" :: c!"[" :: (writeBlks doc ++ b!"]}")))))) := by
  rw [toJson, show b!"\"pandoc-api-version\":[1,23,1],\"meta\":{},\"blocks\":[" = quoted b!"pandoc-api-version" ++ b!":" ++ b!"[1,23,1]" ++ b!"," ++
    quoted b!"meta" ++ b!":" ++ b!"{}" ++ b!"," ++ quoted b!"blocks" ++ b!":" ++ b!"[" by decide +kernel]
  simp only [List.append_assoc, List.cons_append, List.nil_append]

theorem docFields_skip (n : Nat) (acc : List Blk) (k v r : Bytes) (hk : noControl k ≠ b!"blocks") (hv : Val v) (hn : 2 * v.length ≤ n) :
    docFields (n + 1) acc (quoted k ++ c!":" :: (v ++ c!"," :: r)) = docFields n acc r := by
  rw [docFields, if_neg (head_q _ _ _ (by decide)), str_key]
  simp only [need_eq (show isSpace c!":" = false by decide), Option.bind_some, if_neg hk]
  rw [needSkip_val hv n _ (stop_comma _) hn]
  simp only [Option.bind_some, ws_cons (show isSpace c!"," = false by decide)]
  rw [if_pos (by rfl)]
  rfl

theorem read_written (doc : List Blk) : fromJson (toJson doc) = kept doc := by
  have hl : (toJson doc).length ≥ (writeBlks doc).length + 40 := by
    rw [toJson]; simp
  rw [fromJson]
  generalize hN : 3 * (toJson doc).length + 3 = N
  obtain ⟨n, rfl⟩ : ∃ n, N = n + 5 := ⟨N - 5, by omega⟩
  rw [toJson_eq, need_eq (by decide)]
  simp only [Option.bind_some]
  rw [docFields_skip _ _ _ _ _ (by decide) val_version (by simp only [List.length_cons, List.length_nil]; omega),
    docFields_skip _ _ _ _ _ (by decide) val_meta (by simp only [List.length_cons, List.length_nil]; omega),
    docFields, if_neg (head_q _ _ _ (by decide)), str_key]
  simp only [need_eq (show isSpace c!":" = false by decide), Option.bind_some]
  rw [if_pos (by decide)]
  cases doc with
  | nil =>
    have hB : blocks (n + 2) (c!"[" :: (writeBlks [] ++ b!"]}")) = (none, b!"}") := by
      rw [blocks, char_eq (by decide)]
      simp only [writeBlks, List.nil_append, ws_cons (show isSpace c!"]" = false by decide)]
      rfl
    simp only [hB, ws_cons (show isSpace c!"}" = false by decide)]
    rfl
  | cons b r =>
    obtain ⟨h1, h2⟩ := loop_doc (b :: r) (by simp) (n + 1) (by omega)
    have hh : (ws (writeBlks (b :: r) ++ b!"]}")).head? ≠ some c!"]" := by
      have h1 : ∃ t, writeBlks (b :: r) = c!"{" :: t := by
        cases r <;> simp [writeBlks, writeBlk_obj, obj, head]
      obtain ⟨t, ht⟩ := h1
      rw [ht, List.cons_append, ws_cons (by decide)]; simp
    cases hk : kept (b :: r) with
    | some l =>
      obtain ⟨r2, h3⟩ := h1 l hk
      have hB : blocks (n + 2) (c!"[" :: (writeBlks (b :: r) ++ b!"]}")) = (some l, c!"}" :: r2) := by
        rw [blocks, char_eq (by decide)]
        simp only [if_neg hh, h3, char_eq (show isSpace c!"]" = false by decide)]
      simp only [hB, ws_cons (show isSpace c!"}" = false by decide), List.head?_cons]
      rw [if_neg (by decide)]
      rfl
    | none =>
      obtain ⟨l, r2, h3⟩ := h2 hk
      have hB : blocks (n + 2) (c!"[" :: (writeBlks (b :: r) ++ b!"]}")) = (none, c!"," :: c!"{" :: r2) := by
        rw [blocks, char_eq (by decide)]
        simp only [if_neg hh, h3, char_ne (show isSpace c!"," = false by decide) (show c!"," ≠ c!"]" by decide)]
      simp only [hB, ws_cons (show isSpace c!"," = false by decide), List.head?_cons, List.drop_succ_cons, List.drop_zero]
      have hs : str (c!"{" :: r2) = (none, c!"{" :: r2) := by
        rw [str, Escape.jsonReadString]
        simp [List.dropWhile_cons, show isSpace c!"{" = false by decide, ws]
      rw [if_pos trivial, docFields, ws_cons (by decide), if_neg (by simp), hs]

end Verif.AstJson
