import Verif.Proof.AstJsonDoc

namespace Verif.AstJson
open JsonText (Ws Char IsString IsNumber Digits Val Elems Members IsText)

/-! ### Brackets outside strings -/

/-- Outside a string (0), inside (1), behind a backslash (2); the stack holds the brackets to come. -/
def scan : Nat → List Byte → Bytes → Option (List Byte)
  | _, st, [] => some st
  | 0, st, c :: t =>
    if c = c!"\"" then scan 1 st t
    else if c = c!"[" then scan 0 (c!"]" :: st) t
    else if c = c!"{" then scan 0 (c!"}" :: st) t
    else if c = c!"]" ∨ c = c!"}" then
      match st with
      | d :: st => if d = c then scan 0 st t else none
      | [] => none
    else scan 0 st t
  | 1, st, c :: t => if c = c!"\"" then scan 0 st t else if c = c!"\\" then scan 2 st t else scan 1 st t
  | _ + 2, st, _ :: t => scan 1 st t

theorem scan_plain (c : Byte) (h : c ≠ c!"\"" ∧ c ≠ c!"[" ∧ c ≠ c!"{" ∧ c ≠ c!"]" ∧ c ≠ c!"}") (st : List Byte) (t : Bytes) :
    scan 0 st (c :: t) = scan 0 st t := by
  conv => lhs; rw [scan.eq_def]
  simp [h]

theorem scan_ws (a : Bytes) (h : Ws a) (st : List Byte) (t : Bytes) : scan 0 st (a ++ t) = scan 0 st t := by
  induction a with
  | nil => rfl
  | cons c r ih =>
    rw [List.cons_append, scan_plain c (by rcases h c (by simp) with rfl | rfl | rfl | rfl <;> decide), ih fun x hx => h x (by simp [hx])]

theorem scan_char (x : Bytes) (h : Char x) (st : List Byte) (t : Bytes) : scan 1 st (x ++ t) = scan 1 st t := by
  cases h with
  | plain c h1 h2 _ => simp [scan, h1, h2]
  | escape e _ => simp [scan]
  | unicode a b c d h =>
    have key : ∀ x, (Html.hexVal x).isSome = true → x ≠ c!"\"" ∧ x ≠ c!"\\" := forall_byte (by decide +kernel)
    simp only [List.mem_cons, List.not_mem_nil, or_false, forall_eq_or_imp, forall_eq] at h
    simp [scan, key a h.1, key b h.2.1, key c h.2.2.1, key d h.2.2.2]

theorem scan_string {w : Bytes} (h : IsString w) (st : List Byte) (t : Bytes) : scan 0 st (w ++ t) = scan 0 st t := by
  obtain ⟨cs, hc, rfl⟩ := h
  have key : ∀ cs : List Bytes, (∀ x ∈ cs, Char x) → scan 1 st (cs.flatten ++ (c!"\"" :: t)) = scan 0 st t := by
    intro cs
    induction cs with
    | nil => intro _; simp [scan]
    | cons x r ih =>
      intro hc
      rw [List.flatten_cons, List.append_assoc, scan_char x (hc x (by simp)), ih fun y hy => hc y (by simp [hy])]
  have := key cs hc
  simp only [List.cons_append, List.append_assoc, List.nil_append]
  conv => lhs; rw [scan.eq_def]
  simpa using this

theorem scan_token {w : Bytes} (h : Token w) (st : List Byte) (t : Bytes) : scan 0 st (w ++ t) = scan 0 st t := by
  obtain ⟨h0, h⟩ := h
  clear h0
  induction w with
  | nil => rfl
  | cons c r ih =>
    have hc := h c (by simp)
    have h2 := token_space hc.1
    rw [List.cons_append, scan_plain c ⟨hc.2.1, hc.2.2.2, hc.2.2.1, h2.2.1, h2.2.2.1⟩, ih fun x hx => h x (by simp [hx])]

theorem scan_open (st : List Byte) (t : Bytes) : scan 0 st (c!"[" :: t) = scan 0 (c!"]" :: st) t := by
  conv => lhs; rw [scan.eq_def]
  simp
theorem scan_obrace (st : List Byte) (t : Bytes) : scan 0 st (c!"{" :: t) = scan 0 (c!"}" :: st) t := by
  conv => lhs; rw [scan.eq_def]
  simp
theorem scan_close (st : List Byte) (t : Bytes) : scan 0 (c!"]" :: st) (c!"]" :: t) = scan 0 st t := by
  conv => lhs; rw [scan.eq_def]
  simp
theorem scan_cbrace (st : List Byte) (t : Bytes) : scan 0 (c!"}" :: st) (c!"}" :: t) = scan 0 st t := by
  conv => lhs; rw [scan.eq_def]
  simp
theorem scan_close_bad (st : List Byte) (t : Bytes) : scan 0 (c!"}" :: st) (c!"]" :: t) = none := by
  conv => lhs; rw [scan.eq_def]
  simp
theorem scan_cbrace_bad (st : List Byte) (t : Bytes) : scan 0 (c!"]" :: st) (c!"}" :: t) = none := by
  conv => lhs; rw [scan.eq_def]
  simp
theorem scan_comma (st : List Byte) (t : Bytes) : scan 0 st (c!"," :: t) = scan 0 st t := scan_plain _ (by decide) _ _
theorem scan_colon (st : List Byte) (t : Bytes) : scan 0 st (c!":" :: t) = scan 0 st t := scan_plain _ (by decide) _ _

mutual
theorem scan_val {w : Bytes} (h : Val w) : ∀ (st : List Byte) (t : Bytes), scan 0 st (w ++ t) = scan 0 st t := by
  intro st t
  cases h with
  | str h => exact scan_string h st t
  | num h => exact scan_token (token_num h) st t
  | word h => exact scan_token (token_word h) st t
  | @arrayEmpty a ha =>
    simp only [List.append_assoc, List.cons_append, List.nil_append]
    rw [scan_open, scan_ws a ha, scan_close]
  | @array e he =>
    have e1 := scan_elems he
    simp only [List.append_assoc, List.cons_append, List.nil_append]
    rw [scan_open, e1, scan_close]
  | @objectEmpty a ha =>
    simp only [List.append_assoc, List.cons_append, List.nil_append]
    rw [scan_obrace, scan_ws a ha, scan_cbrace]
  | @object e he =>
    have e1 := scan_members he
    simp only [List.append_assoc, List.cons_append, List.nil_append]
    rw [scan_obrace, e1, scan_cbrace]
termination_by 2 * w.length
decreasing_by all_goals simp_all <;> omega
theorem scan_elems {w : Bytes} (h : Elems w) : ∀ (st : List Byte) (t : Bytes), scan 0 st (w ++ t) = scan 0 st t := by
  intro st t
  cases h with
  | @one a v b ha hv hb =>
    have e1 := scan_val hv
    simp only [List.append_assoc]
    rw [scan_ws a ha, e1, scan_ws b hb]
  | @more a v b e ha hv hb he =>
    have e1 := scan_val hv
    have e2 := scan_elems he
    simp only [List.append_assoc, List.cons_append, List.nil_append]
    rw [scan_ws a ha, e1, scan_ws b hb, scan_comma, e2]
termination_by 2 * w.length + 1
decreasing_by all_goals simp_all <;> omega
theorem scan_members {w : Bytes} (h : Members w) : ∀ (st : List Byte) (t : Bytes), scan 0 st (w ++ t) = scan 0 st t := by
  intro st t
  cases h with
  | @one a k b c v d ha hk hb hc hv hd =>
    have e1 := scan_val hv
    simp only [List.append_assoc, List.cons_append, List.nil_append]
    rw [scan_ws a ha, scan_string hk, scan_ws b hb, scan_colon, scan_ws c hc, e1, scan_ws d hd]
  | @more a k b c v d m ha hk hb hc hv hd hm =>
    have e1 := scan_val hv
    have e2 := scan_members hm
    simp only [List.append_assoc, List.cons_append, List.nil_append]
    rw [scan_ws a ha, scan_string hk, scan_ws b hb, scan_colon, scan_ws c hc, e1, scan_ws d hd, scan_comma, e2]
termination_by 2 * w.length + 1
decreasing_by all_goals simp_all <;> omega
end

theorem scan_text {w : Bytes} (h : IsText w) : scan 0 [] w = some [] := by
  obtain ⟨a, v, b, ha, hv, hb, rfl⟩ := h
  rw [List.append_assoc, scan_ws a ha, scan_val hv]
  have := scan_ws b hb [] []
  rw [List.append_nil] at this
  rw [this]; rfl

/-! ### Blocks -/

def Stuck (x : Bytes) : Prop := ∀ st t, scan 0 st (x ++ t) = none

theorem join_val (xs : List Bytes) (h : ∀ x ∈ xs, Val x) : Val (b!"[" ++ join xs ++ b!"]") := by
  have key : ∀ xs : List Bytes, xs ≠ [] → (∀ x ∈ xs, Val x) → Elems (join xs) := by
    intro xs
    induction xs with
    | nil => intro h; exact absurd rfl h
    | cons x r ih =>
      intro _ h
      cases r with
      | nil => exact elems_one (h x (by simp))
      | cons y r => exact elems_cons (h x (by simp)) (ih (by simp) fun z hz => h z (by simp [hz]))
  cases xs with
  | nil => exact val_empty
  | cons x r => exact Val.array (key _ (by simp) h)

theorem join_stuck (xs : List Bytes) (h : ∀ x ∈ xs, Val x ∨ Stuck x) (hb : ∃ x ∈ xs, Stuck x) : Stuck (b!"[" ++ join xs ++ b!"]") := by
  have key : ∀ xs : List Bytes, (∀ x ∈ xs, Val x ∨ Stuck x) → (∃ x ∈ xs, Stuck x) → Stuck (join xs) := by
    intro xs
    induction xs with
    | nil => rintro _ ⟨x, hx, _⟩; simp at hx
    | cons x r ih =>
      intro h hb st t
      cases r with
      | nil => obtain ⟨y, hy, hs⟩ := hb; simp at hy; subst hy; exact hs st t
      | cons y r =>
        simp only [join, List.append_assoc, List.cons_append, List.nil_append]
        by_cases hx : Stuck x
        · exact hx _ _
        · have hv := (h x (by simp)).resolve_right hx
          rw [scan_val hv, scan_comma]
          refine ih (fun z hz => h z (by simp [hz])) ?_ _ _
          obtain ⟨z, hz, hs⟩ := hb
          rcases List.mem_cons.1 hz with rfl | hz
          · exact absurd hs hx
          · exact ⟨z, hz, hs⟩
  intro st t
  simp only [List.append_assoc, List.cons_append, List.nil_append]
  rw [scan_open]
  exact key xs h hb _ _

theorem scan_body (T X : Bytes) (st : List Byte) : scan 0 st (c!"{" :: body T X) = scan 0 (c!"}" :: st) X := by
  rw [scan_obrace, body, scan_string (quoted_string _), scan_colon, scan_string (quoted_string _), scan_comma, scan_string (quoted_string _), scan_colon]

theorem obj_stuck (T C : Bytes) (h : Stuck C) : Stuck (obj T C) := by
  intro st t
  rw [obj_body, scan_body]
  exact h _ _

theorem code_stuck (info s : Bytes) (h : info ≠ b!"inc") : Stuck (writeBlk (.code info s)) := by
  intro st t
  have hc : contB (.code info s) ++ c!"}" :: t = codeHead info ++ (c!"," :: (quoted (chop s) ++ (c!"]" :: c!"}" :: t))) := by
    rw [contB, codeAttr_other info h]; simp
  rw [writeBlk_obj, obj_body, scan_body, hc, scan_val (val_codeHead info), scan_comma, scan_string (quoted_string _), scan_close_bad]

theorem ordered_stuck (start : Nat) (items : List (List Blk)) (h : (∀ x ∈ items.map item, Val x ∨ Stuck x)) : Stuck (writeBlk (.ordered start items)) := by
  intro st t
  have hc : contB (.ordered start items) ++ c!"}" :: t = c!"[" :: (attrB start ++ c!"," :: ((b!"[" ++ join (items.map item) ++ b!"]") ++ c!"}" :: t)) := by
    simp [contB]
  rw [writeBlk_obj, obj_body, scan_body, hc, scan_open, scan_val (val_attrB start), scan_comma]
  by_cases hb : ∃ x ∈ items.map item, Stuck x
  · exact join_stuck _ h hb _ _
  · rw [scan_val (join_val _ fun x hx => (h x hx).resolve_right fun hs => hb ⟨x, hx, hs⟩), scan_cbrace_bad]

/-- A list of which some are values and some are not. -/
theorem split_list {α : Type} (f : α → Bytes) (bad : α → Bool) (bads : List α → Bool) (h0 : bads [] = false)
    (h1 : ∀ a r, bads (a :: r) = (bad a || bads r)) (l : List α)
    (h : ∀ a ∈ l, (bad a = false → Val (f a)) ∧ (bad a = true → Stuck (f a))) :
    (bads l = false → ∀ x ∈ l.map f, Val x) ∧ (∀ x ∈ l.map f, Val x ∨ Stuck x) ∧ (bads l = true → ∃ x ∈ l.map f, Stuck x) := by
  induction l with
  | nil => simp [h0]
  | cons a r ih =>
    obtain ⟨i1, i2, i3⟩ := ih fun b hb => h b (by simp [hb])
    have ha := h a (by simp)
    simp only [h1, Bool.or_eq_false_iff, Bool.or_eq_true, List.map_cons, List.mem_cons, forall_eq_or_imp, exists_eq_or_imp]
    refine ⟨fun hh => ⟨ha.1 hh.1, i1 hh.2⟩, ⟨?_, i2⟩, ?_⟩
    · cases hb : bad a
      · exact .inl (ha.1 hb)
      · exact .inr (ha.2 hb)
    · rintro (hh | hh)
      · exact .inl (ha.2 hh)
      · exact .inr (i3 hh)

def bad (b : Blk) : Bool := hasCode b || hasOrdered b
def bads (k : List Blk) : Bool := hasCodes k || hasOrdereds k
def badItems (k : List (List Blk)) : Bool := hasCodeItems k || hasOrderedItems k

theorem bads_cons (a : Blk) (r : List Blk) : bads (a :: r) = (bad a || bads r) := by
  simp only [bads, bad, hasCodes, hasOrdereds]
  cases hasCode a <;> cases hasOrdered a <;> cases hasCodes r <;> cases hasOrdereds r <;> rfl

theorem badItems_cons (a : List Blk) (r : List (List Blk)) : badItems (a :: r) = (bads a || badItems r) := by
  simp only [bads, badItems, hasCodeItems, hasOrderedItems]
  cases hasCodes a <;> cases hasOrdereds a <;> cases hasCodeItems r <;> cases hasOrderedItems r <;> rfl

mutual
theorem text_blk (b : Blk) : (bad b = false → Val (writeBlk b)) ∧ (bad b = true → Stuck (writeBlk b)) := by
  match b with
  | .para k => exact ⟨fun _ => by rw [writeBlk_obj]; exact val_obj (val_inls k).1, fun h => by simp [bad, hasCode, hasOrdered] at h⟩
  | .heading l k => exact ⟨fun _ => by rw [writeBlk_obj]; exact val_obj (val_heading l k), fun h => by simp [bad, hasCode, hasOrdered] at h⟩
  | .rule => exact ⟨fun _ => by rw [writeBlk_obj]; exact val_obj val_empty, fun h => by simp [bad, hasCode, hasOrdered] at h⟩
  | .html s => exact ⟨fun _ => by rw [writeBlk_obj]; exact val_obj (val_two (val_str _) (val_str s)), fun h => by simp [bad, hasCode, hasOrdered] at h⟩
  | .other s => exact ⟨fun _ => by rw [writeBlk_obj]; exact val_obj (val_inls _).1, fun h => by simp [bad, hasCode, hasOrdered] at h⟩
  | .code info s =>
    refine ⟨fun h => ?_, fun h => code_stuck info s (by simpa [bad, hasCode, hasOrdered] using h)⟩
    have : info = b!"inc" := by simpa [bad, hasCode, hasOrdered] using h
    subst this
    rw [writeBlk_obj, contB, codeAttr_inc]
    exact val_obj (val_two val_incAttr (val_str _))
  | .bullet items =>
    obtain ⟨h1, h2, h3⟩ := split_list item bads badItems rfl badItems_cons items (text_items' items)
    rw [writeBlk_obj]
    exact ⟨fun hc => val_obj (join_val _ (h1 hc)), fun hc => obj_stuck _ _ (join_stuck _ h2 (h3 hc))⟩
  | .ordered start items =>
    obtain ⟨h1, h2, h3⟩ := split_list item bads badItems rfl badItems_cons items (text_items' items)
    exact ⟨fun hc => by simp [bad, hasOrdered] at hc, fun _ => ordered_stuck start items h2⟩
  | .quote k =>
    obtain ⟨h1, h2, h3⟩ := split_list writeBlk bad bads rfl bads_cons k (text_blks' k)
    rw [writeBlk_obj]
    exact ⟨fun hc => val_obj (join_val _ (h1 hc)), fun hc => obj_stuck _ _ (join_stuck _ h2 (h3 hc))⟩
theorem text_blks' (k : List Blk) : ∀ a ∈ k, (bad a = false → Val (writeBlk a)) ∧ (bad a = true → Stuck (writeBlk a)) := by
  match k with
  | [] => intro a ha; simp at ha
  | b :: r =>
    have h1 := text_blk b
    have h2 := text_blks' r
    intro a ha
    rcases List.mem_cons.1 ha with rfl | ha
    · exact h1
    · exact h2 a ha
theorem text_items' (k : List (List Blk)) : ∀ a ∈ k, (bads a = false → Val (item a)) ∧ (bads a = true → Stuck (item a)) := by
  match k with
  | [] => intro a ha; simp at ha
  | b :: r =>
    have h1 : (bads b = false → Val (item b)) ∧ (bads b = true → Stuck (item b)) := by
      obtain ⟨i1, i2, i3⟩ := split_list writeBlk bad bads rfl bads_cons b (text_blks' b)
      rw [item, writeBlks_join]
      exact ⟨fun h => join_val _ (i1 h), fun h => join_stuck _ i2 (i3 h)⟩
    have h2 := text_items' r
    intro a ha
    rcases List.mem_cons.1 ha with rfl | ha
    · exact h1
    · exact h2 a ha
end

theorem text_doc (doc : List Blk) : IsText (toJson doc) ↔ bads doc = false := by
  obtain ⟨h1, h2, h3⟩ := split_list writeBlk bad bads rfl bads_cons doc (text_blks' doc)
  have hs : toJson doc = b!"{" ++ ([] ++ quoted b!"pandoc-api-version" ++ [] ++ b!":" ++ [] ++ b!"[1,23,1]" ++ [] ++ b!"," ++
      ([] ++ quoted b!"meta" ++ [] ++ b!":" ++ [] ++ b!"{}" ++ [] ++ b!"," ++
        ([] ++ quoted b!"blocks" ++ [] ++ b!":" ++ [] ++ (b!"[" ++ join (doc.map writeBlk) ++ b!"]") ++ []))) ++ b!"}" := by
    rw [toJson_eq, writeBlks_join]
    simp
  constructor
  · intro ht
    cases hb : bads doc with
    | false => rfl
    | true =>
      have h4 := scan_text ht
      rw [hs] at h4
      simp only [List.append_assoc, List.cons_append, List.nil_append] at h4
      rw [scan_obrace, scan_string (quoted_string _), scan_colon] at h4
      have e1 := scan_val val_version [c!"}"]
      have e2 := scan_val val_meta [c!"}"]
      simp only [List.cons_append, List.nil_append] at e1 e2
      rw [e1, scan_comma, scan_string (quoted_string _), scan_colon, e2, scan_comma, scan_string (quoted_string _), scan_colon] at h4
      have h5 := join_stuck _ h2 (h3 hb) [c!"}"] b!"}"
      simp only [List.append_assoc, List.cons_append, List.nil_append] at h5
      rw [h5] at h4
      simp at h4
  · intro hb
    refine ⟨[], toJson doc, [], ws_nil, ?_, ws_nil, by simp⟩
    rw [hs]
    exact Val.object (.more ws_nil (quoted_string _) ws_nil ws_nil val_version ws_nil
      (.more ws_nil (quoted_string _) ws_nil ws_nil val_meta ws_nil
        (.one ws_nil (quoted_string _) ws_nil ws_nil (join_val _ (h1 hb)) ws_nil)))

end Verif.AstJson
