import Verif.Proof.AstJsonInl

namespace Verif.AstJson
open JsonText (Ws Char IsString IsNumber Digits Val Elems Members)

/-! ### Numbers -/

theorem digit_byte (k : Nat) (h : k < 10) : isDigit (UInt8.ofNat (48 + k)) = true ∧ (UInt8.ofNat (48 + k)).toNat - 48 = k ∧
    0x30 ≤ UInt8.ofNat (48 + k) ∧ UInt8.ofNat (48 + k) ≤ 0x39 := by
  have : ∀ k : Fin 10, isDigit (UInt8.ofNat (48 + k.val)) = true ∧ (UInt8.ofNat (48 + k.val)).toNat - 48 = k.val ∧
    0x30 ≤ UInt8.ofNat (48 + k.val) ∧ UInt8.ofNat (48 + k.val) ≤ 0x39 := by decide +kernel
  exact this ⟨k, h⟩

theorem decimal_digits (n : Nat) : Digits (decimal n) := by
  induction n using decimal.induct with
  | case1 n h =>
    rw [decimal, if_pos h]
    exact ⟨by simp, fun c hc => by rw [List.mem_singleton.1 hc]; exact (digit_byte n h).2.2⟩
  | case2 n h ih =>
    rw [decimal, if_neg h]
    refine ⟨by simp, ?_⟩
    intro c hc
    rcases List.mem_append.1 hc with hc | hc
    · exact ih.2 c hc
    · rw [List.mem_singleton.1 hc]; exact (digit_byte _ (Nat.mod_lt _ (by omega))).2.2

theorem decimal_value (n : Nat) : (decimal n).foldl (fun v c => v * 10 + (c.toNat - 48)) 0 = n := by
  induction n using decimal.induct with
  | case1 n h => rw [decimal, if_pos h]; simp; exact (digit_byte n h).2.1
  | case2 n h ih =>
    rw [decimal, if_neg h, List.foldl_append, ih]
    simp only [List.foldl_cons, List.foldl_nil]
    rw [(digit_byte _ (Nat.mod_lt _ (by omega))).2.1]
    omega

theorem decimal_lead (n : Nat) (hn : n ≠ 0) : (decimal n).head? ≠ some c!"0" := by
  induction n using decimal.induct with
  | case1 n h =>
    rw [decimal, if_pos h]
    have : ∀ k : Fin 10, k.val ≠ 0 → UInt8.ofNat (48 + k.val) ≠ c!"0" := by decide +kernel
    simpa using this ⟨n, h⟩ hn
  | case2 n h ih =>
    rw [decimal, if_neg h]
    have h1 := ih (by omega)
    have h2 := (decimal_digits (n / 10)).1
    cases h3 : decimal (n / 10) with
    | nil => exact absurd h3 h2
    | cons c t => rw [h3] at h1; simpa using h1

theorem decimal_number (n : Nat) (hn : n ≠ 0) : IsNumber (decimal n) :=
  ⟨[], decimal n, [], [], by simp, .inl rfl, ⟨decimal_digits n, fun h => absurd h (decimal_lead n hn)⟩, .inl rfl, .inl rfl⟩

theorem decimal_isDigit (n : Nat) : ∀ c ∈ decimal n, isDigit c = true := by
  intro c hc
  have := (decimal_digits n).2 c hc
  simpa [isDigit] using this

theorem int_decimal (n : Nat) (r : Bytes) : int (decimal n ++ c!"," :: r) = (n, c!"," :: r) := by
  have hd := decimal_isDigit n
  have h1 : (decimal n ++ c!"," :: r).takeWhile isDigit = decimal n := by
    rw [List.takeWhile_append_of_pos hd]; simp [show isDigit c!"," = false by decide]
  have h2 : (decimal n ++ c!"," :: r).dropWhile isDigit = c!"," :: r := by
    rw [List.dropWhile_append_of_pos hd]; simp [show isDigit c!"," = false by decide]
  have h3 := decimal_value n
  cases hk : decimal n with
  | nil => exact absurd hk (decimal_digits n).1
  | cons c t =>
    have hc : isDigit c = true := hd c (by simp [hk])
    have hs : isSpace c = false ∧ c ≠ c!"-" := by
      revert hc; exact forall_byte (p := fun c => isDigit c = true → isSpace c = false ∧ c ≠ c!"-") (by decide +kernel) c
    rw [hk] at h1 h2 h3
    simp only [List.cons_append] at h1 h2 ⊢
    rw [int, ws_cons hs.1]
    simp only [if_neg hs.2, h1, h2, h3]

/-! ### Skipping blocks -/

def Opens (x : Bytes) : Prop := ∃ c t, x = c :: t ∧ (c = c!"{" ∨ c = c!"[")
def SkOk (x : Bytes) : Prop := Opens x ∧ ∀ rest n, 2 * x.length ≤ n → skip n (x ++ rest) = (true, rest)
def SkBad (x : Bytes) : Prop := Opens x ∧ ∀ rest n, 2 * x.length ≤ n → ∃ r, skip n (x ++ rest) = (false, c!"]" :: c!"}" :: r)

theorem opens_ws {x : Bytes} (h : Opens x) (r : Bytes) : ws (x ++ r) = x ++ r ∧ (x ++ r).head? ≠ some c!"]" := by
  obtain ⟨c, t, rfl, rfl | rfl⟩ := h <;> exact ⟨ws_cons (by decide) _, by simp⟩

def join : List Bytes → Bytes
  | [] => []
  | [x] => x
  | x :: y :: r => x ++ b!"," ++ join (y :: r)

theorem join_ok (xs : List Bytes) (h : ∀ x ∈ xs, SkOk x) (rest : Bytes) (n : Nat) (hn : 2 * (join xs).length + 1 ≤ n) :
    skipItems n (join xs ++ c!"]" :: rest) = (true, rest) := by
  match xs with
  | [] =>
    obtain ⟨m, rfl⟩ : ∃ m, n = m + 1 := ⟨n - 1, by omega⟩
    simp only [join, List.nil_append]
    rw [skipItems, ws_cons (by decide), if_pos (by rfl)]
    rfl
  | [x] =>
    obtain ⟨ho, hs⟩ := h x (by simp)
    have hw := opens_ws ho (c!"]" :: rest)
    simp only [join] at hn ⊢
    obtain ⟨m, rfl⟩ : ∃ m, n = m + 2 := ⟨n - 2, by obtain ⟨c, t, rfl, _⟩ := ho; simp at hn; omega⟩
    exact skipItems_last m _ rest [] ws_nil (by rw [hw.1]; exact hw.2) (by rw [hw.1]; exact hs _ _ (by omega))
  | x :: y :: r =>
    obtain ⟨ho, hs⟩ := h x (by simp)
    have hw := opens_ws ho (c!"," :: (join (y :: r) ++ c!"]" :: rest))
    simp only [join, List.append_assoc, List.cons_append, List.nil_append, List.length_append, List.length_cons, List.length_nil] at hn ⊢
    obtain ⟨m, rfl⟩ : ∃ m, n = m + 1 := ⟨n - 1, by omega⟩
    rw [skipItems_more m _ (join (y :: r) ++ c!"]" :: rest) [] ws_nil (by rw [hw.1]; exact hw.2) (by rw [hw.1]; exact hs _ _ (by omega))]
    exact join_ok (y :: r) (fun x hx => h x (by simp [hx])) rest m (by omega)

theorem join_bad (xs : List Bytes) (h : ∀ x ∈ xs, SkOk x ∨ SkBad x) (hb : ∃ x ∈ xs, SkBad x) (rest : Bytes) (n : Nat)
    (hn : 2 * (join xs).length + 1 ≤ n) : ∃ r, skipItems n (join xs ++ c!"]" :: rest) = (false, c!"]" :: c!"}" :: r) := by
  have bad : ∀ x s m, SkBad x → 2 * x.length ≤ m → ∃ r, skipItems (m + 1) (x ++ s) = (false, c!"]" :: c!"}" :: r) := by
    intro x s m hx hm
    obtain ⟨r, hr⟩ := hx.2 s m hm
    have hw := opens_ws hx.1 s
    exact ⟨r, by rw [skipItems, hw.1, if_neg hw.2, hr]⟩
  match xs with
  | [] => obtain ⟨x, hx, _⟩ := hb; simp at hx
  | [x] =>
    obtain ⟨y, hy, hb⟩ := hb
    simp at hy; subst hy
    simp only [join] at hn ⊢
    obtain ⟨m, rfl⟩ : ∃ m, n = m + 1 := ⟨n - 1, by omega⟩
    exact bad _ _ m hb (by omega)
  | x :: y :: r =>
    simp only [join, List.append_assoc, List.cons_append, List.nil_append, List.length_append, List.length_cons, List.length_nil] at hn ⊢
    obtain ⟨m, rfl⟩ : ∃ m, n = m + 1 := ⟨n - 1, by omega⟩
    rcases h x (by simp) with hx | hx
    · obtain ⟨ho, hs⟩ := hx
      have hw := opens_ws ho (c!"," :: (join (y :: r) ++ c!"]" :: rest))
      rw [skipItems_more m _ (join (y :: r) ++ c!"]" :: rest) [] ws_nil (by rw [hw.1]; exact hw.2) (by rw [hw.1]; exact hs _ _ (by omega))]
      refine join_bad (y :: r) (fun x hx => h x (by simp [hx])) ?_ rest m (by omega)
      obtain ⟨z, hz, hzb⟩ := hb
      rcases List.mem_cons.1 hz with rfl | hz
      · -- the first is readable and unreadable: impossible
        obtain ⟨r1, h1⟩ := hzb.2 [] (2 * z.length) (by omega)
        rw [hs [] (2 * z.length) (by omega)] at h1
        simp at h1
      · exact ⟨z, hz, hzb⟩
    · exact bad _ _ m hx (by omega)

theorem skip_open (n : Nat) (s : Bytes) : skip (n + 1) (c!"[" :: s) = skipItems n s := by
  rw [skip, ws_cons (by decide)]
  simp

theorem skip_brace (n : Nat) (s : Bytes) : skip (n + 1) (c!"{" :: s) = skipFields n s := by
  rw [skip, ws_cons (by decide)]
  simp

theorem arr_ok (xs : List Bytes) (h : ∀ x ∈ xs, SkOk x) : SkOk (b!"[" ++ join xs ++ b!"]") := by
  refine ⟨⟨_, _, rfl, .inr rfl⟩, ?_⟩
  intro rest n hn
  obtain ⟨m, rfl⟩ : ∃ m, n = m + 1 := ⟨n - 1, by simp at hn; omega⟩
  have := join_ok xs h rest m (by simp at hn; omega)
  simp only [List.append_assoc, List.cons_append, List.nil_append]
  rw [skip_open, this]

theorem arr_bad (xs : List Bytes) (h : ∀ x ∈ xs, SkOk x ∨ SkBad x) (hb : ∃ x ∈ xs, SkBad x) : SkBad (b!"[" ++ join xs ++ b!"]") := by
  refine ⟨⟨_, _, rfl, .inr rfl⟩, ?_⟩
  intro rest n hn
  obtain ⟨m, rfl⟩ : ∃ m, n = m + 1 := ⟨n - 1, by simp at hn; omega⟩
  obtain ⟨r, this⟩ := join_bad xs h hb rest m (by simp at hn; omega)
  simp only [List.append_assoc, List.cons_append, List.nil_append]
  exact ⟨r, by rw [skip_open, this]⟩

theorem skip_body (m : Nat) (T X : Bytes) : skip (m + 4) (c!"{" :: body T X) =
      match skip (m + 1) X with
      | (false, r) => (false, r)
      | (true, r) =>
        if (ws r).head? = some c!"," then skipFields (m + 1) ((ws r).drop 1)
        else if (ws r).head? = some c!"}" then skipFields (m + 1) (ws r)
        else (true, ws r) := by
  have w1 : ∀ k r, ws (quoted k ++ r) = quoted k ++ r := fun k r => by rw [quoted_eq]; exact ws_cons (by decide) _
  have h1 : skipFields (m + 3) (body T X) = skipFields (m + 2) (quoted b!"c" ++ c!":" :: X) :=
    skipFields_more (m + 2) _ (quoted b!"t") [] (quoted T ++ c!"," :: (quoted b!"c" ++ c!":" :: X)) [] _ (quoted_string _) ws_nil ws_nil (w1 _ _)
      (skip_string (quoted_string T) _ _)
  rw [skip_brace, h1]
  exact skipFields_step (m + 1) _ (quoted b!"c") [] X (quoted_string _) ws_nil (w1 _ _)

theorem skip_obj (m : Nat) (T C rest : Bytes) (h : skip (m + 1) (C ++ c!"}" :: rest) = (true, c!"}" :: rest)) :
    skip (m + 4) (obj T C ++ rest) = (true, rest) := by
  rw [obj_body, skip_body, h]
  simp only [ws_cons (show isSpace c!"}" = false by decide), List.head?_cons]
  rw [if_neg (by decide), if_pos trivial, skipFields, ws_cons (by decide), if_pos (by rfl)]
  rfl

theorem opens_obj (T C : Bytes) : Opens (obj T C) := ⟨_, _, rfl, .inl rfl⟩

theorem obj_ok (T C : Bytes) (h : ∀ rest n, 2 * C.length + 1 ≤ n → skip n (C ++ c!"}" :: rest) = (true, c!"}" :: rest)) : SkOk (obj T C) := by
  refine ⟨opens_obj T C, ?_⟩
  intro rest n hn
  have := obj_length T C
  obtain ⟨m, rfl⟩ : ∃ m, n = m + 4 := ⟨n - 4, by omega⟩
  exact skip_obj m T C rest (h rest _ (by omega))

theorem obj_bad (T C : Bytes) (h : ∀ rest n, 2 * C.length + 1 ≤ n → ∃ r, skip n (C ++ c!"}" :: rest) = (false, c!"]" :: c!"}" :: r)) : SkBad (obj T C) := by
  refine ⟨opens_obj T C, ?_⟩
  intro rest n hn
  have := obj_length T C
  obtain ⟨m, rfl⟩ : ∃ m, n = m + 4 := ⟨n - 4, by omega⟩
  obtain ⟨r, hr⟩ := h rest (m + 1) (by omega)
  exact ⟨r, by rw [obj_body, skip_body, hr]⟩

theorem obj_val (T C : Bytes) (h : Val C) : SkOk (obj T C) :=
  obj_ok T C fun rest n hn => skip_val h _ n (stop_brace rest) (by omega)

theorem obj_arr_ok (T : Bytes) (xs : List Bytes) (h : ∀ x ∈ xs, SkOk x) : SkOk (obj T (b!"[" ++ join xs ++ b!"]")) :=
  obj_ok _ _ fun rest n hn => (arr_ok xs h).2 _ n (by omega)

theorem obj_arr_bad (T : Bytes) (xs : List Bytes) (h : ∀ x ∈ xs, SkOk x ∨ SkBad x) (hb : ∃ x ∈ xs, SkBad x) :
    SkBad (obj T (b!"[" ++ join xs ++ b!"]")) :=
  obj_bad _ _ fun rest n hn => (arr_bad xs h hb).2 _ n (by omega)

theorem writeBlks_join (k : List Blk) : writeBlks k = join (k.map writeBlk) := by
  match k with
  | [] => rfl
  | [b] => rfl
  | b :: c :: r => rw [writeBlks, writeBlks_join (c :: r)]; rfl

def item (i : List Blk) : Bytes := b!"[" ++ writeBlks i ++ b!"]"

theorem writeItems_join (k : List (List Blk)) : writeItems k = join (k.map item) := by
  match k with
  | [] => rfl
  | [b] => rfl
  | b :: c :: r => rw [writeItems, writeItems_join (c :: r)]; rfl

/-! ### The parts of every written block -/

def tagB : Blk → Bytes
  | .para _ => b!"Para"
  | .heading _ _ => b!"Header"
  | .rule => b!"HorizontalRule"
  | .html _ => b!"RawBlock"
  | .code _ _ => b!"CodeBlock"
  | .bullet _ => b!"BulletList"
  | .ordered _ _ => b!"OrderedList"
  | .quote _ => b!"BlockQuote"
  | .other _ => b!"Para"

/-- The attributes of a numbered list. -/
def attrB (start : Nat) : Bytes := b!"[" ++ decimal (if start = 0 then 1 else start) ++ b!"," ++ quoted b!"Decimal" ++ b!"," ++ quoted b!"Period" ++ b!"]"

def contB : Blk → Bytes
  | .para k => b!"[" ++ writeInls k ++ b!"]"
  | .heading l k => b!"[" ++ decimal (if l = 0 then 1 else l) ++ b!"," ++ noAttr ++ b!"," ++ (b!"[" ++ writeInls k ++ b!"]") ++ b!"]"
  | .rule => b!"[]"
  | .html s => b!"[" ++ quoted b!"html" ++ b!"," ++ quoted s ++ b!"]"
  | .code info s => codeAttr info ++ quoted (chop s) ++ b!"]"
  | .bullet items => b!"[" ++ join (items.map item) ++ b!"]"
  | .ordered start items => b!"[" ++ attrB start ++ b!"," ++ (b!"[" ++ join (items.map item) ++ b!"]")
  | .quote k => b!"[" ++ join (k.map writeBlk) ++ b!"]"
  | .other s => b!"[" ++ writeInls [.text s] ++ b!"]"

theorem writeBlk_obj (b : Blk) : writeBlk b = obj (tagB b) (contB b) := by
  cases b with
  | para k => rw [writeBlk, tagB, contB, obj, show b!"{\"t\":\"Para\",\"c\":" = head b!"Para" by decide +kernel]
  | heading l k =>
    rw [writeBlk, tagB, contB, obj, show b!"{\"t\":\"Header\",\"c\":[" = head b!"Header" ++ b!"[" by decide +kernel, show b!"]}" = b!"]" ++ b!"}" from rfl]
    simp only [List.append_assoc]
  | rule => decide +kernel
  | html s =>
    rw [writeBlk, tagB, contB, obj, show b!"{\"t\":\"RawBlock\",\"c\":[\"html\"," = head b!"RawBlock" ++ b!"[" ++ quoted b!"html" ++ b!"," by decide +kernel,
      show b!"]}" = b!"]" ++ b!"}" from rfl]
    simp only [List.append_assoc]
  | code info s =>
    rw [writeBlk, tagB, contB, obj, show b!"{\"t\":\"CodeBlock\",\"c\":" = head b!"CodeBlock" by decide +kernel, show b!"]}" = b!"]" ++ b!"}" from rfl]
    simp only [List.append_assoc]
  | bullet items =>
    rw [writeBlk, writeItems_join, tagB, contB, obj, show b!"{\"t\":\"BulletList\",\"c\":[" = head b!"BulletList" ++ b!"[" by decide +kernel,
      show b!"]}" = b!"]" ++ b!"}" from rfl]
    simp only [List.append_assoc]
  | ordered start items =>
    rw [writeBlk, writeItems_join, tagB, contB, obj, attrB, show b!"{\"t\":\"OrderedList\",\"c\":[" = head b!"OrderedList" ++ b!"[" by decide +kernel,
      show b!"]}" = b!"]" ++ b!"}" from rfl,
      show b!",\"Decimal\",\"Period\"],[" = b!"," ++ quoted b!"Decimal" ++ b!"," ++ quoted b!"Period" ++ b!"]" ++ b!"," ++ b!"[" by decide +kernel]
    simp only [List.append_assoc]
  | quote k =>
    rw [writeBlk, writeBlks_join, tagB, contB, obj, show b!"{\"t\":\"BlockQuote\",\"c\":[" = head b!"BlockQuote" ++ b!"[" by decide +kernel,
      show b!"]}" = b!"]" ++ b!"}" from rfl]
    simp only [List.append_assoc]
  | other s =>
    rw [writeBlk, tagB, contB, obj, writeInls, writeInl, show b!"{\"t\":\"Para\",\"c\":[" = head b!"Para" ++ b!"[" by decide +kernel,
      show b!"}]}" = b!"}" ++ b!"]" ++ b!"}" from rfl]
    simp only [List.append_assoc]

theorem val_attrB (start : Nat) : Val (attrB start) :=
  val_three (.num (decimal_number _ (by split <;> omega))) (val_str _) (val_str _)

theorem val_heading (l : Nat) (k : List Inl) : Val (contB (.heading l k)) :=
  val_three (.num (decimal_number _ (by split <;> omega))) val_noAttr (val_inls k).1

/-- The attributes of a code block in the two forms they are written in. -/
theorem codeAttr_inc : codeAttr b!"inc" = b!"[" ++ b!"[\"\",[\"inc\"],[[\"inc\",\"yes\"]]]" ++ b!"," := by decide +kernel

theorem val_incAttr : Val b!"[\"\",[\"inc\"],[[\"inc\",\"yes\"]]]" := by
  have := val_three (val_str []) (Val.array (elems_one (val_str b!"inc"))) (Val.array (elems_one (val_two (val_str b!"inc") (val_str b!"yes"))))
  rw [show b!"[" ++ quoted [] ++ b!"," ++ (b!"[" ++ quoted b!"inc" ++ b!"]") ++ b!"," ++ (b!"[" ++ (b!"[" ++ quoted b!"inc" ++ b!"," ++ quoted b!"yes" ++ b!"]") ++ b!"]") ++ b!"]" =
    b!"[\"\",[\"inc\"],[[\"inc\",\"yes\"]]]" by decide +kernel] at this
  exact this

/-- The part of the attributes that is a value by itself. -/
def codeHead (info : Bytes) : Bytes := b!"[" ++ (b!"[" ++ quoted [] ++ b!"," ++ (b!"[" ++ (if info ≠ [] then quoted info else []) ++ b!"]") ++ b!"," ++ b!"[]" ++ b!"]") ++ b!"]"

theorem codeAttr_other (info : Bytes) (h : info ≠ b!"inc") : codeAttr info = codeHead info ++ b!"," := by
  rw [codeAttr, if_neg h, codeHead]
  rw [show b!"],[]]]," = b!"]" ++ b!"," ++ b!"[]" ++ b!"]" ++ b!"]" ++ b!"," from rfl, show b!",[" = b!"," ++ b!"[" from rfl, show b!"[[" = b!"[" ++ b!"[" from rfl]
  simp only [List.append_assoc]

theorem val_codeHead (info : Bytes) : Val (codeHead info) := by
  refine Val.array (elems_one (val_three (val_str []) ?_ val_empty))
  split
  · exact Val.array (elems_one (val_str info))
  · exact val_empty

theorem bad_code (info s : Bytes) (h : info ≠ b!"inc") : SkBad (writeBlk (.code info s)) := by
  rw [writeBlk_obj]
  refine ⟨opens_obj _ _, ?_⟩
  intro rest n hn
  have hl := obj_length (tagB (.code info s)) (contB (.code info s))
  obtain ⟨m, rfl⟩ : ∃ m, n = m + 4 := ⟨n - 4, by omega⟩
  refine ⟨rest, ?_⟩
  have hc : contB (.code info s) ++ c!"}" :: rest = codeHead info ++ (c!"," :: (quoted (chop s) ++ (c!"]" :: c!"}" :: rest))) := by
    rw [contB, codeAttr_other info h]; simp
  have hlen : (codeHead info).length ≤ (contB (.code info s)).length := by
    rw [contB, codeAttr_other info h]; simp
  rw [obj_body, skip_body, hc, skip_val (val_codeHead info) _ _ (stop_comma _) (by omega)]
  simp only [ws_cons (show isSpace c!"," = false by decide), List.head?_cons]
  rw [if_pos trivial, List.drop_succ_cons, List.drop_zero, skipFields, if_neg (head_q _ _ _ (by decide)), str_key]
  simp only [char_ne (show isSpace c!"]" = false by decide) (show c!"]" ≠ c!":" by decide)]

theorem ordered_cont_ok (start : Nat) (xs : List Bytes) (h : ∀ x ∈ xs, SkOk x) (rest : Bytes) (n : Nat)
    (hn : 2 * (b!"[" ++ attrB start ++ b!"," ++ (b!"[" ++ join xs ++ b!"]")).length + 1 ≤ n) :
    skip n ((b!"[" ++ attrB start ++ b!"," ++ (b!"[" ++ join xs ++ b!"]")) ++ c!"}" :: rest) = (true, c!"}" :: rest) := by
  have hA := val_attrB start
  have h2 := arr_ok xs h
  simp only [List.append_assoc, List.cons_append, List.nil_append, List.length_append, List.length_cons, List.length_nil] at hn ⊢
  obtain ⟨m, rfl⟩ : ∃ m, n = m + 3 := ⟨n - 3, by omega⟩
  have hw : ∀ r, ws (attrB start ++ r) = attrB start ++ r := ws_val hA
  rw [skip_open, skipItems_more (m + 1) _ _ [] ws_nil (by rw [hw]; simp [attrB]) (by rw [hw]; exact skip_val hA _ _ (stop_comma _) (by omega))]
  have h3 := h2.2 (c!"}" :: rest) m (by simp; omega)
  simp only [List.append_assoc, List.cons_append, List.nil_append] at h3
  rw [skipItems, ws_cons (by decide), if_neg (by simp), h3]
  simp only [ws_cons (show isSpace c!"}" = false by decide), List.head?_cons]
  rw [if_neg (by decide), if_neg (by decide)]

theorem ordered_cont_bad (start : Nat) (xs : List Bytes) (h : ∀ x ∈ xs, SkOk x ∨ SkBad x) (hb : ∃ x ∈ xs, SkBad x) (rest : Bytes) (n : Nat)
    (hn : 2 * (b!"[" ++ attrB start ++ b!"," ++ (b!"[" ++ join xs ++ b!"]")).length + 1 ≤ n) :
    ∃ r, skip n ((b!"[" ++ attrB start ++ b!"," ++ (b!"[" ++ join xs ++ b!"]")) ++ c!"}" :: rest) = (false, c!"]" :: c!"}" :: r) := by
  have hA := val_attrB start
  have h2 := arr_bad xs h hb
  simp only [List.append_assoc, List.cons_append, List.nil_append, List.length_append, List.length_cons, List.length_nil] at hn ⊢
  obtain ⟨m, rfl⟩ : ∃ m, n = m + 3 := ⟨n - 3, by omega⟩
  have hw : ∀ r, ws (attrB start ++ r) = attrB start ++ r := ws_val hA
  rw [skip_open, skipItems_more (m + 1) _ _ [] ws_nil (by rw [hw]; simp [attrB]) (by rw [hw]; exact skip_val hA _ _ (stop_comma _) (by omega))]
  obtain ⟨r, h3⟩ := h2.2 (c!"}" :: rest) m (by simp; omega)
  simp only [List.append_assoc, List.cons_append, List.nil_append] at h3
  exact ⟨r, by rw [skipItems, ws_cons (by decide), if_neg (by simp), h3]⟩

mutual
theorem sk_blk (b : Blk) : (hasCode b = false → SkOk (writeBlk b)) ∧ (hasCode b = true → SkBad (writeBlk b)) := by
  match b with
  | .para k => exact ⟨fun _ => by rw [writeBlk_obj]; exact obj_val _ _ (val_inls k).1, fun h => by simp [hasCode] at h⟩
  | .heading l k => exact ⟨fun _ => by rw [writeBlk_obj]; exact obj_val _ _ (val_heading l k), fun h => by simp [hasCode] at h⟩
  | .rule => exact ⟨fun _ => by rw [writeBlk_obj]; exact obj_val _ _ val_empty, fun h => by simp [hasCode] at h⟩
  | .html s => exact ⟨fun _ => by rw [writeBlk_obj]; exact obj_val _ _ (val_two (val_str _) (val_str s)), fun h => by simp [hasCode] at h⟩
  | .other s => exact ⟨fun _ => by rw [writeBlk_obj]; exact obj_val _ _ (val_inls _).1, fun h => by simp [hasCode] at h⟩
  | .code info s =>
    refine ⟨fun h => ?_, fun h => bad_code info s (by simpa [hasCode] using h)⟩
    have : info = b!"inc" := by simpa [hasCode] using h
    subst this
    rw [writeBlk_obj, contB, codeAttr_inc]
    exact obj_val _ _ (val_two val_incAttr (val_str _))
  | .bullet items =>
    have h := sk_items items
    rw [writeBlk_obj]
    exact ⟨fun hc => obj_arr_ok _ _ (h.1 hc), fun hc => obj_arr_bad _ _ (h.2 hc).1 (h.2 hc).2⟩
  | .ordered start items =>
    have h := sk_items items
    rw [writeBlk_obj]
    exact ⟨fun hc => obj_ok _ _ (ordered_cont_ok _ _ (h.1 hc)), fun hc => obj_bad _ _ (ordered_cont_bad _ _ (h.2 hc).1 (h.2 hc).2)⟩
  | .quote k =>
    have h := sk_blks k
    rw [writeBlk_obj]
    exact ⟨fun hc => obj_arr_ok _ _ (h.1 hc), fun hc => obj_arr_bad _ _ (h.2 hc).1 (h.2 hc).2⟩
theorem sk_blks (k : List Blk) : (hasCodes k = false → ∀ x ∈ k.map writeBlk, SkOk x) ∧
    (hasCodes k = true → (∀ x ∈ k.map writeBlk, SkOk x ∨ SkBad x) ∧ ∃ x ∈ k.map writeBlk, SkBad x) := by
  match k with
  | [] => exact ⟨fun _ => by simp, fun h => by simp [hasCodes] at h⟩
  | b :: r =>
    have h1 := sk_blk b
    have h2 := sk_blks r
    simp only [hasCodes, Bool.or_eq_false_iff, Bool.or_eq_true, List.map_cons, List.mem_cons, forall_eq_or_imp, exists_eq_or_imp]
    refine ⟨fun h => ⟨h1.1 h.1, h2.1 h.2⟩, ?_⟩
    intro h
    refine ⟨⟨?_, ?_⟩, ?_⟩
    · cases hb : hasCode b
      · exact .inl (h1.1 hb)
      · exact .inr (h1.2 hb)
    · cases hb : hasCodes r
      · exact fun x hx => .inl (h2.1 hb x hx)
      · exact (h2.2 hb).1
    · rcases h with h | h
      · exact .inl (h1.2 h)
      · exact .inr (h2.2 h).2
theorem sk_items (k : List (List Blk)) : (hasCodeItems k = false → ∀ x ∈ k.map item, SkOk x) ∧
    (hasCodeItems k = true → (∀ x ∈ k.map item, SkOk x ∨ SkBad x) ∧ ∃ x ∈ k.map item, SkBad x) := by
  match k with
  | [] => exact ⟨fun _ => by simp, fun h => by simp [hasCodeItems] at h⟩
  | i :: r =>
    have h0 := sk_blks i
    have h1 : (hasCodes i = false → SkOk (item i)) ∧ (hasCodes i = true → SkBad (item i)) := by
      rw [item, writeBlks_join]
      exact ⟨fun h => arr_ok _ (h0.1 h), fun h => arr_bad _ (h0.2 h).1 (h0.2 h).2⟩
    have h2 := sk_items r
    simp only [hasCodeItems, Bool.or_eq_false_iff, Bool.or_eq_true, List.map_cons, List.mem_cons, forall_eq_or_imp, exists_eq_or_imp]
    refine ⟨fun h => ⟨h1.1 h.1, h2.1 h.2⟩, ?_⟩
    intro h
    refine ⟨⟨?_, ?_⟩, ?_⟩
    · cases hb : hasCodes i
      · exact .inl (h1.1 hb)
      · exact .inr (h1.2 hb)
    · cases hb : hasCodeItems r
      · exact fun x hx => .inl (h2.1 hb x hx)
      · exact (h2.2 hb).1
    · rcases h with h | h
      · exact .inl (h1.2 h)
      · exact .inr (h2.2 h).2
end

end Verif.AstJson
