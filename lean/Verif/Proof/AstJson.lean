import Verif.Spec.AstJson
import Verif.Spec.JsonText
import Verif.Proof.Escape

namespace Verif.AstJson
open Escape (jsonWriteString jsonReadString jsonByte jsonReadLoop jsonPut jsonEsc jsonEscape_eq jsonReadLoop_flatMap)
open JsonText (Ws Char IsString IsNumber Digits Val Elems Members)

/-! ### Strings -/

theorem quoted_eq (s : Bytes) : quoted s = c!"\"" :: (s.flatMap jsonByte ++ [c!"\""]) := by
  simp [quoted, jsonWriteString, jsonEscape_eq]

theorem ws_cons {c : Byte} (h : isSpace c = false) (t : Bytes) : ws (c :: t) = c :: t := by
  simp [ws, h]

theorem ws_ws (a t : Bytes) (h : Ws a) : ws (a ++ t) = ws t := by
  induction a with
  | nil => rfl
  | cons c r ih =>
    have hc : isSpace c = true := by
      rcases h c (by simp) with rfl | rfl | rfl | rfl <;> decide
    show List.dropWhile isSpace (c :: (r ++ t)) = _
    rw [List.dropWhile_cons, hc]
    exact ih fun x hx => h x (by simp [hx])

theorem str_quoted (s rest : Bytes) : str (quoted s ++ rest) = (some (noControl s), rest) := by
  have h := jsonReadLoop_flatMap s rest 64 [] (by simp) (by omega)
  rw [quoted_eq, str, jsonReadString]
  simp [List.dropWhile_cons, show isSpace c!"\"" = false by decide, h]
  rfl

theorem jsonPut_ok (cap : Nat) (out : Bytes) (c : Byte) (h : out.length + 1 ≤ cap) (h2 : 2 ≤ cap) :
    ∃ cap', out.length + 2 ≤ cap' ∧ 2 ≤ cap' ∧ jsonPut cap out c = .val (cap', out ++ [c]) := by
  unfold jsonPut
  split
  · exact ⟨cap * 2, by omega, by omega, by rw [put_val (by omega)]⟩
  · exact ⟨cap, by omega, by omega, by rw [put_val (by omega)]⟩

theorem read_char (x t : Bytes) (hx : Char x) (cap : Nat) (out : Bytes) (h : out.length + 1 ≤ cap) (h2 : 2 ≤ cap) :
    ∃ cap' c, out.length + 2 ≤ cap' ∧ 2 ≤ cap' ∧ jsonReadLoop (x ++ t) cap out = jsonReadLoop t cap' (out ++ [c]) := by
  cases hx with
  | plain c h1 h3 _ =>
    obtain ⟨cap', a, b, e⟩ := jsonPut_ok cap out c h h2
    refine ⟨cap', c, a, b, ?_⟩
    cases t with
    | nil => simp [jsonReadLoop, h1]
    | cons d t => simp [jsonReadLoop, h1, h3, e]
  | escape d h1 =>
    obtain ⟨cap', a, b, e⟩ := jsonPut_ok cap out (jsonEsc d) h h2
    refine ⟨cap', jsonEsc d, a, b, ?_⟩
    have : d ≠ c!"u" ∧ jsonEsc d ≠ c!"?" := by
      revert h1; exact forall_byte (p := fun d => d ∈ b!"\"\\/bfnrt" → d ≠ c!"u" ∧ jsonEsc d ≠ c!"?") (by decide +kernel) d
    simp [jsonReadLoop, this, e]
  | unicode x y z w h1 =>
    obtain ⟨cap', a, b, e⟩ := jsonPut_ok cap out c!"?" h h2
    refine ⟨cap', c!"?", a, b, ?_⟩
    simp [jsonReadLoop, e]

theorem read_chars (cs : List Bytes) (hs : ∀ x ∈ cs, Char x) (rest : Bytes) (cap : Nat) (out : Bytes) (h : out.length + 1 ≤ cap)
    (h2 : 2 ≤ cap) : ∃ o, jsonReadLoop (cs.flatten ++ c!"\"" :: rest) cap out = .val (some (o, rest)) := by
  induction cs generalizing cap out with
  | nil =>
    have := finish_val (show out.length < cap by omega)
    exact ⟨out, by cases rest <;> simp [jsonReadLoop, this]⟩
  | cons x t ih =>
    obtain ⟨cap', c, h3, h4, h5⟩ := read_char x (t.flatten ++ c!"\"" :: rest) (hs x (by simp)) cap out h h2
    rw [List.flatten_cons, List.append_assoc, h5]
    exact ih (fun y hy => hs y (by simp [hy])) cap' _ (by simp; omega) h4

theorem str_string {w : Bytes} (h : IsString w) (rest : Bytes) : ∃ o, str (w ++ rest) = (some o, rest) := by
  obtain ⟨cs, hc, rfl⟩ := h
  obtain ⟨o, ho⟩ := read_chars cs hc rest 64 [] (by simp) (by omega)
  refine ⟨o, ?_⟩
  rw [str, jsonReadString]
  simp [List.dropWhile_cons, show isSpace c!"\"" = false by decide, ho]

theorem quoted_string (s : Bytes) : IsString (quoted s) := by
  refine ⟨s.map jsonByte, ?_, by rw [quoted_eq]; simp [List.flatMap]⟩
  intro x hx
  obtain ⟨c, _, rfl⟩ := List.mem_map.1 hx
  unfold jsonByte
  split
  · exact .escape _ (by decide)
  split
  · exact .escape _ (by decide)
  split
  · exact .escape _ (by decide)
  split
  · exact .escape _ (by decide)
  split
  · exact .escape _ (by decide)
  split
  · rename_i h
    have := forall_byte (p := fun c => (Html.hexVal (Escape.hexDigit (c.toNat / 16))).isSome = true ∧
      (Html.hexVal (Escape.hexDigit (c.toNat % 16))).isSome = true) (by decide +kernel) c
    exact .unicode c!"0" c!"0" _ _ (by
      intro x hx
      simp only [List.mem_cons, List.not_mem_nil, or_false] at hx
      rcases hx with rfl | rfl | rfl | rfl
      · decide
      · decide
      · exact this.1
      · exact this.2)
  · rename_i h1 h2 _ _ _ h3
    exact .plain c h2 h1 (by simpa using h3)

/-! ### The simple readers -/

theorem char_eq {c : Byte} (h : isSpace c = false) (t : Bytes) : char c (c :: t) = (true, t) := by simp [char, ws_cons h]
theorem char_ne {c d : Byte} (h : isSpace d = false) (hd : d ≠ c) (t : Bytes) : char c (d :: t) = (false, d :: t) := by
  simp [char, ws_cons h, hd]
theorem char_ws (a t : Bytes) (h : Ws a) (c : Byte) : char c (a ++ t) = char c t := by simp [char, ws_ws a t h]
theorem str_ws (a t : Bytes) (h : Ws a) : str (a ++ t) = str t := by
  have := ws_ws a t h
  have h2 : jsonReadString (a ++ t) = jsonReadString t := by
    rw [jsonReadString, jsonReadString]; unfold ws at this; rw [this]
  rw [str, str, this, h2]
theorem ws_idem (s : Bytes) : ws (ws s) = ws s := by
  induction s with
  | nil => rfl
  | cons c t ih =>
    cases h : isSpace c
    · rw [ws_cons h, ws_cons h]
    · have : ws (c :: t) = ws t := by simp [ws, h]
      rw [this, ih]

/-- The text goes on with something that ends a number or a word. -/
def Stop (r : Bytes) : Prop := ∀ c ∈ r.head?, tokenByte c = false

theorem stop_comma (r : Bytes) : Stop (c!"," :: r) := by intro c h; simp at h; subst h; decide
theorem stop_close (r : Bytes) : Stop (c!"]" :: r) := by intro c h; simp at h; subst h; decide
theorem stop_brace (r : Bytes) : Stop (c!"}" :: r) := by intro c h; simp at h; subst h; decide
theorem stop_ws {b r : Bytes} (hb : Ws b) (h : Stop r) : Stop (b ++ r) := by
  cases b with
  | nil => exact h
  | cons c t =>
    intro d hd
    simp at hd
    subst hd
    rcases hb c (by simp) with rfl | rfl | rfl | rfl <;> decide

/-! ### Skipping values -/

theorem token_skip (w rest : Bytes) (hw : ∀ c ∈ w, tokenByte c = true) (hr : Stop rest) : (w ++ rest).dropWhile tokenByte = rest := by
  induction w with
  | nil =>
    cases rest with
    | nil => rfl
    | cons c t => simp [hr c (by simp)]
  | cons c t ih =>
    simp only [List.cons_append, List.dropWhile_cons, hw c (by simp), if_true]
    exact ih fun x hx => hw x (by simp [hx])

/-- Numbers and words: a byte that starts no other value, and no byte that ends them. -/
def Token (w : Bytes) : Prop := w ≠ [] ∧ ∀ c ∈ w, tokenByte c = true ∧ c ≠ c!"\"" ∧ c ≠ c!"{" ∧ c ≠ c!"["

def numByte (c : Byte) : Bool := (0x30 ≤ c && c ≤ 0x39) || c == c!"-" || c == c!"+" || c == c!"." || c == c!"e" || c == c!"E"

theorem token_num {w : Bytes} (h : IsNumber w) : Token w := by
  have key : ∀ c, numByte c = true → tokenByte c = true ∧ c ≠ c!"\"" ∧ c ≠ c!"{" ∧ c ≠ c!"[" :=
    forall_byte (by decide +kernel)
  have dig : ∀ d, Digits d → ∀ c ∈ d, numByte c = true := by
    intro d hd c hc
    have := hd.2 c hc
    simp [numByte, this]
  obtain ⟨sign, int, frac, exp, rfl, hs, ⟨hi, _⟩, hf, he⟩ := h
  refine ⟨?_, fun c hc => key c ?_⟩
  · have := hi.1
    simp [this]
  · simp only [List.mem_append] at hc
    rcases hc with ((hc | hc) | hc) | hc
    · rcases hs with rfl | rfl
      · simp at hc
      · simp at hc; subst hc; decide
    · exact dig _ hi c hc
    · rcases hf with rfl | ⟨d, hd, rfl⟩
      · simp at hc
      · rcases List.mem_cons.1 hc with rfl | hc
        · decide
        · exact dig _ hd c hc
    · rcases he with rfl | ⟨e, s, d, h1, h2, hd, rfl⟩
      · simp at hc
      · simp only [List.cons_append, List.mem_cons, List.mem_append] at hc
        rcases hc with rfl | hc | hc
        · rcases h1 with rfl | rfl <;> decide
        · rcases h2 with rfl | rfl | rfl
          · simp at hc
          · simp at hc; subst hc; decide
          · simp at hc; subst hc; decide
        · exact dig _ hd c hc

theorem token_word {w : Bytes} (h : w ∈ [b!"true", b!"false", b!"null"]) : Token w := by
  simp only [List.mem_cons, List.not_mem_nil, or_false] at h
  rcases h with rfl | rfl | rfl <;> exact ⟨by decide, by decide⟩

theorem token_space {c : Byte} (h : tokenByte c = true) : isSpace c = false ∧ c ≠ c!"]" ∧ c ≠ c!"}" ∧ c ≠ c!"," := by
  revert h; exact forall_byte (p := fun c => tokenByte c = true → isSpace c = false ∧ c ≠ c!"]" ∧ c ≠ c!"}" ∧ c ≠ c!",")
    (by decide +kernel) c

theorem skip_token {w : Bytes} (h : Token w) (rest : Bytes) (hr : Stop rest) (n : Nat) : skip (n + 1) (w ++ rest) = (true, rest) := by
  obtain ⟨h0, h1⟩ := h
  cases w with
  | nil => exact absurd rfl h0
  | cons c t =>
    have hc := h1 c (by simp)
    have := token_skip (c :: t) rest (fun x hx => (h1 x hx).1) hr
    simp only [List.cons_append] at this ⊢
    rw [skip, ws_cons (token_space hc.1).1]
    simp [hc, this]

theorem string_cons {w : Bytes} (h : IsString w) : ∃ t, w = c!"\"" :: t := by
  obtain ⟨cs, _, rfl⟩ := h; exact ⟨_, rfl⟩

theorem skip_string {w : Bytes} (h : IsString w) (rest : Bytes) (n : Nat) : skip (n + 1) (w ++ rest) = (true, rest) := by
  obtain ⟨o, ho⟩ := str_string h rest
  obtain ⟨t, rfl⟩ := string_cons h
  simp only [List.cons_append] at ho ⊢
  rw [skip, ws_cons (by decide)]
  simp [ho]

theorem val_head {v : Bytes} (h : Val v) : ∃ c t, v = c :: t ∧ isSpace c = false ∧ c ≠ c!"]" ∧ c ≠ c!"}" ∧ c ≠ c!"," := by
  have tok : ∀ {w}, Token w → ∃ c t, w = c :: t ∧ isSpace c = false ∧ c ≠ c!"]" ∧ c ≠ c!"}" ∧ c ≠ c!"," := by
    intro w hw
    cases w with
    | nil => exact absurd rfl hw.1
    | cons c t => exact ⟨c, t, rfl, token_space (hw.2 c (by simp)).1⟩
  cases h with
  | str h => obtain ⟨t, rfl⟩ := string_cons h; exact ⟨_, _, rfl, by decide⟩
  | num h => exact tok (token_num h)
  | word h => exact tok (token_word h)
  | arrayEmpty _ => exact ⟨_, _, rfl, by decide⟩
  | array _ => exact ⟨_, _, rfl, by decide⟩
  | objectEmpty _ => exact ⟨_, _, rfl, by decide⟩
  | object _ => exact ⟨_, _, rfl, by decide⟩

/-- One element, and what comes behind it. -/
theorem skipItems_last (n : Nat) (s rest : Bytes) (b : Bytes) (hb : Ws b) (hs : (ws s).head? ≠ some c!"]")
    (h : skip (n + 1) (ws s) = (true, b ++ c!"]" :: rest)) : skipItems (n + 2) s = (true, rest) := by
  have hw : ws (b ++ c!"]" :: rest) = c!"]" :: rest := by rw [ws_ws b _ hb, ws_cons (by decide)]
  rw [skipItems, if_neg hs, h]
  simp only [hw, List.head?_cons, Option.some.injEq]
  rw [if_neg (by decide), if_pos trivial, skipItems, ws_cons (by decide), if_pos (by rfl)]
  rfl

theorem skipItems_more (n : Nat) (s rest : Bytes) (b : Bytes) (hb : Ws b) (hs : (ws s).head? ≠ some c!"]")
    (h : skip n (ws s) = (true, b ++ c!"," :: rest)) : skipItems (n + 1) s = skipItems n rest := by
  have hw : ws (b ++ c!"," :: rest) = c!"," :: rest := by rw [ws_ws b _ hb, ws_cons (by decide)]
  rw [skipItems, if_neg hs, h]
  simp only [hw, List.head?_cons]
  rw [if_pos trivial]
  rfl

/-- One member, and what comes behind it. -/
theorem skipFields_step (n : Nat) (s k b v : Bytes) (hk : IsString k) (hb : Ws b) (hs : ws s = k ++ (b ++ c!":" :: v)) :
    skipFields (n + 1) s =
      match skip n v with
      | (false, r) => (false, r)
      | (true, r) =>
        if (ws r).head? = some c!"," then skipFields n ((ws r).drop 1)
        else if (ws r).head? = some c!"}" then skipFields n (ws r)
        else (true, ws r) := by
  obtain ⟨o, ho⟩ := str_string hk (b ++ c!":" :: v)
  rw [skipFields, hs]
  obtain ⟨t, rfl⟩ := string_cons hk
  rw [if_neg (by simp), ho]
  simp only [char_ws _ _ hb, char_eq (show isSpace c!":" = false by decide)]
  rfl

theorem skipFields_last (n : Nat) (s k b v d rest : Bytes) (hk : IsString k) (hb : Ws b) (hd : Ws d)
    (hs : ws s = k ++ (b ++ c!":" :: v)) (h : skip (n + 1) v = (true, d ++ c!"}" :: rest)) : skipFields (n + 2) s = (true, rest) := by
  have hw : ws (d ++ c!"}" :: rest) = c!"}" :: rest := by rw [ws_ws d _ hd, ws_cons (by decide)]
  rw [skipFields_step _ s k b v hk hb hs, h]
  simp only [hw, List.head?_cons, Option.some.injEq]
  rw [if_neg (by decide), if_pos trivial, skipFields, ws_cons (by decide), if_pos (by rfl)]
  rfl

theorem skipFields_more (n : Nat) (s k b v d rest : Bytes) (hk : IsString k) (hb : Ws b) (hd : Ws d)
    (hs : ws s = k ++ (b ++ c!":" :: v)) (h : skip n v = (true, d ++ c!"," :: rest)) : skipFields (n + 1) s = skipFields n rest := by
  have hw : ws (d ++ c!"," :: rest) = c!"," :: rest := by rw [ws_ws d _ hd, ws_cons (by decide)]
  rw [skipFields_step _ s k b v hk hb hs, h]
  simp only [hw, List.head?_cons]
  rw [if_pos trivial]
  rfl

theorem skip_ws (n : Nat) (a t : Bytes) (h : Ws a) : skip (n + 1) (a ++ t) = skip (n + 1) t := by
  rw [skip, skip, ws_ws a t h]

theorem skip_ws' (n : Nat) (s : Bytes) : skip (n + 1) (ws s) = skip (n + 1) s := by
  rw [skip, skip, ws_idem]

mutual
theorem skip_val {w : Bytes} (h : Val w) (rest : Bytes) (n : Nat) (hr : Stop rest) (hn : 2 * w.length ≤ n) : skip n (w ++ rest) = (true, rest) := by
  cases h with
  | str h =>
    obtain ⟨t, rfl⟩ := string_cons h
    obtain ⟨m, rfl⟩ : ∃ m, n = m + 1 := ⟨n - 1, by simp at hn; omega⟩
    exact skip_string h rest m
  | num h =>
    obtain ⟨m, rfl⟩ : ∃ m, n = m + 1 := ⟨n - 1, by have := List.length_pos_iff.2 (token_num h).1; omega⟩
    exact skip_token (token_num h) rest hr m
  | word h =>
    obtain ⟨m, rfl⟩ : ∃ m, n = m + 1 := ⟨n - 1, by have := List.length_pos_iff.2 (token_word h).1; omega⟩
    exact skip_token (token_word h) rest hr m
  | @arrayEmpty a ha =>
    obtain ⟨m, rfl⟩ : ∃ m, n = m + 2 := ⟨n - 2, by simp at hn; omega⟩
    have : ws (a ++ c!"]" :: rest) = c!"]" :: rest := by rw [ws_ws a _ ha, ws_cons (by decide)]
    simp only [List.append_assoc, List.cons_append, List.nil_append]
    rw [skip, ws_cons (by decide)]
    simp only [if_neg (show c!"[" ≠ c!"\"" by decide), if_neg (show c!"[" ≠ c!"{" by decide), if_true]
    rw [skipItems, this]
    rfl
  | @array e he =>
    obtain ⟨m, rfl⟩ : ∃ m, n = m + 1 := ⟨n - 1, by simp at hn; omega⟩
    simp only [List.append_assoc, List.cons_append, List.nil_append]
    rw [skip, ws_cons (by decide)]
    simp only [if_neg (show c!"[" ≠ c!"\"" by decide), if_neg (show c!"[" ≠ c!"{" by decide), if_true]
    exact skip_elems he rest m (by simp at hn; omega)
  | @objectEmpty a ha =>
    obtain ⟨m, rfl⟩ : ∃ m, n = m + 2 := ⟨n - 2, by simp at hn; omega⟩
    have : ws (a ++ c!"}" :: rest) = c!"}" :: rest := by rw [ws_ws a _ ha, ws_cons (by decide)]
    simp only [List.append_assoc, List.cons_append, List.nil_append]
    rw [skip, ws_cons (by decide)]
    simp only [if_neg (show c!"{" ≠ c!"\"" by decide), if_true]
    rw [skipFields, this]
    rfl
  | @object e he =>
    obtain ⟨m, rfl⟩ : ∃ m, n = m + 1 := ⟨n - 1, by simp at hn; omega⟩
    simp only [List.append_assoc, List.cons_append, List.nil_append]
    rw [skip, ws_cons (by decide)]
    simp only [if_neg (show c!"{" ≠ c!"\"" by decide), if_true]
    exact skip_members he rest m (by simp at hn; omega)
theorem skip_elems {e : Bytes} (h : Elems e) (rest : Bytes) (n : Nat) (hn : 2 * e.length + 1 ≤ n) : skipItems n (e ++ c!"]" :: rest) = (true, rest) := by
  cases h with
  | @one a v b ha hv hb =>
    obtain ⟨c, t, rfl, h1, h2, h3, h4⟩ := val_head hv
    obtain ⟨m, rfl⟩ : ∃ m, n = m + 2 := ⟨n - 2, by simp at hn; omega⟩
    have hw : ws (a ++ (c :: t) ++ b ++ c!"]" :: rest) = (c :: t) ++ (b ++ c!"]" :: rest) := by
      rw [List.append_assoc, List.append_assoc, ws_ws a _ ha, List.cons_append, ws_cons h1]
    refine skipItems_last m _ rest b hb (by rw [hw]; simpa using h2) ?_
    rw [hw]
    exact skip_val hv _ _ (stop_ws hb (stop_close _)) (by simp at hn ⊢; omega)
  | @more a v b e ha hv hb he =>
    obtain ⟨c, t, rfl, h1, h2, h3, h4⟩ := val_head hv
    obtain ⟨m, rfl⟩ : ∃ m, n = m + 1 := ⟨n - 1, by simp at hn; omega⟩
    have hw : ws (a ++ (c :: t) ++ b ++ b!"," ++ e ++ c!"]" :: rest) = (c :: t) ++ (b ++ c!"," :: (e ++ c!"]" :: rest)) := by
      simp only [List.append_assoc]
      rw [ws_ws a _ ha, List.cons_append, ws_cons h1]
      rfl
    rw [skipItems_more m _ (e ++ c!"]" :: rest) b hb (by rw [hw]; simpa using h2) (by
      rw [hw]
      exact skip_val hv _ _ (stop_ws hb (stop_comma _)) (by simp at hn ⊢; omega))]
    exact skip_elems he rest m (by simp at hn; omega)
theorem skip_members {e : Bytes} (h : Members e) (rest : Bytes) (n : Nat) (hn : 2 * e.length + 1 ≤ n) : skipFields n (e ++ c!"}" :: rest) = (true, rest) := by
  cases h with
  | @one a k b c v d ha hk hb hc hv hd =>
    obtain ⟨t, rfl⟩ := string_cons hk
    obtain ⟨m, rfl⟩ : ∃ m, n = m + 2 := ⟨n - 2, by simp at hn; omega⟩
    have hw : ws (a ++ (c!"\"" :: t) ++ b ++ b!":" ++ c ++ v ++ d ++ c!"}" :: rest) = (c!"\"" :: t) ++ (b ++ c!":" :: (c ++ (v ++ (d ++ c!"}" :: rest)))) := by
      simp only [List.append_assoc]
      rw [ws_ws a _ ha, List.cons_append, ws_cons (by decide)]
      rfl
    refine skipFields_last m _ _ b _ d rest hk hb hd hw ?_
    rw [skip_ws _ _ _ hc]
    exact skip_val hv _ _ (stop_ws hd (stop_brace _)) (by simp at hn ⊢; omega)
  | @more a k b c v d m' ha hk hb hc hv hd hm =>
    obtain ⟨t, rfl⟩ := string_cons hk
    obtain ⟨m, rfl⟩ : ∃ m, n = m + 2 := ⟨n - 2, by simp at hn; omega⟩
    have hw : ws (a ++ (c!"\"" :: t) ++ b ++ b!":" ++ c ++ v ++ d ++ b!"," ++ m' ++ c!"}" :: rest) =
        (c!"\"" :: t) ++ (b ++ c!":" :: (c ++ (v ++ (d ++ c!"," :: (m' ++ c!"}" :: rest))))) := by
      simp only [List.append_assoc]
      rw [ws_ws a _ ha, List.cons_append, ws_cons (by decide)]
      rfl
    rw [skipFields_more (m + 1) _ _ b _ d (m' ++ c!"}" :: rest) hk hb hd hw (by
      rw [skip_ws _ _ _ hc]
      exact skip_val hv _ _ (stop_ws hd (stop_comma _)) (by simp at hn ⊢; omega))]
    exact skip_members hm rest _ (by simp at hn; omega)
end

end Verif.AstJson
