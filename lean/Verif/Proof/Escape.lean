import Verif.Model.Escape
import Verif.Spec.Html
import Verif.Spec.Url
import Verif.Spec.Json
import Verif.Spec.Markdown
import Verif.Proof.Buffer

namespace Verif.Escape

/-! ### The shared loop -/

theorem emit_val (k : Nat) (nul : Byte → Bool) (esc : Byte → Bytes) (hk : ∀ c, (esc c).length ≤ k)
    (cap : Nat) (s out : Bytes) (h : out.length + k * s.length + 1 ≤ cap) :
    emit cap nul esc s out = .val (out ++ s.flatMap esc) := by
  induction s generalizing out with
  | nil => simp [emit, finish]; simp at h; omega
  | cons c t ih =>
    have h1 := hk c
    simp only [List.length_cons, Nat.mul_add, Nat.mul_one] at h
    rw [emit, if_pos (by split <;> omega), ih _ (by simp; omega)]
    simp

theorem hexDigit_isXDigit (c : Byte) : isXDigit (hexDigit (c.toNat / 16)) = true ∧
    isXDigit (hexDigit (c.toNat % 16)) = true := by
  revert c; exact forall_byte (by decide +kernel)

theorem hex2_length (c : Byte) : (hex2 c).length = 2 := rfl

/-! ### HTML references -/

theorem digits_length (val : Byte → Option Nat) (base acc : Nat) (s : Bytes) (v : Nat) (r : Bytes)
    (h : Html.digits val base acc s = some (v, r)) : r.length < s.length := by
  induction s generalizing acc with
  | nil => cases h
  | cons c t ih =>
    rw [Html.digits] at h
    split at h
    · simp at h; rw [h.2]; simp
    · split at h
      · have := ih _ h; simp; omega
      · cases h

theorem ref_length (s : Bytes) (v : Nat) (r : Bytes) (h : Html.ref s = some (v, r)) :
    r.length < s.length := by
  unfold Html.ref at h
  split at h
  all_goals first
    | (cases h; done)
    | (simp at h; rw [← h.2]; simp; omega)
    | (split at h
       · have := digits_length _ _ _ _ _ _ h; simp; omega
       · cases h)

theorem decodeN_add (s : Bytes) : ∀ n m, s.length ≤ n → s.length ≤ m →
    Html.decodeN n s = Html.decodeN m s := by
  induction h : s.length using Nat.strongRecOn generalizing s with
  | _ k ih =>
    intro n m hn hm
    match s, n, m with
    | [], 0, 0 => rfl
    | [], 0, m + 1 => rfl
    | [], n + 1, 0 => rfl
    | [], n + 1, m + 1 => rfl
    | c :: t, 0, _ => simp at h; omega
    | c :: t, _ + 1, 0 => simp at h; omega
    | c :: t, n + 1, m + 1 =>
      simp at h
      simp only [Html.decodeN]
      rw [ih t.length (by omega) t rfl n m (by omega) (by omega)]
      split
      · cases hr : Html.ref t with
        | none => rfl
        | some p =>
          obtain ⟨v, r⟩ := p
          have := ref_length t v r hr
          simp only
          rw [ih r.length (by omega) r rfl n m (by omega) (by omega)]
      · rfl

theorem decode_nil : Html.decode [] = [] := rfl

theorem decode_plain (c : Byte) (t : Bytes) (h : c ≠ c!"&") : Html.decode (c :: t) = c :: Html.decode t := by
  simp [Html.decode, Html.decodeN, h]

theorem decode_ref (t r : Bytes) (v : Nat) (h : Html.ref t = some (v, r)) :
    Html.decode (c!"&" :: t) = Utf8.Spec.encode v ++ Html.decode r := by
  have := ref_length t v r h
  simp only [Html.decode, List.length_cons, Html.decodeN, if_true, h]
  rw [decodeN_add r t.length r.length (by omega) (by omega)]

theorem encode_ascii (c : Byte) (h : c < 128) : Utf8.Spec.encode c.toNat = [c] := by
  have : c.toNat < 128 := by rw [UInt8.lt_iff_toNat_lt] at h; simpa using h
  simp [Utf8.Spec.encode, this]

/-! ### renderer.c -/

/-- What `escapeHtmlOps` appends for one byte. -/
def htmlByte (c : Byte) : Bytes :=
  if c = c!"<" then b!"&lt;" else if c = c!">" then b!"&gt;" else if c = c!"&" then b!"&amp;"
  else if c = c!"\"" then b!"&quot;" else [c]

theorem text_escapeHtmlOps (s acc : Bytes) :
    Buffer.Spec.text acc (escapeHtmlOps s) = acc ++ s.flatMap htmlByte := by
  induction s generalizing acc with
  | nil => simp [escapeHtmlOps, Buffer.Spec.text]
  | cons c t ih =>
    rw [escapeHtmlOps]
    simp only [List.flatMap_cons, htmlByte]
    repeat' split
    all_goals simp [Buffer.Spec.text, ih]

theorem decode_htmlByte (c : Byte) (t : Bytes) :
    Html.decode (htmlByte c ++ t) = c :: Html.decode t := by
  unfold htmlByte
  split
  · subst_vars; exact decode_ref _ t 0x3C rfl
  split
  · subst_vars; exact decode_ref _ t 0x3E rfl
  split
  · subst_vars; exact decode_ref _ t 0x26 rfl
  split
  · subst_vars; exact decode_ref _ t 0x22 rfl
  · exact decode_plain c t (by assumption)

theorem decode_flatMap (esc : Byte → Bytes) (s : Bytes)
    (h : ∀ c ∈ s, ∀ t, Html.decode (esc c ++ t) = c :: Html.decode t) :
    Html.decode (s.flatMap esc) = s := by
  induction s with
  | nil => rfl
  | cons c t ih =>
    rw [List.flatMap_cons, h c (by simp), ih (fun d hd => h d (by simp [hd]))]

theorem safeText_flatMap (refs : List Bytes) (forb : Bytes) (esc : Byte → Bytes) (s : Bytes)
    (h : ∀ c, esc c ∈ refs ∨ ∃ d, esc c = [d] ∧ d ≠ c!"&" ∧ d ∉ forb) :
    Html.SafeText refs forb (s.flatMap esc) := by
  refine ⟨s.map esc, by simp [List.flatMap], ?_⟩
  intro t ht
  obtain ⟨c, _, rfl⟩ := List.mem_map.1 ht
  exact h c

/-! ### ast_man.c -/

theorem manHtmlEscape_eq (s : Bytes) : manHtmlEscape s = s.flatMap manHtmlByte := by
  induction s with
  | nil => rfl
  | cons c t ih => simp [manHtmlEscape, ih]

theorem decode_manHtmlByte (c : Byte) (t : Bytes) :
    Html.decode (manHtmlByte c ++ t) = c :: Html.decode t := by
  unfold manHtmlByte
  split
  · subst_vars; exact decode_ref _ t 0x26 rfl
  split
  · subst_vars; exact decode_ref _ t 0x3C rfl
  split
  · subst_vars; exact decode_ref _ t 0x3E rfl
  split
  · subst_vars; exact decode_ref _ t 0x22 rfl
  split
  · subst_vars; exact decode_ref _ t 0x27 rfl
  · exact decode_plain c t (by assumption)

/-! ### JSON -/

/-- Replacement of one byte. -/
def jsonByte (c : Byte) : Bytes :=
  if c = c!"\\" then b!"\\\\" else if c = c!"\"" then b!"\\\"" else if c = 10 then b!"\\n"
  else if c = 13 then b!"\\r" else if c = 9 then b!"\\t"
  else if c < 0x20 then b!"\\u00" ++ hex2 c else [c]

theorem jsonLoop_val (cap : Nat) (s out : Bytes) (h : out.length + 6 * s.length + 1 ≤ cap) :
    jsonLoop cap s out = .val (some (out ++ s.flatMap jsonByte)) := by
  induction s generalizing out with
  | nil =>
    simp at h
    simp [jsonLoop, finish, show out.length < cap by omega]
  | cons c t ih =>
    simp only [List.length_cons, Nat.mul_add, Nat.mul_one] at h
    simp only [jsonLoop, List.flatMap_cons, jsonByte]
    repeat' split
    all_goals (try simp only [puts, put] at *)
    all_goals (try (split at * <;> simp at *))
    all_goals grind [hex2]

theorem jsonEscape_eq (s : Bytes) : jsonEscape s = .val (some (s.flatMap jsonByte)) := by
  unfold jsonEscape
  rw [jsonLoop_val _ _ _ (by simp; omega)]
  simp

theorem value_jsonByte (c : Byte) (t : Bytes) :
    Json.value (jsonByte c ++ t) = (Json.value t).map (c :: ·) := by
  unfold jsonByte
  split
  · subst_vars; simp [Json.value]
  split
  · subst_vars; simp [Json.value]
  split
  · subst_vars; simp [Json.value]
  split
  · subst_vars; simp [Json.value]
  split
  · subst_vars; simp [Json.value]
  split
  · rename_i h
    have h1 : Html.hexVal (hexDigit (c.toNat / 16)) = some (c.toNat / 16) ∧
        Html.hexVal (hexDigit (c.toNat % 16)) = some (c.toNat % 16) := by
      revert c; exact forall_byte (by decide +kernel)
    have h2 : c.toNat < 32 := by rw [UInt8.lt_iff_toNat_lt] at h; simpa using h
    have h3 := encode_ascii c (by rw [UInt8.lt_iff_toNat_lt]; simp; omega)
    have h4 : c.toNat / 16 * 16 + c.toNat % 16 = c.toNat := by omega
    have h0 : Html.hexVal 48 = some 0 := by decide
    simp only [hex2, List.cons_append, List.nil_append, Json.value, h0, h1, Nat.zero_mul, Nat.zero_add, h4]
    rw [if_neg (by omega)]
    simp [h3]
  · rename_i h1 h2 h3 h4 h5 h6
    simp only [List.cons_append, List.nil_append]
    have h6' : ¬ c < 32 := h6
    conv => lhs; unfold Json.value
    split <;> simp_all
    intro hlt
    exact absurd hlt (UInt8.not_lt.2 h6')

theorem value_flatMap (s : Bytes) : Json.value (s.flatMap jsonByte) = some s := by
  induction s with
  | nil => rfl
  | cons c t ih => rw [List.flatMap_cons, value_jsonByte, ih]; rfl

/-! ### Reading JSON strings back -/

/-- What the reader makes of one byte written by `jsonByte`. -/
def readBack (c : Byte) : Byte := if c < 0x20 ∧ c ≠ 10 ∧ c ≠ 13 ∧ c ≠ 9 then c!"?" else c

theorem jsonReadLoop_step (c : Byte) (t : Bytes) (cap : Nat) (out : Bytes) (h : out.length + 1 ≤ cap)
    (h2 : 2 ≤ cap) :
    ∃ cap', out.length + 2 ≤ cap' ∧ 2 ≤ cap' ∧
      jsonReadLoop (jsonByte c ++ t) cap out = jsonReadLoop t cap' (out ++ [readBack c]) := by
  have hput : ∃ cap', out.length + 2 ≤ cap' ∧ 2 ≤ cap' ∧ jsonPut cap out (readBack c) =
      .val (cap', out ++ [readBack c]) := by
    unfold jsonPut
    split
    · exact ⟨cap * 2, by omega, by omega, by rw [put_val (by omega)]⟩
    · exact ⟨cap, by omega, by omega, by rw [put_val (by omega)]⟩
  obtain ⟨cap', hc1, hc2, hp⟩ := hput
  refine ⟨cap', hc1, hc2, ?_⟩
  unfold jsonByte
  split
  · subst_vars; simp [readBack] at hp ⊢; simp [jsonReadLoop, jsonEsc, hp]
  split
  · subst_vars; simp [readBack] at hp ⊢; simp [jsonReadLoop, jsonEsc, hp]
  split
  · subst_vars; simp [readBack] at hp ⊢; simp [jsonReadLoop, jsonEsc, hp]
  split
  · subst_vars; simp [readBack] at hp ⊢; simp [jsonReadLoop, jsonEsc, hp]
  split
  · subst_vars; simp [readBack] at hp ⊢; simp [jsonReadLoop, jsonEsc, hp]
  split
  · have hr : readBack c = c!"?" := by simp [readBack, *]
    rw [hr] at hp ⊢
    simp [jsonReadLoop, hp, hex2]
  · have hr : readBack c = c := by simp [readBack, *]
    rw [hr] at hp ⊢
    simp only [List.cons_append, List.nil_append]
    cases t <;> simp_all [jsonReadLoop]

theorem jsonReadLoop_flatMap (s rest : Bytes) (cap : Nat) (out : Bytes) (h : out.length + 1 ≤ cap)
    (h2 : 2 ≤ cap) :
    jsonReadLoop (s.flatMap jsonByte ++ c!"\"" :: rest) cap out =
      .val (some (out ++ s.map readBack, rest)) := by
  induction s generalizing cap out with
  | nil =>
    have := finish_val (show out.length < cap by omega)
    cases rest <;> simp [jsonReadLoop, this]
  | cons c t ih =>
    obtain ⟨cap', h3, h4, h5⟩ := jsonReadLoop_step c (t.flatMap jsonByte ++ c!"\"" :: rest) cap out h h2
    rw [List.flatMap_cons, List.append_assoc, h5, ih cap' _ (by simp; omega) h4]
    simp

/-! ### Markdown -/

theorem unescape_escapeMarkdown (d : Dialect) (s : Bytes) :
    Markdown.unescape (escapeMarkdown d s) = s := by
  induction s with
  | nil => rfl
  | cons c t ih =>
    rw [escapeMarkdown]
    split
    · rename_i h
      have hp : Markdown.isPunct c = true := by
        revert c; cases d <;> exact forall_byte (by decide +kernel)
      simp [Markdown.unescape, hp, ih]
    · rename_i h
      have hc : c ≠ c!"\\" := by rintro rfl; cases d <;> exact h (by decide)
      simp only [List.cons_append, List.nil_append]
      cases he : escapeMarkdown d t with
      | nil => simp [Markdown.unescape]; rw [he] at ih; simpa [Markdown.unescape] using ih
      | cons e u => rw [Markdown.unescape, if_neg (by simp [hc]), ← he, ih]

/-! ### Hex entities -/

def hexEntByte (c : Byte) : Bytes := b!"&#x" ++ hex2 c ++ b!";"

theorem hexEntLoop_val (cap : Nat) (s out : Bytes) (h : out.length + 6 * s.length + 1 ≤ cap) :
    hexEntLoop cap s out = .val (some (out ++ s.flatMap hexEntByte)) := by
  induction s generalizing out with
  | nil =>
    simp at h
    simp [hexEntLoop, finish, show out.length < cap by omega]
  | cons c t ih =>
    simp only [List.length_cons, Nat.mul_add, Nat.mul_one] at h
    rw [hexEntLoop, if_neg (by omega), ih _ (by simp [hex2]; omega)]
    simp [hexEntByte]

theorem hexEntities_eq (s : Bytes) (h : s ≠ []) :
    hexEntities s = .val (some (s.flatMap hexEntByte)) := by
  unfold hexEntities
  rw [if_neg (by simpa using h), hexEntLoop_val _ _ _ (by simp; omega)]
  simp

theorem ref_hexEntByte (c : Byte) (t : Bytes) :
    Html.ref (35 :: 120 :: (hex2 c ++ (59 :: t))) = some (c.toNat, t) := by
  have h1 : Html.hexVal (hexDigit (c.toNat / 16)) = some (c.toNat / 16) ∧
      Html.hexVal (hexDigit (c.toNat % 16)) = some (c.toNat % 16) ∧
      hexDigit (c.toNat % 16) ≠ 59 := by
    revert c; exact forall_byte (by decide +kernel)
  have h4 : c.toNat / 16 * 16 + c.toNat % 16 = c.toNat := by omega
  simp [Html.ref, hex2, h1, Html.digits, h4]

/-! ### metadata transforms -/

theorem metaHtmlByte_length (c : Byte) : (metaHtmlByte c).length ≤ 6 := by
  revert c; exact forall_byte (by decide +kernel)

theorem metaHtmlEscape_eq (v : Bytes) : metaHtmlEscape v = .val (v.flatMap metaHtmlByte) := by
  unfold metaHtmlEscape
  rw [emit_val 6 _ _ metaHtmlByte_length _ _ _ (by simp; omega)]
  simp

theorem urlencode_eq (v : Bytes) : urlencode v = .val (v.flatMap urlEncByte) := by
  unfold urlencode
  rw [emit_val 3 _ _ ?_ _ _ _ (by simp; omega)]
  · simp
  · intro c; unfold urlEncByte; split <;> simp [hex2]

/-- `urldecode` without the buffer. -/
def urldec : Bytes → Bytes
  | [] => []
  | p :: p1 :: p2 :: t =>
    if p = c!"%" && isXDigit p1 && isXDigit p2 then .ofNat (hexVal p1 * 16 + hexVal p2) :: urldec t
    else (if p = c!"+" then 32 else p) :: urldec (p1 :: p2 :: t)
  | p :: t => (if p = c!"+" then 32 else p) :: urldec t

theorem urldecodeLoop_val (cap : Nat) (s out : Bytes) (h : out.length + s.length + 1 ≤ cap) :
    urldecodeLoop cap s out = .val (out ++ urldec s) := by
  fun_induction urldec s generalizing out with
  | case1 => simp at h; simp [urldecodeLoop, finish]; omega
  | case2 p p1 p2 t hc ih =>
    simp at h
    rw [urldecodeLoop, if_pos hc, put_val (by omega)]
    simp only
    rw [ih _ (by simp; omega)]; simp
  | case3 p p1 p2 t hc ih =>
    simp at h
    rw [urldecodeLoop, if_neg hc, put_val (by omega)]
    simp only
    rw [ih _ (by simp; omega)]; simp
  | case4 p t hc ih =>
    simp at h
    rw [urldecodeLoop, put_val (by omega)]
    · simp only
      rw [ih _ (by simp; omega)]; simp
    · intros; exact hc _ _ _ ‹_›

theorem urldecode_eq (v : Bytes) : urldecode v = .val (cstr (urldec v)) := by
  unfold urldecode
  rw [urldecodeLoop_val _ _ _ (by simp)]
  simp

theorem urldec_urlEncByte (c : Byte) (t : Bytes) :
    urldec (urlEncByte c ++ t) = c :: urldec t := by
  unfold urlEncByte
  split
  · rename_i h
    have h1 : c ≠ c!"%" ∧ c ≠ c!"+" := by
      revert c; exact forall_byte (by decide +kernel)
    match t with
    | [] => simp [urldec, h1]
    | [a] => simp [urldec, h1]
    | a :: b :: t => simp [urldec, h1]
  · have h1 : isXDigit (hexDigit (c.toNat / 16)) = true ∧ isXDigit (hexDigit (c.toNat % 16)) = true ∧
      UInt8.ofNat (hexVal (hexDigit (c.toNat / 16)) * 16 + hexVal (hexDigit (c.toNat % 16))) = c := by
      revert c; exact forall_byte (by decide +kernel)
    simp [hex2, urldec, h1]

theorem urldec_flatMap (v : Bytes) : urldec (v.flatMap urlEncByte) = v := by
  induction v with
  | nil => rfl
  | cons c t ih => rw [List.flatMap_cons, urldec_urlEncByte, ih]

theorem cstr_of_nulfree (v : Bytes) (h : (0 : Byte) ∉ v) : cstr v = v := by
  unfold cstr
  induction v with
  | nil => rfl
  | cons c t ih =>
    simp at h
    rw [List.takeWhile_cons, if_pos (by simpa using fun e => h.1 e.symm), ih h.2]

theorem ialUrlEncode_eq (u : Bytes) : ialUrlEncode u = .val (u.flatMap ialUrlByte) := by
  unfold ialUrlEncode
  rw [emit_val 3 _ _ ?_ _ _ _ (by simp; omega)]
  · simp
  · intro c; unfold ialUrlByte; split <;> simp [hex2]

theorem flatMap_id_of (esc : Byte → Bytes) (s : Bytes) (h : ∀ c ∈ s, esc c = [c]) :
    s.flatMap esc = s := by
  induction s with
  | nil => rfl
  | cons c t ih =>
    rw [List.flatMap_cons, h c (by simp), ih (fun d hd => h d (by simp [hd]))]; rfl

/-! ### Percent-decoding -/

theorem url_decode_plain (c : Byte) (t : Bytes) (h : c ≠ c!"%") : Url.decode (c :: t) = c :: Url.decode t := by
  match t with
  | [] => rfl
  | [a] => rfl
  | a :: b :: t =>
    rw [Url.decode]
    split
    · rw [if_neg h]
    · rfl

theorem url_decode_hex (c : Byte) (t : Bytes) : Url.decode (c!"%" :: hex2 c ++ t) = c :: Url.decode t := by
  have key : ∀ c : Byte, ∃ a b x y, hex2 c = [a, b] ∧ Html.hexVal a = some x ∧ Html.hexVal b = some y ∧
      UInt8.ofNat (16 * x + y) = c := by
    intro c
    have : ∀ c : Byte, (match hex2 c with
        | [a, b] => match Html.hexVal a, Html.hexVal b with
          | some x, some y => UInt8.ofNat (16 * x + y) == c
          | _, _ => false
        | _ => false) = true := forall_byte (by decide +kernel)
    have := this c
    split at this
    · rename_i a b h
      split at this
      · rename_i x y hx hy
        exact ⟨a, b, x, y, h, hx, hy, by simpa using this⟩
      · cases this
    · cases this
  obtain ⟨a, b, x, y, h, hx, hy, hc⟩ := key c
  rw [h]
  simp only [List.cons_append, List.nil_append, Url.decode, hx, hy, if_true, hc]

theorem url_decode_encode (u : Bytes) (h : c!"%" ∉ u) : Url.decode (u.flatMap ialUrlByte) = u := by
  induction u with
  | nil => rfl
  | cons c t ih =>
    simp only [List.mem_cons, not_or] at h
    rw [List.flatMap_cons, ialUrlByte]
    split
    · rw [List.singleton_append, url_decode_plain _ _ (fun e => h.1 e.symm), ih h.2]
    · rw [url_decode_hex, ih h.2]

end Verif.Escape
