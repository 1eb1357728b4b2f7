import Verif.Proof.AstJson

namespace Verif.AstJson
open JsonText (Ws Char IsString IsNumber Digits Val Elems Members)

/-! ### The objects that are written -/

def head (T : Bytes) : Bytes := b!"{" ++ quoted b!"t" ++ b!":" ++ quoted T ++ b!"," ++ quoted b!"c" ++ b!":"
def obj (T C : Bytes) : Bytes := head T ++ C ++ b!"}"

theorem ws_nil : Ws [] := by intro c h; simp at h

theorem quoted_length (s : Bytes) : 2 ≤ (quoted s).length := by rw [quoted_eq]; simp

theorem obj_length (T C : Bytes) : C.length + 13 ≤ (obj T C).length := by
  have h1 : (quoted b!"t").length = 3 := by decide +kernel
  have h2 : (quoted b!"c").length = 3 := by decide +kernel
  have := quoted_length T
  simp [obj, head, h1, h2]; omega

theorem val_obj {T C : Bytes} (h : Val C) : Val (obj T C) := by
  have h1 := Members.one ws_nil (quoted_string b!"c") ws_nil ws_nil h ws_nil
  have := Val.object (Members.more ws_nil (quoted_string b!"t") ws_nil ws_nil (Val.str (quoted_string T)) ws_nil h1)
  simpa [obj, head] using this

theorem elems_one {v : Bytes} (h : Val v) : Elems v := by
  simpa using Elems.one ws_nil h ws_nil

theorem elems_cons {v e : Bytes} (h : Val v) (he : Elems e) : Elems (v ++ b!"," ++ e) := by
  simpa using Elems.more ws_nil h ws_nil he

theorem val_empty : Val b!"[]" := by simpa using Val.arrayEmpty ws_nil

theorem val_str (s : Bytes) : Val (quoted s) := .str (quoted_string s)

theorem val_noAttr : Val noAttr := by
  have h := Val.array (elems_cons (val_str []) (elems_cons val_empty (elems_one val_empty)))
  have : quoted [] = b!"\"\"" := by decide +kernel
  simpa [this, noAttr] using h

theorem val_two {a b : Bytes} (ha : Val a) (hb : Val b) : Val (b!"[" ++ a ++ b!"," ++ b ++ b!"]") := by
  simpa using Val.array (elems_cons ha (elems_one hb))

theorem val_three {a b c : Bytes} (ha : Val a) (hb : Val b) (hc : Val c) : Val (b!"[" ++ a ++ b!"," ++ b ++ b!"," ++ c ++ b!"]") := by
  simpa using Val.array (elems_cons ha (elems_cons hb (elems_one hc)))

/-! ### Members of a written object -/

theorem str_key (k rest : Bytes) : str (ws (quoted k ++ rest)) = (some (noControl k), rest) := by
  rw [show ws (quoted k ++ rest) = quoted k ++ rest by rw [quoted_eq]; exact ws_cons (by decide) _, str_quoted]

theorem str_nc (k rest : Bytes) : str (quoted k ++ rest) = (some (noControl k), rest) := str_quoted k rest

theorem head_q (k rest : Bytes) (c : Byte) (h : c ≠ c!"\"") : (ws (quoted k ++ rest)).head? ≠ some c := by
  rw [quoted_eq, List.cons_append, ws_cons (by decide)]
  simpa using fun e => h e.symm

theorem drop_comma (r : Bytes) : (if (ws (c!"," :: r)).head? = some c!"," then (ws (c!"," :: r)).drop 1 else ws (c!"," :: r)) = r := by
  rw [ws_cons (by decide), if_pos (by rfl)]; rfl

/-- The part of the object behind its brace. -/
def body (T C : Bytes) : Bytes := quoted b!"t" ++ (c!":" :: (quoted T ++ (c!"," :: (quoted b!"c" ++ (c!":" :: C)))))

theorem obj_body (T C rest : Bytes) : obj T C ++ rest = c!"{" :: (body T (C ++ c!"}" :: rest)) := by
  simp [obj, head, body]

theorem fields_c (block : Bool) (m : Nat) (T X : Bytes) (hX : ws X = X) :
    fields block (m + 3) {} (body T X) =
      match skip (m + 1) X with
      | (false, r) => (none, r)
      | (true, r') => fields block (m + 1) ⟨some (noControl T), some (X.take (X.length - r'.length))⟩
          (if (ws r').head? = some c!"," then (ws r').drop 1 else ws r') := by
  have k1 : noControl b!"t" = b!"t" := by decide
  have k2 : noControl b!"c" = b!"c" := by decide
  rw [fields, body, if_neg (head_q _ _ _ (by decide)), str_key]
  simp only [char_eq (show isSpace c!":" = false by decide), k1, if_true, str_nc, drop_comma]
  rw [fields, if_neg (head_q _ _ _ (by decide)), str_key]
  simp only [char_eq (show isSpace c!":" = false by decide), k2, if_neg (show b!"c" ≠ b!"t" by decide), hX]
  split <;> rename_i h <;> simp only [h, if_true]

theorem fields_obj (block : Bool) (m : Nat) (T C rest : Bytes) (hC : ws (C ++ c!"}" :: rest) = C ++ c!"}" :: rest)
    (h : skip (m + 1) (C ++ c!"}" :: rest) = (true, c!"}" :: rest)) :
    fields block (m + 3) {} (body T (C ++ c!"}" :: rest)) = (some (noControl T, C), rest) := by
  rw [fields_c block m T _ hC, h]
  have : (C ++ c!"}" :: rest).take ((C ++ c!"}" :: rest).length - (c!"}" :: rest).length) = C := by
    rw [List.length_append, Nat.add_sub_cancel, List.take_left]
  simp only [this, ws_cons (show isSpace c!"}" = false by decide), List.head?_cons]
  rw [if_neg (by decide), fields, ws_cons (by decide), if_pos (by rfl)]
  rfl

theorem fields_bad (block : Bool) (m : Nat) (T X r : Bytes) (hX : ws X = X) (h : skip (m + 1) X = (false, r)) :
    fields block (m + 3) {} (body T X) = (none, r) := by
  rw [fields_c block m T _ hX, h]

theorem ws_val {v : Bytes} (h : Val v) (r : Bytes) : ws (v ++ r) = v ++ r := by
  obtain ⟨c, t, rfl, hc, _⟩ := val_head h
  exact ws_cons hc _

/-! ### Inlines -/

theorem pastAttr_eq (n : Nat) (v r : Bytes) (hv : Val v) (hn : 2 * v.length ≤ n) : pastAttr n (c!"[" :: (v ++ c!"," :: r)) = some r := by
  rw [pastAttr, char_eq (by decide)]
  simp only [skip_val hv _ n (stop_comma r) hn, char_eq (show isSpace c!"," = false by decide)]

mutual
theorem val_inl (i : Inl) : ∃ T C, writeInl i = obj T C ∧ Val C ∧ noControl T = T ∧ ∀ n, 3 * C.length ≤ n → inline n T C = some (keptInl i) := by
  match i with
  | .text s =>
    refine ⟨b!"Str", quoted s, ?_, val_str s, by decide, ?_⟩
    · rw [writeInl, obj, show b!"{\"t\":\"Str\",\"c\":" = head b!"Str" by decide +kernel]
    · intro n hn
      obtain ⟨m, rfl⟩ : ∃ m, n = m + 1 := ⟨n - 1, by have := quoted_length s; omega⟩
      have := str_quoted s []
      rw [List.append_nil] at this
      simp [inline, this, keptInl]
  | .soft =>
    refine ⟨b!"SoftBreak", b!"[]", by decide +kernel, val_empty, by decide, ?_⟩
    intro n hn
    obtain ⟨m, rfl⟩ : ∃ m, n = m + 1 := ⟨n - 1, by simp at hn; omega⟩
    simp [inline, keptInl]
  | .line =>
    refine ⟨b!"LineBreak", b!"[]", by decide +kernel, val_empty, by decide, ?_⟩
    intro n hn
    obtain ⟨m, rfl⟩ : ∃ m, n = m + 1 := ⟨n - 1, by simp at hn; omega⟩
    simp [inline, keptInl]
  | .code s =>
    refine ⟨b!"Code", b!"[" ++ noAttr ++ b!"," ++ quoted s ++ b!"]", ?_, val_two val_noAttr (val_str s), by decide, ?_⟩
    · rw [writeInl, obj, show b!"{\"t\":\"Code\",\"c\":[" = head b!"Code" ++ b!"[" by decide +kernel,
        show b!"]}" = b!"]" ++ b!"}" from rfl]
      simp only [List.append_assoc]
    · intro n hn
      obtain ⟨m, rfl⟩ : ∃ m, n = m + 1 := ⟨n - 1, by simp at hn; omega⟩
      have h2 : pastAttr m (b!"[" ++ noAttr ++ b!"," ++ quoted s ++ b!"]") = some (quoted s ++ b!"]") := by
        have := pastAttr_eq m noAttr (quoted s ++ b!"]") val_noAttr (by simp at hn; omega)
        simpa using this
      simp only [inline]
      rw [if_neg (by decide), if_neg (by decide), if_neg (by decide), if_neg (by decide), if_pos trivial, h2]
      simp [str_quoted, keptInl]
  | .html s =>
    refine ⟨b!"RawInline", b!"[" ++ quoted b!"html" ++ b!"," ++ quoted s ++ b!"]", ?_, val_two (val_str _) (val_str s), by decide, ?_⟩
    · rw [writeInl, obj, show b!"{\"t\":\"RawInline\",\"c\":[\"html\"," = head b!"RawInline" ++ b!"[" ++ quoted b!"html" ++ b!"," by decide +kernel,
        show b!"]}" = b!"]" ++ b!"}" from rfl]
      simp only [List.append_assoc]
    · intro n hn
      obtain ⟨m, rfl⟩ : ∃ m, n = m + 1 := ⟨n - 1, by simp at hn; omega⟩
      have h2 : pastAttr m (b!"[" ++ quoted b!"html" ++ b!"," ++ quoted s ++ b!"]") = some (quoted s ++ b!"]") := by
        have := pastAttr_eq m (quoted b!"html") (quoted s ++ b!"]") (val_str _) (by simp at hn; omega)
        simpa using this
      simp only [inline]
      rw [if_neg (by decide), if_neg (by decide), if_neg (by decide), if_neg (by decide), if_neg (by decide), if_neg (by decide),
        if_neg (by decide), if_pos trivial, h2]
      simp [str_quoted, keptInl]
  | .other s k =>
    refine ⟨b!"Str", quoted s, ?_, val_str s, by decide, ?_⟩
    · rw [writeInl, obj, show b!"{\"t\":\"Str\",\"c\":" = head b!"Str" by decide +kernel]
    · intro n hn
      obtain ⟨m, rfl⟩ : ∃ m, n = m + 1 := ⟨n - 1, by have := quoted_length s; omega⟩
      have := str_quoted s []
      rw [List.append_nil] at this
      simp [inline, this, keptInl]
  | .link u t k =>
    refine ⟨b!"Link", b!"[" ++ noAttr ++ b!"," ++ (b!"[" ++ writeInls k ++ b!"]") ++ b!"," ++
      (b!"[" ++ quoted u ++ b!"," ++ quoted t ++ b!"]") ++ b!"]", ?_, val_three val_noAttr (val_inls k).1 (val_two (val_str u) (val_str t)), by decide, ?_⟩
    · rw [writeInl, obj, show b!"{\"t\":\"Link\",\"c\":[" = head b!"Link" ++ b!"[" by decide +kernel,
        show b!"]]}" = b!"]" ++ b!"]" ++ b!"}" from rfl, show b!",[" = b!"," ++ b!"[" from rfl]
      simp only [List.append_assoc]
    · intro n hn
      obtain ⟨m, rfl⟩ : ∃ m, n = m + 1 := ⟨n - 1, by simp at hn; omega⟩
      simp [inline, keptInl]
  | .image u t k =>
    refine ⟨b!"Image", b!"[" ++ noAttr ++ b!"," ++ (b!"[" ++ writeInls k ++ b!"]") ++ b!"," ++
      (b!"[" ++ quoted u ++ b!"," ++ quoted t ++ b!"]") ++ b!"]", ?_, val_three val_noAttr (val_inls k).1 (val_two (val_str u) (val_str t)), by decide, ?_⟩
    · rw [writeInl, obj, show b!"{\"t\":\"Image\",\"c\":[" = head b!"Image" ++ b!"[" by decide +kernel,
        show b!"]]}" = b!"]" ++ b!"]" ++ b!"}" from rfl, show b!",[" = b!"," ++ b!"[" from rfl]
      simp only [List.append_assoc]
    · intro n hn
      obtain ⟨m, rfl⟩ : ∃ m, n = m + 1 := ⟨n - 1, by simp at hn; omega⟩
      simp [inline, keptInl]
  | .emph k =>
    refine ⟨b!"Emph", b!"[" ++ (b!"[" ++ writeInls k ++ b!"]") ++ b!"]", ?_, Val.array (elems_one (val_inls k).1), by decide, ?_⟩
    · rw [writeInl, obj, show b!"{\"t\":\"Emph\",\"c\":[" = head b!"Emph" ++ b!"[" by decide +kernel, show b!"]}" = b!"]" ++ b!"}" from rfl]
      simp only [List.append_assoc]
    · intro n hn
      obtain ⟨m, rfl⟩ : ∃ m, n = m + 1 := ⟨n - 1, by simp at hn; omega⟩
      have hc : char c!"[" (b!"[" ++ (b!"[" ++ writeInls k ++ b!"]") ++ b!"]") = (true, b!"[" ++ writeInls k ++ b!"]" ++ b!"]") :=
        char_eq (by decide) _
      have hw : ws (b!"[" ++ writeInls k ++ b!"]" ++ b!"]") = b!"[" ++ writeInls k ++ b!"]" ++ b!"]" := ws_cons (by decide) _
      simp only [inline]
      rw [if_neg (by decide), if_neg (by decide), if_neg (by decide), if_pos (by decide), hc]
      simp only [hw]
      rw [if_neg (show ¬ true = false by decide), if_pos (show (b!"[" ++ writeInls k ++ b!"]" ++ b!"]").head? ≠ some c!"]" by simp), (val_inls k).2 b!"]" m (by simp at hn ⊢; omega)]
      simp [keptInl]
  | .strong k =>
    refine ⟨b!"Strong", b!"[" ++ (b!"[" ++ writeInls k ++ b!"]") ++ b!"]", ?_, Val.array (elems_one (val_inls k).1), by decide, ?_⟩
    · rw [writeInl, obj, show b!"{\"t\":\"Strong\",\"c\":[" = head b!"Strong" ++ b!"[" by decide +kernel, show b!"]}" = b!"]" ++ b!"}" from rfl]
      simp only [List.append_assoc]
    · intro n hn
      obtain ⟨m, rfl⟩ : ∃ m, n = m + 1 := ⟨n - 1, by simp at hn; omega⟩
      have hc : char c!"[" (b!"[" ++ (b!"[" ++ writeInls k ++ b!"]") ++ b!"]") = (true, b!"[" ++ writeInls k ++ b!"]" ++ b!"]") :=
        char_eq (by decide) _
      have hw : ws (b!"[" ++ writeInls k ++ b!"]" ++ b!"]") = b!"[" ++ writeInls k ++ b!"]" ++ b!"]" := ws_cons (by decide) _
      simp only [inline]
      rw [if_neg (by decide), if_neg (by decide), if_neg (by decide), if_pos (by decide), hc]
      simp only [hw]
      rw [if_neg (show ¬ true = false by decide), if_pos (show (b!"[" ++ writeInls k ++ b!"]" ++ b!"]").head? ≠ some c!"]" by simp), (val_inls k).2 b!"]" m (by simp at hn ⊢; omega)]
      simp [keptInl]
theorem val_inls (k : List Inl) : Val (b!"[" ++ writeInls k ++ b!"]") ∧
    ∀ rest n, 3 * (b!"[" ++ writeInls k ++ b!"]").length ≤ n → inlines n ((b!"[" ++ writeInls k ++ b!"]") ++ rest) = keptFirst k := by
  match k with
  | [] =>
    refine ⟨val_empty, ?_⟩
    intro rest n hn
    obtain ⟨m, rfl⟩ : ∃ m, n = m + 1 := ⟨n - 1, by simp at hn; omega⟩
    simp only [writeInls, List.append_nil, List.cons_append, List.nil_append]
    rw [inlines, char_eq (by decide)]
    simp only [ws_cons (show isSpace c!"]" = false by decide)]
    rfl
  | i :: r =>
    obtain ⟨he, hl⟩ := loop_inls (i :: r) (by simp)
    refine ⟨Val.array he, ?_⟩
    intro rest n hn
    obtain ⟨m, rfl⟩ : ∃ m, n = m + 1 := ⟨n - 1, by simp at hn; omega⟩
    have hs : (b!"[" ++ writeInls (i :: r) ++ b!"]") ++ rest = c!"[" :: (writeInls (i :: r) ++ c!"]" :: rest) := by simp
    obtain ⟨kids, h1, h2⟩ := hl rest m (by simp at hn; omega)
    obtain ⟨t, ht⟩ : ∃ t, writeInls (i :: r) = c!"{" :: t := by
      obtain ⟨T, C, e, _⟩ := val_inl i
      cases r <;> simp [writeInls, e, obj, head]
    rw [hs, inlines, char_eq (by decide)]
    simp only [h1]
    rw [if_neg (by decide), if_neg (by rw [ht, List.cons_append, ws_cons (by decide)]; simp), char_eq (by decide)]
    simpa using h2
theorem loop_inls (k : List Inl) (hk : k ≠ []) : Elems (writeInls k) ∧
    ∀ rest n, 3 * (writeInls k).length ≤ n →
      ∃ kids, inlineLoop n (writeInls k ++ c!"]" :: rest) = (kids, c!"]" :: rest) ∧ kids.head? = keptFirst k := by
  match k with
  | [] => exact absurd rfl hk
  | [i] =>
    obtain ⟨T, C, e, hv, hT, hi⟩ := val_inl i
    simp only [writeInls, e]
    refine ⟨elems_one (val_obj hv), ?_⟩
    intro rest n hn
    have hlen := obj_length T C
    obtain ⟨m, rfl⟩ : ∃ m, n = m + 4 := ⟨n - 4, by omega⟩
    refine ⟨(keptInl i).toList, ?_, by cases h : keptInl i <;> simp [keptFirst, h]⟩
    rw [inlineLoop, obj_body, ws_cons (by decide), if_neg (by simp)]
    have hf := fields_obj false m T C (c!"]" :: rest) (ws_val hv _) (skip_val hv _ _ (stop_brace _) (by omega))
    simp only [List.drop_succ_cons, List.drop_zero, hf, hT, hi (m + 3) (by omega), ws_cons (show isSpace c!"]" = false by decide)]
    rfl
  | i :: j :: r =>
    obtain ⟨T, C, e, hv, hT, hi⟩ := val_inl i
    obtain ⟨he, hl⟩ := loop_inls (j :: r) (by simp)
    simp only [writeInls, e]
    refine ⟨elems_cons (val_obj hv) he, ?_⟩
    intro rest n hn
    have hlen := obj_length T C
    simp only [List.length_append] at hn
    obtain ⟨m, rfl⟩ : ∃ m, n = m + 4 := ⟨n - 4, by omega⟩
    obtain ⟨kids, h1, h2⟩ := hl rest (m + 3) (by omega)
    refine ⟨(keptInl i).toList ++ kids, ?_, by
      rw [keptFirst, ← h2]
      cases h : keptInl i <;> simp⟩
    have hs : obj T C ++ b!"," ++ writeInls (j :: r) ++ c!"]" :: rest = obj T C ++ (c!"," :: (writeInls (j :: r) ++ c!"]" :: rest)) := by simp
    rw [hs, inlineLoop, obj_body, ws_cons (by decide), if_neg (by simp)]
    have hf := fields_obj false m T C (c!"," :: (writeInls (j :: r) ++ c!"]" :: rest)) (ws_val hv _) (skip_val hv _ _ (stop_brace _) (by omega))
    simp only [List.drop_succ_cons, List.drop_zero, hf, hT, hi (m + 3) (by omega), ws_cons (show isSpace c!"," = false by decide)]
    rw [if_pos (by rfl)]
    simp only [h1]
end

end Verif.AstJson
