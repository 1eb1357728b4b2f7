import Verif.Proof.Escape
import Verif.Props.Buffer

/-! Properties C06 to C09, C12, C13, C15 to C17: byte-wise escaping. -/

namespace Verif.Escape
open Buffer (session)
open Buffer.Spec (Holds)

/-! ### C06 -/

/-- C06: escaping any text into a fresh buffer succeeds, and the buffer then holds text without `<`,
`>`, `"` in which every `&` starts one of four references, and which decodes to the original. -/
theorem C06_escape_html (cap : Nat) (s : Bytes) :
    ∃ b out, session cap (escapeHtmlOps s) = some (.val b) ∧ Holds b out ∧
      Html.SafeText [b!"&lt;", b!"&gt;", b!"&amp;", b!"&quot;"] b!"<>\"" out ∧
      Html.decode out = s := by
  obtain ⟨b, h1, h2⟩ := Buffer.C04_history cap (escapeHtmlOps s)
  rw [text_escapeHtmlOps] at h2
  refine ⟨b, s.flatMap htmlByte, h1, h2, safeText_flatMap _ _ _ _ ?_, decode_flatMap _ _ ?_⟩
  · intro c
    by_cases h : c = c!"<" ∨ c = c!">" ∨ c = c!"&" ∨ c = c!"\""
    · left; rcases h with h | h | h | h <;> subst h <;> decide
    · right
      simp only [not_or] at h
      exact ⟨c, by simp [htmlByte, h], h.2.2.1, by simp [h]⟩
  · intro c _ t; exact decode_htmlByte c t

example : (b!"a<b>\"&").flatMap htmlByte = b!"a&lt;b&gt;&quot;&amp;" := by decide

/-! ### C07 -/

/-- C07: man-html escaping leaves no `<`, `>`, quote or apostrophe, and decodes to the original. -/
theorem C07_man_html_escape (s : Bytes) :
    Html.SafeText [b!"&amp;", b!"&lt;", b!"&gt;", b!"&quot;", b!"&#39;"] b!"<>\"'" (manHtmlEscape s) ∧
      Html.decode (manHtmlEscape s) = s := by
  rw [manHtmlEscape_eq]
  refine ⟨safeText_flatMap _ _ _ _ ?_, decode_flatMap _ _ fun c _ t => decode_manHtmlByte c t⟩
  intro c
  by_cases h : c = c!"&" ∨ c = c!"<" ∨ c = c!">" ∨ c = c!"\"" ∨ c = c!"'"
  · left; rcases h with h | h | h | h | h <;> subst h <;> decide
  · right
    simp only [not_or] at h
    exact ⟨c, by simp [manHtmlByte, h], h.1, by simp [h]⟩

/-- C07: distinct texts never escape to the same output. -/
theorem C07_man_html_injective (s t : Bytes) (h : manHtmlEscape s = manHtmlEscape t) : s = t := by
  rw [← (C07_man_html_escape s).2, h, (C07_man_html_escape t).2]

example : manHtmlEscape b!"it's <&>" = b!"it&#39;s &lt;&amp;&gt;" := by decide

/-! ### C08, C09 -/

/-- C08: JSON escaping never leaves its allocation, never fails, and is a JSON string literal body
whose value is the text. -/
theorem C08_json_escape (s : Bytes) :
    ∃ e, jsonEscape s = .val (some e) ∧ Json.value e = some s :=
  ⟨_, jsonEscape_eq s, value_flatMap s⟩

example : jsonEscape [34, 92, 1, 10, 97] = .val (some b!"\\\"\\\\\\u0001\\na") := by decide +kernel

/-- C09 (general fact): reading back a written string gives the string with every control character
other than newline, carriage return and tab turned into '?'; the text after it is untouched. -/
theorem C09_json_write_read (s rest : Bytes) :
    ∃ w, jsonWriteString s = .val (some w) ∧
      jsonReadString (w ++ rest) = .val (some
        (s.map (fun c => if c < 0x20 ∧ c ≠ 10 ∧ c ≠ 13 ∧ c ≠ 9 then c!"?" else c), rest)) := by
  refine ⟨_, by rw [jsonWriteString, jsonEscape_eq], ?_⟩
  have := jsonReadLoop_flatMap s rest 64 [] (by simp) (by omega)
  simp only [List.nil_append] at this
  simp only [jsonReadString, List.cons_append, List.append_assoc, List.nil_append]
  rw [List.dropWhile_cons_of_neg (by decide)]
  simp only [if_true, this]
  rfl

/-- C09 (part that holds): strings without other control characters survive. Missing: `C09_fails`. -/
theorem C09_json_round_trip_partial (s rest : Bytes)
    (h : ∀ c ∈ s, 0x20 ≤ c ∨ c = 10 ∨ c = 13 ∨ c = 9) :
    ∃ w, jsonWriteString s = .val (some w) ∧
      jsonReadString (w ++ rest) = .val (some (s, rest)) := by
  obtain ⟨w, h1, h2⟩ := C09_json_write_read s rest
  refine ⟨w, h1, h2.trans ?_⟩
  congr 3
  conv => rhs; rw [← List.map_id s]
  apply List.map_congr_left
  intro c hc
  have := h c hc
  rw [if_neg ?_]; rfl
  rintro ⟨h1, h2, h3, h4⟩
  rcases this with h | h | h | h
  · exact absurd h1 (UInt8.not_lt.2 h)
  all_goals contradiction

/-- C09 (refutation): a form feed is written as `\u000C` and read back as '?'. -/
theorem C09_fails : ∃ w, jsonWriteString [12] = .val (some w) ∧
    jsonReadString w = .val (some (b!"?", [])) :=
  ⟨b!"\"\\u000C\"", by decide +kernel, by decide +kernel⟩

example : jsonReadString b!" \"a\\\"b\" , 1" = .val (some (b!"a\"b", b!" , 1")) := by decide +kernel

/-! ### C12 -/

/-- C12: for every dialect, Markdown escaping is undone by reading backslash escapes, and consists of
escaped characters and characters without special meaning. -/
theorem C12_markdown_escape (d : Dialect) (s : Bytes) :
    Markdown.unescape (escapeMarkdown d s) = s ∧
      ∃ toks : List Bytes, escapeMarkdown d s = toks.flatten ∧
        ∀ t ∈ toks, (∃ c ∈ Markdown.special (d = .mmd), t = [c!"\\", c]) ∨
          ∃ c, t = [c] ∧ c ∉ Markdown.special (d = .mmd) := by
  refine ⟨unescape_escapeMarkdown d s, ?_⟩
  have hs : ∀ c, mdShouldEscape d c = true ↔ c ∈ Markdown.special (d = .mmd) := by
    cases d <;> exact forall_byte (by decide +kernel)
  induction s with
  | nil => exact ⟨[], rfl, by simp⟩
  | cons c t ih =>
    obtain ⟨toks, h1, h2⟩ := ih
    refine ⟨(if mdShouldEscape d c then [c!"\\", c] else [c]) :: toks, by simp [escapeMarkdown, h1], ?_⟩
    intro t ht
    rcases List.mem_cons.1 ht with rfl | ht
    · by_cases h : mdShouldEscape d c = true
      · left; exact ⟨c, (hs c).1 h, by simp [h]⟩
      · right; exact ⟨c, by simp [h], fun h' => h ((hs c).2 h')⟩
    · exact h2 t ht

example : escapeMarkdown .gfm b!"a-*\\" = b!"a\\-\\*\\\\" ∧
    escapeMarkdown .mmd b!"a-*\\" = b!"a-\\*\\\\" := by decide

/-! ### C13 -/

/-- C13: encoding a non-empty text succeeds inside its allocation and yields one `&#xHH;` group per
byte; for ASCII text a browser shows the original. Missing: non-ASCII text, see `C13_non_ascii`. -/
theorem C13_hex_entities_partial (s : Bytes) (h : s ≠ []) :
    ∃ groups : List Bytes, hexEntities s = .val (some groups.flatten) ∧
      groups.length = s.length ∧
      (∀ g ∈ groups, ∃ a b, isXDigit a ∧ isXDigit b ∧ g = b!"&#x" ++ [a, b] ++ b!";") ∧
      ((∀ c ∈ s, c < 128) → Html.decode groups.flatten = s) := by
  refine ⟨s.map hexEntByte, ?_, by simp, ?_, ?_⟩
  · rw [hexEntities_eq s h]; simp [List.flatMap]
  · intro g hg
    obtain ⟨c, _, rfl⟩ := List.mem_map.1 hg
    exact ⟨_, _, (hexDigit_isXDigit c).1, (hexDigit_isXDigit c).2, rfl⟩
  · intro ha
    have : (s.map hexEntByte).flatten = s.flatMap hexEntByte := by simp [List.flatMap]
    rw [this]
    refine decode_flatMap _ _ fun c hc t => ?_
    have h1 := decode_ref _ _ _ (ref_hexEntByte c t)
    rw [encode_ascii c (ha c hc)] at h1
    exact h1

example : hexEntities b!"a@" = .val (some b!"&#x61;&#x40;") := by decide +kernel

/-- C13 (refutation): a non-ASCII address is shown differently, since each of its UTF-8 bytes becomes a
code point of its own. -/
theorem C13_non_ascii : ∃ out, hexEntities [0xC3, 0xA9] = .val (some out) ∧
    Html.decode out = [0xC3, 0x83, 0xC2, 0xA9] :=
  ⟨b!"&#xC3;&#xA9;", by decide +kernel, by decide +kernel⟩

/-! ### C15 -/

/-- C15: both transforms stay in their allocations, `urldecode` undoes `urlencode` for every value
(a C string has no NUL byte), and the encoded value has only unreserved characters and `%HH`. -/
theorem C15_urlencode_urldecode (v : Bytes) (h : (0 : Byte) ∉ v) :
    ∃ e, urlencode v = .val e ∧ urldecode e = .val v ∧
      ∃ toks : List Bytes, e = toks.flatten ∧ toks.length = v.length ∧
        ∀ t ∈ toks, (∃ c, t = [c] ∧ (isAlnum c ∨ c ∈ b!"-_.~")) ∨
          ∃ a b, isXDigit a ∧ isXDigit b ∧ t = [c!"%", a, b] := by
  refine ⟨_, urlencode_eq v, ?_, v.map urlEncByte, by simp [List.flatMap], by simp, ?_⟩
  · rw [urldecode_eq, urldec_flatMap, cstr_of_nulfree v h]
  · intro t ht
    obtain ⟨c, _, rfl⟩ := List.mem_map.1 ht
    unfold urlEncByte
    split
    · rename_i h
      have : ∀ c, isUnreserved c = true → isAlnum c ∨ c ∈ b!"-_.~" := forall_byte (by decide +kernel)
      left; exact ⟨c, rfl, this c h⟩
    · right
      exact ⟨_, _, (hexDigit_isXDigit c).1, (hexDigit_isXDigit c).2, rfl⟩

/-- C15: `urldecode` never leaves its allocation on any value. -/
theorem C15_urldecode_total (v : Bytes) : ∃ e, urldecode v = .val e := ⟨_, urldecode_eq v⟩

example : urlencode b!"a b&" = .val b!"a%20b%26" ∧ urldecode b!"a%20b+%2" = .val b!"a b %2" := by
  decide +kernel

/-! ### C16 -/

/-- C16: image URL encoding stays in its allocation and yields only printable ASCII URL characters;
encoding again changes nothing; URLs of safe characters are unchanged; and percent-decoding the result
gives the URL, unless it contains a `%` itself. -/
theorem C16_url_encode (u : Bytes) :
    ∃ e, ialUrlEncode u = .val e ∧
      (∀ c ∈ e, isAlnum c ∨ c ∈ b!"-_.~/:?#[]@!$&'()*+,;=%") ∧
      ialUrlEncode e = .val e ∧
      ((∀ c ∈ u, isAlnum c ∨ c ∈ b!"-_.~/:?#[]@!$&'()*+,;=%") → e = u) ∧
      (c!"%" ∉ u → Url.decode e = u) := by
  have hb : ∀ c, (isAlnum c ∨ c ∈ b!"-_.~/:?#[]@!$&'()*+,;=%") ↔ isUrlSafe c = true :=
    forall_byte (by decide +kernel)
  have hid : ∀ w : Bytes, (∀ c ∈ w, isUrlSafe c = true) → w.flatMap ialUrlByte = w := fun w hw =>
    flatMap_id_of _ _ fun c hc => by simp [ialUrlByte, hw c hc]
  have hsafe : ∀ c ∈ u.flatMap ialUrlByte, isUrlSafe c = true := by
    intro c hc
    obtain ⟨d, _, hd⟩ := List.mem_flatMap.1 hc
    have : ∀ d, ∀ c ∈ ialUrlByte d, isUrlSafe c = true := forall_byte (by decide +kernel)
    exact this d c hd
  refine ⟨_, ialUrlEncode_eq u, fun c hc => (hb c).2 (hsafe c hc), ?_, fun h => ?_, url_decode_encode u⟩
  · rw [ialUrlEncode_eq, hid _ hsafe]
  · exact hid u fun c hc => (hb c).1 (h c hc)

example : ialUrlEncode b!"a b%20.png" = .val b!"a%20b%20.png" := by decide +kernel

/-! ### C17 -/

/-- C17: the transform stays in its allocation and yields only printable ASCII without `<`, `>`,
quotes or apostrophes; for ASCII values the references decode to the value. -/
theorem C17_html_escape (v : Bytes) :
    ∃ e, metaHtmlEscape v = .val e ∧
      (∀ c ∈ e, 32 ≤ c ∧ c < 127 ∧ c ∉ b!"<>\"'") ∧
      ((∀ c ∈ v, c < 128) → Html.decode e = v) := by
  refine ⟨_, metaHtmlEscape_eq v, ?_, fun ha => decode_flatMap _ _ fun c hc t => ?_⟩
  · intro c hc
    obtain ⟨d, _, hd⟩ := List.mem_flatMap.1 hc
    have : ∀ d, ∀ c ∈ metaHtmlByte d, 32 ≤ c ∧ c < 127 ∧ c ∉ b!"<>\"'" :=
      forall_byte (by decide +kernel)
    exact this d c hd
  · by_cases hp : metaHtmlByte c = [c]
    · rw [hp]
      have : ∀ c, metaHtmlByte c = [c] → c ≠ c!"&" := forall_byte (by decide +kernel)
      exact decode_plain c t (this c hp)
    · -- the reference starts with `&` and names `c`
      have h1 : ∀ c, metaHtmlByte c ≠ [c] → c < 128 →
          metaHtmlByte c ∈ [b!"&amp;", b!"&lt;", b!"&gt;", b!"&quot;", b!"&#39;"] ∨
          (c < 32 ∨ c = 127) ∧ metaHtmlByte c = b!"&#" ++ dec3 c.toNat ++ b!";" :=
        forall_byte (by decide +kernel)
      rcases h1 c hp (ha c hc) with h | ⟨h, h'⟩
      · have h2 : ∀ c, metaHtmlByte c ∈ [b!"&amp;", b!"&lt;", b!"&gt;", b!"&quot;", b!"&#39;"] →
            c = c!"&" ∨ c = c!"<" ∨ c = c!">" ∨ c = c!"\"" ∨ c = c!"'" :=
          forall_byte (by decide +kernel)
        rcases h2 c h with rfl | rfl | rfl | rfl | rfl
        · exact decode_ref _ t 0x26 rfl
        · exact decode_ref _ t 0x3C rfl
        · exact decode_ref _ t 0x3E rfl
        · exact decode_ref _ t 0x22 rfl
        · exact decode_ref _ t 0x27 rfl
      · rw [h']
        have h3 : Html.ref (35 :: (dec3 c.toNat ++ 59 :: t)) = some (c.toNat, t) := by
          have hn : c.toNat < 32 ∨ c = 127 := by
            rcases h with h | h
            · left; rw [UInt8.lt_iff_toNat_lt] at h; simpa using h
            · right; exact h
          rcases hn with hn | rfl
          · have h4 : ∀ n, n < 32 → ∀ t, Html.ref (35 :: (dec3 n ++ 59 :: t)) = some (n, t) := by
              intro n hn t
              iterate 32 (rcases n with _ | n; · rfl)
              omega
            exact h4 _ hn t
          · rfl
        have h5 := decode_ref _ _ _ h3
        rw [encode_ascii c (ha c hc)] at h5
        simpa using h5

example : metaHtmlEscape b!"<a>'" = .val b!"&lt;a&gt;&#39;" := by decide +kernel

/-- C17 (limit): bytes of UTF-8 characters become separate references. -/
theorem C17_non_ascii : ∃ out, metaHtmlEscape [0xC3, 0xA9] = .val out ∧
    Html.decode out ≠ [0xC3, 0xA9] :=
  ⟨b!"&#195;&#169;", by decide +kernel, by decide +kernel⟩

end Verif.Escape
