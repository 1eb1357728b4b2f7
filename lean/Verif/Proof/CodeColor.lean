/-
Code blocks given to a tool: lemmas.
-/
import Verif.Spec.CodeColor
import Verif.Proof.ImgCaptions

namespace Verif.CodeColor
open Spec
open Embed (find)
open ImgCaptions (Edge prefix_edge)
open Index (span_stop span_all)

/-! ### The loop without its block -/

/-- The loop, writing into a block without bounds. -/
def pass (run : Bytes → Bytes → Option Bytes) (cmd : Bytes → Option Bytes) (only : Bool) : Nat → Bytes → Bytes × List (Bytes × Bytes)
  | _, [] => ([], [])
  | 0, _ :: _ => ([], [])
  | n + 1, c :: t =>
    let odd := (c :: (pass run cmd only n t).1, (pass run cmd only n t).2)
    if opens (c :: t) then
      match heads (c :: t) with
      | none => odd
      | some (lang, tail) =>
        match find b!"</code></pre>" tail with
        | none => odd
        | some (content, rest) =>
          let block := (c :: t).take ((c :: t).length - rest.length)
          if only && lang == [] then (block ++ (pass run cmd only n rest).1, (pass run cmd only n rest).2)
          else
            match cmd lang with
            | none => (block ++ (pass run cmd only n rest).1, (pass run cmd only n rest).2)
            | some line =>
              let code := unescape content.length content
              let answer := ((run line code).getD []).takeWhile (· != 0)
              ((if answer = [] then block else answer) ++ (pass run cmd only n rest).1, (line, code) :: (pass run cmd only n rest).2)
    else odd

theorem drop_suffix {p : Byte → Bool} (s : Bytes) : s.dropWhile p <:+ s := List.dropWhile_suffix p

theorem heads_some {s lang tail : Bytes} (h : heads s = some (lang, tail)) : tail <:+ s ∧ tail.length < s.length ∧ lang.length < 64 := by
  unfold heads at h
  have hshort : ∀ v : Bytes, (short v).length < 64 := by
    intro v
    unfold short
    split
    · assumption
    · simp
  have hp : ∀ t : Bytes, (preLang t).length < 64 := by
    intro t
    unfold preLang
    split
    · simp
    · split
      · exact hshort _
      · simp
  have hc : ∀ t : Bytes, (codeLang t).length < 64 := by
    intro t
    unfold codeLang
    split
    · simp
    · split
      · simp
      · exact hshort _
  split at h
  · cases h
  · rename_i d after hd
    simp only [] at h
    have h1 : d :: after <:+ s := by rw [← hd]; exact drop_suffix s
    split at h
    · split at h
      · cases h
      · rename_i e tl he
        simp only [Option.some.injEq, Prod.mk.injEq] at h
        obtain ⟨h2, rfl⟩ := h
        have h3 : e :: tl <:+ after := by rw [← he]; exact (drop_suffix _).trans (drop_suffix _)
        have h4 : tl <:+ after := (List.suffix_cons e tl).trans h3
        have h5 := h4.length_le
        have h6 := h1.length_le
        simp only [List.length_cons] at h6
        refine ⟨h4.trans ((List.suffix_cons d after).trans h1), by omega, ?_⟩
        rw [← h2]
        split
        · exact hc _
        · exact hp _
    · cases h

theorem rest_some {s lang tail content rest : Bytes} (h : heads s = some (lang, tail)) (hf : find b!"</code></pre>" tail = some (content, rest)) : rest <:+ s ∧ rest.length < s.length := by
  obtain ⟨h1, h2, _⟩ := heads_some h
  have e := Embed.find_some hf
  have h3 : rest <:+ tail := ⟨content ++ b!"</code></pre>", by rw [e]⟩
  exact ⟨h3.trans h1, by have := h3.length_le; omega⟩

theorem take_rest {s rest : Bytes} (h : rest <:+ s) : s.take (s.length - rest.length) ++ rest = s := by
  obtain ⟨p, rfl⟩ := h
  rw [List.length_append, Nat.add_sub_cancel, List.take_left]

/-- When all fits the first block, nothing is lost. -/
theorem go_fits (run : Bytes → Bytes → Option Bytes) (cmd : Bytes → Option Bytes) (only : Bool) : ∀ (n cap : Nat) (out : Bytes) (log : List (Bytes × Bytes)) (s : Bytes), s.length ≤ n →
    out.length + (pass run cmd only n s).1.length < cap → go run cmd only n cap out log s = .val ⟨out ++ (pass run cmd only n s).1, log ++ (pass run cmd only n s).2⟩ := by
  intro n
  induction n with
  | zero =>
    intro cap out log s hs hfit
    rw [List.eq_nil_of_length_eq_zero (by omega : s.length = 0)] at hfit ⊢
    simp only [pass, List.length_nil, Nat.add_zero] at hfit
    rw [go, if_pos hfit, pass]
    simp
  | succ n ih =>
    intro cap out log s hs hfit
    cases s with
    | nil =>
      simp only [pass, List.length_nil, Nat.add_zero] at hfit
      rw [go, if_pos hfit, pass]
      simp
    | cons c t =>
      simp only [List.length_cons] at hs
      rw [pass] at hfit ⊢
      rw [go]
      have hodd : out.length + (c :: (pass run cmd only n t).1).length < cap →
          (if out.length < cap then go run cmd only n cap (out ++ [c]) log t else go run cmd only n cap out log t) = .val ⟨out ++ c :: (pass run cmd only n t).1, log ++ (pass run cmd only n t).2⟩ := by
        intro hf
        simp only [List.length_cons] at hf
        rw [if_pos (by omega), ih _ _ _ t (by omega) (by simp only [List.length_append, List.length_singleton]; omega)]
        simp
      cases hop : opens (c :: t) with
      | false =>
        simp only [hop, Bool.false_eq_true, if_false] at hfit ⊢
        have := hfit
        simp only [List.length_cons] at this
        rw [if_pos (by omega), ih _ _ _ t (by omega) (by simp only [List.length_append, List.length_singleton]; omega)]
        simp
      | true =>
        simp only [hop, if_true] at hfit ⊢
        cases hh : heads (c :: t) with
        | none =>
          simp only [hh] at hfit ⊢
          exact hodd hfit
        | some p =>
          obtain ⟨lang, tail⟩ := p
          simp only [hh] at hfit ⊢
          cases hf : find b!"</code></pre>" tail with
          | none =>
            simp only [hf] at hfit ⊢
            exact hodd hfit
          | some q =>
            obtain ⟨content, rest⟩ := q
            obtain ⟨r1, r2⟩ := rest_some hh hf
            simp only [List.length_cons] at r2
            simp only [hf] at hfit ⊢
            generalize (c :: t).take ((c :: t).length - rest.length) = block at *
            have hkept : ∀ log', out.length + (block ++ (pass run cmd only n rest).1).length < cap →
                (if block.length ≤ cap - out.length then go run cmd only n cap (out ++ block) log' rest else go run cmd only n cap out log' rest) =
                .val ⟨out ++ (block ++ (pass run cmd only n rest).1), log' ++ (pass run cmd only n rest).2⟩ := by
              intro log' hf
              simp only [List.length_append] at hf
              rw [if_pos (by omega), ih _ _ _ rest (by omega) (by simp only [List.length_append]; omega)]
              simp
            cases hl : (only && lang == []) with
            | true =>
              simp only [hl, if_true] at hfit ⊢
              exact hkept log hfit
            | false =>
              simp only [hl, Bool.false_eq_true, if_false] at hfit ⊢
              cases hcmd : cmd lang with
              | none =>
                simp only [hcmd] at hfit ⊢
                exact hkept log hfit
              | some line =>
                simp only [hcmd] at hfit ⊢
                generalize ((run line (unescape content.length content)).getD []).takeWhile (· != 0) = answer at *
                by_cases ha : answer = []
                · rw [if_pos ha] at hfit
                  rw [if_pos ha, if_pos ha, hkept _ hfit]
                  simp
                · rw [if_neg ha] at hfit
                  rw [if_neg ha, if_neg ha]
                  simp only [List.length_append] at hfit
                  rw [if_neg (by omega), ih _ _ _ rest (by omega) (by simp only [List.length_append]; omega)]
                  simp

/-- When the tool always answers, nothing is lost. -/
theorem go_answered (run : Bytes → Bytes → Option Bytes) (cmd : Bytes → Option Bytes) (hcmd : ∀ lang, lang.length < 64 → ∃ line, cmd lang = some line)
    (hrun : ∀ line code, ((run line code).getD []).takeWhile (· != 0) ≠ []) : ∀ (n cap : Nat) (out : Bytes) (log : List (Bytes × Bytes)) (s : Bytes), s.length ≤ n → 2 ≤ cap →
    (out.length < cap ∨ (out.length = cap ∧ ∃ c t, s = c :: t ∧ c ≠ c!"<")) → go run cmd false n cap out log s = .val ⟨out ++ (pass run cmd false n s).1, log ++ (pass run cmd false n s).2⟩ := by
  intro n
  induction n with
  | zero =>
    intro cap out log s hs hpos hinv
    rw [List.eq_nil_of_length_eq_zero (by omega : s.length = 0)] at hinv ⊢
    rcases hinv with hinv | ⟨_, c, t, h, _⟩
    · rw [go, if_pos hinv, pass]
      simp
    · cases h
  | succ n ih =>
    intro cap out log s hs hpos hinv
    cases s with
    | nil =>
      rcases hinv with hinv | ⟨_, c, t, h, _⟩
      · rw [go, if_pos hinv, pass]
        simp
      · cases h
    | cons c t =>
      simp only [List.length_cons] at hs
      rw [pass, go]
      cases hop : opens (c :: t) with
      | false =>
        simp only [Bool.false_eq_true, if_false]
        split
        · rw [ih _ _ _ t (by omega) hpos (Or.inl (by simp only [List.length_append, List.length_singleton]; omega))]
          simp
        · have hle : out.length ≤ cap := by
            rcases hinv with h | ⟨h, _⟩ <;> omega
          rw [if_pos (by omega), ih _ _ _ t (by omega) (by omega) ?_]
          · simp
          · exact Or.inl (by simp only [List.length_append, List.length_singleton]; omega)
      | true =>
        simp only [if_true]
        have hlt : out.length < cap := by
          rcases hinv with h | ⟨_, d, u, h, hd⟩
          · exact h
          · exfalso
            cases h
            revert hop
            unfold opens
            simp only [List.isPrefixOf, Bool.and_eq_true, Bool.or_eq_true, beq_iff_eq]
            rintro (h | h)
            · exact hd h.1.symm
            · exact hd h.1.symm
        have hnext : ∃ d u, t = d :: u ∧ d ≠ c!"<" := by
          cases t with
          | nil =>
            revert hop
            unfold opens
            simp [List.isPrefixOf]
          | cons d u =>
            refine ⟨d, u, rfl, ?_⟩
            rintro rfl
            revert hop
            unfold opens
            simp [List.isPrefixOf]
        have hodd : (if out.length < cap then go run cmd false n cap (out ++ [c]) log t else go run cmd false n cap out log t) =
            .val ⟨out ++ c :: (pass run cmd false n t).1, log ++ (pass run cmd false n t).2⟩ := by
          rw [if_pos hlt, ih _ _ _ t (by omega) hpos ?_]
          · simp
          · by_cases h1 : out.length + 1 < cap
            · exact Or.inl (by simpa using h1)
            · exact Or.inr ⟨by simp only [List.length_append, List.length_singleton]; omega, hnext⟩
        cases hh : heads (c :: t) with
        | none => exact hodd
        | some p =>
          obtain ⟨lang, tail⟩ := p
          simp only []
          cases hf : find b!"</code></pre>" tail with
          | none => exact hodd
          | some q =>
            obtain ⟨content, rest⟩ := q
            obtain ⟨r1, r2⟩ := rest_some hh hf
            simp only [List.length_cons] at r2
            obtain ⟨line, hline⟩ := hcmd lang (heads_some hh).2.2
            have ha := hrun line (unescape content.length content)
            simp only [Bool.false_and, Bool.false_eq_true, if_false, hline]
            generalize ((run line (unescape content.length content)).getD []).takeWhile (· != 0) = answer at *
            rw [if_neg ha, if_neg ha]
            split
            · rw [if_pos (by omega), ih _ _ _ rest (by omega) (by omega) (Or.inl (by simp only [List.length_append]; omega))]
              simp
            · rw [ih _ _ _ rest (by omega) hpos (Or.inl (by simp only [List.length_append]; omega))]
              simp

/-- A tool that never answers changes nothing. -/
theorem pass_failing (cmd : Bytes → Option Bytes) (only : Bool) {run : Bytes → Bytes → Option Bytes} (hrun : ∀ line code, ((run line code).getD []).takeWhile (· != 0) = []) :
    ∀ (n : Nat) (s : Bytes), s.length ≤ n → (pass run cmd only n s).1 = s := by
  intro n
  induction n with
  | zero =>
    intro s hs
    rw [List.eq_nil_of_length_eq_zero (by omega : s.length = 0), pass]
  | succ n ih =>
    intro s hs
    cases s with
    | nil => rw [pass]
    | cons c t =>
      simp only [List.length_cons] at hs
      rw [pass]
      split
      · cases hh : heads (c :: t) with
        | none => simp only [ih t (by omega)]
        | some p =>
          obtain ⟨lang, tail⟩ := p
          simp only []
          cases hf : find b!"</code></pre>" tail with
          | none => simp only [ih t (by omega)]
          | some q =>
            obtain ⟨content, rest⟩ := q
            obtain ⟨r1, r2⟩ := rest_some hh hf
            simp only [List.length_cons] at r2
            simp only []
            have e : (c :: t).take ((c :: t).length - rest.length) ++ (pass run cmd only n rest).1 = c :: t := by
              rw [ih rest (by omega), take_rest r1]
            split
            · exact e
            · split
              · exact e
              · rw [if_pos (hrun _ _)]
                exact e
      · simp only [ih t (by omega)]

/-! ### The command -/

theorem command_eq {tool lang : Bytes} {numbers ansi : Bool} {ws : List Bytes} (hw : Words numbers ansi tool lang ws) (hl : lang.length < 64) : command tool lang numbers ansi = some (join ws) := by
  cases hw with
  | pygments =>
    unfold command
    rw [show binary b!"pygments" = some b!"pygmentize" from rfl]
    simp only []
    rw [if_pos trivial]
    by_cases h : lang = []
    · subst h
      cases numbers <;> rfl
    · rw [if_pos h, if_neg h]
      cases numbers
      · simp only [Bool.false_eq_true, if_false, Option.map_some]
        rw [List.take_of_length_le (by simp only [List.length_append, List.length_cons, List.length_nil]; omega)]
        simp [join]
      · simp only [if_true, Option.map_some]
        rw [List.take_of_length_le (by simp only [List.length_append, List.length_cons, List.length_nil]; omega)]
        simp [join]
  | skylighting =>
    unfold command
    rw [show binary b!"skylighting" = some b!"skylighting" from rfl]
    simp only []
    rw [if_neg (by decide), if_pos trivial]
    by_cases h : lang = []
    · subst h
      cases numbers <;> rfl
    · rw [if_pos h, if_neg h]
      cases numbers
      · simp only [Bool.false_eq_true, if_false, Option.map_some]
        rw [List.take_of_length_le (by simp only [List.length_append, List.length_cons, List.length_nil]; omega)]
        simp [join]
      · simp only [if_true, Option.map_some]
        rw [List.take_of_length_le (by simp only [List.length_append, List.length_cons, List.length_nil]; omega)]
        simp [join]
  | shiki =>
    unfold command
    rw [show binary b!"shiki" = some b!"shiki" from rfl]
    simp only []
    rw [if_neg (by decide), if_neg (by decide), if_pos trivial]
    by_cases h : lang = []
    · subst h
      cases ansi <;> rfl
    · rw [if_pos h, if_neg h]
      cases ansi
      · simp only [Bool.false_eq_true, if_false, Option.map_some]
        rw [List.take_of_length_le (by simp only [List.length_append, List.length_cons, List.length_nil]; omega)]
        simp [join]
      · simp only [if_true, Option.map_some]
        rw [List.take_of_length_le (by simp only [List.length_append, List.length_cons, List.length_nil]; omega)]
        simp [join]

theorem words_plain {tool lang : Bytes} {numbers ansi : Bool} {ws : List Bytes} (hw : Words numbers ansi tool lang ws) (hl : ∀ c ∈ lang, safe c = true) : ∀ w ∈ ws, Plain w := by
  have hlit : ∀ w ∈ [b!"pygmentize", b!"-g", b!"-l", b!"-f", b!"html", b!"-O", b!"linenos=1", b!"skylighting", b!"--syntax", b!"-r", b!"-n", b!"shiki", b!"--lang", b!"--format", b!"ansi"], w ≠ [] ∧ ∀ c ∈ w, safe c = true := by
    decide +kernel
  have hsub : ∀ w ∈ ws, w ∈ [b!"pygmentize", b!"-g", b!"-l", b!"-f", b!"html", b!"-O", b!"linenos=1", b!"skylighting", b!"--syntax", b!"-r", b!"-n", b!"shiki", b!"--lang", b!"--format", b!"ansi"] ∨ (w = lang ∧ lang ≠ []) := by
    intro w hm
    cases hw with
    | pygments =>
      by_cases h : lang = [] <;> cases numbers <;> simp [h] at hm <;> rcases hm with rfl | rfl | rfl | rfl | rfl | rfl | rfl <;> simp [h]
    | skylighting =>
      by_cases h : lang = [] <;> cases numbers <;> simp [h] at hm <;> rcases hm with rfl | rfl | rfl | rfl | rfl | rfl | rfl <;> simp [h]
    | shiki =>
      by_cases h : lang = [] <;> cases ansi <;> simp [h] at hm <;> rcases hm with rfl | rfl | rfl | rfl | rfl | rfl | rfl <;> simp [h]
  intro w hm
  rcases hsub w hm with h | ⟨rfl, h⟩
  · exact hlit w h
  · exact ⟨h, hl⟩

/-! ### The code -/

theorem unescape_escape : ∀ (code : Bytes) (n : Nat), (escape code).length ≤ n → unescape n (escape code) = code := by
  intro code
  induction code with
  | nil => intro n _; cases n <;> rfl
  | cons c t ih =>
    intro n hn
    have e : escape (c :: t) = (if c = c!"<" then b!"&lt;" else if c = c!">" then b!"&gt;" else if c = c!"&" then b!"&amp;" else if c = c!"\"" then b!"&quot;" else [c]) ++ escape t := rfl
    rw [e] at hn ⊢
    have hpos : ∃ m, n = m + 1 := by
      refine ⟨n - 1, ?_⟩
      have : 0 < (if c = c!"<" then b!"&lt;" else if c = c!">" then b!"&gt;" else if c = c!"&" then b!"&amp;" else if c = c!"\"" then b!"&quot;" else [c]).length := by
        split
        · decide
        · split
          · decide
          · split
            · decide
            · split
              · decide
              · simp
      rw [List.length_append] at hn
      omega
    obtain ⟨n, rfl⟩ := hpos
    by_cases h1 : c = c!"<"
    · subst h1
      simp only [if_true, List.length_append, List.length_cons] at hn ⊢
      rw [show (b!"&lt;" ++ escape t) = c!"&" :: (b!"lt;" ++ escape t) from rfl, unescape, if_pos ⟨escape t, rfl⟩]
      rw [show (c!"&" :: (b!"lt;" ++ escape t)).drop 4 = escape t from rfl, ih n (by omega)]
    · by_cases h2 : c = c!">"
      · subst h2
        rw [if_neg (by decide), if_pos rfl] at hn ⊢
        simp only [List.length_append, List.length_cons] at hn
        rw [show (b!"&gt;" ++ escape t) = c!"&" :: (b!"gt;" ++ escape t) from rfl, unescape, if_neg (by simp), if_pos ⟨escape t, rfl⟩]
        rw [show (c!"&" :: (b!"gt;" ++ escape t)).drop 4 = escape t from rfl, ih n (by omega)]
      · by_cases h3 : c = c!"&"
        · subst h3
          rw [if_neg (by decide), if_neg (by decide), if_pos rfl] at hn ⊢
          simp only [List.length_append, List.length_cons] at hn
          rw [show (b!"&amp;" ++ escape t) = c!"&" :: (b!"amp;" ++ escape t) from rfl, unescape, if_neg (by simp), if_neg (by simp), if_pos ⟨escape t, rfl⟩]
          rw [show (c!"&" :: (b!"amp;" ++ escape t)).drop 5 = escape t from rfl, ih n (by omega)]
        · by_cases h4 : c = c!"\""
          · subst h4
            rw [if_neg (by decide), if_neg (by decide), if_neg (by decide), if_pos rfl] at hn ⊢
            simp only [List.length_append, List.length_cons] at hn
            rw [show (b!"&quot;" ++ escape t) = c!"&" :: (b!"quot;" ++ escape t) from rfl, unescape, if_neg (by simp), if_neg (by simp), if_neg (by simp), if_pos ⟨escape t, rfl⟩]
            rw [show (c!"&" :: (b!"quot;" ++ escape t)).drop 6 = escape t from rfl, ih n (by omega)]
          · rw [if_neg h1, if_neg h2, if_neg h3, if_neg h4] at hn ⊢
            simp only [List.length_append, List.length_singleton] at hn
            have hne : ∀ w : Bytes, ¬ (c!"&" :: w) <+: c :: escape t := fun w h => h3 (List.cons_prefix_cons.1 h).1.symm
            rw [List.singleton_append, unescape, if_neg (hne _), if_neg (hne _), if_neg (hne _), if_neg (hne _), if_neg (hne _), if_neg (hne _), ih n (by omega)]

theorem escape_lt (code : Bytes) : c!"<" ∉ escape code := by
  intro h
  obtain ⟨c, _, hc⟩ := List.mem_flatMap.1 h
  revert hc
  exact forall_byte (p := fun c => c!"<" ∈ (if c = c!"<" then b!"&lt;" else if c = c!">" then b!"&gt;" else if c = c!"&" then b!"&amp;" else if c = c!"\"" then b!"&quot;" else [c]) → False) (by decide +kernel) c

theorem find_free {w x : Bytes} (hx : c!"<" ∉ x) (s : Bytes) : find (c!"<" :: w) (x ++ c!"<" :: w ++ s) = some (x, s) := by
  induction x with
  | nil =>
    rw [List.nil_append, List.cons_append, find, if_pos ⟨s, rfl⟩]
    simp
  | cons c x ih =>
    simp only [List.mem_cons, not_or] at hx
    rw [List.cons_append, List.cons_append, find, if_neg (fun h => hx.1 (List.cons_prefix_cons.1 h).1), ih hx.2]
    rfl

theorem find_end (code s : Bytes) : find b!"</code></pre>" (escape code ++ b!"</code></pre>" ++ s) = some (escape code, s) := find_free (escape_lt code) s

theorem heads_style {st : Style} (h : st.Ok) (s : Bytes) : heads (st.tags ++ s) = some (st.lang, s) := by
  obtain ⟨h1, h2⟩ := h
  have hg : ∀ c ∈ st.lang, (c != c!">") = true := fun c hc => by
    have := h2 c hc
    simp only [List.mem_cons, not_or] at this
    simpa using this.2.1
  have hq : ∀ c ∈ st.lang, (c != c!"\"") = true := fun c hc => by
    have := h2 c hc
    simp only [List.mem_cons, not_or] at this
    simpa using this.2.2.2.1
  have hb : ∀ c ∈ st.lang, (c != c!"\"" && c != c!" ") = true := fun c hc => by
    have := h2 c hc
    simp only [List.mem_cons, not_or] at this
    simpa using ⟨this.2.2.2.1, this.2.2.2.2.1⟩
  cases st with
  | none => rfl
  | pre l =>
    simp only [Style.lang] at h1 hg hq
    have e : Style.tags (.pre l) ++ s = (b!"<pre lang=\"" ++ l ++ b!"\"") ++ c!">" :: (b!"<code>" ++ s) := by simp [Style.tags]
    have hall : ∀ c ∈ b!"<pre lang=\"" ++ l ++ b!"\"", (c != c!">") = true := by
      intro c hc
      rcases List.mem_append.1 hc with hc | hc
      · rcases List.mem_append.1 hc with hc | hc
        · exact (by decide : ∀ c ∈ b!"<pre lang=\"", (c != c!">") = true) c hc
        · exact hg c hc
      · exact (by decide : ∀ c ∈ b!"\"", (c != c!">") = true) c hc
    have hs := span_stop (p := (· != c!">")) (b := b!"<code>" ++ s) hall (c := c!">") (by decide)
    have hpl : preLang (b!"<pre lang=\"" ++ l ++ b!"\"") = l := by
      unfold preLang
      rw [show find b!"lang=\"" (b!"<pre lang=\"" ++ l ++ b!"\"") = some (b!"<pre ", l ++ b!"\"") from rfl]
      simp only []
      rw [if_pos (by simp), (span_stop (p := (· != c!"\"")) (b := []) hq (c := c!"\"") (by decide)).1]
      unfold short
      rw [if_pos h1]
    unfold heads
    rw [e, hs.1, hs.2]
    simp only []
    rw [hpl]
    show some (if l = [] then [] else l, s) = some (l, s)
    split
    · rename_i h; rw [h]
    · rfl
  | «class» l =>
    simp only [Style.lang] at h1 hg hb
    have e : Style.tags (.class l) ++ s = b!"<pre>" ++ ((b!"<code class=\"language-" ++ l ++ b!"\"") ++ c!">" :: s) := by simp [Style.tags]
    have hall : ∀ c ∈ b!"<code class=\"language-" ++ l ++ b!"\"", (c != c!">") = true := by
      intro c hc
      rcases List.mem_append.1 hc with hc | hc
      · rcases List.mem_append.1 hc with hc | hc
        · exact (by decide : ∀ c ∈ b!"<code class=\"language-", (c != c!">") = true) c hc
        · exact hg c hc
      · exact (by decide : ∀ c ∈ b!"\"", (c != c!">") = true) c hc
    have hs := span_stop (p := (· != c!">")) (b := s) hall (c := c!">") (by decide)
    have hcl : codeLang (b!"<code class=\"language-" ++ l ++ b!"\"") = l := by
      unfold codeLang
      rw [show find b!"class=\"" (b!"<code class=\"language-" ++ l ++ b!"\"") = some (b!"<code ", b!"language-" ++ l ++ b!"\"") from rfl]
      simp only []
      rw [show find b!"language-" (b!"language-" ++ l ++ b!"\"") = some ([], l ++ b!"\"") from rfl]
      simp only []
      rw [(span_stop (p := fun c => c != c!"\"" && c != c!" ") (b := []) hb (c := c!"\"") (by decide)).1]
      unfold short
      rw [if_pos h1]
    unfold heads
    rw [e]
    have e1 : (b!"<pre>" ++ ((b!"<code class=\"language-" ++ l ++ b!"\"") ++ c!">" :: s)).dropWhile (· != c!">") = c!">" :: ((b!"<code class=\"language-" ++ l ++ b!"\"") ++ c!">" :: s) := rfl
    have e2 : ((b!"<code class=\"language-" ++ l ++ b!"\"") ++ c!">" :: s).dropWhile blank = (b!"<code class=\"language-" ++ l ++ b!"\"") ++ c!">" :: s := rfl
    have e3 : preLang ((b!"<pre>" ++ ((b!"<code class=\"language-" ++ l ++ b!"\"") ++ c!">" :: s)).takeWhile (· != c!">")) = [] := rfl
    rw [e1]
    simp only [e2, e3]
    rw [if_pos ⟨b!" class=\"language-" ++ l ++ b!"\"" ++ c!">" :: s, by simp⟩, hs.1, hs.2, hcl]
    rfl

/-! ### Pieces -/

theorem opens_not {c : Byte} (h : c ≠ c!"<") (t : Bytes) : opens (c :: t) = false := by
  cases ho : opens (c :: t) with
  | false => rfl
  | true =>
    exfalso
    revert ho
    unfold opens
    simp only [List.isPrefixOf, Bool.and_eq_true, Bool.or_eq_true, beq_iff_eq]
    rintro (h1 | h1)
    · exact h h1.1.symm
    · exact h h1.1.symm

theorem pass_text (run : Bytes → Bytes → Option Bytes) (cmd : Bytes → Option Bytes) (only : Bool) {x : Bytes} (h : c!"<" ∉ x) : ∀ (n : Nat) (s : Bytes), x.length ≤ n →
    pass run cmd only n (x ++ s) = (x ++ (pass run cmd only (n - x.length) s).1, (pass run cmd only (n - x.length) s).2) := by
  induction x with
  | nil => intro n s _; rfl
  | cons c x ih =>
    intro n s hn
    simp only [List.mem_cons, not_or] at h
    simp only [List.length_cons] at hn
    obtain ⟨n, rfl⟩ : ∃ m, n = m + 1 := ⟨n - 1, by omega⟩
    rw [List.cons_append, pass, opens_not (Ne.symm h.1), if_neg (by simp), ih h.2 n s (by omega), List.length_cons, Nat.add_sub_add_right]
    rfl

/-- What the tool answers for a language and a code. -/
def answer (run : Bytes → Bytes → Option Bytes) (line : Bytes → Bytes) (lang code : Bytes) : Bytes := ((run (line lang) code).getD []).takeWhile (· != 0)

theorem edge_plain (ps : List Piece) : Edge (Spec.plain ps) := by
  cases ps with
  | nil => exact Or.inl rfl
  | cons p ps =>
    refine Or.inr ?_
    cases p with
    | other x => exact ⟨_, rfl⟩
    | block st code text => cases st <;> exact ⟨_, rfl⟩

/-- A page is handled piece by piece. -/
theorem pass_pieces (run : Bytes → Bytes → Option Bytes) (cmd : Bytes → Option Bytes) (line : Bytes → Bytes) (only : Bool) (hcmd : ∀ lang, lang.length < 64 → cmd lang = some (line lang)) :
    ∀ (ps : List Piece) (n : Nat), (∀ p ∈ ps, p.Ok) → (Spec.plain ps).length ≤ n →
    pass run cmd only n (Spec.plain ps) = (Spec.page (answer run line) only ps, (Spec.given only ps).map fun p => (line p.1, p.2)) := by
  intro ps
  induction ps with
  | nil => intro n _ _; cases n <;> rfl
  | cons p ps ih =>
    intro n hok hn
    have hp := hok p (List.mem_cons_self ..)
    have hplain : Spec.plain (p :: ps) = p.bare ++ Spec.plain ps := rfl
    rw [hplain] at hn ⊢
    rw [List.length_append] at hn
    have step : ∀ m, (Spec.plain ps).length ≤ m → _ := fun m hm => ih m (fun q hq => hok q (List.mem_cons_of_mem _ hq)) hm
    cases p with
    | other x =>
      obtain ⟨h1, h2, h3⟩ := hp
      simp only [Piece.bare, List.length_append, List.length_cons, List.length_nil] at hn
      obtain ⟨n, rfl⟩ : ∃ m, n = m + 1 := ⟨n - 1, by omega⟩
      have ho : opens (c!"<" :: (x ++ Spec.plain ps)) = false := by
        cases ho : opens (c!"<" :: (x ++ Spec.plain ps)) with
        | false => rfl
        | true =>
          exfalso
          unfold opens at ho
          rw [Bool.or_eq_true, List.isPrefixOf_iff_prefix, List.isPrefixOf_iff_prefix] at ho
          rcases ho with ho | ho
          · exact h2 (prefix_edge (by decide) (edge_plain ps) (List.cons_prefix_cons.1 ho).2)
          · exact h3 (prefix_edge (by decide) (edge_plain ps) (List.cons_prefix_cons.1 ho).2)
      rw [show Piece.bare (.other x) ++ Spec.plain ps = c!"<" :: (x ++ Spec.plain ps) from rfl, pass, ho, if_neg (by simp), pass_text run cmd only h1 n _ (by omega), step _ (by omega)]
      rfl
    | block st code text =>
      obtain ⟨h1, h2⟩ := hp
      have e : Piece.bare (.block st code text) ++ Spec.plain ps = st.tags ++ (escape code ++ b!"</code></pre>" ++ (text ++ Spec.plain ps)) := by simp [Piece.bare]
      simp only [Piece.bare, List.length_append, List.length_cons, List.length_nil] at hn
      obtain ⟨n, rfl⟩ : ∃ m, n = m + 1 := ⟨n - 1, by omega⟩
      have hh := heads_style h1 (escape code ++ b!"</code></pre>" ++ (text ++ Spec.plain ps))
      have hf := find_end code (text ++ Spec.plain ps)
      have hop : opens (st.tags ++ (escape code ++ b!"</code></pre>" ++ (text ++ Spec.plain ps))) = true := by
        cases st <;> rfl
      have hblock : (st.tags ++ (escape code ++ b!"</code></pre>" ++ (text ++ Spec.plain ps))).take ((st.tags ++ (escape code ++ b!"</code></pre>" ++ (text ++ Spec.plain ps))).length - (text ++ Spec.plain ps).length) =
          st.tags ++ escape code ++ b!"</code></pre>" := by
        have : st.tags ++ (escape code ++ b!"</code></pre>" ++ (text ++ Spec.plain ps)) = (st.tags ++ escape code ++ b!"</code></pre>") ++ (text ++ Spec.plain ps) := by simp
        rw [this, List.length_append, Nat.add_sub_cancel, List.take_left]
      have hrest : pass run cmd only n (text ++ Spec.plain ps) = (text ++ Spec.page (answer run line) only ps, (Spec.given only ps).map fun p => (line p.1, p.2)) := by
        rw [pass_text run cmd only h2 n _ (by omega), step _ (by omega)]
      obtain ⟨c, t, hct⟩ : ∃ c t, st.tags ++ (escape code ++ b!"</code></pre>" ++ (text ++ Spec.plain ps)) = c :: t := by
        cases st <;> exact ⟨_, _, rfl⟩
      rw [hct] at hh hop hblock
      rw [e, hct, pass, hop, if_pos rfl, hh]
      simp only [hf, hblock, hrest, hcmd st.lang h1.1, unescape_escape code _ (Nat.le_refl _)]
      show _ = ((if asked only st ∧ answer run line st.lang code ≠ [] then answer run line st.lang code else st.tags ++ escape code ++ b!"</code></pre>") ++ text ++ Spec.page (answer run line) only ps,
        ((if asked only st then [(st.lang, code)] else []) ++ Spec.given only ps).map fun p => (line p.1, p.2))
      by_cases hl : (only && st.lang == []) = true
      · have ha : asked only st = false := by
          unfold asked
          simp only [Bool.and_eq_true, beq_iff_eq] at hl
          rw [hl.1, hl.2]
          rfl
        rw [if_pos hl, ha]
        simp
      · have ha : asked only st = true := by
          unfold asked
          simp only [Bool.and_eq_true, beq_iff_eq, not_and] at hl
          cases only
          · rfl
          · simpa using hl rfl
        rw [if_neg hl, ha]
        simp only [true_and, if_true, List.singleton_append, List.map_cons]
        unfold answer
        by_cases hn : ((run (line st.lang) code).getD []).takeWhile (· != 0) = []
        · rw [if_pos hn, if_neg (fun h => h hn)]
          simp
        · rw [if_neg hn, if_pos hn]
          simp

/-! ### The answer -/

theorem collect_all : ∀ (chunks : List Bytes) (cap : Nat) (got : Bytes), (∀ x ∈ chunks, x.length ≤ 4096) → 8192 ≤ cap → got.length ≤ cap → collect cap got chunks = .val (got ++ chunks.flatten) := by
  intro chunks
  induction chunks with
  | nil =>
    intro cap got _ h1 h2
    rw [collect]
    rw [if_pos (by split <;> omega)]
    simp
  | cons x xs ih =>
    intro cap got hx h1 h2
    have hxl := hx x (List.mem_cons_self ..)
    rw [collect]
    have hc : 8192 ≤ (if cap < got.length + 4096 then cap * 2 else cap) ∧ got.length + 4096 ≤ (if cap < got.length + 4096 then cap * 2 else cap) := by
      split <;> omega
    rw [if_pos hc.2, ih _ _ (fun y hy => hx y (List.mem_cons_of_mem _ hy)) hc.1 (by rw [List.length_append]; omega)]
    simp

/-! ### Programs -/

/-- Where apex and a program that reads all first may be, and how far it is to the end. -/
inductive At (input o : Bytes) (ok : Bool) : Sys (Bytes ⊕ (Bytes × Bool)) → Nat → Prop
  | send {todo acc i} : acc ++ i ++ todo = input → At input o ok ⟨.writing todo, .inl (.inl acc), i, []⟩ (2 * todo.length + i.length + 2 * o.length + 5)
  | take {acc i} : acc ++ i = input → At input o ok ⟨.reading [], .inl (.inl acc), i, []⟩ (i.length + 2 * o.length + 4)
  | answer {g r out} : g ++ out ++ r = o → At input o ok ⟨.reading g, .inl (.inr (r, ok)), [], out⟩ (2 * r.length + out.length + 2)
  | gone {g out} : g ++ out = o → At input o ok ⟨.reading g, .inr ok, [], out⟩ (out.length + 1)
  | back : At input o ok ⟨.back (if ok then some o else none), .inr ok, [], []⟩ 0

theorem step_at {f : Bytes → Bytes × Bool} {input : Bytes} {room m : Nat} {s s' : Sys (Bytes ⊕ (Bytes × Bool))} (h : At input (f input).1 (f input).2 s m) (hs : Step (whole f) room s s') :
    ∃ m', m' < m ∧ At input (f input).1 (f input).2 s' m' := by
  cases h with
  | send he =>
    cases hs with
    | put hr =>
      refine ⟨_, ?_, .send (by rw [← he]; simp)⟩
      simp only [List.length_cons, List.length_append, List.length_nil]
      omega
    | close =>
      refine ⟨_, ?_, .take (by simpa using he)⟩
      simp only [List.length_nil]
      omega
    | read hk =>
      cases hk
      refine ⟨_, ?_, .send (by rw [← he]; simp)⟩
      simp only [List.length_cons]
      omega
    | write hk => cases hk
    | exit hk => cases hk
  | take he =>
    cases hs with
    | read hk =>
      cases hk
      refine ⟨_, ?_, .take (by rw [← he]; simp)⟩
      simp only [List.length_cons]
      omega
    | eof hk =>
      cases hk
      rw [List.append_nil] at he
      subst he
      refine ⟨_, ?_, .answer (by simp)⟩
      simp only [List.length_nil]
      omega
    | write hk => cases hk
    | exit hk => cases hk
  | @answer g r out he =>
    cases hs with
    | get =>
      refine ⟨_, ?_, .answer (by rw [← he]; simp)⟩
      simp only [List.length_cons]
      omega
    | eof hk =>
      cases r <;> cases hk
    | write hk hr =>
      cases r with
      | nil => cases hk
      | cons b t =>
        cases hk
        refine ⟨_, ?_, .answer (by rw [← he]; simp)⟩
        simp only [List.length_cons, List.length_append, List.length_nil]
        omega
    | exit hk =>
      cases r with
      | cons b t => cases hk
      | nil =>
        simp only [whole, Act.exit.injEq] at hk
        subst hk
        refine ⟨_, ?_, .gone (by simpa using he)⟩
        simp only [List.length_nil]
        omega
  | gone he =>
    cases hs with
    | get =>
      refine ⟨_, ?_, .gone (by rw [← he]; simp)⟩
      simp only [List.length_cons]
      omega
    | wait =>
      rw [List.append_nil] at he
      subst he
      exact ⟨_, by simp, .back⟩
  | back => cases hs

theorem progress {f : Bytes → Bytes × Bool} {input : Bytes} {room m : Nat} {s : Sys (Bytes ⊕ (Bytes × Bool))} (hroom : 0 < room) (h : At input (f input).1 (f input).2 s m) :
    (∃ s', Step (whole f) room s s') ∨ s.phase = .back (if (f input).2 then some (f input).1 else none) := by
  cases h with
  | @send todo acc i he =>
    left
    cases i with
    | cons b i => exact ⟨_, .read rfl⟩
    | nil =>
      cases todo with
      | nil => exact ⟨_, .close⟩
      | cons b t => exact ⟨_, .put hroom⟩
  | @take acc i he =>
    left
    cases i with
    | cons b i => exact ⟨_, .read rfl⟩
    | nil => exact ⟨_, .eof rfl⟩
  | @answer g r out he =>
    left
    cases out with
    | cons b out => exact ⟨_, .get⟩
    | nil =>
      cases r with
      | nil => exact ⟨_, .exit rfl⟩
      | cons b t => exact ⟨_, .write rfl hroom⟩
  | @gone g out he =>
    left
    cases out with
    | cons b out => exact ⟨_, .get⟩
    | nil => exact ⟨_, .wait⟩
  | back => exact Or.inr rfl

theorem reach_at {f : Bytes → Bytes × Bool} {input : Bytes} {room : Nat} {s : Sys (Bytes ⊕ (Bytes × Bool))} (h : Reach (whole f) room (start (.inl []) input) s) :
    ∃ m, At input (f input).1 (f input).2 s m := by
  induction h with
  | refl => exact ⟨_, .send (by simp)⟩
  | step _ hs ih =>
    obtain ⟨m, hm⟩ := ih
    obtain ⟨m', _, h'⟩ := step_at hm hs
    exact ⟨m', h'⟩

theorem ends_at {f : Bytes → Bytes × Bool} {input : Bytes} {room : Nat} : ∀ (m : Nat) (s : Sys (Bytes ⊕ (Bytes × Bool))), At input (f input).1 (f input).2 s m → Spec.Ends (whole f) room s := by
  intro m
  induction m using Nat.strongRecOn with
  | _ m ih =>
    rintro s h ⟨e, he, hstep⟩
    subst he
    obtain ⟨m', hlt, h'⟩ := step_at h (hstep 0)
    exact ih m' hlt (e 1) h' ⟨fun i => e (i + 1), rfl, fun i => hstep (i + 1)⟩

/-- Both pipes are full before all is written. -/
theorem echo_reach {input : Bytes} {room : Nat} (hl : 2 * room + 2 ≤ input.length) {s : Sys (Option (Option Byte))} (h : Reach echo room (start none input) s) :
    ∃ t st, s.phase = .writing t ∧ s.tool = .inl st ∧ st ≠ some none ∧ s.out.length ≤ room ∧ s.inp.length ≤ room ∧
      s.out.length + (if st = none then 0 else 1) + s.inp.length + t.length = input.length := by
  induction h with
  | refl => exact ⟨input, none, rfl, rfl, by simp, by simp [start], by simp [start], by simp [start]⟩
  | step _ hs ih =>
    obtain ⟨t, st, h1, h2, h3, h4, h5, h6⟩ := ih
    cases hs with
    | put hr =>
      cases h1
      cases h2
      refine ⟨_, _, rfl, rfl, h3, h4, ?_, ?_⟩
      · simp only [List.length_append, List.length_singleton]
        omega
      · simp only [List.length_append, List.length_cons, List.length_nil] at h6 ⊢
        omega
    | pipe => cases h2
    | close =>
      cases h1
      simp only [List.length_nil] at h4 h5 h6
      split at h6 <;> omega
    | get => cases h1
    | wait => cases h1
    | read hk =>
      cases h2
      cases st with
      | none =>
        cases hk
        refine ⟨t, _, h1, rfl, by simp, h4, ?_, ?_⟩
        · simp only [List.length_cons] at h5 ⊢
          omega
        · simp only [List.length_cons, if_true] at h6 ⊢
          rw [if_neg (by simp)]
          omega
      | some x =>
        cases x with
        | none => exact absurd rfl h3
        | some b => cases hk
    | eof hk => cases h1
    | write hk hr =>
      cases h2
      cases st with
      | none => cases hk
      | some x =>
        cases x with
        | none => exact absurd rfl h3
        | some b =>
          cases hk
          refine ⟨t, none, h1, rfl, by simp, ?_, h5, ?_⟩
          · simp only [List.length_append, List.length_singleton]
            omega
          · simp only [List.length_append, List.length_singleton, if_true]
            rw [if_neg (by simp)] at h6
            simp only [] at h6
            omega
    | exit hk =>
      cases h2
      cases st with
      | none => cases hk
      | some x =>
        cases x with
        | none => exact absurd rfl h3
        | some b => cases hk

end Verif.CodeColor
