/-
Documents on a terminal (C201 - C205).
-/
import Verif.Proof.Term
import Verif.Proof.TermEnd
import Verif.Proof.TermProse
import Verif.Spec.CodeColor

namespace Verif.Term
open Spec TermStyle.Spec
open TermStyle (style reset)

/-- What is written of a document, by its blocks. -/
theorem render_doc {o : Opt} {d : Node} {out : Bytes} (h : render o d = .val (some out)) : d.kind = .document ∧ block o 0 false [] d = .val out := by
  unfold render at h
  cases hd : d.kind with
  | document =>
    rw [hd] at h
    cases hb : block o 0 false [] d with
    | ub => simp only [hb, C.ub_bind] at h; cases h
    | val r =>
      simp only [hb, C.val_bind, C.val.injEq, Option.some.injEq] at h
      exact ⟨rfl, by rw [h]⟩
  | _ => rw [hd] at h; cases h

/-! ### C201: a theme changes how a document looks, not what it says -/

/-- C201, for documents without escapes and without blocks of HTML: with any two quiet themes with the same mark for quotes, and with 8 or 256 colours, one reads the same.
Missing: blocks of HTML, for which it is false; and code coloured by a tool. -/
theorem C201_theme_partial {o p : Opt} (ho : Quiet o) (hp : Quiet p) (he : o.emoji = p.emoji) (hm : o.theme.quoteMarker = p.theme.quoteMarker) {d : Node} (hc : All Calm d) (hn : All NoBlock d) :
    (render o d = .ub ↔ render p d = .ub) ∧ ∀ x y, render o d = .val (some x) → render p d = .val (some y) → text (screen x) = text (screen y) := by
  have h := alike_block ho hp he hm d 0 false [] [] hc (.inl hn) (alike_calm (by simp))
  refine ⟨?_, ?_⟩
  · unfold render
    cases d.kind <;> try exact Iff.rfl
    simp only
    rcases h with ⟨h1, h2⟩ | ⟨x, y, h1, h2, _⟩
    · rw [h1, h2]
    · rw [h1, h2]
      simp
  · intro x y hx hy
    have hx := (render_doc hx).2
    have hy := (render_doc hy).2
    rcases h with ⟨h1, _⟩ | ⟨x', y', h1, h2, ⟨v, hv, hv'⟩, _⟩
    · rw [hx] at h1; cases h1
    · rw [hx] at h1
      rw [hy] at h2
      cases h1
      cases h2
      rw [hv.screen.1, hv'.screen.1]

/-- C201: one reads all that was written in paragraphs, headings and code, in and out of lists and quotes, in its order, with the targets of links; in every document without escapes and inline HTML. -/
theorem C201_prose {o : Opt} (ho : Quiet o) {d : Node} (hc : All Calm d) (hp : All (Plain o.emoji) d) {x : Bytes} (hx : render o d = .val (some x)) : (prose o.emoji d).Sublist (text (screen x)) := by
  obtain ⟨w, hw, hs⟩ := prose_block ho d 0 false [] x [] hc hp (shows_calm (by simp)) (render_doc hx).2
  rw [hw.screen.1]
  exact hs

/-- C201: of the text of a paragraph, exactly that. -/
theorem C201_reads {o : Opt} (ho : Quiet o) {ns : List Node} (hc : Alls Calm ns) (hp : Alls (Plain o.emoji) ns) : text (screen (inlines o ns)) = readAll o.emoji ns := by
  have := shows_inlines ho ns hc
  rw [seens_reads ns hp] at this
  exact this.screen.1

/-- A paragraph of strong text with emphasis in it. -/
def nested : Node := .mk .document none [.mk .para none [.mk .strong none [.mk (.text b!"a") none [], .mk .emph none [.mk (.text b!"b") none []], .mk (.text b!"c") none []]]]

/-- The themes without a style are quiet. -/
theorem quiet_default (wide : Bool) : Quiet { wide := wide } := by
  constructor <;> simp

/-- A theme with a style for headings is quiet. -/
theorem quiet_head : Quiet { theme := { head := fun _ => some b!"b red on_white", quoteMarker := some b!"|" } } := by
  constructor <;> simp
  exact TermStyle.C200_silent_partial true (by decide +kernel)

example : All Calm nested ∧ All NoBlock nested ∧ All (Plain id) nested ∧ (render {} nested = .val (some b!"\x1b[1ma\x1b[3mb\x1b[0mc\x1b[0m\n\n")) ∧ prose id nested = b!"abc" := by
  refine ⟨by simp [nested, All, Alls, Calm], by simp [nested, All, Alls, NoBlock], ?_, by decide +kernel, by decide +kernel⟩
  simp only [nested, All, Alls, Plain, id, true_and, and_true]
  decide +kernel

/-- C201 fails with blocks of HTML: whether there is an empty line in front of the next block depends on whether a class has a style. -/
theorem C201_gap : let d : Node := .mk .document none [.mk (.list true 0) none [.mk .item none [.mk .para none [.mk (.text b!"a") none [], .mk .soft none [], .mk (.html b!"<span class=\"x\">") none []], .mk (.htmlBlock b!"<br>") none []]]]
    let p : Opt := { theme := { classes := [(b!"x", b!"b")] } }
    Quiet {} ∧ Quiet p ∧ ∃ x y, render {} d = .val (some x) ∧ render p d = .val (some y) ∧ text (screen x) = b!"* " ++ b!"  a\n\n\n" ∧ text (screen y) = b!"* " ++ b!"  a\n\n\n\n" := by
  refine ⟨quiet_default true, ?_, _, _, rfl, rfl, by decide +kernel, by decide +kernel⟩
  constructor <;> simp
  exact TermStyle.C200_silent_partial true (by decide +kernel)

/-! ### C202: styles hold for their text and end with it -/

/-- C202: after every document without escapes and inline HTML, the terminal is as it was. -/
theorem C202_ends_partial {o : Opt} (ho : Quiet o) {d : Node} (hc : All Calm d) (hn : All NoInline d) {x : Bytes} (hx : render o d = .val (some x)) : (exec (ready {}) x).1 = ready {} :=
  plainly_block ho d 0 false [] x hc hn (by rfl) (render_doc hx).2

/-- C202: a span of HTML that is not closed colours what follows the document. -/
theorem C202_open : let o : Opt := { theme := { classes := [(b!"x", b!"red")] } }
    let d : Node := .mk .document none [.mk .para none [.mk (.html b!"<span class=\"x\">") none [], .mk (.text b!"a") none []]]
    ∃ x, render o d = .val (some x) ∧ (exec (ready {}) x).1 = ready { fg := some 1 } := ⟨_, rfl, by decide +kernel⟩

/-- A node of text, with no classes. -/
def Words (n : Node) : Prop := ∃ s ks, n = .mk (.text s) none ks ∧ (27 : Byte) ∉ s

theorem exec_calm (t : Style) : ∀ {s : Bytes}, (27 : Byte) ∉ s → exec (ready t) s = (ready t, s.map (Event.shown · t))
  | [], _ => rfl
  | c :: r, h => by
    have := exec_calm t (s := r) fun hx => h (List.mem_cons_of_mem _ hx)
    have hc : c ≠ 27 := fun he => h (he ▸ List.mem_cons_self ..)
    have h1 : step (ready t) c = (ready t, [.shown c t]) := by simp [step, ready, hc]
    simp [exec, h1, this]

theorem exec_words {o : Opt} (ho : Quiet o) (t : Style) : ∀ {ns : List Node}, (∀ n ∈ ns, Words n) → exec (ready t) (inlines o ns) = (ready t, (seens o.emoji ns).map (Event.shown · t))
  | [], _ => rfl
  | n :: ns, h => by
    obtain ⟨s, ks, rfl, hs⟩ := h n (List.mem_cons_self ..)
    have ih := exec_words ho t fun n hn => h n (List.mem_cons_of_mem _ hn)
    have e : inline o (.mk (.text s) none ks) = ltlt (o.emoji s).length (o.emoji s) := by simp [inline, nodeStyle]
    simp only [inlines, e, seens, seen]
    rw [TermStyle.exec_append, exec_calm t (ltlt_calm _ (ho.emoji s hs))]
    simp [ih]

theorem effect_b (wide : Bool) : Effect (style wide b!"b") fun s => { s with bold := true } := by
  cases wide <;> exact fun s => rfl

theorem effect_i (wide : Bool) : Effect (style wide b!"i") fun s => { s with italic := true } := by
  cases wide <;> exact fun s => rfl

/-- C202, for strong and emphasised text without marks in it: all of it is shown bold or italic, in addition to the style around it.  Missing: that it holds behind other marks, for which see below. -/
theorem C202_emphasis_partial {o : Opt} (ho : Quiet o) (t : Style) {ns : List Node} (h : ∀ n ∈ ns, Words n) (hp : Alls (Plain o.emoji) ns) :
    (exec (ready t) (inline o (.mk .strong none ns))).2 = (readAll o.emoji ns).map (Event.shown · { t with bold := true }) ∧
    (exec (ready t) (inline o (.mk .emph none ns))).2 = (readAll o.emoji ns).map (Event.shown · { t with italic := true }) := by
  have hb := effect_b o.wide t
  have hi := effect_i o.wide t
  refine ⟨?_, ?_⟩
  · have e : inline o (.mk .strong none ns) = style o.wide b!"b" ++ (inlines o ns ++ reset) := by simp [inline, nodeStyle]
    rw [e, TermStyle.exec_append, hb, TermStyle.exec_append]
    simp only
    rw [exec_words ho _ h, seens_reads ns hp]
    simp only [TermStyle.effect_reset { t with bold := true }]
    simp
  · have e : inline o (.mk .emph none ns) = style o.wide b!"i" ++ (inlines o ns ++ reset) := by simp [inline, nodeStyle]
    rw [e, TermStyle.exec_append, hi, TermStyle.exec_append]
    simp only
    rw [exec_words ho _ h, seens_reads ns hp]
    simp only [TermStyle.effect_reset { t with italic := true }]
    simp

example : (∀ n ∈ [Node.mk (.text b!"a") none [], .mk (.text b!"b") none []], Words n) ∧ Alls (Plain id) [.mk (.text b!"a") none [], .mk (.text b!"b") none []] := by
  refine ⟨?_, ?_⟩
  · intro n hn
    simp only [List.mem_cons, List.not_mem_nil, or_false] at hn
    rcases hn with rfl | rfl
    · exact ⟨_, _, rfl, by decide⟩
    · exact ⟨_, _, rfl, by decide⟩
  · simp only [Alls, All, Plain, id]
    decide +kernel

/-- C202 fails: behind an emphasis, a strong text, code or a link, the rest of a heading, strong text or link is plain, whatever its style was. -/
theorem C202_lost {o : Opt} (ho : Quiet o) (t : Style) {n : Node} (hn : n.kind = .emph ∨ n.kind = .strong ∨ (∃ s, n.kind = .code s) ∨ ∃ u, n.kind = .link u) (hc : All Calm n) {s : Bytes} (hs : (27 : Byte) ∉ s) :
    ∃ ev, (exec (ready t) (inlines o [n, .mk (.text s) none []])).2 = ev ++ (ltlt (o.emoji s).length (o.emoji s)).map (Event.shown · {}) := by
  have key : ∀ {a v : Bytes}, Shows a v → (exec (ready t) (a ++ reset)).1 = ready {} := by
    intro a v h
    obtain ⟨s', e, h1, _, _⟩ := h t
    rw [TermStyle.exec_append, h1]
    simp [TermStyle.effect_reset s']
  have hend : (exec (ready t) (inline o n)).1 = ready {} := by
    cases n with
    | mk k a kids =>
      have hs := shows_inline ho (.mk k a kids) hc
      unfold All at hc
      have is := shows_inlines ho kids hc.2
      simp only [Node.kind] at hn
      rcases hn with rfl | rfl | ⟨c, rfl⟩ | ⟨u, rfl⟩
      · have := (shows_style o.wide (s := b!"i") (by decide +kernel) (by decide +kernel)).append is
        simp only [inline]
        cases hc : nodeStyle o.theme a with
        | none => simpa using key this
        | some st =>
          obtain ⟨f, hf⟩ := node_effect ho hc
          simpa using key ((shows_effect hf).append this)
      · have := (shows_style o.wide (s := b!"b") (by decide +kernel) (by decide +kernel)).append is
        simp only [inline]
        cases hc : nodeStyle o.theme a with
        | none => simpa using key this
        | some st =>
          obtain ⟨f, hf⟩ := node_effect ho hc
          simpa using key ((shows_effect hf).append this)
      · simp only [inline]
        exact key ((shows_or ho a ho.codeSpan (shows_style o.wide (s := b!"b white on_intense_black") (by decide +kernel) (by decide +kernel))).append (shows_calm hc.1))
      · have h1 := (shows_or ho a ho.linkText (shows_style o.wide (s := b!"u b blue") (by decide +kernel) (by decide +kernel))).append is
        simp only [inline]
        split
        · simpa using key h1
        · have := (((((((h1.append shows_reset).append (shows_calm (s := b!" ") (by decide))).append (shows_getD ho.linkUrl (shows_style o.wide (s := b!"cyan") (by decide +kernel) (by decide +kernel)))).append
            (shows_calm (s := b!"(") (by decide))).append (shows_calm hc.1)).append (shows_calm (s := b!")") (by decide))))
          have := key this
          simpa only [List.append_assoc] using this
  have e : inline o (.mk (.text s) none []) = ltlt (o.emoji s).length (o.emoji s) := by simp [inline, nodeStyle]
  refine ⟨(exec (ready t) (inline o n)).2, ?_⟩
  simp only [inlines, e, List.append_nil]
  rw [TermStyle.exec_append, hend, exec_calm {} (ltlt_calm _ (ho.emoji s hs))]

/-- C202 fails, as an author sees it: of `**a*b*c**` the last letter is not bold. -/
theorem C202_nested : ∃ x, render {} nested = .val (some x) ∧
    screen x = [.shown c!"a" { bold := true }, .shown c!"b" { bold := true, italic := true }, .shown c!"c" {}, .shown c!"\n" {}, .shown c!"\n" {}] := ⟨_, rfl, by decide +kernel⟩

/-! ### C203: a document gives the terminal no commands -/

/-- C203, for documents without the escape byte, of all kinds of blocks, with quiet themes: the terminal is given no command but styles.  Missing: documents with that byte, for which it is false. -/
theorem C203_calm_partial {o : Opt} (ho : Quiet o) {d : Node} (hc : All Calm d) {x : Bytes} (hx : render o d = .val (some x)) : Event.command ∉ screen x := by
  rcases alike_block ho ho rfl rfl d 0 false [] [] hc (.inr rfl) (alike_calm (by simp)) with ⟨h1, _⟩ | ⟨x', _, h1, _, ⟨v, hv, _⟩, _⟩
  · rw [(render_doc hx).2] at h1; cases h1
  · rw [(render_doc hx).2] at h1
    cases h1
    exact hv.screen.2

/-- C203 fails: any text whatever reaches the terminal byte by byte. -/
theorem C203_verbatim (o : Opt) {s : Bytes} (hs : ¬ b!"APEXLTLT" <:+: o.emoji s) : render o (.mk .document none [.mk .para none [.mk (.text s) none []]]) = .val (some (o.emoji s ++ b!"\n\n")) := by
  simp [render, Node.kind, block, blocks, inlines, inline, nodeStyle, spaces, ltlt_plain _ hs]

example : ¬ b!"APEXLTLT" <:+: b!"\x1b[2J" ∧ screen (b!"\x1b[2J" ++ b!"\n\n") = [.command, .shown c!"\n" {}, .shown c!"\n" {}] := by decide +kernel

/-! ### C204: HTML in a document never crashes the program -/

/-- C204, for blocks of HTML that have a `>` somewhere behind every `callout-title` and `callout-content`: they are written.  Missing: others, for which it is false. -/
theorem C204_closed_partial (o : Opt) (indent : Nat) (out : Bytes) {s : Bytes} (h : ∀ a w r, w ∈ [b!"callout-title", b!"callout-content"] → s = a ++ w ++ r → c!">" ∈ r) :
    ∃ x, htmlBlock o indent out s = .val x := by
  have hb : ∀ w a r, w ∈ [b!"callout-title", b!"callout-content"] → Embed.find w s = some (a, r) → ∃ t, behind r = .val t := by
    intro w a r hw hf
    have hm := h a w r hw (Embed.find_some hf)
    unfold behind
    cases h1 : Embed.find b!">" r with
    | some x => exact ⟨x.2, rfl⟩
    | none =>
      have := (Embed.find_none (by simp)).1 h1
      obtain ⟨u, v, huv⟩ := List.append_of_mem hm
      exact absurd ⟨u, v, by rw [huv]; simp⟩ this
  have h1 : ∀ f, ∃ t, calloutTitle f s = .val t := by
    intro f
    have last : ∀ x : Bytes, ∃ t, (match Embed.find b!"</" x with
      | some (c :: t, _) => C.val ((if f then b!" " else []) ++ title false (c :: t) ++ b!"\n")
      | _ => .val []) = .val t := by
      intro x
      split
      · exact ⟨_, rfl⟩
      · exact ⟨_, rfl⟩
    unfold calloutTitle
    cases h1 : Embed.find b!"<summary>" s with
    | some x => exact last x.2
    | none =>
      cases h2 : Embed.find b!"callout-title" s with
      | none => exact ⟨_, rfl⟩
      | some x =>
        obtain ⟨x1, x2⟩ := x
        obtain ⟨t, ht⟩ := hb _ _ _ (by decide) h2
        simp only [ht, C.val_bind]
        exact last t
  have h2 : ∃ t, calloutContent s = .val t := by
    unfold calloutContent
    cases h2 : Embed.find b!"callout-content" s with
    | none => exact ⟨_, rfl⟩
    | some x =>
      obtain ⟨x1, x2⟩ := x
      obtain ⟨t, ht⟩ := hb _ _ _ (by decide) h2
      simp only [ht, C.val_bind]
      split
      · exact ⟨_, rfl⟩
      · exact ⟨_, rfl⟩
  unfold htmlBlock
  split
  · exact ⟨_, rfl⟩
  split
  · obtain ⟨t, ht⟩ := h1 (calloutType o indent s).isSome
    obtain ⟨c, hc⟩ := h2
    simp only [ht, hc, C.val_bind]
    exact ⟨_, rfl⟩
  · exact ⟨_, rfl⟩

/-- A callout as the program itself writes it. -/
example : htmlBlock {} 0 [] b!"<div class=\"callout callout-note\"><p class=\"callout-title\">T</p><div class=\"callout-content\">x</div></div>" =
    .val (style true b!"b yellow" ++ b!"[note]" ++ reset ++ b!" T\n" ++ b!"x\n\n") := by decide +kernel

/-- C204 fails: a tag that is not closed before the block ends makes the program read near address zero. -/
theorem C204_crash (o : Opt) : render o (.mk .document none [.mk (.htmlBlock b!"<div class=\"callout-title\"\n") none []]) = .ub ∧ render o (.mk .document none [.mk (.htmlBlock b!"<p callout-content\n") none []]) = .ub := by
  have h1 : ∀ f, calloutTitle f b!"<div class=\"callout-title\"\n" = .ub := by decide +kernel
  have h2 : ∀ f, calloutTitle f b!"<p callout-content\n" = .val [] := by decide +kernel
  have h3 : calloutContent b!"<p callout-content\n" = .ub := by decide +kernel
  have e : ∀ s r, htmlBlock o 0 [] s = r → r = .ub → render o (.mk .document none [.mk (.htmlBlock s) none []]) = .ub := by
    intro s r h hr
    simp [render, Node.kind, block, blocks, h, hr]
  refine ⟨e _ _ rfl ?_, e _ _ rfl ?_⟩
  · unfold htmlBlock
    rw [if_neg (by decide +kernel), if_pos (by decide +kernel)]
    simp only [h1, C.ub_bind]
  · unfold htmlBlock
    rw [if_neg (by decide +kernel), if_pos (by decide +kernel)]
    simp only [h2, h3, C.val_bind, C.ub_bind]

/-! ### C205: code is coloured by the tool alone -/

/-- C205, for languages of less than 64 bytes without bytes of meaning for the shell: the command is the tool with these words, and no other; and the code is shown as the tool prints it, or else as it is.
Missing: other languages, for which it is false. -/
theorem C205_tool_partial (wide : Bool) {lang more : Bytes} (hl : lang.length < 64) (hs : ∀ c ∈ lang, CodeColor.Spec.safe c = true) (hm : more = [] ∨ ∃ c t, more = c :: t ∧ isSpace c = true) :
    CodeColor.Spec.Simple (command wide (lang ++ more))
      ([b!"pygmentize"] ++ (if lang = [] then [b!"-g"] else [b!"-l", lang]) ++ (if wide then [b!"-f", b!"terminal256", b!"-O", b!"style=paraiso-dark"] else [b!"-f", b!"terminal", b!"-O", b!"style=pastie"])) := by
  have hns : ∀ c, CodeColor.Spec.safe c = true → isSpace c = false := fun c => forall_byte (p := fun c => CodeColor.Spec.safe c = true → isSpace c = false) (by decide +kernel) c
  have ht : (lang ++ more).takeWhile (fun c => !isSpace c) = lang := by
    rw [List.takeWhile_append_of_pos (by intro c hc; simp [hns c (hs c hc)])]
    rcases hm with rfl | ⟨c, t, rfl, hc⟩
    · simp
    · simp [hc]
  refine ⟨?_, ?_⟩
  · unfold command
    simp only [ht, List.take_of_length_le (Nat.le_of_lt_succ hl)]
    by_cases h : lang = []
    · subst h
      cases wide <;> rfl
    · cases wide <;> simp [h, CodeColor.Spec.join]
  · intro w hw
    simp only [List.mem_append, List.mem_singleton] at hw
    rcases hw with (rfl | hw) | hw
    · exact ⟨by simp, by decide +kernel⟩
    · by_cases h : lang = []
      · rw [if_pos h] at hw
        simp only [List.mem_singleton] at hw
        subst hw
        exact ⟨by simp, by decide +kernel⟩
      · rw [if_neg h] at hw
        simp only [List.mem_cons, List.not_mem_nil, or_false] at hw
        rcases hw with rfl | rfl
        · exact ⟨by simp, by decide +kernel⟩
        · exact ⟨h, hs⟩
    · cases wide
      · rw [if_neg (by decide)] at hw
        simp only [List.mem_cons, List.not_mem_nil, or_false] at hw
        rcases hw with rfl | rfl | rfl | rfl <;> exact ⟨by simp, by decide +kernel⟩
      · rw [if_pos rfl] at hw
        simp only [List.mem_cons, List.not_mem_nil, or_false] at hw
        rcases hw with rfl | rfl | rfl | rfl <;> exact ⟨by simp, by decide +kernel⟩

example : command true b!"c++ {.x}" = b!"pygmentize -l c++ -f terminal256 -O style=paraiso-dark" ∧ b!"c++ {.x}" = b!"c++" ++ b!" {.x}" := by decide +kernel

/-- C205: if the tool fails, the code is shown as it is without it. -/
theorem C205_failed {o : Opt} {run : Bytes → Bytes → Option Bytes} (hr : ∀ line s, run line s = none) (indent : Nat) (info s : Bytes) :
    codeBlock { o with colour := some run } indent info s = codeBlock { o with colour := none } indent info s := by
  unfold codeBlock
  simp only [hr]
  split <;> rfl

/-- C205 fails: any text of up to 60 bytes without white space between two `;` in the language of a block is a command of its own. -/
theorem C205_injected {x : Bytes} (hx : ∀ c ∈ x, isSpace c = false) (hl : x.length ≤ 60) :
    command true (b!"a;" ++ x ++ b!";") = b!"pygmentize -l a;" ++ x ++ b!"; -f terminal256 -O style=paraiso-dark" := by
  unfold command
  have ht : (b!"a;" ++ x ++ b!";").takeWhile (fun c => !isSpace c) = b!"a;" ++ x ++ b!";" := by
    have : ∀ c ∈ b!"a;" ++ x ++ b!";", (!isSpace c) = true := by
      intro c hc
      simp only [List.mem_append] at hc
      rcases hc with (hc | hc) | hc
      · revert c; decide
      · simp [hx c hc]
      · revert c; decide
    have := List.takeWhile_append_of_pos (l₂ := []) this
    simpa using this
  simp only [ht]
  rw [List.take_of_length_le (by simp; omega), if_pos (by simp)]
  simp

end Verif.Term
