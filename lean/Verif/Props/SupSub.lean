/-
C77: superscripts, subscripts and underlines.
-/
import Verif.Proof.SupSub

namespace Verif.SupSub

open Spec

/-- C77.  Every text is read as plain bytes and raised, lowered or underlined pieces, and the result is exactly these
pieces with tags for markers: no byte other than a marker is lost, and no byte is written outside the buffer. -/
theorem C77_keeps (text : Bytes) : ∃ segs : List Seg, (∀ s ∈ segs, s.Ok) ∧ segs.flatMap Seg.source = text ∧
    process text = .val (segs.flatMap Seg.html) := process_keeps text

/-- A text without the markers is not changed. -/
theorem C77_plain {text : Bytes} (h : c!"^" ∉ text) (h' : c!"~" ∉ text) : process text = .val text :=
  process_plain fun c hc => ⟨fun e => h (e ▸ hc), fun e => h' (e ▸ hc)⟩

example : c!"^" ∉ b!"a `b` $c$\n" ∧ c!"~" ∉ b!"a `b` $c$\n" := by decide

/-- A word after `^` is raised: up to a blank, the punctuation of a sentence or a closing `^`, except in `[^`. -/
theorem C77_sup {a x b : Bytes} {closed : Bool} (ha : Plain a) (hf : a.getLast? ≠ some c!"[") (hx : (Seg.sup x closed).Ok)
    (h0 : x.head? ≠ some 0) (hb : Plain b) (hn : closed = false → b = [] ∨ ∃ d v, b = d :: v ∧ EndsWord d) :
    process (a ++ (Seg.sup x closed).source ++ b) = .val (a ++ (Seg.sup x closed).html ++ b) := by
  simpa [List.append_assoc] using process_sup ha hf hx h0 hb hn

theorem plain_of (a : Bytes) (h1 : ∀ c ∈ a, c ≠ c!"^" ∧ c ≠ c!"~" ∧ c ≠ c!"`" ∧ c ≠ c!"$" ∧ c ≠ c!"{" ∧ c ≠ c!"\t")
    (h2 : c!" " ∉ a) : Plain a :=
  ⟨h1, fun ⟨p, q, h⟩ => h2 (by rw [← h]; simp)⟩

example : process b!"x^2, y" = .val b!"x<sup>2</sup>, y" := by decide +kernel
example : process b!"x^2+1^y" = .val b!"x<sup>2+1</sup>y" :=
  C77_sup (a := b!"x") (x := b!"2+1") (b := b!"y") (closed := true) (plain_of _ (by decide) (by decide)) (by decide)
    ⟨by decide, by simp [EndsWord]⟩ (by decide) (plain_of _ (by decide) (by decide)) (by simp)
example : process b!"x[^2]" = .val b!"x[^2]" := by decide +kernel

/-- Letters and digits between tildes are lowered when a letter or digit comes before the first, and the second is
followed by ASCII text or nothing. -/
theorem C77_sub {a x b : Bytes} {l : Byte} (ha : Plain (a ++ [l])) (hl : isAlnum l = true) (hne : x ≠ [])
    (hx : ∀ c ∈ x, isAlnum c = true) (hb : Plain b)
    (hn : ∀ d, b.head? = some d → isAlnum d = true ∨ isSpace d = true ∨ isPunct d = true) :
    process (a ++ [l] ++ b!"~" ++ x ++ b!"~" ++ b) = .val (a ++ [l] ++ b!"<sub>" ++ x ++ b!"</sub>" ++ b) := by
  have hq : ∀ c ∈ x, c ≠ c!"~" ∧ c ≠ c!"\n" ∧ c ≠ 0 ∧ c ≠ c!" " ∧ c ≠ c!"\t" ∧ c ≠ c!">" ∧ isSpace c = false := fun c hc =>
    forall_byte (p := fun c => isAlnum c = true → c ≠ c!"~" ∧ c ≠ c!"\n" ∧ c ≠ 0 ∧ c ≠ c!" " ∧ c ≠ c!"\t" ∧ c ≠ c!">" ∧ isSpace c = false)
      (by decide +kernel) c (hx c hc)
  have h := process_tilde (under := false) ha hne (fun h => (hq _ h).1 rfl) (fun h => (hq _ h).2.1 rfl)
    (fun c hc => (hq c (List.mem_of_getLast? hc)).2.2.2.2.2.2)
    (fun c hc => have := hq c (List.mem_of_head? hc); ⟨this.2.2.1, this.2.2.2.1, this.2.2.2.2.1, this.2.2.2.2.2.1⟩)
    (likelySub_alnum (u := b) hx) hb (by
      have h1 : x.all isAlnum = true := by simpa using hx
      rw [h1]
      cases b with
      | nil => simp [hl]
      | cons d v => have := hn d rfl; simp [hl]; grind)
  simpa [element, List.append_assoc] using h

example : process b!"H~2~O" = .val b!"H<sub>2</sub>O" :=
  C77_sub (a := []) (l := c!"H") (x := b!"2") (b := b!"O") (plain_of _ (by decide) (by decide)) (by decide) (by decide) (by decide)
    (plain_of _ (by decide) (by decide)) (by simp; decide)

/-- Text between tildes on one line is underlined when no letter or digit comes before the first tilde.  The text may
not end in a blank, contain a tilde, or have punctuation in its first word. -/
theorem C77_under {a x b : Bytes} (ha : Plain a) (hl : ∀ l, a.getLast? = some l → isAlnum l = false)
    (hx : (Seg.under x).Ok) (ht : c!"~" ∉ x) (hh : ∀ c, x.head? = some c → c ≠ 0 ∧ c ≠ c!" " ∧ c ≠ c!"\t" ∧ c ≠ c!">")
    (hw : ∀ w r : Bytes, x = w ++ r → (∀ c ∈ w, c ≠ c!" " ∧ c ≠ c!"\t") → ∀ c ∈ w, ¬ EndsWord c) (hb : Plain b) :
    process (a ++ (Seg.under x).source ++ b) = .val (a ++ (Seg.under x).html ++ b) := by
  have h := process_tilde (under := true) ha hx.1 ht hx.2.1 hx.2.2 hh (likelySub_word (u := b) hw ht) hb (by
    cases h : a.getLast? with
    | none => simp
    | some l => simp [hl l h])
  simpa [element, Seg.source, Seg.html, List.append_assoc] using h

example : process b!"a ~two words~ b" = .val b!"a <u>two words</u> b" := by decide +kernel
example : process b!"~ab~" = .val b!"<u>ab</u>" :=
  C77_under (a := []) (x := b!"ab") (b := []) (plain_of _ (by decide) (by decide)) (by simp)
    ⟨by decide, by decide, by simp; decide⟩ (by decide) (by simp) (by
      intro w r he _ c hc
      have : c ∈ b!"ab" := by rw [he]; simp [hc]
      simp at this; rcases this with rfl | rfl <;> simp [EndsWord]) (plain_of _ (by decide) (by decide))

/-- Inline code is not changed. -/
theorem C77_code {a x b : Bytes} (ha : Plain a) (hb : Plain b) (hx : ∀ c ∈ x, c ≠ c!"`" ∧ c ≠ c!"{") :
    process (a ++ b!"`" ++ x ++ b!"`" ++ b) = .val (a ++ b!"`" ++ x ++ b!"`" ++ b) := by
  simpa [List.append_assoc] using process_verbatim (mark := c!"`") ha hb (.inl ⟨rfl, hx⟩)

/-- Mathematics is not changed. -/
theorem C77_math {a x b : Bytes} (ha : Plain a) (hb : Plain b) (hx : ∀ c ∈ x, c ≠ c!"$" ∧ c ≠ c!"`" ∧ c ≠ c!"{")
    (hh : ∃ c y, x = c :: y ∧ c ≠ 0 ∧ c ≠ c!" " ∧ c ≠ c!"\t" ∧ c ≠ c!"\n") :
    process (a ++ b!"$" ++ x ++ b!"$" ++ b) = .val (a ++ b!"$" ++ x ++ b!"$" ++ b) := by
  simpa [List.append_assoc] using process_verbatim (mark := c!"$") ha hb (.inr ⟨rfl, hx, hh⟩)

/-- Liquid tags are not changed, and words behind them are still raised. -/
theorem C77_liquid {x y w b : Bytes} {closed : Bool} (h1 : c!"%" ∉ x) (h2 : c!"\n" ∉ x) (hy : Plain y) (hl : y.getLast? ≠ some c!"[")
    (hw : (Seg.sup w closed).Ok) (h0 : w.head? ≠ some 0) (hb : Plain b) (hn : closed = false → b = [] ∨ ∃ d v, b = d :: v ∧ EndsWord d) :
    process (b!"{%" ++ x ++ b!"%}" ++ y ++ (Seg.sup w closed).source ++ b) =
      .val (b!"{%" ++ x ++ b!"%}" ++ y ++ (Seg.sup w closed).html ++ b) := by
  simpa [List.append_assoc] using process_liquid h1 h2 hy hl hw h0 hb hn

/-- A dollar before a blank, an amount of money for example, does not begin mathematics. -/
theorem C77_dollar {a y w b : Bytes} {closed : Bool} (ha : Plain a) (hy : Plain y) (hd : y.head? = some c!" " ∨ y.head? = some c!"\n")
    (hl : y.getLast? ≠ some c!"[") (hw : (Seg.sup w closed).Ok) (h0 : w.head? ≠ some 0) (hb : Plain b)
    (hn : closed = false → b = [] ∨ ∃ d v, b = d :: v ∧ EndsWord d) :
    process (a ++ b!"$" ++ y ++ (Seg.sup w closed).source ++ b) = .val (a ++ b!"$" ++ y ++ (Seg.sup w closed).html ++ b) := by
  simpa [List.append_assoc] using process_dollar ha hy hd hl hw h0 hb hn

example : process b!"5 $ for m^2\n" = .val b!"5 $ for m<sup>2</sup>\n" := by decide +kernel
example : process b!"{% a^2 %}x^2" = .val b!"{% a^2 %}x<sup>2</sup>" := by decide +kernel
example : process b!"a^\tb^\n" = .val b!"a^\tb^\n" := by decide +kernel
example : process b!"a`x^2`b" = .val b!"a`x^2`b" :=
  C77_code (a := b!"a") (x := b!"x^2") (b := b!"b") (plain_of _ (by decide) (by decide)) (plain_of _ (by decide) (by decide)) (by decide)
example : process b!"a$x^2$b" = .val b!"a$x^2$b" :=
  C77_math (a := b!"a") (x := b!"x^2") (b := b!"b") (plain_of _ (by decide) (by decide)) (plain_of _ (by decide) (by decide)) (by decide)
    ⟨_, _, rfl, by decide⟩

end Verif.SupSub
