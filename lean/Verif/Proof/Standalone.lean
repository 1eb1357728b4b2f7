/- Lemmas about the standalone page. -/
import Verif.Spec.Standalone
import Verif.Proof.Embed

namespace Verif.Standalone
open Spec

theorem syntaxOpen_len : syntaxOpen.length = 577 := by decide +kernel
theorem syntaxPygments_len : syntaxPygments.length = 2969 := by decide +kernel
theorem syntaxSkylighting_len : syntaxSkylighting.length = 1863 := by decide +kernel
theorem syntaxClose_len : syntaxClose.length = 488 := by decide +kernel
theorem styles_len : styles.length = 1720 := by decide +kernel

theorem emit_ok {s : Bytes} {k : Nat} {o : Bytes} (h1 : s.length ≤ 2147483647) (h2 : o.length + s.length < k) :
    emit s ⟨k, o⟩ = some ⟨k, o ++ s⟩ := by
  rw [emit, if_neg]
  simp only; omega

theorem emitGrow_ok {e : Nat} {s : Bytes} {k : Nat} {o : Bytes} (h1 : s.length ≤ 2147483647) (h2 : o.length + s.length < k) :
    emitGrow e s ⟨k, o⟩ = some ⟨k, o ++ s⟩ := by
  rw [emitGrow, emit_ok h1 h2]

theorem chunk_ok {s : Bytes} {k : Nat} {o : Bytes} (h2 : o.length + s.length < k) : chunk s ⟨k, o⟩ = some ⟨k, o ++ s⟩ := by
  rw [chunk, if_neg]
  simp only; omega

theorem copy_ok {s : Bytes} {k : Nat} {o : Bytes} (h2 : o.length + s.length < k) : copy s ⟨k, o⟩ = some ⟨k, o ++ s⟩ := by
  rw [copy, if_neg]
  simp only; omega

theorem link_eq (p : Bytes) : link p = linked p := rfl

theorem link_len (p : Bytes) : (link p).length = p.length + 34 := by simp [link]

theorem links_ok (l : List Bytes) : ∀ {k : Nat} {o : Bytes}, (∀ p ∈ l, Small p) →
    o.length + (l.map fun q => q.length + 50).sum < k → links l ⟨k, o⟩ = some ⟨k, o ++ l.flatMap linked⟩ := by
  induction l with
  | nil => intro k o _ _; simp [links]
  | cons p l ih =>
    intro k o h1 h2
    have hp : p.length < 2147483000 := h1 p (by simp)
    simp only [List.map_cons, List.sum_cons] at h2
    rw [links, emitGrow_ok (by rw [link_len]; omega) (by rw [link_len]; omega)]
    show links l ⟨k, o ++ link p⟩ = _
    rw [ih (fun q hq => h1 q (by simp [hq])) (by rw [List.length_append, link_len]; omega)]
    simp [link_eq]

theorem links_len (l : List Bytes) : (l.flatMap linked).length ≤ (l.map fun q => q.length + 50).sum := by
  induction l with
  | nil => simp
  | cons p l ih => rw [List.flatMap_cons, List.length_append, ← link_eq, link_len]; simp only [List.map_cons, List.sum_cons]; omega

theorem rules_len : rules.length = 5954 := by
  simp only [rules, List.length_append, syntaxOpen_len, syntaxPygments_len, syntaxSkylighting_len, syntaxClose_len]; decide

theorem syntax_ok (on : Bool) {k : Nat} {o : Bytes} (h : o.length + (if on then 8000 else 0) < k) :
    syntaxCss on ⟨k, o⟩ = some ⟨k, o ++ if on then rules else []⟩ := by
  cases on with
  | false => simp [syntaxCss]
  | true =>
    simp only [if_true] at h
    have e1 : (b!"    /* Pygments classes */\n").length = 27 := by decide
    have e2 : (b!"    /* Skylighting classes */\n").length = 30 := by decide
    rw [syntaxCss, if_pos rfl, emitGrow_ok (by rw [syntaxOpen_len]; omega) (by rw [syntaxOpen_len]; omega)]
    simp only [Option.bind_eq_bind, Option.bind_some]
    rw [emit_ok (by rw [e1]; omega) (by rw [e1, List.length_append, syntaxOpen_len]; omega)]
    simp only [Option.bind_some]
    rw [chunk_ok (by simp only [List.length_append, syntaxPygments_len, e1, syntaxOpen_len]; omega)]
    simp only [Option.bind_some]
    rw [emit_ok (by rw [e2]; omega) (by simp only [List.length_append, syntaxPygments_len, e1, e2, syntaxOpen_len]; omega)]
    simp only [Option.bind_some]
    rw [chunk_ok (by simp only [List.length_append, syntaxPygments_len, syntaxSkylighting_len, e1, e2, syntaxOpen_len]; omega)]
    simp only [Option.bind_some]
    rw [emitGrow_ok (by rw [syntaxClose_len]; omega)
      (by simp only [List.length_append, syntaxPygments_len, syntaxSkylighting_len, syntaxClose_len, e1, e2, syntaxOpen_len]; omega)]
    simp [rules]

/-- The search for `</body>` stops in the middle of it. -/
theorem bodyEnd_none (r : Bytes) : ∀ behind : Bytes, behind.head? ≠ some c!"/" → bodyEnd r behind = none := by
  induction r with
  | nil => intro b _; rfl
  | cons c r ih =>
    intro b hb
    rw [bodyEnd, if_neg]
    · by_cases h : (!isSpace c && c != c!">") = true
      · rw [if_pos h]
      · rw [if_neg h]
        apply ih
        intro h'
        simp only [List.head?_cons, Option.some.injEq] at h'
        subst h'; exact h (by decide)
    · rintro ⟨t, ht⟩
      simp only [List.cons_append, List.nil_append, List.cons.injEq] at ht
      apply hb; rw [← ht.2]; rfl

theorem lastOf_spec {w s f : Bytes} (h : lastOf w s = some f) : ∃ t, s = f ++ w ++ t := by
  induction s generalizing f with
  | nil => simp [lastOf] at h
  | cons c s ih =>
    rw [lastOf] at h
    cases hl : lastOf w s with
    | some g =>
      rw [hl] at h; simp only [Option.some.injEq] at h; subst h
      obtain ⟨t, rfl⟩ := ih hl
      exact ⟨t, by simp⟩
    | none =>
      rw [hl] at h; simp only at h
      split at h
      · rename_i hp
        obtain ⟨t, ht⟩ := hp
        simp only [Option.some.injEq] at h; subst h
        exact ⟨t, by simp [ht]⟩
      · simp at h

/-- Nothing is ever taken from the content. -/
theorem kept_eq (content : Bytes) : kept content = content := by
  rw [kept]
  cases h : lastOf b!"</html>" content with
  | none => rfl
  | some f =>
    obtain ⟨t, rfl⟩ := lastOf_spec h
    simp only
    rw [bodyEnd_none]
    rw [List.append_assoc, List.drop_left]
    simp

theorem paths_lists {mem : List (Option Bytes)} {count : Nat} {l : List Bytes} (h : Lists mem count l) : paths count mem = .val l := by
  obtain ⟨rest, rfl, h⟩ := h
  induction l generalizing count with
  | nil =>
    rcases h with rfl | ⟨h1, h2⟩
    · rfl
    · cases count with
      | zero => simp at h1
      | succ n =>
        cases rest with
        | nil => simp at h2
        | cons x r => simp only [List.head?_cons, Option.some.injEq] at h2; subst h2; rfl
  | cons p l ih =>
    cases count with
    | zero => simp at h
    | succ n =>
      simp only [List.map_cons, List.cons_append, paths]
      rw [ih (by
        simp only [List.length_cons] at h
        rcases h with h | ⟨h, h'⟩
        · left; omega
        · right; exact ⟨by omega, h'⟩)]
      rfl

theorem look_ok (list : Option (List Bytes)) {k : Nat} {o : Bytes} (hp : ∀ l, list = some l → ∀ q ∈ l, Small q)
    (h : o.length + linkSpace list + 1800 < k) : look list ⟨k, o⟩ = some ⟨k, o ++ looks list⟩ ∧ (looks list).length ≤ linkSpace list + 1720 := by
  cases list with
  | some l =>
    simp only [linkSpace] at h ⊢
    have := links_len l
    rw [look, links_ok l (hp l rfl) (by omega)]
    exact ⟨rfl, by show (l.flatMap linked).length ≤ _; omega⟩
  | none =>
    simp only [linkSpace] at h ⊢
    rw [look, copy_ok (by rw [styles_len]; omega)]
    exact ⟨rfl, by show styles.length ≤ _; rw [styles_len]; omega⟩

theorem header_ok (x : Option Bytes) {k : Nat} {o : Bytes} (hs : Small (x.getD [])) (h : o.length + (x.getD []).length + 10 < k) :
    headerOut x ⟨k, o⟩ = some ⟨k, o ++ x.elim [] fun h => b!"  " ++ h ++ b!"\n"⟩ ∧
    (x.elim [] fun h => b!"  " ++ h ++ b!"\n").length ≤ (x.getD []).length + 3 := by
  unfold Small at hs
  cases x with
  | none => simp [headerOut]
  | some x =>
    simp only [Option.getD_some] at *
    rw [headerOut, emit_ok (by simp; omega) (by simp; omega)]
    exact ⟨rfl, by simp⟩

theorem footer_ok (x : Option Bytes) {k : Nat} {o : Bytes} (hs : Small (x.getD [])) (h : o.length + (x.getD []).length + 10 < k) :
    footerOut x ⟨k, o⟩ = some ⟨k, o ++ x.elim [] fun f => b!"\n" ++ f⟩ ∧
    (x.elim [] fun f => b!"\n" ++ f).length ≤ (x.getD []).length + 1 := by
  unfold Small at hs
  cases x with
  | none => simp [footerOut]
  | some x =>
    simp only [Option.getD_some] at *
    rw [footerOut, emit_ok (by simp; omega) (by simp; omega)]
    exact ⟨rfl, by simp⟩

theorem body_ok (p : Parts) (list : Option (List Bytes)) (content : Bytes) (ht : Small (p.title.getD b!"Document"))
    (hl : Small (p.language.getD b!"en")) (hh : Small (p.header.getD [])) (hf : Small (p.footer.getD []))
    (hp : ∀ l, list = some l → ∀ q ∈ l, Small q) :
    ∃ k, body p list content { cap := capacity p list content, out := [] } =
      some ⟨k, top (p.language.getD b!"en") (p.title.getD b!"Document") p.highlighter ++
        looks list ++ bottom p.highlighter p.header p.footer content⟩ := by
  have hk : capacity p list content = content.length + (p.title.getD b!"Document").length
    + linkSpace list
    + (if p.highlighter then 8000 else 0) + (p.header.getD []).length + (p.footer.getD []).length
    + (p.language.getD b!"en").length + 4096 + 1 := by rw [capacity, kept_eq]
  generalize capacity p list content = k at hk ⊢
  refine ⟨k, ?_⟩
  obtain ⟨title, sheets, count, hi, header, footer, language⟩ := p
  simp only [body, kept_eq] at *
  generalize title.getD b!"Document" = t at *
  generalize language.getD b!"en" = g at *
  have ht' : t.length < 2147483000 := ht
  have hl' : g.length < 2147483000 := hl
  rw [emit_ok (by simp only [List.length_append, List.length_cons, List.length_nil]; omega) (by simp only [List.length_append, List.length_cons, List.length_nil]; omega)]; simp only [Option.bind_eq_bind, Option.bind_some]
  rw [emit_ok (by simp only [List.length_append, List.length_cons, List.length_nil]; omega) (by simp only [List.length_append, List.length_cons, List.length_nil]; omega)]; simp only [Option.bind_some]
  rw [emit_ok (by simp only [List.length_append, List.length_cons, List.length_nil]; omega) (by simp only [List.length_append, List.length_cons, List.length_nil]; omega)]; simp only [Option.bind_some]
  rw [emit_ok (by simp only [List.length_append, List.length_cons, List.length_nil]; omega) (by simp only [List.length_append, List.length_cons, List.length_nil]; omega)]; simp only [Option.bind_some]
  rw [emit_ok (by simp only [List.length_append, List.length_cons, List.length_nil]; omega) (by simp only [List.length_append, List.length_cons, List.length_nil]; omega)]; simp only [Option.bind_some]
  rw [syntax_ok hi (by simp only [List.length_append, List.length_cons, List.length_nil]; omega)]; simp only [Option.bind_some]
  have hr : (if hi then rules else []).length ≤ (if hi then 8000 else 0) := by
    cases hi <;> simp [rules_len]
  have hcl : (if hi then b!" class=\"code-highlighted\"" else []).length ≤ 30 := by cases hi <;> decide
  have htop : [] ++ (b!"<!DOCTYPE html>\n<html lang=\"" ++ g ++ b!"\">\n<head>\n") ++ b!"  <meta charset=\"UTF-8\">\n" ++
      b!"  <meta name=\"viewport\" content=\"width=device-width, initial-scale=1.0\">\n" ++ b!"  <meta name=\"generator\" content=\"Apex 0.1.85\">\n" ++
      (b!"  <title>" ++ t ++ b!"</title>\n") ++ (if hi then rules else []) = top g t hi := by simp only [top, List.append_assoc, List.nil_append]
  have htl : (top g t hi).length ≤ g.length + t.length + (if hi then 8000 else 0) + 300 := by rw [← htop]; simp only [List.length_append, List.length_cons, List.length_nil]; omega
  rw [htop]
  obtain ⟨l1, l2⟩ := look_ok list (k := k) (o := top g t hi) hp (by omega)
  rw [l1]; simp only [Option.bind_some]
  obtain ⟨h1, h2⟩ := header_ok header (k := k) (o := top g t hi ++ looks list) hh (by simp; omega)
  rw [h1]; simp only [Option.bind_some]
  generalize hH : (header.elim [] fun h => b!"  " ++ h ++ b!"\n") = H at *
  rw [emit_ok (by simp; omega) (by simp; omega)]; simp only [Option.bind_some]
  rw [copy_ok (by simp; omega)]; simp only [Option.bind_some]
  generalize hB : b!"</head>\n<body" ++ (if hi then b!" class=\"code-highlighted\"" else []) ++ b!">\n\n" = B at *
  have hBl : B.length ≤ 60 := by rw [← hB]; simp; omega
  obtain ⟨f1, f2⟩ := footer_ok footer (k := k) (o := top g t hi ++ looks list ++ H ++ B ++ content) hf (by simp; omega)
  rw [f1]; simp only [Option.bind_some]
  have hbot : bottom hi header footer content = H ++ B ++ content ++ (footer.elim [] fun f => b!"\n" ++ f) ++ b!"\n</body>\n</html>\n" := by
    rw [bottom, ← hB, ← hH]
    cases hi <;> simp
  rw [hbot]
  generalize (footer.elim [] fun f => b!"\n" ++ f) = F at *
  rw [emit_ok (by simp) (by simp; omega)]; simp only [Option.bind_some]
  rw [if_pos (by simp; omega)]
  simp

theorem wrap_ok (p : Parts) (list : Option (List Bytes)) (content : Bytes) (hlist : p.list = .val list) (ht : Small (p.title.getD b!"Document"))
    (hl : Small (p.language.getD b!"en")) (hh : Small (p.header.getD [])) (hf : Small (p.footer.getD []))
    (hp : ∀ l, list = some l → ∀ q ∈ l, Small q) :
    wrap p content = .val (top (p.language.getD b!"en") (p.title.getD b!"Document") p.highlighter ++
        looks list ++ bottom p.highlighter p.header p.footer content) := by
  rw [wrap, hlist]
  obtain ⟨k, h⟩ := body_ok p list content ht hl hh hf hp
  show (match body p list content { cap := capacity p list content, out := [] } with
    | some b => C.val b.out
    | none => .val content) = _
  rw [h]

end Verif.Standalone
