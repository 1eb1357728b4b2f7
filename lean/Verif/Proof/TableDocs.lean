/- Proofs about documents with captions of tables. -/
import Verif.Proof.TableCaptions

namespace Verif.TableCaptions

open Spec (Blank Line Eol Fence Attr Split bracketed Trimmed Starts Unmarked First More Caption Block lines blanks source result Ok)

/-! ### What is written -/

/-- What the loop writes. -/
def emit : Nat → St → Bytes → Bytes
  | 0, _, _ => []
  | n + 1, st, s =>
    if s = [] then []
    else (line st (s.takeWhile inLine) (s.dropWhile inLine ≠ [])).1 ++
      emit n (line st (s.takeWhile inLine) (s.dropWhile inLine ≠ [])).2 (next (s.dropWhile inLine))

theorem loop_emit {cap n : Nat} {st : St} {out s r : Bytes} (h : loop cap n st out s = .val r) : r = out ++ emit n st s := by
  induction n generalizing st out s with
  | zero => cases h
  | succ n ih =>
    rw [loop] at h
    rw [emit]
    split at h
    · rename_i hs
      cases h
      rw [if_pos hs, List.append_nil]
    · rename_i hs
      rw [if_neg hs]
      simp only at h
      unfold puts at h
      split at h
      · simp only [C.val_bind] at h
        rw [ih h]
        simp
      · cases h

/-- What is written for a text, for every fuel that is enough. -/
def Emits (st : St) (s o : Bytes) : Prop := ∀ n, s.length < n → emit n st s = o

theorem emits_nil (st : St) : Emits st [] [] := by
  intro n hn
  cases n with
  | zero => omega
  | succ n => rw [emit, if_pos rfl]

theorem emits_line {st st' : St} {l rest q o : Bytes} (hl : Line l) (h : line st l true = (q, st')) (hr : Emits st' rest o) :
    Emits st (l ++ b!"\n" ++ rest) (q ++ o) := by
  intro n hn
  cases n with
  | zero => omega
  | succ n =>
    have hin : ∀ c ∈ l, inLine c = true := by
      intro c hc
      simp only [inLine, Bool.and_eq_true, bne_iff_ne, ne_eq]
      exact ⟨fun e => hl.1 (e ▸ hc), fun e => hl.2 (e ▸ hc)⟩
    have e1 : (l ++ b!"\n" ++ rest).takeWhile inLine = l := by
      rw [List.append_assoc]
      have := EmojiHtml.takeWhile_split (x := l) (z := []) rest hin c!"\n" (by decide)
      simpa using this
    have e2 : (l ++ b!"\n" ++ rest).dropWhile inLine = c!"\n" :: rest := by
      rw [List.append_assoc]
      exact EmojiHtml.dropWhile_pre hin (by simp; decide)
    rw [emit, if_neg (by simp), e1, e2]
    have : (decide (c!"\n" :: rest ≠ [])) = true := by simp
    rw [this, h]
    simp only
    rw [show next (c!"\n" :: rest) = rest by simp [next], hr n (by simp at hn; omega)]

theorem lines_cons (l : Bytes) (ls : List Bytes) : lines (l :: ls) = l ++ b!"\n" ++ lines ls := rfl

theorem lines_append (a b : List Bytes) : lines (a ++ b) = lines a ++ lines b := by simp [lines]

/-- A state that a line leaves as it is. -/
theorem emits_lines {st : St} {ls : List Bytes} {rest o : Bytes} (h : ∀ l ∈ ls, Line l ∧ line st l true = (l ++ b!"\n", st)) (hr : Emits st rest o) :
    Emits st (lines ls ++ rest) (lines ls ++ o) := by
  induction ls with
  | nil => simpa [lines] using hr
  | cons l ls ih =>
    have := emits_line (h l (by simp)).1 (h l (by simp)).2 (ih fun l hl => h l (by simp [hl]))
    rw [lines_cons]
    simpa using this

/-! ### Single lines -/

theorem starts_iff {w l : Bytes} (hw : ∀ c, w.head? = some c → blank c = false) (hne : w ≠ []) : Starts w l ↔ w <+: l.dropWhile blank := by
  have hsp := List.takeWhile_append_dropWhile (p := blank) (l := l)
  constructor
  · rintro ⟨ws, t, hws, rfl⟩
    rw [List.append_assoc, EmojiHtml.dropWhile_pre ((blank_iff _).1 hws) ?_]
    · exact List.prefix_append _ _
    · intro c hc
      cases w with
      | nil => exact absurd rfl hne
      | cons x w => exact hw c (by simpa using hc)
  · rintro ⟨t, ht⟩
    exact ⟨l.takeWhile blank, t, (blank_iff _).2 fun c hc => List.all_eq_true.1 List.all_takeWhile c hc, by rw [List.append_assoc, ht, hsp]⟩

theorem visible_iff (l : Bytes) : l.dropWhile blank = [] ↔ Blank l := by
  constructor
  · exact dropWhile_blank
  · intro h
    have := EmojiHtml.dropWhile_pre (y := []) ((blank_iff _).1 h) (by simp)
    simpa using this

theorem head_iff (l : Bytes) : (l.dropWhile blank).head? = some c!"[" ↔ Starts b!"[" l := by
  rw [starts_iff (by simp; decide) (by simp)]
  cases l.dropWhile blank with
  | nil => simp
  | cons x t => simp [eq_comm]

theorem marked_iff (l : Bytes) : marked (l.dropWhile blank) = true ↔ Starts b!"Table:" l ∨ Starts b!"table:" l := by
  rw [starts_iff (by simp; decide) (by simp), starts_iff (by simp; decide) (by simp)]
  unfold marked
  rw [Bool.or_eq_true, List.isPrefixOf_iff_prefix, List.isPrefixOf_iff_prefix]

theorem colon_iff (l : Bytes) : colonHead (l.dropWhile blank) = true ↔ Starts b!": " l ∨ Starts b!":\t" l := by
  rw [starts_iff (by simp; decide) (by simp), starts_iff (by simp; decide) (by simp)]
  match l.dropWhile blank with
  | [] => simp [colonHead]
  | [x] => simp [colonHead]
  | x :: y :: t =>
    simp only [colonHead, blank, Bool.and_eq_true, Bool.or_eq_true, beq_iff_eq, List.cons_prefix_cons, List.nil_prefix, and_true]
    constructor
    · rintro ⟨rfl, rfl | rfl⟩ <;> simp
    · rintro (⟨rfl, rfl⟩ | ⟨rfl, rfl⟩) <;> simp

theorem unmarked_any {l : Bytes} (h : Unmarked l) : anywhere (l.dropWhile blank) = false := by
  rw [Bool.eq_false_iff]
  intro ha
  unfold anywhere at ha
  rw [Bool.or_eq_true] at ha
  rcases ha with ha | ha
  · have := find_anywhere (by decide) ha
    cases hf : Embed.find b!"Table:" l with
    | none => rw [hf] at this; cases this
    | some r => exact h.1 ⟨r.1, r.2, (Embed.find_some hf).symm⟩
  · have := find_anywhere (by decide) ha
    cases hf : Embed.find b!"table:" l with
    | none => rw [hf] at this; cases this
    | some r => exact h.2 ⟨r.1, r.2, (Embed.find_some hf).symm⟩

theorem unmarked_marked {l : Bytes} (h : Unmarked l) : marked (l.dropWhile blank) = false := by
  rw [Bool.eq_false_iff]
  intro hm
  have := unmarked_any h
  rw [anywhere_of_marked hm] at this
  cases this

/-- Nothing is going on. -/
def clean : St := ⟨false, false, false, false, false⟩

/-- Behind a row. -/
def rowSt : St := ⟨true, false, false, false, true⟩

theorem first_line {st : St} {l : Bytes} (hst : st.code = false) (h : First l) :
    line st l true = ((if st.buf then b!"\n" else []) ++ l ++ b!"\n", if c!"|" ∈ l then rowSt else clean) := by
  have hf : fence (l.dropWhile blank) = false := by rw [Bool.eq_false_iff]; exact fun hh => h.fence ((fence_iff l).1 hh)
  have hc : colonHead (l.dropWhile blank) = false := by
    rw [Bool.eq_false_iff]
    intro hh
    rcases (colon_iff l).1 hh with hh | hh
    · exact h.colon.1 hh
    · exact h.colon.2 hh
  have hv : l.dropWhile blank ≠ [] := fun hh => h.visible ((visible_iff l).1 hh)
  have hb : (l.dropWhile blank).head? ≠ some c!"[" := fun hh => h.bracket ((head_iff l).1 hh)
  have hi : info st l = ⟨false, l.contains c!"|", false, false, false, false⟩ := by
    simp [info, hf, hst, hc, hv, hb, unmarked_any h.marker, unmarked_marked h.marker]
  simp only [line, hi, Bool.and_false, Bool.false_and, Bool.false_eq_true, if_false, Bool.not_false, Bool.and_true, eol, if_true]
  congr 1
  by_cases hm : c!"|" ∈ l
  · simp [after, hm, rowSt]
  · simp [after, hm, clean]

theorem more_line {l : Bytes} (h : More l) : line clean l true = (l ++ b!"\n", clean) := by
  have hf : fence (l.dropWhile blank) = false := by rw [Bool.eq_false_iff]; exact fun hh => h.fence ((fence_iff l).1 hh)
  have hv : l.dropWhile blank ≠ [] := fun hh => h.visible ((visible_iff l).1 hh)
  have hm : marked (l.dropWhile blank) = false := by
    rw [Bool.eq_false_iff]
    intro hh
    rcases (marked_iff l).1 hh with hh | hh
    · exact h.marker.1 hh
    · exact h.marker.2 hh
  have hi : info clean l = ⟨false, false, false, decide ((l.dropWhile blank).head? = some c!"["), false, false⟩ := by
    simp [info, hf, hv, hm, clean, h.bar]
  have h1 : clean.row = false := rfl
  have h2 : clean.buf = false := rfl
  simp only [line, hi, h1, h2, Bool.false_and, Bool.false_eq_true, if_false, eol, if_true, List.nil_append]
  congr 1
  cases decide ((l.dropWhile blank).head? = some c!"[") <;> rfl

theorem open_line {st : St} {f : Bytes} (hst : st.code = false) (h : Fence f) :
    line st f true = ((if st.buf then b!"\n" else []) ++ f ++ b!"\n", { st with buf := false, code := true }) := by
  have hi : info st f = ⟨true, false, false, false, false, false⟩ := by simp [info, (fence_iff f).2 h, hst]
  simp only [line, hi, Bool.and_false, Bool.false_and, Bool.false_eq_true, if_false, Bool.not_false, Bool.and_true, eol, if_true]
  congr 1

theorem code_line {st : St} {l : Bytes} (hst : st.code = true) (hb : st.buf = false) (h : ¬ Fence l) : line st l true = (l ++ b!"\n", st) := by
  have hf : fence (l.dropWhile blank) = false := by rw [Bool.eq_false_iff]; exact fun hh => h ((fence_iff l).1 hh)
  have hi : info st l = ⟨true, false, false, false, false, false⟩ := by simp [info, hf, hst]
  simp only [line, hi, hb, Bool.and_false, Bool.false_and, Bool.false_eq_true, if_false, eol, if_true, List.nil_append]
  congr 1
  unfold after
  obtain ⟨a, b, c, d, e⟩ := st
  simp at hst hb
  simp [hst, hb]

theorem close_fence {st : St} {f : Bytes} (hst : st.code = true) (hb : st.buf = false) (h : Fence f) (hbar : c!"|" ∉ f) (hm : Unmarked f) :
    line st f true = (f ++ b!"\n", clean) := by
  have hf := (fence_iff f).2 h
  have hh : ∃ x t, f.dropWhile blank = x :: t ∧ (x = c!"`" ∨ x = c!"~") := by
    unfold fence at hf
    cases hd : f.dropWhile blank with
    | nil => rw [hd] at hf; cases hf
    | cons x t =>
      rw [hd] at hf
      simp at hf
      refine ⟨x, t, rfl, ?_⟩
      rcases hf with hf | hf
      · exact Or.inl hf.1.symm
      · exact Or.inr hf.1.symm
  obtain ⟨x, t, hx, hxx⟩ := hh
  have hxb : x ≠ c!"[" := by rcases hxx with rfl | rfl <;> decide
  have hxc : colonHead (x :: t) = false := by
    cases t with
    | nil => rfl
    | cons y t => rcases hxx with rfl | rfl <;> rfl
  have ha := unmarked_any hm
  have hk := unmarked_marked hm
  rw [hx] at ha hk hf
  have hi : info st f = ⟨false, false, false, false, false, false⟩ := by
    simp [info, hx, hf, hst, hxb, ha, hk, hxc, hbar]
  simp only [line, hi, hb, Bool.and_false, Bool.false_and, Bool.false_eq_true, if_false, eol, if_true, List.nil_append]
  congr 1

theorem empty_clean : line clean [] true = (b!"\n", ⟨false, true, false, false, false⟩) := by decide

theorem empty_near {st : St} (hc : st.code = false) (h : (st.row || st.blank || st.sect) = true) :
    line st [] true = ([], { st with blank := true, buf := true, sect := true }) := by
  obtain ⟨a, b, c, d, e⟩ := st
  simp at hc
  subst hc
  revert a b d e
  decide

theorem emits_blanks {st : St} {rest o : Bytes} (hc : st.code = false) (h : (st.row || st.blank || st.sect) = true) (n : Nat)
    (hr : Emits { st with blank := true, buf := true, sect := true } rest o) : Emits st (blanks (n + 1) ++ rest) o := by
  induction n generalizing st with
  | zero =>
    have := emits_line (l := []) (by simp [Line]) (empty_near hc h) hr
    simpa [blanks] using this
  | succ n ih =>
    have := emits_line (l := []) (by simp [Line]) (empty_near hc h) (ih (st := { st with blank := true, buf := true, sect := true }) hc (by simp) hr)
    have e : blanks (n + 1 + 1) ++ rest = [] ++ b!"\n" ++ (blanks (n + 1) ++ rest) := by simp [blanks, List.replicate_succ]
    rw [e]
    simpa using this

/-! ### Captions -/

theorem split_unique {s f a f' a' : Bytes} (h : Split s f a) (h' : Split s f' a') : f = f' := by
  have key : ∀ {f a f' a' w : Bytes}, Split s f a → Split s f' a' → w ≠ [] → f' = f ++ w → a = w ++ a' → False := by
    intro f a f' a' w h h' hw e1 e2
    rcases h.2 with ⟨h1, _⟩ | ⟨h1, h2⟩
    · rw [h1] at e2
      simp at e2
      exact hw e2.1
    · rcases h'.2 with ⟨_, h3⟩ | ⟨h3, _⟩
      · exact h3 f a h.1 h1
      · exact h2 w a' e2 hw h3
  have e := h.1.symm.trans h'.1
  rcases List.append_eq_append_iff.1 e with ⟨w, e1, e2⟩ | ⟨w, e1, e2⟩
  · by_cases hw : w = []
    · rw [e1, hw, List.append_nil]
    · exact (key h h' hw e1 e2).elim
  · by_cases hw : w = []
    · rw [e1, hw, List.append_nil]
    · exact (key h' h hw e1 e2).elim

theorem front_eq {s f a : Bytes} (h : Split s f a) : front s = f := by
  obtain ⟨attr, _, h'⟩ := front_split s
  exact split_unique h' h

theorem dropEnd_eq {p : Byte → Bool} {x w : Bytes} (hw : ∀ c ∈ w, p c = true) (hx : ∀ c, x.getLast? = some c → p c = false) : dropEnd p (x ++ w) = x := by
  unfold dropEnd
  rw [List.reverse_append, EmojiHtml.dropWhile_pre (fun c hc => hw c (List.mem_reverse.1 hc)) (fun c hc => hx c (by rwa [List.head?_reverse] at hc)), List.reverse_reverse]

theorem find_here {w s : Bytes} (hw : w ≠ []) : Embed.find w (w ++ s) = some ([], s) := by
  cases h : w ++ s with
  | nil => simp at h; exact absurd h.1 hw
  | cons c t =>
    rw [Embed.find, ← h, if_pos (List.prefix_append _ _), List.drop_left]

theorem caption_line {st : St} {c : Caption} (hst : st.code = false) (hr : st.row = true) (h : c.Ok) :
    ∃ st', line st c.source true = (b!"\n" ++ c.result ++ b!"\n", st') ∧ st'.code = false ∧ st'.row = true := by
  obtain ⟨hl, h⟩ := h
  have hafter : ∀ (st1 : St) (i : Info), i.code = false → st1.row = true → i.bracket || i.pandoc || i.colon → (after st1 i).code = false ∧ (after st1 i).row = true := by
    intro st1 i h1 h2 h3
    refine ⟨by rw [after_code, h1], ?_⟩
    unfold after
    rw [h1, h3]
    simp only [Bool.false_eq_true, if_false, if_true]
    repeat' split
    all_goals first | rfl | exact h2
  cases c with
  | bracket l =>
    have hh := (head_iff l).2 h
    have hf : fence (l.dropWhile blank) = false := by
      cases hd : l.dropWhile blank with
      | nil => rfl
      | cons x t =>
        rw [hd] at hh
        simp at hh
        subst hh
        rfl
    have h1 : (info st l).bracket = true := by simp [info, hf, hst, hh]
    have h0 : (info st l).code = false := by simp [info, hf, hst]
    refine ⟨after st (info st l), ?_, hafter _ _ h0 hr (by simp [h1])⟩
    simp only [Caption.source, Caption.result, line, hr, h1, Bool.and_true, if_true, eol]
  | marker m ws cap ws' attr =>
    obtain ⟨hm, hws, hws', hcap, htr, hsp⟩ := h
    simp only [Caption.source] at hl hm ⊢
    -- the text behind the marker
    generalize hs : ws ++ cap ++ ws' ++ attr = s
    have hsrc : m ++ ws ++ cap ++ ws' ++ attr = m ++ s := by rw [← hs]; simp
    rw [hsrc] at hl hm ⊢
    have hm' : m = b!"Table:" ∨ m = b!"table:" := hm.imp_right And.left
    have hd : (m ++ s).dropWhile blank = m ++ s := by
      apply FencedDivs.dropWhile_head
      rcases hm' with rfl | rfl <;> (simp; decide)
    have hmk : marked (m ++ s) = true := by
      unfold marked
      rw [Bool.or_eq_true, List.isPrefixOf_iff_prefix, List.isPrefixOf_iff_prefix]
      rcases hm' with rfl | rfl
      · exact Or.inl (List.prefix_append _ _)
      · exact Or.inr (List.prefix_append _ _)
    have hf : fence (m ++ s) = false := by rcases hm' with rfl | rfl <;> rfl
    have hb : (m ++ s).head? ≠ some c!"[" := by rcases hm' with rfl | rfl <;> simp
    have hne : m ++ s ≠ [] := by rcases hm' with rfl | rfl <;> simp
    have h0 : (info st (m ++ s)).code = false := by simp [info, hd, hf, hst]
    have h1 : (info st (m ++ s)).bracket = false := by simp only [info, hd, hb, decide_false, Bool.and_false]
    have h2 : (info st (m ++ s)).pandoc = true := by
      simp only [info, hd, hf, hst, hmk]
      simp [hne]
      rcases hm' with rfl | rfl <;> simp
    have hspl : split (m ++ s) (m ++ s) = ([], s) := by
      unfold split
      rcases hm with rfl | ⟨rfl, hno⟩
      · rw [find_here (by decide)]
      · rw [(Embed.find_none (by decide)).2 hno]
        simp only
        rw [find_here (by decide)]
    have hdw : s.dropWhile blank = cap ++ ws' ++ attr := by
      rw [← hs, List.append_assoc, List.append_assoc, EmojiHtml.dropWhile_pre ((blank_iff _).1 hws) ?_, ← List.append_assoc]
      intro c hc
      cases cap with
      | nil => exact absurd rfl hcap
      | cons x t => exact htr.1 c (by simpa using hc)
    have hpc : pandoc s = cap := by
      unfold pandoc
      rw [hdw, front_eq hsp]
      refine dropEnd_eq (fun c hc => by rw [(blank_iff _).1 hws' c hc]; rfl) ?_
      intro c hc
      have h1 := htr.2 c hc
      have h2 : c ≠ c!"\r" := by
        rintro rfl
        refine hl.2 ?_
        rw [← hs]
        have := List.mem_of_getLast? hc
        simp [this]
      simp only [Bool.or_eq_false_iff]
      exact ⟨h1, by simpa using h2⟩
    have hpl : pandocLine [] s = b!"\n" ++ bracketed cap attr := by
      unfold pandocLine bracketed
      rw [hpc, hdw, List.append_assoc cap, List.drop_left, attributes_eq hsp fun c hc => space_of_blank ((blank_iff _).1 hws' c hc)]
      simp
    refine ⟨after { st with buf := false, sect := false } (info st (m ++ s)), ?_, hafter _ _ h0 hr (by simp [h2])⟩
    simp only [line, hr, h1, h2, hd, hspl, hpc, hpl, hcap, Bool.and_false, Bool.false_eq_true, if_false, if_true, ne_eq, not_false_eq_true, eol, Caption.result]
  | colon ws d ws1 cap ws2 attr =>
    obtain ⟨hws, hd, hws1, hws2, htr, hsp, hun⟩ := h
    simp only [Caption.source] at hl hun ⊢
    generalize hs : ws1 ++ cap ++ ws2 ++ attr = s
    have hsrc : ws ++ c!":" :: d :: ws1 ++ cap ++ ws2 ++ attr = ws ++ c!":" :: d :: s := by rw [← hs]; simp
    rw [hsrc] at hl hun ⊢
    have hdw : (ws ++ c!":" :: d :: s).dropWhile blank = c!":" :: d :: s := EmojiHtml.dropWhile_pre ((blank_iff _).1 hws) (by simp; decide)
    have ha := unmarked_any hun
    have hmk := unmarked_marked hun
    rw [hdw] at ha hmk
    have hf : fence (c!":" :: d :: s) = false := rfl
    have hch : colonHead (c!":" :: d :: s) = true := by simpa [colonHead, blank] using hd
    have h0 : (info st (ws ++ c!":" :: d :: s)).code = false := by simp [info, hdw, hf, hst]
    have h1 : (info st (ws ++ c!":" :: d :: s)).bracket = false := by simp only [info, hdw]; simp
    have h2 : (info st (ws ++ c!":" :: d :: s)).pandoc = false := by simp only [info, hdw, hmk, ha]; simp
    have h3 : (info st (ws ++ c!":" :: d :: s)).colon = true := by simp [info, hdw, hmk, hf, hst, hr, hch]
    have hfr : front s = ws1 ++ cap ++ ws2 := front_eq (hs ▸ hsp)
    have hcl : colon s = cap := by
      unfold colon
      rw [hfr]
      by_cases hcap : cap = []
      · subst hcap
        have : (ws1 ++ [] ++ ws2).dropWhile isSpace = [] := by
          have := EmojiHtml.dropWhile_pre (x := ws1 ++ [] ++ ws2) (y := []) (p := isSpace) (by
            intro c hc
            simp at hc
            exact hc.elim (hws1 c) (hws2 c)) (by simp)
          simpa using this
        rw [this]
        rfl
      · rw [List.append_assoc, EmojiHtml.dropWhile_pre hws1 ?_]
        · exact dropEnd_eq hws2 htr.2
        · intro c hc
          cases cap with
          | nil => exact absurd rfl hcap
          | cons x t => exact htr.1 c (by simpa using hc)
    have hcll : colonLine s = b!"\n" ++ bracketed cap attr := by
      unfold colonLine bracketed
      rw [hcl, hfr]
      by_cases hcap : cap = []
      · subst hcap
        have e1 : (ws1 ++ [] ++ ws2).takeWhile isSpace = ws1 ++ ws2 := by
          rw [List.append_nil]
          have hall := EmojiHtml.dropWhile_pre (x := ws1 ++ ws2) (y := []) (p := isSpace) (fun c hc => (List.mem_append.1 hc).elim (hws1 c) (hws2 c)) (by simp)
          have := List.takeWhile_append_dropWhile (p := isSpace) (l := ws1 ++ ws2)
          rw [List.append_nil] at hall
          rw [hall, List.append_nil] at this
          exact this
        rw [e1]
        have : s.drop ((ws1 ++ ws2).length + ([] : Bytes).length) = [] ++ attr := by
          rw [← hs]
          simp only [List.append_nil, List.length_nil, Nat.add_zero, List.drop_left, List.nil_append]
        rw [this, attributes_eq hsp (by simp)]
        simp
      · have e1 : (ws1 ++ cap ++ ws2).takeWhile isSpace = ws1 := by
          cases cap with
          | nil => exact absurd rfl hcap
          | cons x t =>
            have := EmojiHtml.takeWhile_split (z := ws2) t hws1 x (htr.1 x rfl)
            simpa using this
        rw [e1]
        have : s.drop (ws1.length + cap.length) = ws2 ++ attr := by
          rw [← hs, ← List.length_append, List.append_assoc, List.drop_left]
        rw [this, attributes_eq hsp hws2]
        simp
    refine ⟨after { st with buf := false, sect := true } (info st (ws ++ c!":" :: d :: s)), ?_, hafter _ _ h0 hr (by simp [h3])⟩
    simp only [line, hr, h1, h2, h3, hdw, Bool.and_false, Bool.and_true, Bool.false_eq_true, if_false, if_true, eol, Caption.result, List.drop_succ_cons, List.drop_zero, hcll]

/-! ### Documents -/

/-- The blank line that is kept back. -/
def held (st : St) : Bytes := if st.buf then b!"\n" else []

theorem emits_table {st : St} {row : Bytes} {rows : List Bytes} {rest o : Bytes} (hc : st.code = false) (h : ∀ l ∈ row :: rows, First l ∧ c!"|" ∈ l)
    (hr : Emits rowSt rest o) : Emits st (lines (row :: rows) ++ rest) (held st ++ lines (row :: rows) ++ o) := by
  have h1 := first_line (st := st) hc (h row (by simp)).1
  rw [if_pos (h row (by simp)).2] at h1
  have h2 : Emits rowSt (lines rows ++ rest) (lines rows ++ o) := by
    refine emits_lines (fun l hl => ⟨(h l (by simp [hl])).1.line, ?_⟩) hr
    have := first_line (st := rowSt) rfl (h l (by simp [hl])).1
    rw [if_pos (h l (by simp [hl])).2] at this
    simpa [rowSt] using this
  have := emits_line (h row (by simp)).1.line h1 h2
  rw [lines_cons]
  simpa [held] using this

theorem emits_block {st : St} {b : Block} (hc : st.code = false) (h : b.Ok) :
    ∃ st', (∀ rest o, Emits st' rest o → Emits st (b.source ++ rest) (held st ++ b.result ++ o)) ∧ st'.code = false ∧
      match b with | .table .. => st'.row = true | _ => st' = clean := by
  cases b with
  | para first more =>
    obtain ⟨h1, h2, h3⟩ := h
    refine ⟨clean, fun rest o hr => ?_, rfl, rfl⟩
    have hf := first_line (st := st) hc h1
    rw [if_neg h2] at hf
    have := emits_line h1.line hf (emits_lines (fun l hl => ⟨(h3 l hl).line, more_line (h3 l hl)⟩) hr)
    simp only [Block.source, Block.result]
    rw [lines_cons]
    simpa [held] using this
  | code f ls f' =>
    obtain ⟨h1, h2, h3, h4, h5, h6, h7⟩ := h
    refine ⟨clean, fun rest o hr => ?_, rfl, rfl⟩
    have hcl := emits_line h4 (close_fence (st := { st with buf := false, code := true }) rfl rfl h5 h6 h7) hr
    have hin := emits_lines (st := { st with buf := false, code := true }) (ls := ls) (fun l hl => ⟨(h3 l hl).1, code_line rfl rfl (h3 l hl).2⟩) hcl
    have := emits_line h1 (open_line hc h2) hin
    simp only [Block.source, Block.result]
    rw [List.cons_append, lines_cons, lines_append]
    simpa [held, lines] using this
  | table row rows cap =>
    obtain ⟨h1, h2⟩ := h
    cases cap with
    | none =>
      exact ⟨rowSt, fun rest o hr => emits_table hc h1 hr, rfl, rfl⟩
    | some p =>
      obtain ⟨g, c⟩ := p
      have hok := h2 g c rfl
      -- the state in front of the caption
      obtain ⟨st1, hb, hc1, hr1⟩ : ∃ st1 : St, (∀ rest o, Emits st1 rest o → Emits rowSt (blanks g ++ rest) o) ∧ st1.code = false ∧ st1.row = true := by
        cases g with
        | zero => exact ⟨rowSt, fun rest o hr => by simpa [blanks] using hr, rfl, rfl⟩
        | succ g => exact ⟨{ rowSt with blank := true, buf := true, sect := true }, fun rest o hr => emits_blanks rfl rfl g hr, rfl, rfl⟩
      obtain ⟨st', hl, hc2, hr2⟩ := caption_line hc1 hr1 hok
      refine ⟨st', fun rest o hr => ?_, hc2, hr2⟩
      have := emits_table (rest := blanks g ++ (c.source ++ b!"\n" ++ rest)) hc h1 (hb _ _ (emits_line hok.1 hl hr))
      simp only [Block.source, Block.result]
      simpa using this

theorem emits_doc (d : List (Block × Nat)) (h : Ok d) : ∀ st : St, st.code = false →
    Emits st (source d) ((if d = [] then [] else held st) ++ result d) := by
  induction d with
  | nil => intro st _; simpa [source, result] using emits_nil st
  | cons p rest ih =>
    obtain ⟨b, n⟩ := p
    obtain ⟨h1, h2, h3⟩ := h
    have ih := ih h3
    intro st hc
    obtain ⟨st', hb, hc', hst'⟩ := emits_block hc h1
    have hsrc : source ((b, n) :: rest) = b.source ++ (blanks n ++ source rest) := by simp [source]
    have hres : result ((b, n) :: rest) = b.result ++ (blanks (b.left n rest.isEmpty) ++ result rest) := by simp [result]
    rw [hsrc, hres, if_neg (by simp), ← List.append_assoc (held st)]
    refine hb _ _ ?_
    -- the blank lines
    have near : ∀ st2 : St, st2.code = false → (st2.row || st2.blank || st2.sect) = true → ∀ k, (k = 0 → rest = [] ∨ st2.buf = false) →
        Emits st2 (blanks k ++ source rest) (blanks (if rest = [] then 0 else min k 1) ++ result rest) := by
      intro st2 h1 h2 k hk
      cases k with
      | zero =>
        have := ih st2 h1
        rcases hk rfl with rfl | hk
        · simpa [blanks] using this
        · simpa [blanks, held, hk] using this
      | succ k =>
        refine emits_blanks h1 h2 k ?_
        have := ih { st2 with blank := true, buf := true, sect := true } h1
        by_cases hr : rest = []
        · subst hr; simpa [blanks] using this
        · simpa [blanks, hr, held] using this
    cases b with
    | table row rows cap =>
      have := near st' hc' (by simp only at hst'; simp [hst']) n (fun h0 => by rcases h2 with h2 | h2; exact Or.inl h2; omega)
      have e : (Block.table row rows cap).left n rest.isEmpty = if rest = [] then 0 else min n 1 := by
        unfold Block.left
        cases rest <;> simp
      rw [e]
      exact this
    | para first more =>
      simp only at hst'
      subst hst'
      cases n with
      | zero =>
        have hr : rest = [] := by rcases h2 with h2 | h2; exact h2; omega
        subst hr
        simpa [blanks, source, result, Block.left] using emits_nil clean
      | succ n =>
        have := emits_line (l := []) (by simp [Line]) empty_clean (near ⟨false, true, false, false, false⟩ rfl rfl n (fun _ => Or.inr rfl))
        have e1 : blanks (n + 1) ++ source rest = [] ++ b!"\n" ++ (blanks n ++ source rest) := by simp [blanks, List.replicate_succ]
        have e2 : blanks ((Block.para first more).left (n + 1) rest.isEmpty) = b!"\n" ++ blanks (if rest = [] then 0 else min n 1) := by
          unfold Block.left
          cases rest with
          | nil => simp [blanks]
          | cons q rest =>
            have : min (n + 1) 2 = min n 1 + 1 := by omega
            simp [blanks, this, List.replicate_succ]
        rw [e1, e2, List.append_assoc]
        exact this
    | code f ls f' =>
      simp only at hst'
      subst hst'
      cases n with
      | zero =>
        have hr : rest = [] := by rcases h2 with h2 | h2; exact h2; omega
        subst hr
        simpa [blanks, source, result, Block.left] using emits_nil clean
      | succ n =>
        have := emits_line (l := []) (by simp [Line]) empty_clean (near ⟨false, true, false, false, false⟩ rfl rfl n (fun _ => Or.inr rfl))
        have e1 : blanks (n + 1) ++ source rest = [] ++ b!"\n" ++ (blanks n ++ source rest) := by simp [blanks, List.replicate_succ]
        have e2 : blanks ((Block.code f ls f').left (n + 1) rest.isEmpty) = b!"\n" ++ blanks (if rest = [] then 0 else min n 1) := by
          unfold Block.left
          cases rest with
          | nil => simp [blanks]
          | cons q rest =>
            have : min (n + 1) 2 = min n 1 + 1 := by omega
            simp [blanks, this, List.replicate_succ]
        rw [e1, e2, List.append_assoc]
        exact this

theorem lines_last (l : Bytes) (ls : List Bytes) : (lines (l :: ls)).getLast? = some c!"\n" := by
  induction ls generalizing l with
  | nil => rw [lines_cons]; simp only [lines, List.map_nil, List.flatten_nil, List.append_nil]; exact List.getLast?_concat
  | cons x ls ih =>
    rw [lines_cons, getLast_append]
    · exact ih x
    · intro h
      have := ih x
      rw [h] at this
      cases this

theorem block_last (b : Block) : b.result.getLast? = some c!"\n" := by
  cases b with
  | para first more => exact lines_last _ _
  | code f ls f' => exact lines_last _ _
  | table row rows cap =>
    cases cap with
    | none => exact lines_last _ _
    | some p =>
      obtain ⟨g, c⟩ := p
      exact List.getLast?_concat

theorem result_last (d : List (Block × Nat)) : result d = [] ∨ (result d).getLast? = some c!"\n" := by
  induction d with
  | nil => exact Or.inl rfl
  | cons p rest ih =>
    obtain ⟨b, n⟩ := p
    right
    rw [result]
    rcases ih with h | h
    · rw [h, List.append_nil]
      generalize b.left n rest.isEmpty = k
      cases k with
      | zero => simpa [blanks] using block_last b
      | succ k =>
        rw [show blanks (k + 1) = blanks k ++ b!"\n" by simp [blanks, List.replicate_succ'], ← List.append_assoc]
        exact List.getLast?_concat
    · rw [getLast_append]
      · exact h
      · intro h'
        rw [h'] at h
        cases h

/-! ### What can be seen -/

/-- The text without white space. -/
def visible (s : Bytes) : Bytes := s.filter fun c => !isSpace c

theorem visible_append (a b : Bytes) : visible (a ++ b) = visible a ++ visible b := List.filter_append ..

theorem visible_blank {s : Bytes} (h : Blank s) : visible s = [] := by
  unfold visible
  rw [List.filter_eq_nil_iff]
  intro c hc
  have := space_of_blank ((blank_iff s).1 h c hc)
  simp [this]

theorem visible_eol {l e t : Bytes} (h : Eol l e t) : visible e = [] := by
  rcases h with rfl | rfl | ⟨rfl, _⟩ | ⟨rfl, _⟩ <;> rfl

theorem lines_visible {code : Bool} {s o : Bytes} (h : Spec.Lines code s o) (h1 : ¬ b!"Table:" <:+: s) (h2 : ¬ b!"table:" <:+: s) (h3 : ¬ b!": " <:+: s) (h4 : ¬ b!":\t" <:+: s) :
    visible o = visible s := by
  induction h with
  | nil => rfl
  | @cons code code' l e t p o hl he h _ ih =>
    have hin : ∀ {w : Bytes}, w <:+: l → w <:+: l ++ e ++ t := by
      rintro w ⟨a, b, rfl⟩
      exact ⟨a, b ++ (e ++ t), by simp⟩
    have hin' : ∀ {w : Bytes}, w <:+: t → w <:+: l ++ e ++ t := by
      rintro w ⟨a, b, rfl⟩
      exact ⟨l ++ e ++ a, b, by simp⟩
    rw [visible_append, visible_append, visible_append, visible_eol he, ih (fun h => h1 (hin' h)) (fun h => h2 (hin' h)) (fun h => h3 (hin' h)) (fun h => h4 (hin' h)),
      List.append_nil]
    have hnl : visible b!"\n" = [] := rfl
    congr 1
    cases h with
    | code => rw [visible_append, hnl, List.append_nil]
    | fence _ hk =>
      rw [visible_append, visible_append, hnl, List.append_nil]
      rcases hk with rfl | ⟨rfl, _⟩ <;> rfl
    | text _ hk =>
      rw [visible_append, visible_append, hnl, List.append_nil]
      rcases hk with rfl | rfl <;> rfl
    | blank hb => rw [visible_blank hb]; rfl
    | caption _ hc =>
      exfalso
      rcases hc with hc | hc
      · obtain ⟨before, m, ws, cap, ws', attr, rfl, hm, _⟩ := hc
        rcases hm with rfl | rfl
        · exact h1 (hin ⟨before, ws ++ cap ++ ws' ++ attr, by simp⟩)
        · exact h2 (hin ⟨before, ws ++ cap ++ ws' ++ attr, by simp⟩)
      · obtain ⟨ws, d, ws1, cap, ws2, attr, rfl, _, hd, _⟩ := hc
        rcases hd with rfl | rfl
        · exact h3 (hin ⟨ws, ws1 ++ cap ++ ws2 ++ attr, by simp⟩)
        · exact h4 (hin ⟨ws, ws1 ++ cap ++ ws2 ++ attr, by simp⟩)

/-! ### Checks for concrete documents -/

theorem split_of {s f a : Bytes} (h : s = f ++ a) (hf : front s = f) : Split s f a := by
  obtain ⟨attr, e, hs⟩ := front_split s
  rw [hf] at e hs
  have : attr = a := List.append_cancel_left (e.symm.trans h)
  rwa [this] at hs

/-- A check for `First`. -/
def firstOk (l : Bytes) : Bool :=
  let p := l.dropWhile blank
  l.all inLine && p != [] && !fence p && p.head? != some c!"[" && !colonHead p && !anywhere l

theorem line_of {l : Bytes} (h : l.all inLine = true) : Line l := by
  rw [List.all_eq_true] at h
  constructor
  · intro hm; exact absurd (h _ hm) (by decide)
  · intro hm; exact absurd (h _ hm) (by decide)

theorem unmarked_of {l : Bytes} (h : anywhere l = false) : Unmarked l := by
  simp only [anywhere, Bool.or_eq_false_iff, Option.isSome_eq_false_iff, Option.isNone_iff_eq_none] at h
  exact ⟨(Embed.find_none (by decide)).1 h.1, (Embed.find_none (by decide)).1 h.2⟩

theorem first_of {l : Bytes} (h : firstOk l = true) : First l := by
  simp only [firstOk, Bool.and_eq_true, bne_iff_ne, ne_eq, Bool.not_eq_true'] at h
  obtain ⟨⟨⟨⟨⟨h1, h2⟩, h3⟩, h4⟩, h5⟩, h6⟩ := h
  have hc : ¬ (Starts b!": " l ∨ Starts b!":\t" l) := fun h => by rw [(colon_iff l).2 h] at h5; cases h5
  exact ⟨line_of h1, fun h => h2 ((visible_iff l).2 h), (fun h => by rw [(fence_iff l).2 h] at h3; cases h3), fun h => h4 ((head_iff l).2 h),
    not_or.1 hc, unmarked_of h6⟩

/-- A check for `More`. -/
def moreOk (l : Bytes) : Bool :=
  let p := l.dropWhile blank
  l.all inLine && p != [] && !fence p && !l.contains c!"|" && !marked p

theorem more_of {l : Bytes} (h : moreOk l = true) : More l := by
  simp only [moreOk, Bool.and_eq_true, bne_iff_ne, ne_eq, Bool.not_eq_true'] at h
  obtain ⟨⟨⟨⟨h1, h2⟩, h3⟩, h4⟩, h5⟩ := h
  have hm : ¬ (Starts b!"Table:" l ∨ Starts b!"table:" l) := fun h => by rw [(marked_iff l).2 h] at h5; cases h5
  exact ⟨line_of h1, fun h => h2 ((visible_iff l).2 h), (fun h => by rw [(fence_iff l).2 h] at h3; cases h3), by simpa using h4, not_or.1 hm⟩

end Verif.TableCaptions
