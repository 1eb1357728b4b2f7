import Verif.Spec.Man

namespace Verif.Man
open Spec

/-! ### Lines -/

/-- The text after the last newline. -/
def lastLine (out : Bytes) : Bytes := (lines out).getLastD []

theorem lines_ne_nil (s : Bytes) : lines s ≠ [] := by
  induction s with
  | nil => simp [lines]
  | cons c t ih => 
    rw [lines]
    split
    · simp
    · split <;> simp

theorem getLastD_append {α : Type} (a b : List α) (d : α) (h : b ≠ []) :
    (a ++ b).getLastD d = b.getLastD d := by
  rcases List.eq_nil_or_concat b with rfl | ⟨t, c, rfl⟩
  · exact absurd rfl h
  · simp [List.getLastD_eq_getLast?, ← List.append_assoc]

theorem lines_append_nl (a b : Bytes) : lines (a ++ 10 :: b) = lines a ++ lines b := by
  induction a with
  | nil => simp [lines]
  | cons c t ih =>
    simp only [List.cons_append, lines, ih]
    split
    · simp
    · cases h : lines t with
      | nil => exact absurd h (lines_ne_nil t)
      | cons l ls => simp

theorem lines_plain (s : Bytes) (h : (10 : Byte) ∉ s) : lines s = [s] := by
  induction s with
  | nil => rfl
  | cons c t ih =>
    simp at h
    rw [lines, if_neg (fun e => h.1 e.symm), ih h.2]

/-- Appending text without newline extends the last line. -/
theorem lines_append_plain (a b : Bytes) (h : (10 : Byte) ∉ b) :
    lines (a ++ b) = (lines a).dropLast ++ [lastLine a ++ b] := by
  induction a with
  | nil => simp [lines, lastLine, lines_plain b h]
  | cons c t ih =>
    simp only [List.cons_append, lines]
    split
    · rename_i hc
      have h1 := lines_ne_nil t
      have h2 : lastLine (c :: t) = lastLine t := by
        simp only [lastLine, lines, hc, if_true]
        exact getLastD_append [[]] (lines t) [] h1
      rw [ih, h2, List.dropLast_cons_of_ne_nil h1, List.cons_append]
    · rename_i hc
      rw [ih]
      cases hl : lines t with
      | nil => exact absurd hl (lines_ne_nil t)
      | cons l ls =>
        cases ls with
        | nil => simp [lastLine, lines, hc, hl]
        | cons m ms => simp [lastLine, lines, hc, hl]

theorem lastLine_append_plain (a b : Bytes) (h : (10 : Byte) ∉ b) :
    lastLine (a ++ b) = lastLine a ++ b := by
  conv => lhs; rw [lastLine, lines_append_plain a b h]
  simp

theorem lastLine_append_nl (a b : Bytes) : lastLine (a ++ 10 :: b) = lastLine b := by
  rw [lastLine, lines_append_nl, lastLine]
  exact getLastD_append _ _ _ (lines_ne_nil b)

theorem lines_eq (a : Bytes) : lines a = (lines a).dropLast ++ [lastLine a] := by
  have := lines_append_plain a [] (by simp)
  simpa using this

theorem lastLine_nil_iff (a : Bytes) : lastLine a = [] ↔ atLineStart a = true := by
  rcases List.eq_nil_or_concat a with rfl | ⟨t, c, rfl⟩
  · simp [lastLine, lines, atLineStart]
  · simp only [List.concat_eq_append, atLineStart, List.getLast?_append, List.getLast?_singleton]
    by_cases hc : c = 10
    · subst hc
      have := lastLine_append_nl t []
      rw [this]
      simp [lastLine, lines]
    · have := lastLine_append_plain t [c] (by simpa using fun e => hc e.symm)
      simp [this, hc]

theorem requests_append_nl (a b : Bytes) : requests (a ++ 10 :: b) = requests a ++ requests b := by
  simp [requests, lines_append_nl]

/-- The name of the request on the last line, if any, cannot change any more. -/
def Settled (out : Bytes) : Prop := isRequest (lastLine out) = true → (32 : Byte) ∈ lastLine out

theorem takeWhile_append_mem (a b : Bytes) (h : (32 : Byte) ∈ a) :
    (a ++ b).takeWhile (· != 32) = a.takeWhile (· != 32) := by
  induction a with
  | nil => simp at h
  | cons c t ih =>
    simp only [List.cons_append, List.takeWhile_cons]
    split
    · rename_i hc; rw [ih]; simp at h hc; rcases h with h | h; exact absurd h.symm hc; exact h
    · rfl

/-- Text without newline that does not begin a line with a control character adds no request. -/
theorem append_plain (out s : Bytes) (h : Settled out) (hn : (10 : Byte) ∉ s)
    (hs : lastLine out ≠ [] ∨ isRequest s = false) :
    requests (out ++ s) = requests out ∧ Settled (out ++ s) := by
  cases hl : lastLine out with
  | nil =>
    have hs' : isRequest s = false := by rcases hs with h1 | h1; exact absurd hl h1; exact h1
    constructor
    · rw [requests, lines_append_plain _ _ hn, requests, lines_eq out, hl]
      simp [hs']; rfl
    · intro hr; rw [lastLine_append_plain _ _ hn, hl] at hr; simp [hs'] at hr
  | cons c t =>
    constructor
    · rw [requests, lines_append_plain _ _ hn, requests]
      conv => rhs; rw [lines_eq out]
      have hr : isRequest (lastLine out ++ s) = isRequest (lastLine out) := by rw [hl]; rfl
      rw [List.filter_append, List.filter_append, List.map_append, List.map_append]
      congr 1
      by_cases hq : isRequest (lastLine out) = true
      · simp [hr, hq, takeWhile_append_mem _ _ (h hq)]
      · simp [hr, hq]
    · intro hr
      rw [lastLine_append_plain _ _ hn] at hr ⊢
      have : isRequest (lastLine out) = true := by rw [hl] at hr ⊢; exact hr
      simp [h this]

theorem requests_nil : requests [] = [] := rfl

theorem append_nl (out : Bytes) : requests (out ++ [10]) = requests out ∧ Settled (out ++ [10]) ∧
    lastLine (out ++ [10]) = [] := by
  have h1 := requests_append_nl out []
  have h2 := lastLine_append_nl out []
  refine ⟨by simpa [requests_nil] using h1, ?_, by simpa [lastLine, lines] using h2⟩
  intro h; rw [h2] at h; simp [lastLine, lines, isRequest] at h

/-- A literal starting with a newline. -/
theorem append_lit (out s : Bytes) (r : List Bytes) (hr : requests s = r) (hs : Settled s) :
    requests (out ++ 10 :: s) = requests out ++ r ∧ Settled (out ++ 10 :: s) := by
  refine ⟨by rw [requests_append_nl, hr], ?_⟩
  intro h
  rw [lastLine_append_nl] at h ⊢
  exact hs h

/-! ### Escaped text -/

theorem roffLoop_ok (after : Byte) (s : Bytes) : ∀ (st : Bool) (out : Bytes), Settled out →
    (st = false → lastLine out ≠ []) →
    requests (out ++ roffLoop after st s) = requests out ∧ Settled (out ++ roffLoop after st s) := by
  intro st out h hst
  fun_induction roffLoop after st s generalizing out with
  | case1 => simpa using h
  | case2 st t ih =>
    have := append_plain out b!"\\e" h (by decide) (Or.inr (by decide))
    have := ih (out ++ b!"\\e") this.2
      (fun _ => by rw [lastLine_append_plain _ _ (by decide)]; simp)
    simp_all
  | case3 st t _ ih =>
    have h1 := append_nl out
    have := ih (out ++ [10]) h1.2.1 (by simp)
    simp_all
  | case4 st c t hc1 hc2 hc ih =>
    have h1 := append_plain out (b!"\\&" ++ [c]) h (by simp; exact fun e => hc2 e.symm)
      (Or.inr (by simp [isRequest]))
    have := ih (out ++ (b!"\\&" ++ [c])) h1.2
      (fun _ => by rw [lastLine_append_plain _ _ (by simp; exact fun e => hc2 e.symm)]; simp)
    simp_all
  | case5 st t _ _ _ ih =>
    have := append_plain out b!"\\-" h (by decide) (Or.inr (by decide))
    have := ih (out ++ b!"\\-") this.2
      (fun _ => by rw [lastLine_append_plain _ _ (by decide)]; simp)
    simp_all
  | case6 =>
    rename_i ih
    have := append_plain out b!"\\-\\-" h (by decide) (Or.inr (by decide))
    have := ih (out ++ b!"\\-\\-") this.2
      (fun _ => by rw [lastLine_append_plain _ _ (by decide)]; simp)
    simp_all
  | case7 =>
    rename_i ih
    have := append_plain out b!"\\[em]" h (by decide) (Or.inr (by decide))
    have := ih (out ++ b!"\\[em]") this.2
      (fun _ => by rw [lastLine_append_plain _ _ (by decide)]; simp)
    simp_all
  | case8 st c t hc1 hc2 hc3 hc4 hc5 hc6 ih =>
    have hcn : (10 : Byte) ∉ [c] := by simp; exact fun e => hc2 e.symm
    have h1 := append_plain out [c] h hcn (by
      cases st with
      | false => exact Or.inl (hst rfl)
      | true => right; simpa [isRequest] using hc3)
    have := ih (out ++ [c]) h1.2 (fun _ => by rw [lastLine_append_plain _ _ hcn]; simp)
    simp_all

theorem roffSafe_ok (after : Byte) (out s : Bytes) (h : Settled out) :
    requests (roffSafe after out s) = requests out ∧ Settled (roffSafe after out s) := by
  refine roffLoop_ok after s _ out h ?_
  intro h1 h2
  rw [(lastLine_nil_iff out).1 h2] at h1
  cases h1

/-- No request starts inside the escaped text. -/
theorem roffLoop_no_request (after : Byte) (s : Bytes) : ∀ (st : Bool) (out : Bytes),
    st = atLineStart out → ∀ i, out.length ≤ i → ¬ RequestAt (out ++ roffLoop after st s) i := by
  intro st out hst
  -- one step: `tok` starts no request, ends with a byte that decides the next flag
  have step : ∀ (tok rest out : Bytes) (st' : Bool), tok ≠ [] →
      (∀ i, out.length ≤ i → i < out.length + tok.length → ¬ RequestAt (out ++ tok) i) →
      st' = atLineStart (out ++ tok) →
      (∀ out', st' = atLineStart out' → ∀ i, out'.length ≤ i → ¬ RequestAt (out' ++ rest) i) →
      ∀ i, out.length ≤ i → ¬ RequestAt (out ++ (tok ++ rest)) i := by
    intro tok rest out st' hne htok hst' ih i hi hr
    by_cases hlt : i < out.length + tok.length
    · apply htok i hi hlt
      rw [← List.append_assoc] at hr
      obtain ⟨h1, h2⟩ := hr
      refine ⟨?_, ?_⟩
      · rcases h1 with h1 | h1
        · exact Or.inl h1
        · right; rwa [List.getElem?_append_left (by simp; omega)] at h1
      · rw [List.getElem?_append_left (by simp; omega)] at h2; exact h2
    · rw [← List.append_assoc] at hr
      exact ih (out ++ tok) hst' i (by simp; omega) hr
  -- a token whose first byte is no control character and which has no newline before its end
  have tok_ok : ∀ (out tok : Bytes), (∀ c ∈ tok.dropLast, c ≠ 10) →
      (atLineStart out = true → isRequest tok = false) →
      ∀ i, out.length ≤ i → i < out.length + tok.length → ¬ RequestAt (out ++ tok) i := by
    intro out tok hn hs i hi hlt hr
    obtain ⟨h1, h2⟩ := hr
    rw [List.getElem?_append_right hi] at h2
    by_cases he : i = out.length
    · subst he
      have hls : atLineStart out = true := by
        rcases h1 with h1 | h1
        · rw [List.length_eq_zero_iff] at h1; subst h1; rfl
        · cases hl : out.length with
          | zero => rw [List.length_eq_zero_iff] at hl; subst hl; rfl
          | succ n =>
            rw [hl] at h1
            rw [List.getElem?_append_left (by omega)] at h1
            simp only [Nat.add_sub_cancel] at h1
            unfold atLineStart
            rw [List.getLast?_eq_getElem?, hl, Nat.add_sub_cancel, h1]
            rfl
      have := hs hls
      cases tok with
      | nil => simp at h2
      | cons c t =>
        simp at h2
        simp [isRequest] at this
        rcases h2 with h2 | h2
        · exact this.1 h2
        · exact this.2 h2
    · rcases h1 with h1 | h1
      · omega
      · rw [List.getElem?_append_right (by omega)] at h1
        have hm : (10 : Byte) ∈ tok.dropLast := by
          rw [List.mem_iff_getElem?]
          refine ⟨i - 1 - out.length, ?_⟩
          rw [List.getElem?_dropLast, if_pos (by omega)]
          exact h1
        exact hn _ hm rfl
  have last : ∀ (out tok : Bytes) (c : Byte), atLineStart (out ++ (tok ++ [c])) = (c == 10) := by
    intro out tok c
    unfold atLineStart
    rw [← List.append_assoc, List.getLast?_append]
    simp
  fun_induction roffLoop after st s generalizing out with
  | case1 =>
    intro i hi hr
    obtain ⟨_, h2⟩ := hr
    simp only [List.append_nil] at h2
    rw [List.getElem?_eq_none (by omega)] at h2
    simp at h2
  | case2 st t ih =>
    exact step b!"\\e" _ out false (by simp) (tok_ok _ _ (by decide) (fun _ => by decide))
      (last out b!"\\" c!"e").symm (fun o h => ih o h)
  | case3 st t _ ih =>
    exact step [10] _ out true (by simp) (tok_ok _ _ (by simp) (fun _ => by decide))
      (last out [] 10).symm (fun o h => ih o h)
  | case4 st c t hc1 hc2 hc ih =>
    have := step (b!"\\&" ++ [c]) (roffLoop after false t) out false (by simp)
      (tok_ok _ _ (by simp) (fun _ => by simp [isRequest]))
      (by rw [last out b!"\\&" c]; simpa using fun e => hc2 e) (fun o h => ih o h)
    simpa using this
  | case5 st t _ _ _ ih =>
    exact step b!"\\-" _ out false (by simp) (tok_ok _ _ (by decide) (fun _ => by decide))
      (last out b!"\\" c!"-").symm (fun o h => ih o h)
  | case6 =>
    rename_i ih
    exact step b!"\\-\\-" _ out false (by simp) (tok_ok _ _ (by decide) (fun _ => by decide))
      (last out b!"\\-\\" c!"-").symm (fun o h => ih o h)
  | case7 =>
    rename_i ih
    exact step b!"\\[em]" _ out false (by simp) (tok_ok _ _ (by decide) (fun _ => by decide))
      (last out b!"\\[em" c!"]").symm (fun o h => ih o h)
  | case8 st c t hc1 hc2 hc3 hc4 hc5 hc6 ih =>
    have := step [c] (roffLoop after false t) out false (by simp)
      (tok_ok _ _ (by simp) (fun h => by rw [← hst] at h; simpa [h, isRequest] using hc3))
      (by have := last out [] c; rw [List.nil_append] at this; rw [this]; simpa using fun e => hc2 e) (fun o h => ih o h)
    simpa using this

/-! ### The document -/

mutual
theorem renderInline_ok (out : Bytes) (n : Node) (h : Settled out) :
    requests (renderInline out n) = requests out ++ inlineReqs n ∧ Settled (renderInline out n) := by
  match n with
  | .mk k kids =>
    have gen := fun o ho => renderInlines_ok o kids ho
    have lit : ∀ (o s : Bytes), Settled o → (10 : Byte) ∉ s → isRequest s = false →
        requests (o ++ s) = requests o ∧ Settled (o ++ s) := fun o s ho h1 h2 =>
      append_plain o s ho h1 (Or.inr h2)
    cases k with
    | text t => simpa [renderInline, inlineReqs] using roffSafe_ok 0 out t h
    | code t =>
      have h1 := lit out b!"\\fR" h (by decide) (by decide)
      have h2 := roffSafe_ok 0 _ t h1.2
      have h3 := lit _ b!"\\f[]" h2.2 (by decide) (by decide)
      simp only [renderInline, inlineReqs]
      exact ⟨by rw [h3.1, h2.1, h1.1]; simp, h3.2⟩
    | lineBreak =>
      simpa [renderInline, inlineReqs] using
        append_lit out b!".br\n" [b!".br"] (by decide) (by simp [Settled, lastLine, lines, isRequest])
    | softBreak => simpa [renderInline, inlineReqs] using lit out b!" " h (by decide) (by decide)
    | strong =>
      have h1 := lit out b!"\\f[B]" h (by decide) (by decide)
      have h2 := gen _ h1.2
      have h3 := lit _ b!"\\f[]" h2.2 (by decide) (by decide)
      simp only [renderInline, inlineReqs]
      exact ⟨by rw [h3.1, h2.1, h1.1], h3.2⟩
    | emph =>
      have h1 := lit out b!"\\f[I]" h (by decide) (by decide)
      have h2 := gen _ h1.2
      have h3 := lit _ b!"\\f[]" h2.2 (by decide) (by decide)
      simp only [renderInline, inlineReqs]
      exact ⟨by rw [h3.1, h2.1, h1.1], h3.2⟩
    | link url =>
      have h1 := gen _ h
      simp only [renderInline, inlineReqs]
      split
      · have h2 := lit _ b!" (" h1.2 (by decide) (by decide)
        have h3 := roffSafe_ok 0 _ url h2.2
        have h4 := lit _ b!")" h3.2 (by decide) (by decide)
        exact ⟨by rw [h4.1, h3.1, h2.1, h1.1], h4.2⟩
      · exact h1
    | htmlInline => simpa [renderInline, inlineReqs] using h
    | _ => simp only [renderInline, inlineReqs]; exact gen _ h
theorem renderInlines_ok (out : Bytes) (ns : List Node) (h : Settled out) :
    requests (renderInlines out ns) = requests out ++ inlinesReqs ns ∧
      Settled (renderInlines out ns) := by
  match ns with
  | [] => simpa [renderInlines, inlinesReqs] using h
  | n :: ns =>
    have h1 := renderInline_ok out n h
    have h2 := renderInlines_ok _ ns h1.2
    simp only [renderInlines, inlinesReqs]
    exact ⟨by rw [h2.1, h1.1]; simp, h2.2⟩
end

theorem codeLoop_ok (out lit : Bytes) (h : Settled out) :
    requests (codeLoop out lit) = requests out ∧ Settled (codeLoop out lit) := by
  fun_induction codeLoop out lit with
  | case1 => exact ⟨rfl, h⟩
  | case2 out t ih =>
    have h1 := append_nl out
    have h2 := ih h1.2.1
    exact ⟨h2.1.trans h1.1, h2.2⟩
  | case3 out c t hc run rest ih =>
    have h1 := roffSafe_ok (rest.headD 0) out run h
    have h2 := ih h1.2
    exact ⟨h2.1.trans h1.1, h2.2⟩

theorem decimal_ok (n : Nat) : (10 : Byte) ∉ decimal n := by
  fun_induction decimal n with
  | case1 n h =>
    have : ∀ n < 10, (10 : Byte) ∉ [UInt8.ofNat (48 + n)] := by decide
    exact this n h
  | case2 n h ih =>
    have : ∀ n < 10, (10 : Byte) ∉ [UInt8.ofNat (48 + n)] := by decide
    rw [List.mem_append, not_or]
    exact ⟨ih, this (n % 10) (by omega)⟩

theorem renderDl_notDl (out lit : Bytes) (h : startsDl lit = false) : renderDl out lit = .notDl := by
  unfold renderDl
  rw [if_pos]
  simp only [startsDl] at h
  simp [isDlBlock, h]

/-- Result of rendering a block from a state with the flag off: it returns with the flag off and adds
exactly the requests `r`. -/
def Adds (s : St) (r : List Bytes) (res : Option St) : Prop :=
  ∃ s', res = some s' ∧ s'.dd = false ∧ requests s'.out = requests s.out ++ r ∧ Settled s'.out

mutual
theorem renderBlock_ok (parent : Option Kind) (first : Bool) (s : St) (n : Node)
    (hn : noDl n = true) (hd : s.dd = false) (h : Settled s.out) :
    Adds s (blockReqs parent first n) (renderBlock parent first s n) := by
  match n with
  | .mk k kids =>
    obtain ⟨out, dd⟩ := s
    simp only at hd h
    subst hd
    have hsub : noDls kids = true := by
      cases k <;> simp [noDl] at hn <;> first | exact hn | exact hn.2
    have gen := fun k o (ho : Settled o) => renderBlocks_ok k true ⟨o, false⟩ kids hsub rfl ho
    have sN : ∀ s : Bytes, lastLine s = [] → Settled s := fun s hs hr => by
      rw [hs] at hr; simp [isRequest] at hr
    have same : ∀ k', (∀ o, renderBlock parent first ⟨o, false⟩ (.mk k' kids) =
        renderBlocks k' true ⟨o, false⟩ kids) → blockReqs parent first (.mk k' kids) = blocksReqs k' true kids →
        Adds ⟨out, false⟩ (blockReqs parent first (.mk k' kids))
          (renderBlock parent first ⟨out, false⟩ (.mk k' kids)) := by
      intro k' e1 e2
      rw [e1, e2]; exact gen k' out h
    cases k with
    | heading level =>
      have e : ∃ l, (if level = 1 then b!"\n.SH " else b!"\n.SS ") = 10 :: l ∧
          requests l = [if level = 1 then b!".SH" else b!".SS"] ∧ Settled l := by
        split
        · exact ⟨_, rfl, by decide, by simp [Settled, lastLine, lines]⟩
        · exact ⟨_, rfl, by decide, by simp [Settled, lastLine, lines]⟩
      obtain ⟨l, e1, e2, e3⟩ := e
      have h1 := append_lit out l _ e2 e3
      have h2 := renderInlines_ok _ kids h1.2
      have h3 := append_nl (renderInlines (out ++ 10 :: l) kids)
      simp only [renderBlock, blockReqs, St.add, e1]
      exact ⟨_, rfl, rfl, by rw [h3.1, h2.1, h1.1]; simp, h3.2.1⟩
    | paragraph =>
      -- whether `.PP` is written
      have key : ∀ o, Settled o → Adds ⟨o, false⟩ (inlinesReqs kids)
          (some (if !kids.isEmpty then (⟨renderInlines o kids, false⟩ : St).add b!"\n"
            else ⟨renderInlines o kids, false⟩)) := by
        intro o ho
        have h2 := renderInlines_ok o kids ho
        split
        · have h3 := append_nl (renderInlines o kids)
          exact ⟨_, rfl, rfl, by simp only [St.add]; rw [h3.1, h2.1], h3.2.1⟩
        · exact ⟨_, rfl, rfl, h2.1, h2.2⟩
      have hpp := append_lit out b!".PP\n" [b!".PP"] (by decide) (sN _ (by decide))
      simp only [renderBlock, blockReqs, Bool.false_and, Bool.not_false, Bool.and_true,
        if_false, Bool.false_eq_true]
      have k1 := key out h
      have k2 := key _ hpp.2
      have pp : Adds ⟨out, false⟩ (b!".PP" :: inlinesReqs kids)
          (some (if !kids.isEmpty then (⟨renderInlines (out ++ b!"\n.PP\n") kids, false⟩ : St).add b!"\n"
            else ⟨renderInlines (out ++ b!"\n.PP\n") kids, false⟩)) := by
        obtain ⟨s', a1, a2, a3, a4⟩ := k2
        exact ⟨s', a1, a2, by rw [a3]; simp only; rw [hpp.1]; simp, a4⟩
      cases parent with
      | none => simpa [St.add] using pp
      | some pk =>
        cases pk
        case item => simpa [St.add] using k1
        case defTerm => simpa [St.add] using k1
        case defData =>
          cases first
          · simpa [St.add] using pp
          · simpa [St.add] using k1
        all_goals simpa [St.add] using pp
    | item idx =>
      have e : ∃ l, itemRequest parent idx = 10 :: l ∧ requests l = [b!".IP"] ∧ Settled l := by
        have d : ∃ l, b!"\n.IP \"" ++ decimal idx ++ b!".\" 4\n" =
            10 :: l ∧ requests l = [b!".IP"] ∧ Settled l := by
          refine ⟨b!".IP \"" ++ decimal idx ++ b!".\" 4\n", rfl, ?_, ?_⟩
          · have h1 : b!".IP \"" ++ decimal idx ++ b!".\" 4\n" =
              b!".IP \"" ++ (decimal idx ++ b!".\" 4") ++ [10] := by simp
            rw [h1, (append_nl _).1]
            have h2 : (10 : Byte) ∉ decimal idx ++ b!".\" 4" := by
              rw [List.mem_append, not_or]; exact ⟨decimal_ok idx, by decide⟩
            rw [(append_plain b!".IP \"" _ (fun _ => by decide) h2 (Or.inl (by decide))).1]
            decide
          · apply sN
            have h1 : b!".IP \"" ++ decimal idx ++ b!".\" 4\n" =
              (b!".IP \"" ++ decimal idx ++ b!".\" 4") ++ [10] := by simp
            rw [h1]; exact (append_nl _).2.2
        unfold itemRequest
        split
        · exact ⟨b!".IP \\(bu 2\n", rfl, by decide, sN _ (by decide)⟩
        · exact d
      obtain ⟨l, e1, e2, e3⟩ := e
      have h1 := append_lit out l _ e2 e3
      simp only [renderBlock, blockReqs, St.add, e1]
      obtain ⟨s', a1, a2, a3, a4⟩ := gen (.item idx) _ h1.2
      exact ⟨s', a1, a2, by rw [a3]; simp only; rw [h1.1]; simp, a4⟩
    | codeBlock lit =>
      have cont : Adds ⟨out, false⟩ [] (some ((if out.length > 0 && !atLineStart out
            then (⟨roffSafe 0 (out ++ b!" ") lit, false⟩ : St)
            else ⟨roffSafe 0 out lit, false⟩).add b!"\n")) := by
        split
        · have h1 := append_plain out b!" " h (by decide) (Or.inr (by decide))
          have h2 := roffSafe_ok 0 _ lit h1.2
          have h3 := append_nl (roffSafe 0 (out ++ b!" ") lit)
          exact ⟨_, rfl, rfl, by simp only [St.add] at *; rw [h3.1, h2.1, h1.1]; simp, h3.2.1⟩
        · have h2 := roffSafe_ok 0 _ lit h
          have h3 := append_nl (roffSafe 0 out lit)
          exact ⟨_, rfl, rfl, by simp only [St.add] at *; rw [h3.1, h2.1]; simp, h3.2.1⟩
      have full : Adds ⟨out, false⟩ [b!".PP", b!".nf", b!".fi"]
          (some ((⟨codeLoop (out ++ b!"\n.PP\n.nf\n\\fR\n") lit, false⟩ : St).add b!"\n\\f[]\n.fi\n")) := by
        have h1 := append_lit out b!".PP\n.nf\n\\fR\n" [b!".PP", b!".nf"] (by decide) (sN _ (by decide))
        have h2 := codeLoop_ok _ lit h1.2
        have h3 := append_lit (codeLoop (out ++ b!"\n.PP\n.nf\n\\fR\n") lit) b!"\\f[]\n.fi\n" [b!".fi"]
          (by decide) (sN _ (by decide))
        exact ⟨_, rfl, rfl, by simp only [St.add]; rw [h3.1, h2.1, h1.1]; simp, h3.2⟩
      simp only [renderBlock, blockReqs, Bool.false_or]
      cases parent with
      | none => simpa [St.add] using full
      | some pk =>
        cases pk
        case item =>
          simp only [if_true]
          refine (congrArg (Adds _ _) ?_).mp cont
          split <;> rfl
        all_goals simpa [St.add] using full
    | blockQuote =>
      have h1 := append_lit out b!".RS\n" [b!".RS"] (by decide) (sN _ (by decide))
      obtain ⟨s', a1, a2, a3, a4⟩ := gen .blockQuote _ h1.2
      have h2 := append_lit s'.out b!".RE\n" [b!".RE"] (by decide) (sN _ (by decide))
      simp only [renderBlock, blockReqs, St.add, a1]
      exact ⟨_, rfl, a2, by simp only; rw [h2.1, a3]; simp only; rw [h1.1]; simp, h2.2⟩
    | thematicBreak =>
      have h1 := append_lit out b!".PP\n  *  *  *  *  *\n" [b!".PP"] (by decide) (sN _ (by decide))
      exact ⟨_, rfl, rfl, h1.1, h1.2⟩
    | htmlBlock lit =>
      simp [noDl] at hn
      simp only [renderBlock, blockReqs]
      split
      · exact ⟨_, rfl, rfl, by simp, h⟩
      · rw [renderDl_notDl _ _ hn.1]
        exact ⟨_, rfl, rfl, by simp, h⟩
    | defTerm =>
      have h1 := append_lit out b!".TP\n" [b!".TP"] (by decide) (sN _ (by decide))
      obtain ⟨s', a1, a2, a3, a4⟩ := gen .defTerm _ h1.2
      simp only [renderBlock, blockReqs, St.add]
      exact ⟨s', a1, a2, by rw [a3]; simp only; rw [h1.1]; simp, a4⟩
    | _ => exact same _ (fun o => by simp only [renderBlock]) (by simp only [blockReqs])
theorem renderBlocks_ok (parent : Kind) (first : Bool) (s : St) (ns : List Node)
    (hn : noDls ns = true) (hd : s.dd = false) (h : Settled s.out) :
    Adds s (blocksReqs parent first ns) (renderBlocks parent first s ns) := by
  match ns with
  | [] => exact ⟨s, by simp [renderBlocks], hd, by simp [blocksReqs], h⟩
  | n :: ns =>
    simp only [noDls, Bool.and_eq_true] at hn
    obtain ⟨s1, a1, a2, a3, a4⟩ := renderBlock_ok (some parent) first s n hn.1 hd h
    obtain ⟨s2, b1, b2, b3, b4⟩ := renderBlocks_ok parent false s1 ns hn.2 a2 a4
    simp only [renderBlocks, blocksReqs, a1]
    exact ⟨s2, b1, b2, by rw [b3, a3]; simp, b4⟩
end

theorem header_ok (title : Bytes) : requests (header title) = [b!".TH"] ∧ Settled (header title) := by
  unfold header
  have h1 := roffSafe_ok 0 b!".TH \"" title (fun _ => by decide)
  have h2 := append_plain _ b!"\" \"1\" \"1 January 1970\" \"\"" h1.2 (by decide) (Or.inr (by decide))
  have h3 := append_nl (roffSafe 0 b!".TH \"" title ++ b!"\" \"1\" \"1 January 1970\" \"\"")
  rw [show (b!"\" \"1\" \"1 January 1970\" \"\"\n" : Bytes) =
    b!"\" \"1\" \"1 January 1970\" \"\"" ++ [10] from rfl, ← List.append_assoc]
  exact ⟨by rw [h3.1, h2.1, h1.1]; decide, h3.2.1⟩

/-! ### Printed text -/

theorem dash_zero (d : Byte) (hd : d ≠ 0) (t : Bytes) :
    dash 0 d t = true ↔ ∃ r, t = 0x80 :: d :: r := by
  match t with
  | [] => simp [dash]
  | [a] => simp [dash]; exact fun _ h => hd h.symm
  | a :: b :: r => simp [dash]

theorem printed_plain (c : Byte) (t : Bytes) (h : c ≠ 92) : printed (c :: t) = c :: printed t := by
  conv => lhs; unfold printed
  split <;> simp_all

theorem enDash_plain (c : Byte) (t : Bytes) (h : ¬ (c = 0xE2 ∧ ∃ r, t = 0x80 :: 0x93 :: r)) :
    enDash (c :: t) = c :: enDash t := by
  conv => lhs; unfold enDash
  split
  · simp_all
  · simp_all
  · simp_all

theorem printed_roffLoop (st : Bool) (s : Bytes) : printed (roffLoop 0 st s) = enDash s := by
  fun_induction roffLoop 0 st s with
  | case1 => rfl
  | case2 st t ih => rw [enDash_plain _ _ (by simp), ← ih]; simp [printed]
  | case3 st t _ ih => rw [enDash_plain _ _ (by simp), ← ih, printed_plain _ _ (by simp)]
  | case4 st c t hc1 hc2 hc ih =>
    simp at hc
    rw [enDash_plain _ _ (by rintro ⟨rfl, _⟩; simp at hc), ← ih]
    simp only [List.cons_append, List.nil_append, printed]
    exact printed_plain _ _ hc1
  | case5 st t _ _ _ ih => rw [enDash_plain _ _ (by simp), ← ih]; simp [printed]
  | case6 st c t _ _ _ _ hc ih =>
    simp at hc
    obtain ⟨r, rfl⟩ := (dash_zero 0x93 (by decide) t).1 hc.2
    simp at ih
    rw [hc.1, enDash, ← ih]; simp [printed]
  | case7 st c t _ _ _ _ hc hc' ih =>
    simp at hc'
    obtain ⟨r, rfl⟩ := (dash_zero 0x94 (by decide) t).1 hc'.2
    simp at ih
    rw [hc'.1, enDash_plain _ _ (by simp), enDash_plain _ _ (by simp), enDash_plain _ _ (by simp), ← ih]
    simp [printed]
  | case8 st c t hc1 hc2 hc3 hc4 hc5 hc6 ih =>
    rw [enDash_plain _ _ ?_, ← ih, printed_plain _ _ hc1]
    rintro ⟨rfl, h⟩
    exact hc5 (by simpa using (dash_zero 0x93 (by decide) t).2 h)

/-! ### Fragments -/

theorem Spec.WellFormed.uncons {c : Byte} {t : Bytes} (h : WellFormed (c :: t)) (hp : isPlain c = true) :
    WellFormed t := by
  generalize hs : c :: t = s at h
  cases h with
  | nil => cases hs
  | plain d u _ _ hu => cases hs; exact hu
  | tag w u _ _ => simp at hs; simp [hs.1, isPlain] at hp
  | entity e u he _ =>
    simp at he
    rcases he with rfl | rfl | rfl | rfl | rfl <;> simp at hs <;> simp [hs.1, isPlain] at hp

theorem Spec.WellFormed.dropPlain {s : Bytes} (h : WellFormed s) : WellFormed (s.dropWhile isPlain) := by
  induction s with
  | nil => exact h
  | cons c t ih =>
    rw [List.dropWhile_cons]
    split
    · rename_i hp; exact ih (h.uncons hp)
    · exact h

theorem Spec.WellFormed.of_dropPlain {s : Bytes} (h : WellFormed (s.dropWhile isPlain)) : WellFormed s := by
  induction s with
  | nil => exact h
  | cons c t ih =>
    rw [List.dropWhile_cons] at h
    split at h
    · rename_i hp
      simp [isPlain] at hp
      exact .plain c t hp.1 hp.2 (ih h)
    · exact h

theorem split_at (d : Byte) (t : Bytes) (h : d ∈ t) :
    t = t.takeWhile (· != d) ++ d :: (t.dropWhile (· != d)).drop 1 ∧ d ∉ t.takeWhile (· != d) := by
  induction t with
  | nil => simp at h
  | cons c t ih =>
    simp only [List.takeWhile_cons, List.dropWhile_cons]
    by_cases hc : c = d
    · simp [hc]
    · have h' : d ∈ t := by
        rcases List.mem_cons.1 h with h | h
        · exact absurd h.symm hc
        · exact h
      have := ih h'
      rw [if_pos (by simpa using hc), if_pos (by simpa using hc)]
      refine ⟨by rw [List.cons_append, ← this.1], ?_⟩
      simp only [List.mem_cons, not_or]
      exact ⟨fun e => hc e.symm, this.2⟩

theorem decodeEntity_some (s txt r : Bytes) (h : decodeEntity s = some (txt, r)) :
    ∃ e ∈ [b!"&lt;", b!"&gt;", b!"&amp;", b!"&quot;", b!"&#39;"], s = e ++ r := by
  unfold decodeEntity at h
  split at h <;> simp at h
  all_goals (obtain ⟨_, rfl⟩ := h)
  · exact ⟨b!"&lt;", by simp, rfl⟩
  · exact ⟨b!"&gt;", by simp, rfl⟩
  · exact ⟨b!"&amp;", by simp, rfl⟩
  · exact ⟨b!"&quot;", by simp, rfl⟩
  · exact ⟨b!"&#39;", by simp, rfl⟩

/-- What the three branches of a turn do. -/
theorem fragStep_cases (out : Bytes) (c : Byte) (t : Bytes) :
    (c = c!"<" ∧ ∃ w r, t = w ++ c!">" :: r ∧ c!">" ∉ w ∧
      fragStep ⟨out, c :: t⟩ = ⟨out ++ tagRoff (c :: w ++ [c!">"]), r⟩) ∨
    (∃ txt r, decodeEntity (c :: t) = some (txt, r) ∧ fragStep ⟨out, c :: t⟩ = ⟨out ++ txt, r⟩) ∨
    (isPlain c = true ∧ ∃ run rest a, c :: t = run ++ rest ∧ run ≠ [] ∧
      rest = (c :: t).dropWhile isPlain ∧ run = (c :: t).takeWhile isPlain ∧
      fragStep ⟨out, c :: t⟩ = ⟨roffSafe a out run, rest⟩) ∨
    (fragStep ⟨out, c :: t⟩ = ⟨out, c :: t⟩ ∧ (c = c!"<" ∧ c!">" ∉ t ∨
      c = c!"&" ∧ decodeEntity (c :: t) = none)) := by
  by_cases h1 : c = c!"<" ∧ c!">" ∈ t
  · left
    obtain ⟨h2, h3⟩ := split_at c!">" t h1.2
    exact ⟨h1.1, _, _, h2, h3, by simp only [fragStep, if_pos h1]⟩
  right
  cases h2 : decodeEntity (c :: t) with
  | some p => left; exact ⟨p.1, p.2, rfl, by simp only [fragStep, if_neg h1, h2]⟩
  | none =>
    right
    by_cases hp : isPlain c = true
    · left
      refine ⟨hp, (c :: t).takeWhile isPlain, (c :: t).dropWhile isPlain,
        ((c :: t).dropWhile isPlain).headD c!"<", ?_, ?_, rfl, rfl, ?_⟩
      · exact List.takeWhile_append_dropWhile.symm
      · simp [hp]
      · simp only [fragStep, if_neg h1, h2]
        rw [if_neg (by simp [hp])]
    · right
      refine ⟨?_, ?_⟩
      · simp only [fragStep, if_neg h1, h2]
        rw [if_pos (by simp [hp])]
      · simp [isPlain] at hp
        by_cases hc : c = c!"<"
        · left; exact ⟨hc, fun h => h1 ⟨hc, h⟩⟩
        · right; exact ⟨hp hc, rfl⟩

theorem Spec.WellFormed.progress {c : Byte} {t : Bytes} (h : WellFormed (c :: t)) :
    ¬ (c = c!"<" ∧ c!">" ∉ t) ∧ ¬ (c = c!"&" ∧ decodeEntity (c :: t) = none) := by
  generalize hs : c :: t = s at h
  cases h with
  | nil => cases hs
  | plain d u h1 h2 hu => cases hs; simp [h1, h2]
  | tag w u _ _ => simp at hs; obtain ⟨rfl, rfl⟩ := hs; simp
  | entity e u he _ =>
    simp at he
    rcases he with rfl | rfl | rfl | rfl | rfl <;> simp at hs <;>
      (obtain ⟨rfl, rfl⟩ := hs; simp [decodeEntity])

theorem Spec.WellFormed.tagTail {w r : Bytes} (hw : c!">" ∉ w) (h : WellFormed (c!"<" :: w ++ c!">" :: r)) :
    WellFormed r := by
  generalize hs : c!"<" :: w ++ c!">" :: r = s at h
  cases h with
  | nil => cases hs
  | plain d u h1 h2 hu => simp at hs; exact absurd hs.1.symm h1
  | tag w' u hw' hu =>
    simp at hs
    have : w = w' ∧ r = u := by
      clear hu
      induction w generalizing w' with
      | nil =>
        cases w' with
        | nil => simpa using hs
        | cons a b => simp at hs hw'; exact absurd hs.1 hw'.1
      | cons a b ih =>
        cases w' with
        | nil => simp at hs hw; exact absurd hs.1.symm hw.1
        | cons a' b' =>
          simp at hs hw hw'
          have := ih (by simpa using hw.2) b' (by simpa using hw'.2) hs.2
          simp [hs.1, this.1, this.2]
    rw [this.2]; exact hu
  | entity e u he _ =>
    simp at he
    rcases he with rfl | rfl | rfl | rfl | rfl <;> simp at hs

theorem Spec.WellFormed.entityTail {e r : Bytes} (he : e ∈ [b!"&lt;", b!"&gt;", b!"&amp;", b!"&quot;", b!"&#39;"])
    (h : WellFormed (e ++ r)) : WellFormed r := by
  generalize hs : e ++ r = s at h
  cases h with
  | nil => simp at he; rcases he with rfl | rfl | rfl | rfl | rfl <;> simp at hs
  | plain d u h1 h2 hu =>
    simp at he; rcases he with rfl | rfl | rfl | rfl | rfl <;> simp at hs <;> exact absurd hs.1.symm h2
  | tag w' u hw' hu => simp at he; rcases he with rfl | rfl | rfl | rfl | rfl <;> simp at hs
  | entity e' u he' hu =>
    simp at he he'
    rcases he with rfl | rfl | rfl | rfl | rfl <;> rcases he' with rfl | rfl | rfl | rfl | rfl <;>
      simp at hs <;> (rw [hs]; exact hu)

theorem fragLoop_isSome (s : Frag) : (fragLoop s).isSome = true ↔ WellFormed s.rest := by
  fun_induction fragLoop s with
  | case1 s h => simp [h]; exact .nil
  | case2 s h hf =>
    obtain ⟨out, rest⟩ := s
    cases rest with
    | nil => simp at h
    | cons c t =>
      simp only [Option.isSome_none, Bool.false_eq_true, false_iff]
      intro hw
      have hp := hw.progress
      have hlen := fun (r : Bytes) (hr : c :: t = r) => congrArg List.length hr
      rcases fragStep_cases out c t with ⟨h1, w, r, h2, h3, h4⟩ | ⟨txt, r, h1, h2⟩ | ⟨_, run, rest, a, h1, h2, h5, h6, h3⟩ | ⟨_, h1 | h1⟩
      · rw [h4] at hf; have := (Frag.mk.inj hf).2; subst this
        have := congrArg List.length h2; simp at this; omega
      · rw [h2] at hf; have := (Frag.mk.inj hf).2; subst this
        have := decodeEntity_length _ _ _ h1; omega
      · rw [h3] at hf
        have h7 := (Frag.mk.inj hf).2
        have := congrArg List.length h1
        rw [h7] at this
        simp at this; exact h2 this
      · exact hp.1 h1
      · exact hp.2 h1
  | case3 s h hf ih =>
    rw [ih]
    obtain ⟨out, rest⟩ := s
    cases rest with
    | nil => simp at h
    | cons c t =>
      rcases fragStep_cases out c t with ⟨h1, w, r, h2, h3, h4⟩ | ⟨txt, r, h1, h2⟩ | ⟨hp, run, rest, a, h1, h2, h5, h6, h3⟩ | ⟨h1, _⟩
      · rw [h4]; subst h1 h2
        exact ⟨fun hr => .tag w r h3 hr, fun hr => WellFormed.tagTail h3 hr⟩
      · rw [h2]
        obtain ⟨e, he, h3⟩ := decodeEntity_some _ _ _ h1
        simp only [h3]
        exact ⟨fun hr => .entity e r he hr, fun hr => WellFormed.entityTail he hr⟩
      · rw [h3]
        simp only
        rw [h5]
        exact ⟨fun hr => hr.of_dropPlain, fun hr => hr.dropPlain⟩
      · exact absurd h1 hf

/-- The loop really runs for ever when the model says so. -/
theorem fragLoop_none (s : Frag) (h : fragLoop s = none) : ∀ n, (iter fragStep n s).rest ≠ [] := by
  fun_induction fragLoop s with
  | case1 s h1 => cases h
  | case2 s h1 h2 =>
    intro n
    have : iter fragStep n s = s := by
      induction n with
      | zero => rfl
      | succ n ih => rw [iter, h2]; exact ih
    rw [this]; exact h1
  | case3 s h1 h2 ih =>
    intro n
    cases n with
    | zero => exact h1
    | succ n => exact ih h n

theorem requestAt_append (a b : Bytes) (i : Nat) (h : i < a.length) (hr : RequestAt (a ++ b) i) :
    RequestAt a i := by
  obtain ⟨h1, h2⟩ := hr
  refine ⟨?_, ?_⟩
  · rcases h1 with h1 | h1
    · exact Or.inl h1
    · right; rwa [List.getElem?_append_left (by omega)] at h1
  · rwa [List.getElem?_append_left h] at h2

/-- A token that has no newline and does not begin with a control character starts no request. -/
theorem no_request_tok (out tok : Bytes) (hn : (10 : Byte) ∉ tok) (hs : isRequest tok = false) :
    ∀ i, out.length ≤ i → ¬ RequestAt (out ++ tok) i := by
  intro i hi hr
  obtain ⟨h1, h2⟩ := hr
  rw [List.getElem?_append_right hi] at h2
  by_cases he : i = out.length
  · subst he
    cases tok with
    | nil => simp at h2
    | cons c t =>
      simp at h2
      simp [isRequest] at hs
      rcases h2 with h2 | h2
      · exact hs.1 h2
      · exact hs.2 h2
  · rcases h1 with h1 | h1
    · omega
    · rw [List.getElem?_append_right (by omega)] at h1
      exact hn (List.mem_of_getElem? h1)

theorem tagRoff_ok (tag : Bytes) : (10 : Byte) ∉ tagRoff tag ∧ isRequest (tagRoff tag) = false := by
  unfold tagRoff
  repeat' split
  all_goals simp [isRequest]

theorem decodeEntity_txt (s txt r : Bytes) (h : decodeEntity s = some (txt, r))
    (hq : ∀ u, s ≠ b!"&#39;" ++ u) : (10 : Byte) ∉ txt ∧ isRequest txt = false := by
  unfold decodeEntity at h
  split at h <;> simp at h
  all_goals (obtain ⟨rfl, rfl⟩ := h)
  · decide
  · decide
  · decide
  · decide
  · exact absurd rfl (hq _)

/-- A turn appends to the output, and starts no request if the rest does not begin with `&#39;`. -/
theorem fragStep_safe (s : Frag) (hq : ∀ u, s.rest ≠ b!"&#39;" ++ u) :
    ∃ tok, (fragStep s).out = s.out ++ tok ∧ (fragStep s).rest <:+ s.rest ∧
      ∀ i, s.out.length ≤ i → ¬ RequestAt (s.out ++ tok) i := by
  obtain ⟨out, rest⟩ := s
  have hnil : ∀ i, out.length ≤ i → ¬ RequestAt (out ++ []) i :=
    no_request_tok out [] (by simp) rfl
  cases rest with
  | nil => exact ⟨[], by simp [fragStep], by simp [fragStep], hnil⟩
  | cons c t =>
    rcases fragStep_cases out c t with ⟨h1, w, r, h2, h3, h4⟩ | ⟨txt, r, h1, h2⟩ | ⟨hp, run, rest, a, h1, h2, h5, h6, h3⟩ | ⟨h1, _⟩
    · rw [h4]
      have := tagRoff_ok (c :: w ++ [c!">"])
      exact ⟨_, rfl, ⟨c :: w ++ [c!">"], by simp [h2]⟩, no_request_tok _ _ this.1 this.2⟩
    · rw [h2]
      have := decodeEntity_txt _ _ _ h1 hq
      obtain ⟨e, _, he⟩ := decodeEntity_some _ _ _ h1
      exact ⟨_, rfl, ⟨e, he.symm⟩, no_request_tok _ _ this.1 this.2⟩
    · rw [h3]
      exact ⟨_, rfl, ⟨run, h1.symm⟩, roffLoop_no_request a run _ out rfl⟩
    · rw [h1]; exact ⟨[], by simp, by simp, hnil⟩

theorem fragLoop_safe (s : Frag) (hq : ¬ b!"&#39;" <:+: s.rest) (out' : Bytes)
    (h : fragLoop s = some out') : s.out <+: out' ∧ ∀ i, s.out.length ≤ i → ¬ RequestAt out' i := by
  fun_induction fragLoop s with
  | case1 s h1 =>
    cases h
    refine ⟨List.prefix_refl _, ?_⟩
    have := no_request_tok s.out [] (by simp) rfl
    simpa using this
  | case2 => cases h
  | case3 s h1 h2 ih =>
    obtain ⟨tok, e1, e2, e3⟩ := fragStep_safe s (fun u hu => hq ⟨[], u, by rw [hu]; simp⟩)
    obtain ⟨i1, i2⟩ := ih (fun hc => hq (hc.trans e2.isInfix)) h
    rw [e1] at i1 i2
    refine ⟨(List.prefix_append _ _).trans i1, ?_⟩
    intro i hi hr
    by_cases hlt : i < (s.out ++ tok).length
    · obtain ⟨b, rfl⟩ := i1
      exact e3 i hi (requestAt_append _ _ _ hlt hr)
    · exact i2 i (by omega) hr

/-! ### The title -/

theorem roffLoop_mem (after : Byte) (st : Bool) (s : Bytes) (c : Byte)
    (hc : c ∉ b!"\\e&-[em]") (h : c ∈ roffLoop after st s) : c ∈ s := by
  fun_induction roffLoop after st s with
  | case1 => exact h
  | case6 st d t _ _ _ _ _ ih =>
    simp at hc
    have h' : c ∈ roffLoop after false (t.drop 2) := by simpa [hc] using h
    exact List.mem_cons_of_mem _ (List.mem_of_mem_drop (ih h'))
  | case7 st d t _ _ _ _ _ _ ih =>
    simp at hc
    have h' : c ∈ roffLoop after false (t.drop 2) := by simpa [hc] using h
    exact List.mem_cons_of_mem _ (List.mem_of_mem_drop (ih h'))
  | _ => simp at hc h ⊢; grind

theorem quoted_plain (e r : Bytes) (h : (34 : Byte) ∉ e) (hr : r.head? ≠ some 34) :
    quoted (e ++ 34 :: r) = (e, r) := by
  induction e with
  | nil =>
    cases r with
    | nil => rfl
    | cons a b =>
      simp at hr
      simp only [List.nil_append]
      unfold quoted
      split <;> simp_all
  | cons c t ih =>
    simp at h
    simp only [List.cons_append]
    have := ih (by simpa using h.2)
    conv => lhs; unfold quoted
    split
    · simp_all
    · simp_all
    · simp_all
    · rename_i heq; simp at heq; rw [← heq.1, ← heq.2, this]

end Verif.Man
