import Verif.Proof.Autolinks
import Verif.Proof.Liquid

namespace Verif.Autolinks

open Spec (Piece Protocol inWord punct Token Item)
open FencedDivs (Buf Buf.store)

/-! ### The loop without its block -/

/-- What the loop writes. -/
def run (n : Nat) (st : St) (pre cur : Bytes) : Bytes :=
  match n with
  | 0 => []
  | n + 1 =>
    if cur = [] then []
    else
      let s := step st pre cur
      s.out ++ run n s.st ((cur.take s.eat).reverse ++ pre) (cur.drop s.eat)

theorem loop_run (n : Nat) (st : St) (b b' : Buf) (pre cur : Bytes) (h : loop n st b pre cur = .val b') : b'.out = b.out ++ run n st pre cur := by
  induction n generalizing st b pre cur with
  | zero => cases h
  | succ n ih =>
    rw [loop] at h
    rw [run]
    by_cases hc : cur = []
    · rw [if_pos hc] at h ⊢
      cases h
      simp
    · rw [if_neg hc] at h ⊢
      simp only at h ⊢
      cases hs : (grow b (step st pre cur).needed).store (step st pre cur).out with
      | ub => rw [hs] at h; cases h
      | val b1 =>
        rw [hs] at h
        have e := ih _ _ _ _ h
        have : b1.out = b.out ++ (step st pre cur).out := by
          unfold Buf.store at hs
          split at hs
          · cases hs
            cases hk : (step st pre cur).needed with
            | none => rfl
            | some k => simp only [grow, (room_cap b k).1]
          · cases hs
        rw [e, this, List.append_assoc]

theorem process_run (text : Bytes) (h0 : 0 ∉ text) : process text = .val (run (text.length + 1) {} [] text) := by
  obtain ⟨b, qs, k1, k2, k3, -, k5⟩ := loop_ok text.length (text.length + 1) {} ⟨[], text.length * 4 + 1⟩ [] text (by omega) (by simp)
    ⟨by simp only; omega, fun _ => rfl, by simp, by simp, by simp⟩
  have e := loop_run _ _ _ _ _ _ k1
  have hq : 0 ∉ b.out := by
    rw [k5, List.nil_append]
    intro hm
    rcases result_mem qs 0 hm with h | h
    · exact h0 (k3 ▸ h)
    · exact absurd h (by decide)
  unfold process
  rw [k1]
  simp only
  rw [Buf.store, if_pos (by simp only [List.length_cons, List.length_nil]; omega)]
  simp only
  rw [List.takeWhile_append_of_pos (by intro c hc; simp; rintro rfl; exact hq hc)]
  rw [e]
  simp

theorem drop_takeWhile (p : Byte → Bool) (s : Bytes) : s.drop (s.takeWhile p).length = s.dropWhile p := by
  induction s with
  | nil => rfl
  | cons c t ih =>
    rw [List.takeWhile_cons, List.dropWhile_cons]
    split
    · simpa using ih
    · rfl

/-- From here on the loop writes the bytes. -/
def Run (st : St) (pre cur o : Bytes) : Prop := ∀ n, cur.length < n → run n st pre cur = o

theorem run_nil (st : St) (pre : Bytes) : Run st pre [] [] := by
  intro n hn
  cases n with
  | zero => omega
  | succ n => simp [run]

theorem run_step {st st' : St} {pre cur o out : Bytes} {k : Nat} {m : Option Nat} (a b : Bytes) (hcur : cur = a ++ b) (hk : k = a.length) (hne : cur ≠ [])
    (hs : step st pre cur = ⟨st', k, out, m⟩) (h : Run st' (a.reverse ++ pre) b o) : Run st pre cur (out ++ o) := by
  intro n hn
  have hf := step_fact st pre cur hne
  rw [hs] at hf
  have h1 := hf.pos
  simp only at h1
  cases n with
  | zero => omega
  | succ n =>
    rw [run, if_neg hne, hs]
    simp only
    have e1 : cur.take k = a := by rw [hcur, hk, List.take_left]
    have e2 : cur.drop k = b := by rw [hcur, hk, List.drop_left]
    rw [e1, e2, h n ?_]
    rw [hcur, List.length_append] at hn
    omega

theorem run_copy {st st' : St} {pre o : Bytes} (a b : Bytes) (ha : a ≠ []) (hs : step st pre (a ++ b) = copy st' a.length (a ++ b))
    (h : Run st' (a.reverse ++ pre) b o) : Run st pre (a ++ b) (a ++ o) := by
  have := run_step a b rfl rfl (by simp [ha]) (by rw [hs, copy]) h
  rwa [List.take_left] at this

theorem run_char {st st' : St} {pre o : Bytes} (c : Byte) (b : Bytes) (hs : step st pre (c :: b) = copy st' 1 (c :: b))
    (h : Run st' (c :: pre) b o) : Run st pre (c :: b) (c :: o) := run_copy [c] b (by simp) hs h

/-! ### States and places -/

/-- No code, tag or link is open. -/
def Idle (st : St) : Prop := st.liquid = false ∧ st.block = false ∧ st.span = false ∧ st.url = false

/-- No tag is open. -/
def Clear (pre : Bytes) : Prop := ∀ x, (pre.dropWhile fun c => c != c!"<" && c != c!">").head? = some x → x ≠ c!"<"

theorem clear_attr {pre : Bytes} (h : Clear pre) : inAttr pre = false := by
  unfold inAttr
  simp only
  rw [if_neg]
  intro hh
  simp only [Bool.and_eq_true, beq_iff_eq] at hh
  rw [drop_takeWhile] at hh
  exact h _ hh.1 rfl

theorem clear_cons {pre : Bytes} (h : Clear pre) (c : Byte) (hc : c ≠ c!"<") : Clear (c :: pre) := by
  intro x hx
  by_cases h2 : c = c!">"
  · subst h2
    rw [List.dropWhile_cons_of_neg (by decide)] at hx
    simp at hx
    subst hx
    decide
  · rw [List.dropWhile_cons_of_pos (by simp [hc, h2])] at hx
    exact h x hx

theorem clear_append {pre : Bytes} (h : Clear pre) (s : Bytes) (hs : c!"<" ∉ s) : Clear (s.reverse ++ pre) := by
  induction s generalizing pre with
  | nil => exact h
  | cons c s ih =>
    rw [List.reverse_cons, List.append_assoc]
    exact ih (clear_cons h c fun e => hs (by simp [e])) fun hm => hs (by simp [hm])

theorem clear_gt (pre : Bytes) : Clear (c!">" :: pre) := by
  intro x hx
  rw [List.dropWhile_cons_of_neg (by decide)] at hx
  simp at hx
  subst hx
  decide

theorem clear_closed {pre : Bytes} (h : Clear pre) (s : Bytes) (hs : Spec.Closed s) : Clear (s.reverse ++ pre) := by
  by_cases hm : c!"<" ∈ s ∨ c!">" ∈ s
  · have : c!">" ∈ s := by
      rcases hm with hm | hm
      · obtain ⟨a, b, rfl⟩ := List.append_of_mem hm
        have := hs a b rfl
        simp [this]
      · exact hm
    -- the last one of them
    have hr : c!">" ∈ s.reverse := by simpa using this
    intro x hx hlt
    subst hlt
    have hsp := List.takeWhile_append_dropWhile (p := fun c : Byte => c != c!"<" && c != c!">") (l := s.reverse)
    cases hd : s.reverse.dropWhile (fun c : Byte => c != c!"<" && c != c!">") with
    | nil =>
      rw [hd, List.append_nil] at hsp
      rw [← hsp] at hr
      have := List.all_eq_true.1 (List.all_takeWhile (p := fun c : Byte => c != c!"<" && c != c!">") (l := s.reverse)) _ hr
      simp at this
    | cons y t =>
      have hdd : (s.reverse ++ pre).dropWhile (fun c : Byte => c != c!"<" && c != c!">") = y :: (t ++ pre) := by
        rw [List.dropWhile_append, hd]
        simp
      rw [hdd] at hx
      simp at hx
      subst hx
      rw [hd] at hsp
      have e : s = t.reverse ++ c!"<" :: (s.reverse.takeWhile (fun c : Byte => c != c!"<" && c != c!">")).reverse := by
        have := congrArg List.reverse hsp
        rw [List.reverse_reverse] at this
        conv => lhs; rw [← this]
        simp
      have := hs _ _ e
      rw [List.mem_reverse] at this
      have := List.all_eq_true.1 (List.all_takeWhile (p := fun c : Byte => c != c!"<" && c != c!">") (l := s.reverse)) _ this
      simp at this
  · exact clear_append h s fun h => hm (Or.inl h)

/-! ### Single steps -/

theorem line_none (st : St) (pre : Bytes) (c : Byte) (t : Bytes) (h : c ≠ 32 ∧ c ≠ 9 ∧ c ≠ c!"[") : lineStep st pre (c :: t) = none := by
  unfold lineStep
  rw [if_neg]
  rintro ⟨-, hh⟩
  rcases hh with hh | hh
  · unfold indented at hh
    rw [List.takeWhile_cons_of_neg (by simpa using h.1)] at hh
    simp [h.2.1] at hh
  · unfold definition at hh
    rw [List.dropWhile_cons_of_neg (by simp [h.1, h.2.1])] at hh
    simp [h.2.2] at hh

theorem line_inside (st : St) (pre : Bytes) (cur : Bytes) (h : ∃ d, pre.head? = some d ∧ d ≠ 10) : lineStep st pre cur = none := by
  obtain ⟨d, h1, h2⟩ := h
  unfold lineStep
  rw [if_neg]
  rintro ⟨hh, -⟩
  rcases hh with rfl | hh
  · cases h1
  · rw [h1] at hh
    simp at hh
    exact h2 hh

theorem bracketsAt_same {st : St} {c : Byte} {t : Bytes} (h : Idle st) (hc : c ≠ c!"[" ∧ c ≠ c!"]") : bracketsAt st (c :: t) = st := by
  obtain ⟨-, -, -, h4⟩ := h
  unfold bracketsAt brackets
  simp [hc.1, hc.2, h4]

theorem angle_none (st : St) (c : Byte) (t : Bytes) (hc : c ≠ c!"<") : angleStep st (c :: t) = none := by
  unfold angleStep
  simp [hc]

theorem comment_none (st : St) (c : Byte) (t : Bytes) (hc : c ≠ c!"<") : commentStep st (c :: t) = none := by
  unfold commentStep
  rw [if_neg]
  intro h
  obtain ⟨r, hr⟩ := List.isPrefixOf_iff_prefix.1 h
  simp at hr
  exact hc hr.1.symm

/-- A byte that is copied. -/
theorem step_char {st : St} {pre : Bytes} {c : Byte} {t : Bytes} (h : Idle st) (hc : c ∉ b!"[]<`{") (hl : lineStep st pre (c :: t) = none)
    (hb : bareStep st pre (c :: t) = none ∨ ((c = c!"h" ∨ c = c!"m") ∧ inAttr pre = true)) : step st pre (c :: t) = copy st 1 (c :: t) := by
  simp only [List.mem_cons, List.not_mem_nil, or_false, not_or] at hc
  obtain ⟨c1, c2, c3, c4, c5⟩ := hc
  unfold step
  rw [h.1]
  rw [if_neg (by simp; intro h; exact absurd h.symm c5), if_neg (by simp), hl]
  simp only
  rw [if_neg (by simpa using c4)]
  unfold textStep
  rw [if_neg (by simp [h.2.1, h.2.2.1]), if_neg (by simp; intro h; exact absurd h.symm c2)]
  simp only
  rw [bracketsAt_same h ⟨c1, c2⟩, if_neg (by simp [h.2.2.2])]
  split
  · rfl
  · rename_i hh
    rw [angle_none st c t c3, comment_none st c t c3]
    simp only
    rcases hb with hb | ⟨hb, ha⟩
    · rw [hb]
    · exact absurd (by rw [ha]; simpa using hb) hh

theorem bare_space (st : St) (pre : Bytes) (c : Byte) (t : Bytes) (h : isSpace c = true) : bareStep st pre (c :: t) = none := by
  unfold bareStep
  simp [h]

theorem email_at {pre cur : Bytes} (h : c!"@" ∉ cur.takeWhile inToken) : email pre cur = false := by
  unfold email
  simp [h]

theorem email_pre {d : Byte} {pre cur : Bytes} (h : isSpace d = false) (h2 : d ≠ c!"(" ∧ d ≠ c!"[") : email (d :: pre) cur = false := by
  unfold email wordStart
  simp [h, h2.1, h2.2]

theorem bare_paren {st : St} {pre cur : Bytes} (h : pre.head? = some c!"(" ∨ pre.head? = some c!"[") : bareStep st pre cur = none := by
  unfold bareStep
  cases cur with
  | nil => rfl
  | cons c t =>
    simp only
    split
    · rw [if_neg]
      rcases h with h | h <;> simp [h]
    · rfl

theorem bare_none {st : St} {pre : Bytes} {c : Byte} {t : Bytes} (hp : ¬ Protocol (c :: t))
    (he : email pre (c :: t) = false ∨ ∃ d, pre.head? = some d ∧ isSpace d = false) : bareStep st pre (c :: t) = none := by
  have hp' : protocol (c :: t) = false := Bool.eq_false_iff.2 fun h => hp ((protocol_iff _).1 h)
  by_cases hm : email pre (c :: t) = true
  · rcases he with he | ⟨d, h1, h2⟩
    · rw [he] at hm
      cases hm
    · cases pre with
      | nil => cases h1
      | cons x pre =>
        simp at h1
        subst h1
        by_cases hh : x = c!"(" ∨ x = c!"["
        · exact bare_paren (by rcases hh with rfl | rfl <;> simp)
        · rw [email_pre h2 ⟨fun e => hh (Or.inl e), fun e => hh (Or.inr e)⟩] at hm
          cases hm
  · unfold bareStep
    simp only
    rw [if_neg (by simp [hp', Bool.eq_false_iff.2 hm])]

/-- No protocol goes over a byte that is in none. -/
theorem protocol_stop {y z : Bytes} {d : Byte} (hd : d ∉ b!"https:/mailo") (h : Protocol (y ++ d :: z)) : Protocol y := by
  have key : ∀ p : Bytes, d ∉ p → p <+: y ++ d :: z → p <+: y := by
    intro p h2 h
    rcases List.prefix_or_prefix_of_prefix h (List.prefix_append y (d :: z)) with hh | hh
    · exact hh
    · obtain ⟨q, rfl⟩ := hh
      rw [List.prefix_append_right_inj] at h
      cases q with
      | nil => rw [List.append_nil]; exact List.prefix_rfl
      | cons x q =>
        obtain ⟨r, hr⟩ := h
        simp at hr
        exact absurd (by simp [hr.1]) h2
  have hsub : ∀ p : Bytes, p ⊆ b!"https:/mailo" → d ∉ p := fun p hp hm => hd (hp hm)
  rcases h with h | h | h
  · exact Or.inl (key _ (hsub _ (by decide)) h)
  · exact Or.inr (Or.inl (key _ (hsub _ (by decide)) h))
  · exact Or.inr (Or.inr (key _ (hsub _ (by decide)) h))

theorem protocol_colon {y : Bytes} (h : Protocol y) : c!":" ∈ y := by
  rcases h with h | h | h <;> exact h.subset (by decide)

theorem protocol_cut {y z : Bytes} {d : Byte} (hy : c!":" ∉ y) (hd : d ∉ b!"https:/mailo") : ¬ Protocol (y ++ d :: z) :=
  fun h => hy (protocol_colon (protocol_stop hd h))

theorem protocol_head {c : Byte} {t : Bytes} (h : Protocol (c :: t)) : c = c!"h" ∨ c = c!"m" := by
  rcases h with h | h | h <;> (obtain ⟨r, hr⟩ := h; simp at hr; simp [← hr.1])

/-! ### Words -/

/-- What is behind a word. -/
def Ends (rest : Bytes) : Prop := ∀ c, rest.head? = some c → isSpace c = true

theorem takeWhile_word {w rest : Bytes} (hw : ∀ c ∈ w, inWord c) (hr : Ends rest) : (w ++ rest).takeWhile inToken = w := by
  rw [List.takeWhile_append_of_pos fun c hc => (inToken_iff c).2 (hw c hc)]
  cases rest with
  | nil => simp
  | cons c t =>
    rw [List.takeWhile_cons_of_neg, List.append_nil]
    unfold inToken
    simp [hr c rfl]

theorem protocol_word {w rest : Bytes} (hw : ∀ c ∈ w, inWord c) (hr : Ends rest) (h : Protocol (w ++ rest)) : Protocol w := by
  have key : ∀ p : Bytes, (∀ c ∈ p, inToken c = true) → p <+: w ++ rest → p <+: w := by
    intro p hp h
    have := token_prefix h hp
    rwa [takeWhile_word hw hr] at this
  rcases h with h | h | h
  · exact Or.inl (key _ (by decide) h)
  · exact Or.inr (Or.inl (key _ (by decide) h))
  · exact Or.inr (Or.inr (key _ (by decide) h))

theorem protocol_mono {w rest : Bytes} (h : Protocol w) : Protocol (w ++ rest) := by
  rcases h with h | h | h
  · exact Or.inl (h.trans (List.prefix_append _ _))
  · exact Or.inr (Or.inl (h.trans (List.prefix_append _ _)))
  · exact Or.inr (Or.inr (h.trans (List.prefix_append _ _)))

theorem mail_mono {w e : Bytes} (h : Spec.Mail w) : Spec.Mail (w ++ e) := by
  obtain ⟨user, c, dom, d, rest, rfl, h⟩ := h
  exact ⟨user, c, dom, d, rest ++ e, by simp, h⟩

theorem email_mail {pre w rest : Bytes} (hw : ∀ c ∈ w, inWord c) (hr : Ends rest) (h : email pre (w ++ rest) = true) : Spec.Mail w := by
  have := (email_split h).1
  rw [takeWhile_word hw hr] at this
  obtain ⟨e, h1, -, -⟩ := trim_split w
  rw [h1]
  exact mail_mono this

theorem tld_mail (dom : Bytes) (d : Byte) (rest : Bytes) (h : ∀ x ∈ dom, isAlnum x = true ∨ x = c!"-" ∨ x = c!"_") (hd : isAlnum d = true) :
    tld (dom ++ c!"." :: d :: rest) = true := by
  induction dom with
  | nil => simp [tld, alnumHead, hd]
  | cons x dom ih =>
    rw [List.cons_append, tld]
    split
    · rfl
    · rw [if_neg, ih fun y hy => h y (by simp [hy])]
      intro hh
      simp at hh
      rcases h x (by simp) with h | h | h
      · rw [h] at hh; simp at hh
      · exact hh.1.2 h
      · exact hh.2 h

theorem mail_email {pre w rest : Bytes} (hw : ∀ c ∈ w, inWord c) (hr : Ends rest) (h : Spec.Mail w) (hp : pre = [] ∨ ∃ d, pre.head? = some d ∧ isSpace d = true) :
    email pre (w ++ rest) = true := by
  obtain ⟨user, c, dom, d, tail, rfl, h2, h3, h4, h5⟩ := h
  unfold email
  rw [takeWhile_word hw hr]
  have hc : c ≠ c!"@" := by rintro rfl; exact absurd h3 (by decide)
  have hu : (user ++ [c] ++ b!"@" ++ dom ++ b!"." ++ d :: tail).takeWhile (· != c!"@") = user ++ [c] := by
    have : user ++ [c] ++ b!"@" ++ dom ++ b!"." ++ d :: tail = (user ++ [c]) ++ c!"@" :: (dom ++ c!"." :: d :: tail) := by simp
    rw [this, List.takeWhile_append_of_pos, List.takeWhile_cons_of_neg (by decide), List.append_nil]
    intro x hx
    simp only [bne_iff_ne, ne_eq]
    rintro rfl
    simp only [List.mem_append, List.mem_cons, List.not_mem_nil, or_false] at hx
    rcases hx with hx | hx
    · exact h2 hx
    · exact hc hx.symm
  have hd : (user ++ [c] ++ b!"@" ++ dom ++ b!"." ++ d :: tail).drop ((user ++ [c]).length + 1) = dom ++ c!"." :: d :: tail := by
    have : user ++ [c] ++ b!"@" ++ dom ++ b!"." ++ d :: tail = (user ++ [c] ++ b!"@") ++ (dom ++ c!"." :: d :: tail) := by simp
    rw [this, show (user ++ [c]).length + 1 = (user ++ [c] ++ b!"@").length by simp, List.drop_left]
  simp only [hu, hd, tld_mail dom d tail h4 h5]
  have hws : wordStart pre = true := by
    cases pre with
    | nil => rfl
    | cons x t =>
      rcases hp with hp | ⟨y, hp, hs⟩
      · cases hp
      · simp at hp; subst hp; simp [wordStart, hs]
  have hnb : (pre.head? == some c!"[") = false := by
    cases pre with
    | nil => rfl
    | cons x t =>
      rcases hp with hp | ⟨y, hp, hs⟩
      · cases hp
      · simp at hp; subst hp
        simp
        rintro rfl
        exact absurd hs (by decide)
  have hcb : c ≠ c!"[" := by rintro rfl; exact absurd h3 (by decide)
  rw [hws, hnb]
  simp [alnumHead, h3, hcb]

theorem trim_word {u e : Bytes} (hu : Spec.Word u) (he : ∀ c ∈ e, punct c) : trim (u ++ e) = u := by
  obtain ⟨-, a, c, rfl, hc⟩ := hu
  have hc' : isPunct c = false := Bool.eq_false_iff.2 fun h => hc ((isPunct_iff c).1 h)
  rw [trim_eq, List.reverse_append, List.dropWhile_append_of_pos]
  · rw [List.reverse_append]
    simp only [List.reverse_cons, List.reverse_nil, List.nil_append, List.singleton_append]
    rw [List.dropWhile_cons_of_neg (by simp [hc'])]
    simp
  · intro x hx
    exact (isPunct_iff x).2 (he x (by simpa using hx))

/-- Bytes of a word. -/
def Good (c : Byte) : Prop := inWord c ∧ c ≠ c!"[" ∧ c ≠ c!"]" ∧ c ≠ c!"`" ∧ c ≠ c!"{"

theorem good_line {c : Byte} (h : Good c) (st : St) (pre t : Bytes) : lineStep st pre (c :: t) = none :=
  line_none st pre c t ⟨fun e => by rw [e] at h; exact absurd h.1.1 (by decide), fun e => by rw [e] at h; exact absurd h.1.1 (by decide), h.2.1⟩

theorem good_marks {c : Byte} (h : Good c) : c ∉ b!"[]<`{" := by
  simp only [List.mem_cons, List.not_mem_nil, or_false, not_or]
  exact ⟨h.2.1, h.2.2.1, h.1.2.1, h.2.2.2.1, h.2.2.2.2⟩

theorem word_copy {st : St} (hi : Idle st) (y : Bytes) (hy : ∀ c ∈ y, Good c) (pre tail o : Bytes) (hc : Clear pre)
    (hp : ∀ x c z, y = x ++ c :: z → Protocol (c :: z ++ tail) → (x.reverse ++ pre).head? = some c!"(")
    (he : y ≠ [] → email pre (y ++ tail) = false ∨ ∃ d, pre.head? = some d ∧ isSpace d = false)
    (h : Run st (y.reverse ++ pre) tail o) : Run st pre (y ++ tail) (y ++ o) := by
  induction y generalizing pre with
  | nil => exact h
  | cons c y ih =>
    have hg := hy c (by simp)
    refine run_char c _ (step_char hi (good_marks hg) (good_line hg _ _ _) (Or.inl ?_)) ?_
    · by_cases hpr : Protocol (c :: y ++ tail)
      · have := hp [] c y rfl hpr
        exact bare_paren (Or.inl this)
      · exact bare_none hpr (he (by simp))
    · refine ih (fun x hx => hy x (by simp [hx])) (c :: pre) (clear_cons hc c hg.1.2.1) ?_ (fun _ => Or.inr ⟨c, rfl, hg.1.1⟩) ?_
      · intro x d z hxy hpr
        have := hp (c :: x) d z (by rw [hxy]; rfl) hpr
        rwa [List.reverse_cons, List.append_assoc] at this
      · rwa [List.reverse_cons, List.append_assoc] at h

/-- The step at an address. -/
theorem step_link {st : St} {pre u e rest : Bytes} (hi : Idle st) (hc : Clear pre) (hg : ∀ c ∈ u ++ e, Good c) (hr : Ends rest) (hu : Spec.Word u)
    (he : ∀ c ∈ e, punct c) (hp : Protocol (u ++ e) ∨ (email pre (u ++ e ++ rest) = true ∧ ¬ Protocol (u ++ e) ∧ 2 ≤ u.length))
    (hpre : pre.head? ≠ some c!"(" ∧ pre.head? ≠ some c!"[") (href : Bytes)
    (hh : (Protocol (u ++ e) → href = u) ∧ (¬ Protocol (u ++ e) → href = b!"mailto:" ++ u)) :
    ∃ m, step st pre (u ++ e ++ rest) = ⟨st, u.length, link u href, m⟩ := by
  have hw : ∀ c ∈ u ++ e, inWord c := fun c hm => (hg c hm).1
  have htk := takeWhile_word hw hr
  have htr := trim_word hu he
  obtain ⟨-, a, x, hax, -⟩ := hu
  have hune : u ≠ [] := by rw [hax]; simp
  obtain ⟨c, t, hct⟩ := List.exists_cons_of_ne_nil hune
  have hcg : Good c := hg c (by rw [hct]; simp)
  have hcur : u ++ e ++ rest = c :: (t ++ e ++ rest) := by rw [hct]; simp
  have hpp : protocol (u ++ e ++ rest) = true ↔ Protocol (u ++ e) := by
    rw [protocol_iff]
    exact ⟨protocol_word hw hr, protocol_mono⟩
  have hhref : (if !protocol (u ++ e ++ rest) && !(decide (u.length ≥ 7) && b!"mailto:".isPrefixOf (u ++ e ++ rest)) then b!"mailto:" ++ u else u) = href := by
    by_cases hP : Protocol (u ++ e)
    · rw [hh.1 hP, if_neg (by rw [hpp.2 hP]; simp)]
    · rw [hh.2 hP, if_pos]
      have h1 : protocol (u ++ e ++ rest) = false := Bool.eq_false_iff.2 fun h => hP (hpp.1 h)
      have h2 : b!"mailto:".isPrefixOf (u ++ e ++ rest) = false := by
        unfold protocol at h1
        simp only [Bool.or_eq_false_iff] at h1
        exact h1.2
      rw [h1, h2]
      simp
  have hb : ∃ m, bareStep st pre (u ++ e ++ rest) = some ⟨st, u.length, link u href, m⟩ := by
    unfold bareStep
    rw [hcur]
    simp only
    rw [← hcur, clear_attr hc, htk, htr]
    rw [if_pos]
    · rw [if_pos]
      · rw [hhref]
        exact ⟨_, rfl⟩
      · have hmk : (pre == [] && c == c!"#" && markEnd (t ++ e ++ rest)) = false := by
          rw [Bool.eq_false_iff]
          intro hm
          simp only [Bool.and_eq_true, beq_iff_eq] at hm
          obtain ⟨⟨-, hm2⟩, hm3⟩ := hm
          rcases hp with hp | ⟨-, -, hp⟩
          · subst hm2
            rw [hct] at hp
            rcases hp with hp | hp | hp <;> (obtain ⟨z, hz⟩ := hp; simp at hz)
          · rw [hct] at hp
            cases t with
            | nil => simp at hp
            | cons y t =>
              have := (hg y (by rw [hct]; simp)).1.1
              simp only [List.cons_append, markEnd, Bool.or_eq_true, beq_iff_eq] at hm3
              rcases hm3 with (rfl | rfl) | rfl <;> exact absurd this (by decide)
        rw [hmk]
        have h1 : (pre.head? == some c!"(") = false := by simpa using hpre.1
        have h2 : (pre.head? == some c!"[") = false := by simpa using hpre.2
        rw [h1, h2]
        simp [hune]
    · rw [hcg.1.1]
      simp only [Bool.not_false, Bool.and_false, Bool.true_and, Bool.or_eq_true]
      rcases hp with hp | hp
      · exact Or.inl (hpp.2 hp)
      · exact Or.inr hp.1
  obtain ⟨m, hb⟩ := hb
  refine ⟨m, ?_⟩
  obtain ⟨c1, c2, c3, c4, c5⟩ : c ≠ c!"[" ∧ c ≠ c!"]" ∧ c ≠ c!"<" ∧ c ≠ c!"`" ∧ c ≠ c!"{" := ⟨hcg.2.1, hcg.2.2.1, hcg.1.2.1, hcg.2.2.2.1, hcg.2.2.2.2⟩
  rw [hcur] at hb ⊢
  unfold step
  rw [hi.1]
  rw [if_neg (by simp; intro h; exact absurd h.symm c5), if_neg (by simp), good_line hcg]
  simp only
  rw [if_neg (by simpa using c4)]
  unfold textStep
  rw [if_neg (by simp [hi.2.1, hi.2.2.1]), if_neg (by simp; intro h; exact absurd h.symm c2)]
  simp only
  rw [bracketsAt_same hi ⟨c1, c2⟩, if_neg (by simp [hi.2.2.2]), clear_attr hc, if_neg (by simp), angle_none st c _ c3, comment_none st c _ c3]
  simp only
  rw [hb]

theorem token_run {st : St} {pre rest o : Bytes} (hi : Idle st) (hc : Clear pre) (hpre : pre = [] ∨ ∃ d, pre.head? = some d ∧ isSpace d = true)
    (t : Token) (ht : t.Ok) (hr : Ends rest) (h : Run st (t.source.reverse ++ pre) rest o) : Run st pre (t.source ++ rest) (t.result ++ o) := by
  obtain ⟨hne, hg, hk⟩ := ht
  have hparen : pre.head? ≠ some c!"(" ∧ pre.head? ≠ some c!"[" := by
    rcases hpre with rfl | ⟨d, h1, h2⟩
    · simp
    · rw [h1]
      simp only [ne_eq, Option.some.injEq]
      exact ⟨fun e => by rw [e] at h2; exact absurd h2 (by decide), fun e => by rw [e] at h2; exact absurd h2 (by decide)⟩
  -- the punctuation behind an address
  have tail : ∀ (u e q : Bytes), Spec.Word u → (∀ c ∈ e, punct c) → (∀ c ∈ u ++ e, Good c) → Clear q → Run st (e.reverse ++ (u.reverse ++ q)) rest o →
      Run st (u.reverse ++ q) (e ++ rest) (e ++ o) := by
    intro u e q hu he hge hq h
    refine word_copy hi e (fun c hm => hge c (by simp [hm])) (u.reverse ++ q) rest o
      (clear_append hq u fun hm => (hge _ (by simp [hm])).1.2.1 rfl) ?_ (fun _ => Or.inr ?_) h
    · intro x c z hx hpr
      exfalso
      have hcp := he c (by rw [hx]; simp)
      rcases hpr with hpr | hpr | hpr <;>
        (obtain ⟨r, hr⟩ := hpr; simp at hr; rw [← hr.1] at hcp; revert hcp; unfold punct; decide)
    · obtain ⟨-, a, x, rfl, -⟩ := hu
      exact ⟨x, by simp, (hge x (by simp)).1.1⟩
  cases t with
  | plain w =>
    simp only [Token.source, Token.result] at *
    obtain ⟨k1, k2⟩ := hk
    have hw : ∀ c ∈ w, inWord c := fun c hm => (hg c hm).1
    refine word_copy hi w hg pre rest o hc ?_ (fun _ => Or.inl ?_) h
    · intro x c y hxy hpr
      have hpr' := protocol_word (fun d hd => hw d (by rw [hxy]; exact List.mem_append_right _ hd)) hr hpr
      have := k2 x c y hxy (by simpa using hpr')
      rcases List.eq_nil_or_concat x with rfl | ⟨a, d, rfl⟩
      · cases this
      · simpa using this
    · exact Bool.eq_false_iff.2 fun hm => k1 (email_mail hw hr hm)
  | bare a u e =>
    simp only [Token.source, Token.result] at *
    obtain ⟨k1, k2, k3, k4, k5, k6⟩ := hk
    have hge : ∀ c ∈ u ++ e, Good c := fun c hm => hg c (by rw [List.append_assoc]; exact List.mem_append_right _ hm)
    have hca : Clear (a.reverse ++ pre) := clear_append hc a fun hm => (hg _ (by simp [hm])).1.2.1 rfl
    have e1 : a ++ u ++ e ++ rest = a ++ (u ++ e ++ rest) := by simp
    have e2 : a ++ Spec.link u u ++ e ++ o = a ++ (link u u ++ (e ++ o)) := by simp [Spec.link, link]
    rw [e1, e2]
    refine word_copy hi a (fun c hm => hg c (by simp [hm])) pre _ _ hc ?_ ?_ ?_
    · intro x c z hx hpr
      have hwz : ∀ d ∈ c :: z ++ (u ++ e), inWord d := by
        intro d hd
        refine (hg d ?_).1
        rw [hx]
        simp only [List.mem_append, List.mem_cons] at hd ⊢
        rcases hd with hd | hd | hd
        · exact Or.inl (Or.inl (Or.inr hd))
        · exact Or.inl (Or.inr hd)
        · exact Or.inr hd
      have := k5 x c z hx (protocol_word hwz hr (by simpa using hpr))
      rcases List.eq_nil_or_concat x with rfl | ⟨a, d, rfl⟩
      · cases this
      · simpa using this
    · intro ha
      left
      · rw [Bool.eq_false_iff]
        intro hm
        refine k4 ha (email_mail (pre := pre) (rest := rest) (fun c hc => (hg c hc).1) hr ?_)
        rw [← hm]
        simp
    · obtain ⟨m, hs⟩ := step_link (pre := a.reverse ++ pre) hi hca hge hr k1 k2 (Or.inl k3) (by
        rcases List.eq_nil_or_concat a with rfl | ⟨b, d, rfl⟩
        · exact hparen
        · constructor
          · simpa using k6
          · simp
            exact (hg d (by simp)).2.1) u ⟨fun _ => rfl, fun h => absurd k3 h⟩
      refine run_step u (e ++ rest) (by simp) rfl (by obtain ⟨-, b, x, rfl, -⟩ := k1; simp) hs ?_
      exact tail u e _ k1 k2 hge hca (by simpa using h)
  | mail u e =>
    simp only [Token.source, Token.result] at *
    obtain ⟨k1, k2, k3, k4⟩ := hk
    have hw : ∀ c ∈ u ++ e, inWord c := fun c hm => (hg c hm).1
    have e2 : Spec.link u (b!"mailto:" ++ u) ++ e ++ o = link u (b!"mailto:" ++ u) ++ (e ++ o) := by simp [Spec.link, link]
    rw [e2]
    have hem := mail_email hw hr k3 hpre
    have hlen : 2 ≤ u.length := by
      have := (email_split hem).2.1
      rw [takeWhile_word hw hr, trim_word k1 k2] at this
      omega
    obtain ⟨m, hs⟩ := step_link (pre := pre) hi hc hg hr k1 k2 (Or.inr ⟨hem, k4, hlen⟩) hparen (b!"mailto:" ++ u) ⟨fun h => absurd h k4, fun _ => rfl⟩
    refine run_step u (e ++ rest) (by simp) rfl (by obtain ⟨-, b, x, rfl, -⟩ := k1; simp) hs ?_
    exact tail u e _ k1 k2 hg hc (by simpa using h)

/-! ### Tags -/

theorem bare_lt (st : St) (pre t : Bytes) (c : Byte) (hc : inToken c = false) : bareStep st pre (c :: t) = none := by
  refine bare_none (fun h => ?_) (Or.inl (email_at ?_))
  · rcases protocol_head h with rfl | rfl <;> exact absurd hc (by decide)
  · rw [List.takeWhile_cons_of_neg (by simp [hc])]
    simp

/-- The step at a less-than sign. -/
theorem step_lt {st : St} (hi : Idle st) (pre t : Bytes) : step st pre (c!"<" :: t) =
    ((angleStep st (c!"<" :: t)).getD ((commentStep st (c!"<" :: t)).getD (copy st 1 (c!"<" :: t)))) := by
  unfold step
  rw [hi.1, if_neg (by simp), if_neg (by simp), line_none st pre _ t (by decide)]
  simp only
  rw [if_neg (by simp)]
  unfold textStep
  rw [if_neg (by simp [hi.2.1, hi.2.2.1]), if_neg (by simp)]
  simp only
  rw [bracketsAt_same hi (by decide), if_neg (by simp [hi.2.2.2]), if_neg (by simp)]
  cases angleStep st (c!"<" :: t) with
  | some s => rfl
  | none =>
    cases commentStep st (c!"<" :: t) with
    | some s => rfl
    | none => rw [bare_lt st pre t _ (by decide)]; rfl

theorem takeWhile_upTo (u rest : Bytes) (h : c!">" ∉ u) : (u ++ c!">" :: rest).takeWhile (· != c!">") = u := by
  rw [List.takeWhile_append_of_pos, List.takeWhile_cons_of_neg (by decide), List.append_nil]
  intro c hc
  simp only [bne_iff_ne, ne_eq]
  rintro rfl
  exact h hc

theorem angle_run {st : St} {pre u rest o : Bytes} (hi : Idle st) (h1 : c!">" ∉ u) (h2 : Protocol u) (h3 : u ≠ b!"mailto:")
    (h : Run st ((b!"<" ++ u ++ b!">").reverse ++ pre) rest o) : Run st pre (b!"<" ++ u ++ b!">" ++ rest) (link u u ++ o) := by
  have e : b!"<" ++ u ++ b!">" ++ rest = c!"<" :: (u ++ c!">" :: rest) := by simp
  have hadd : address u = true := by
    unfold address
    rcases h2 with h2 | h2 | h2
    · have := h2.length_le
      simp at this
      simp [h2]
      omega
    · have := h2.length_le
      simp at this
      simp [h2]
      omega
    · obtain ⟨r, rfl⟩ := h2
      cases r with
      | nil => exact absurd rfl h3
      | cons x r => simp
  have hune : u ≠ [] := by rintro rfl; exact absurd hadd (by decide)
  have hs : angleStep st (c!"<" :: (u ++ c!">" :: rest)) = some ⟨st, u.length + 2, link u u, some (2 + u.length + 3 + u.length + 2)⟩ := by
    unfold angleStep
    simp only
    rw [takeWhile_upTo u rest h1, if_pos (by decide), if_pos]
    rw [hadd]
    simp [hune]
  refine run_step (k := u.length + 2) (m := some (2 + u.length + 3 + u.length + 2)) (b!"<" ++ u ++ b!">") rest rfl (by simp) (by simp) ?_ h
  rw [e, step_lt hi, hs]
  rfl

theorem comment_run {st : St} {pre s rest o : Bytes} (hi : Idle st) (h1 : ¬ b!"-->" <:+: b!"<!--" ++ s)
    (h : Run st ((b!"<!--" ++ s ++ b!"-->").reverse ++ pre) rest o) : Run st pre (b!"<!--" ++ s ++ b!"-->" ++ rest) (b!"<!--" ++ s ++ b!"-->" ++ o) := by
  have e : b!"<!--" ++ s ++ b!"-->" ++ rest = c!"<" :: (b!"!--" ++ s ++ b!"-->" ++ rest) := by simp
  have ha : angleStep st (c!"<" :: (b!"!--" ++ s ++ b!"-->" ++ rest)) = none := by
    unfold angleStep
    simp only
    rw [if_pos (by decide), if_neg]
    intro hh
    simp only [Bool.and_eq_true] at hh
    have hp := (address_ok hh.2).1
    rw [show b!"!--" ++ s ++ b!"-->" ++ rest = c!"!" :: (b!"--" ++ s ++ b!"-->" ++ rest) by simp, List.takeWhile_cons_of_pos (by decide)] at hp
    rcases protocol_head hp with h | h <;> exact absurd h (by decide)
  have hf := Liquid.find_free (w := b!"-->") (by decide) (by decide) (b!"<!--" ++ s) rest h1
  have hc : commentStep st (c!"<" :: (b!"!--" ++ s ++ b!"-->" ++ rest)) = some ⟨st, (b!"<!--" ++ s ++ b!"-->").length,
      b!"<!--" ++ s ++ b!"-->", some (b!"<!--" ++ s ++ b!"-->").length⟩ := by
    unfold commentStep
    rw [← e, if_pos (by simp), hf]
    simp only
    have : (b!"<!--" ++ s).length + 3 = (b!"<!--" ++ s ++ b!"-->").length := by simp
    rw [this, List.take_left]
  refine run_step (m := some (b!"<!--" ++ s ++ b!"-->").length) (b!"<!--" ++ s ++ b!"-->") rest rfl rfl (by simp) ?_ h
  rw [e, step_lt hi, ha, hc]
  rfl

/-- A less-than sign that starts no address and no comment. -/
theorem lt_run {st : St} {pre t o : Bytes} (hi : Idle st) (ha : angleStep st (c!"<" :: t) = none) (hc : t.head? ≠ some c!"!")
    (h : Run st (c!"<" :: pre) t o) : Run st pre (c!"<" :: t) (c!"<" :: o) := by
  refine run_char _ t ?_ h
  have hcn : commentStep st (c!"<" :: t) = none := by
    unfold commentStep
    rw [if_neg]
    intro hh
    obtain ⟨r, hr⟩ := List.isPrefixOf_iff_prefix.1 hh
    simp at hr
    rw [← hr] at hc
    exact hc rfl
  rw [step_lt hi, ha, hcn]
  rfl

theorem mem_takeWhile_append {p : Byte → Bool} {a b : Bytes} {c : Byte} (h : c ∈ (a ++ b).takeWhile p) : c ∈ a ∨ c ∈ b.takeWhile p := by
  rw [List.takeWhile_append] at h
  split at h
  · simpa using h
  · exact Or.inl ((List.takeWhile_prefix p).subset h)

theorem intag_marks {c : Byte} (h : Spec.inTag c) : c ∉ b!"[]<`{" ∧ c ≠ 10 ∧ c ≠ c!":" ∧ c ≠ c!"@" ∧ c ≠ c!">" := by
  unfold Spec.inTag at h
  simp only [List.mem_cons, List.not_mem_nil, or_false, not_or] at h ⊢
  exact ⟨⟨h.2.2.1, h.2.2.2.1, h.1, h.2.2.2.2.1, h.2.2.2.2.2.1⟩, h.2.2.2.2.2.2.2.2, h.2.2.2.2.2.2.1, h.2.2.2.2.2.2.2.1, h.2.1⟩

/-- Bytes without addresses. -/
theorem tag_run {st : St} (hi : Idle st) (y : Bytes) (hy : ∀ c ∈ y, Spec.inTag c) (pre : Bytes) (d : Byte) (z o : Bytes) (hd : d ∉ b!"https:/mailo")
    (hl : ∃ e, pre.head? = some e ∧ e ≠ 10)
    (hat : c!"@" ∉ (d :: z).takeWhile inToken ∨ ((∀ c ∈ y, isSpace c = false) ∧ ∃ e, pre.head? = some e ∧ isSpace e = false))
    (h : Run st (y.reverse ++ pre) (d :: z) o) : Run st pre (y ++ d :: z) (y ++ o) := by
  induction y generalizing pre with
  | nil => exact h
  | cons c y ih =>
    obtain ⟨m1, m2, m3, m4, m5⟩ := intag_marks (hy c (by simp))
    refine run_char c _ (step_char hi m1 (line_inside _ _ _ hl) (Or.inl ?_)) ?_
    · refine bare_none (protocol_cut (y := c :: y) (fun hm => (intag_marks (hy _ hm)).2.2.1 rfl) hd) ?_
      rcases hat with hat | hat
      · refine Or.inl (email_at fun hm => ?_)
        rcases mem_takeWhile_append (a := c :: y) hm with hm | hm
        · exact (intag_marks (hy _ hm)).2.2.2.1 rfl
        · exact hat hm
      · exact Or.inr hat.2
    · refine ih (fun x hx => hy x (by simp [hx])) (c :: pre) ⟨c, rfl, m2⟩ ?_ (by rwa [List.reverse_cons, List.append_assoc] at h)
      rcases hat with hat | hat
      · exact Or.inl hat
      · exact Or.inr ⟨fun x hx => hat.1 x (by simp [hx]), c, rfl, hat.1 c (by simp)⟩

theorem gt_run {st : St} {pre t o : Bytes} (hi : Idle st) (h : Run st (c!">" :: pre) t o) : Run st pre (c!">" :: t) (c!">" :: o) :=
  run_char _ t (step_char hi (by decide) (line_none _ _ _ _ (by decide)) (Or.inl (bare_lt _ _ _ _ (by decide)))) h

theorem takeWhile_gt (a z : Bytes) (h : c!"@" ∉ a) : c!"@" ∉ (a ++ c!">" :: z).takeWhile inToken := by
  intro hm
  rcases mem_takeWhile_append hm with hm | hm
  · exact h hm
  · rw [List.takeWhile_cons_of_neg (by decide)] at hm
    simp at hm

theorem plain_tag_run {st : St} {pre s rest o : Bytes} (hi : Idle st) (h1 : ∀ c ∈ s, Spec.inTag c) (h2 : s.head? ≠ some c!"!")
    (h : Run st ((b!"<" ++ s ++ b!">").reverse ++ pre) rest o) : Run st pre (b!"<" ++ s ++ b!">" ++ rest) (b!"<" ++ s ++ b!">" ++ o) := by
  have e : b!"<" ++ s ++ b!">" ++ rest = c!"<" :: (s ++ c!">" :: rest) := by simp
  have e2 : b!"<" ++ s ++ b!">" ++ o = c!"<" :: (s ++ c!">" :: o) := by simp
  rw [e, e2]
  refine lt_run hi ?_ ?_ ?_
  · unfold angleStep
    simp only
    rw [takeWhile_upTo s rest (fun hm => (intag_marks (h1 _ hm)).2.2.2.2 rfl), if_pos (by decide), if_neg]
    intro hh
    simp only [Bool.and_eq_true] at hh
    exact (intag_marks (h1 _ (protocol_colon (address_ok hh.2).1))).2.2.1 rfl
  · cases s with
    | nil => simp
    | cons x s => simpa using h2
  · refine tag_run hi s h1 _ _ _ _ (by decide) ⟨c!"<", rfl, by decide⟩ (Or.inl (takeWhile_gt [] rest (by simp))) (gt_run hi ?_)
    simpa using h

theorem in_attr (a front pre : Bytes) (h1 : ∀ c ∈ a, c ∉ b!"<>\"=") (h2 : ∀ c ∈ front, c ≠ c!"<" ∧ c ≠ c!">") :
    inAttr (a.reverse ++ c!"\"" :: c!"=" :: (front.reverse ++ c!"<" :: pre)) = true := by
  have ht : (a.reverse ++ c!"\"" :: c!"=" :: (front.reverse ++ c!"<" :: pre)).takeWhile (fun c => c != c!"<" && c != c!">") =
      a.reverse ++ c!"\"" :: c!"=" :: front.reverse := by
    have : a.reverse ++ c!"\"" :: c!"=" :: (front.reverse ++ c!"<" :: pre) = (a.reverse ++ c!"\"" :: c!"=" :: front.reverse) ++ c!"<" :: pre := by simp
    rw [this, List.takeWhile_append_of_pos, List.takeWhile_cons_of_neg (by decide), List.append_nil]
    intro c hc
    simp only [List.mem_append, List.mem_reverse, List.mem_cons] at hc
    rcases hc with hc | rfl | rfl | hc
    · have := h1 c hc
      simp only [List.mem_cons, List.not_mem_nil, or_false, not_or] at this
      simp [this.1, this.2.1]
    · decide
    · decide
    · simp [h2 c hc]
  unfold inAttr
  simp only [drop_takeWhile]
  rw [ht]
  have hd : (a.reverse ++ c!"\"" :: c!"=" :: (front.reverse ++ c!"<" :: pre)).dropWhile (fun c => c != c!"<" && c != c!">") = c!"<" :: pre := by
    have hsp := List.takeWhile_append_dropWhile (p := fun c : Byte => c != c!"<" && c != c!">") (l := a.reverse ++ c!"\"" :: c!"=" :: (front.reverse ++ c!"<" :: pre))
    rw [ht] at hsp
    have e : a.reverse ++ c!"\"" :: c!"=" :: (front.reverse ++ c!"<" :: pre) = (a.reverse ++ c!"\"" :: c!"=" :: front.reverse) ++ c!"<" :: pre := by simp
    have := hsp.trans e
    exact List.append_cancel_left this
  rw [hd, if_pos (by simp)]
  have hq : (a.reverse ++ c!"\"" :: c!"=" :: front.reverse).takeWhile (· != c!"=") = a.reverse ++ [c!"\""] := by
    have : a.reverse ++ c!"\"" :: c!"=" :: front.reverse = (a.reverse ++ [c!"\""]) ++ c!"=" :: front.reverse := by simp
    rw [this, List.takeWhile_append_of_pos, List.takeWhile_cons_of_neg (by decide), List.append_nil]
    intro c hc
    simp only [List.mem_append, List.mem_reverse, List.mem_cons, List.not_mem_nil, or_false] at hc
    rcases hc with hc | rfl
    · have := h1 c hc
      simp only [List.mem_cons, List.not_mem_nil, or_false, not_or] at this
      simp [this.2.2.2]
    · decide
  rw [hq]
  simp only [List.reverse_append, List.reverse_cons, List.reverse_nil, List.nil_append, List.reverse_reverse, List.singleton_append]
  rw [List.dropWhile_cons_of_neg (by decide)]
  simp only
  rw [if_pos (by decide)]
  simp
  intro hm
  exact absurd (h1 _ hm) (by simp)

theorem attr_run {st : St} {pre front url back rest o : Bytes} (hi : Idle st) (h1 : ∀ c ∈ front, Spec.inTag c) (h2 : front.head? ≠ some c!"!")
    (h3 : ∀ c ∈ url, c ∉ b!"<>[]`{@\"" ∧ isSpace c = false) (h4 : ∀ a b, url = a ++ b → Protocol b → c!"=" ∉ a) (h5 : ∀ c ∈ back, Spec.inTag c)
    (h : Run st ((b!"<" ++ front ++ b!"=\"" ++ url ++ b!"\"" ++ back ++ b!">").reverse ++ pre) rest o) :
    Run st pre (b!"<" ++ front ++ b!"=\"" ++ url ++ b!"\"" ++ back ++ b!">" ++ rest) (b!"<" ++ front ++ b!"=\"" ++ url ++ b!"\"" ++ back ++ b!">" ++ o) := by
  have e : ∀ x, b!"<" ++ front ++ b!"=\"" ++ url ++ b!"\"" ++ back ++ b!">" ++ x = c!"<" :: (front ++ c!"=" :: c!"\"" :: (url ++ c!"\"" :: (back ++ c!">" :: x))) := by
    intro x; simp
  rw [e, e]
  have hfront : ∀ c ∈ front, c ≠ c!"<" ∧ c ≠ c!">" := by
    intro c hc
    have := intag_marks (h1 c hc)
    exact ⟨fun e => this.1 (by simp [e]), this.2.2.2.2⟩
  have hurl : ∀ c ∈ url, c ≠ c!"@" ∧ c ≠ c!">" := by
    intro c hc
    have := (h3 c hc).1
    simp only [List.mem_cons, List.not_mem_nil, or_false, not_or] at this
    exact ⟨this.2.2.2.2.2.2.1, this.2.1⟩
  have hat : ∀ x : Bytes, x <:+ c!"=" :: c!"\"" :: (url ++ c!"\"" :: back) → c!"@" ∉ (x ++ c!">" :: rest).takeWhile inToken := by
    intro x hx
    refine takeWhile_gt x rest fun hm => ?_
    have := hx.subset hm
    simp only [List.mem_cons, List.mem_append] at this
    rcases this with h | h | h | h | h
    · exact absurd h (by decide)
    · exact absurd h (by decide)
    · exact (hurl _ h).1 rfl
    · exact absurd h (by decide)
    · exact (intag_marks (h5 _ h)).2.2.2.1 rfl
  refine lt_run hi ?_ ?_ ?_
  · have hu : (front ++ c!"=" :: c!"\"" :: (url ++ c!"\"" :: (back ++ c!">" :: rest))).takeWhile (· != c!">") =
        front ++ c!"=" :: c!"\"" :: (url ++ c!"\"" :: back) := by
      have : front ++ c!"=" :: c!"\"" :: (url ++ c!"\"" :: (back ++ c!">" :: rest)) = (front ++ c!"=" :: c!"\"" :: (url ++ c!"\"" :: back)) ++ c!">" :: rest := by simp
      rw [this, takeWhile_upTo]
      simp only [List.mem_append, List.mem_cons, not_or]
      exact ⟨fun h => (hfront _ h).2 rfl, by decide, by decide, fun h => (hurl _ h).2 rfl, by decide, fun h => (intag_marks (h5 _ h)).2.2.2.2 rfl⟩
    unfold angleStep
    simp only
    rw [hu, if_pos (by decide), if_neg]
    intro hh
    simp only [Bool.and_eq_true] at hh
    exact protocol_cut (fun hm => (intag_marks (h1 _ hm)).2.2.1 rfl) (by decide) (address_ok hh.2).1
  · cases front with
    | nil => simp
    | cons x s => simpa using h2
  · refine tag_run hi front h1 _ _ _ _ (by decide) ⟨c!"<", rfl, by decide⟩ (Or.inl ?_) ?_
    · have := hat (c!"=" :: c!"\"" :: (url ++ c!"\"" :: back)) List.suffix_rfl
      simpa using this
    · have hq : ∀ c, c ∈ b!"=\"" → ∀ pre t o, (c!"@" ∉ (c :: t).takeWhile inToken) → Run st (c :: pre) t o → Run st pre (c :: t) (c :: o) := by
        intro c hc pre t o hat h
        have hc' : c = c!"=" ∨ c = c!"\"" := by simpa using hc
        refine run_char c t (step_char hi ?_ (line_none _ _ _ _ ?_) (Or.inl (bare_none (fun hp => ?_) (Or.inl (email_at hat))))) h
        · rcases hc' with rfl | rfl <;> decide
        · rcases hc' with rfl | rfl <;> decide
        · rcases protocol_head hp with rfl | rfl <;> exact absurd hc (by decide)
      refine hq _ (by simp) _ _ _ ?_ (hq _ (by simp) _ _ _ ?_ ?_)
      · have := hat (c!"=" :: c!"\"" :: (url ++ c!"\"" :: back)) List.suffix_rfl
        simpa using this
      · have := hat (c!"\"" :: (url ++ c!"\"" :: back)) (List.suffix_cons _ _)
        simpa using this
      · -- the address
        have key : ∀ b a, url = a ++ b → Run st (url.reverse ++ c!"\"" :: c!"=" :: (front.reverse ++ c!"<" :: pre)) (c!"\"" :: (back ++ c!">" :: rest)) (c!"\"" :: (back ++ c!">" :: o)) →
            Run st (a.reverse ++ c!"\"" :: c!"=" :: (front.reverse ++ c!"<" :: pre)) (b ++ c!"\"" :: (back ++ c!">" :: rest)) (b ++ c!"\"" :: (back ++ c!">" :: o)) := by
          intro b
          induction b with
          | nil =>
            intro a hab h
            rw [List.append_nil] at hab
            rw [← hab]
            exact h
          | cons c b ih =>
            intro a hab h
            have hc := h3 c (by rw [hab]; simp)
            have hm : c ∉ b!"[]<`{" := by
              have := hc.1
              simp only [List.mem_cons, List.not_mem_nil, or_false, not_or] at this ⊢
              exact ⟨this.2.2.1, this.2.2.2.1, this.1, this.2.2.2.2.1, this.2.2.2.2.2.1⟩
            have hne : c ≠ 32 ∧ c ≠ 9 ∧ c ≠ c!"[" := ⟨fun e => by rw [e] at hc; exact absurd hc.2 (by decide), fun e => by rw [e] at hc; exact absurd hc.2 (by decide),
              fun e => hm (by simp [e])⟩
            refine run_char c _ (step_char hi hm (line_none _ _ _ _ hne) ?_) ?_
            · by_cases hp : Protocol (c :: (b ++ c!"\"" :: (back ++ c!">" :: rest)))
              · right
                refine ⟨protocol_head hp, in_attr a front pre ?_ hfront⟩
                have hn := h4 a (c :: b) hab (protocol_stop (y := c :: b) (by decide) hp)
                intro x hx
                have hxx := (h3 x (by rw [hab]; simp [hx])).1
                simp only [List.mem_cons, List.not_mem_nil, or_false, not_or] at hxx ⊢
                exact ⟨hxx.1, hxx.2.1, hxx.2.2.2.2.2.2.2, fun e => hn (e ▸ hx)⟩
              · left
                refine bare_none hp (Or.inl (email_at ?_))
                have := hat (c :: b ++ c!"\"" :: back) (by
                  refine ⟨c!"=" :: c!"\"" :: a, ?_⟩
                  rw [hab]; simp)
                simpa using this
            · have := ih (a ++ [c]) (by rw [hab]; simp) h
              simpa using this
        refine key url [] rfl (hq _ (by simp) _ _ _ ?_ (tag_run hi back h5 _ _ _ _ (by decide) ⟨c!"\"", rfl, by decide⟩ (Or.inl (takeWhile_gt [] rest (by simp))) (gt_run hi ?_)))
        · have := hat (c!"\"" :: back) (by
            refine ⟨c!"=" :: c!"\"" :: url, ?_⟩
            simp)
          simpa using this
        · simpa using h

/-! ### Code, links and Liquid tags -/

/-- A run of backticks. -/
theorem ticks (n : Nat) (rest : Bytes) (h : rest.head? ≠ some c!"`") : (List.replicate n c!"`" ++ rest).takeWhile (· == c!"`") = List.replicate n c!"`" := by
  rw [List.takeWhile_append_of_pos (by intro c hc; rw [List.eq_of_mem_replicate hc]; decide)]
  cases rest with
  | nil => simp
  | cons d r =>
    have : d ≠ c!"`" := fun e => h (by rw [e]; rfl)
    rw [List.takeWhile_cons_of_neg (by simpa using this), List.append_nil]

theorem step_tick {st : St} (hl : st.liquid = false) (pre t : Bytes) : step st pre (c!"`" :: t) = tickStep st (c!"`" :: t) := by
  unfold step
  rw [hl, if_neg (by simp), if_neg (by simp), line_none st pre _ t (by decide)]
  rfl

/-- A byte in code. -/
theorem step_code {st : St} {pre : Bytes} {c : Byte} {t : Bytes} (hl : st.liquid = false) (hc : c ≠ c!"`" ∧ c ≠ c!"{") (hs : st.block = true ∨ st.span = true)
    (hln : lineStep st pre (c :: t) = none) : step st pre (c :: t) = copy st 1 (c :: t) := by
  unfold step
  rw [hl, if_neg (by simp; intro h; exact absurd h.symm hc.2), if_neg (by simp), hln]
  simp only
  rw [if_neg (by simpa using hc.1)]
  unfold textStep
  rw [if_pos (by simpa using hs)]

theorem ends_tick {rest : Bytes} (h : Ends rest) : rest.head? ≠ some c!"`" := by
  intro e
  exact absurd (h _ e) (by decide)

theorem span_run {st : St} {pre code rest o : Bytes} (hi : Idle st) (h1 : code ≠ []) (h2 : ∀ c ∈ code, c ∉ b!"`{\n") (hr : Ends rest)
    (h : ∀ st', Idle st' → Run st' ((b!"`" ++ code ++ b!"`").reverse ++ pre) rest o) : Run st pre (b!"`" ++ code ++ b!"`" ++ rest) (b!"`" ++ code ++ b!"`" ++ o) := by
  have e : ∀ x, b!"`" ++ code ++ b!"`" ++ x = c!"`" :: (code ++ c!"`" :: x) := by intro x; simp
  rw [e, e]
  have hc : ∀ c ∈ code, c ≠ c!"`" ∧ c ≠ c!"{" ∧ c ≠ 10 := by
    intro c hm
    have := h2 c hm
    simpa only [List.mem_cons, List.not_mem_nil, or_false, not_or] using this
  have hstep : ∀ (st : St) (t : Bytes), t.head? ≠ some c!"`" → tickStep st (c!"`" :: t) = copy { st with span := !st.span } 1 (c!"`" :: t) := by
    intro st t ht
    unfold tickStep
    have := ticks 1 t ht
    simp only [List.replicate_succ, List.replicate_zero, List.cons_append, List.nil_append] at this
    rw [this]
    rfl
  refine run_char _ _ (by rw [step_tick hi.1, hstep]; obtain ⟨x, t, rfl⟩ := List.exists_cons_of_ne_nil h1; simp; exact (hc x (by simp)).1) ?_
  rw [show (!st.span) = true by rw [hi.2.2.1]; rfl]
  have key : ∀ (y : Bytes) (q : Bytes), (∀ c ∈ y, c ≠ c!"`" ∧ c ≠ c!"{" ∧ c ≠ 10) → (∃ d, q.head? = some d ∧ d ≠ 10) →
      Run { st with span := true } (y.reverse ++ q) (c!"`" :: rest) (c!"`" :: o) → Run { st with span := true } q (y ++ c!"`" :: rest) (y ++ c!"`" :: o) := by
    intro y
    induction y with
    | nil => intro q _ _ h; exact h
    | cons c y ih =>
      intro q hy hq h
      have hcc := hy c (by simp)
      refine run_char c _ (step_code hi.1 ⟨hcc.1, hcc.2.1⟩ (Or.inr rfl) (line_inside _ _ _ hq)) ?_
      exact ih _ (fun x hx => hy x (by simp [hx])) ⟨c, rfl, hcc.2.2⟩ (by rwa [List.reverse_cons, List.append_assoc] at h)
  refine key code _ hc ⟨_, rfl, by decide⟩ (run_char _ _ (by rw [step_tick (st := { st with span := true }) hi.1, hstep _ _ (ends_tick hr)]) ?_)
  have := h { st with span := false } ⟨hi.1, hi.2.1, rfl, hi.2.2.2⟩
  simpa using this

theorem code_run {st : St} (hl : st.liquid = false) (hb : st.block = true) (n : Nat) (code pre tail o : Bytes) (hn : code.length ≤ n)
    (h1 : ∀ c ∈ code, c ∉ b!"`{") (h2 : code = [] ∨ ∃ a, code = a ++ b!"\n") (h : Run st (code.reverse ++ pre) tail o) :
    Run st pre (code ++ tail) (code ++ o) := by
  induction n generalizing code pre with
  | zero =>
    have : code = [] := List.length_eq_zero_iff.1 (by omega)
    subst this
    exact h
  | succ n ih =>
    cases code with
    | nil => exact h
    | cons c t =>
      have hc := h1 c (by simp)
      simp only [List.mem_cons, List.not_mem_nil, or_false, not_or] at hc
      have hlast : ∃ a, c :: t = a ++ b!"\n" := h2.resolve_left (by simp)
      cases hls : lineStep st pre (c :: t ++ tail) with
      | none =>
        refine run_char c _ (step_code hl hc (Or.inl hb) hls) (ih t (c :: pre) (by simp only [List.length_cons] at hn; omega) (fun x hx => h1 x (by simp [hx])) ?_ ?_)
        · obtain ⟨a, ha⟩ := hlast
          cases a with
          | nil => left; simp at ha; exact ha.2
          | cons x a => right; simp at ha; exact ⟨a, ha.2⟩
        · rwa [List.reverse_cons, List.append_assoc] at h
      | some s =>
        have hf := line_fact hls
        unfold lineStep at hls
        split at hls
        · simp only [Option.some.injEq] at hls
          have h10 : 10 ∈ c :: t := by obtain ⟨a, ha⟩ := hlast; rw [ha]; simp
          have htw : (c :: t ++ tail).takeWhile (· != 10) = (c :: t).takeWhile (· != 10) := by
            rw [List.takeWhile_append, if_neg]
            intro hh
            have hall := List.takeWhile_append_dropWhile (p := fun c : Byte => c != 10) (l := c :: t)
            have : (c :: t).dropWhile (fun c : Byte => c != 10) = [] := by
              have := congrArg List.length hall
              rw [List.length_append, hh] at this
              exact List.length_eq_zero_iff.1 (by omega)
            rw [this, List.append_nil] at hall
            rw [← hall] at h10
            have := List.all_eq_true.1 (List.all_takeWhile (p := fun c : Byte => c != 10) (l := c :: t)) _ h10
            simp at this
          rw [htw] at hls
          have hsp := List.takeWhile_append_dropWhile (p := fun c : Byte => c != 10) (l := c :: t)
          have hne : (c :: t).dropWhile (fun c : Byte => c != 10) ≠ [] := by
            intro hd
            rw [hd, List.append_nil] at hsp
            rw [← hsp] at h10
            have := List.all_eq_true.1 (List.all_takeWhile (p := fun c : Byte => c != 10) (l := c :: t)) _ h10
            simp at this
          have hpos := hf.pos
          rw [← hls] at hpos
          simp only at hpos
          generalize (c :: t).takeWhile (fun c : Byte => c != 10) = a at *
          generalize (c :: t).dropWhile (fun c : Byte => c != 10) = b at *
          have hstep : step st pre (c :: t ++ tail) = s := by
            unfold step
            rw [hl, if_neg (by simp; intro h; exact absurd h.symm hc.2), if_neg (by simp)]
            unfold lineStep
            rename_i hcond
            rw [if_pos hcond]
            simp only
            rw [htw, hls]
          rw [← hls] at hstep
          have e1 : c :: t ++ tail = a ++ (b ++ tail) := by rw [← hsp]; simp
          have e2 : c :: t ++ o = a ++ (b ++ o) := by rw [← hsp]; simp
          rw [e2]
          refine run_step a (b ++ tail) e1 rfl (by simp) hstep (ih b (a.reverse ++ pre) ?_ ?_ ?_ ?_)
          · rw [← hsp, List.length_append] at hn
            omega
          · intro x hx
            exact h1 x (by rw [← hsp]; simp [hx])
          · right
            obtain ⟨y, hy⟩ := hlast
            rcases List.eq_nil_or_concat b with rfl | ⟨b', z, rfl⟩
            · exact absurd rfl hne
            · rw [← hsp, List.concat_eq_append, ← List.append_assoc] at hy
              have := List.append_inj' hy rfl
              exact ⟨b', by rw [List.concat_eq_append, this.2]⟩
          · rw [← hsp] at h
            simpa using h
        · cases hls

theorem block_run {st : St} {pre code rest o : Bytes} {n : Nat} (hi : Idle st) (h3 : 3 ≤ n) (h10 : n ≤ 10) (h1 : ∀ c ∈ code, c ∉ b!"`{")
    (h2 : ∃ a, code = a ++ b!"\n") (hr : Ends rest)
    (h : ∀ st', Idle st' → Run st' ((List.replicate n c!"`" ++ code ++ List.replicate n c!"`").reverse ++ pre) rest o) :
    Run st pre (List.replicate n c!"`" ++ code ++ List.replicate n c!"`" ++ rest) (List.replicate n c!"`" ++ code ++ List.replicate n c!"`" ++ o) := by
  have e : ∀ x, List.replicate n c!"`" ++ code ++ List.replicate n c!"`" ++ x = List.replicate n c!"`" ++ (code ++ (List.replicate n c!"`" ++ x)) := by
    intro x; simp
  rw [e, e]
  obtain ⟨m, rfl⟩ : ∃ m, n = m + 1 := ⟨n - 1, by omega⟩
  have hstep : ∀ (st : St) (pre t : Bytes), st.liquid = false → t.head? ≠ some c!"`" →
      step st pre (List.replicate (m + 1) c!"`" ++ t) = copy (if !st.block then { st with block := true, ticks := m + 1 }
        else if m + 1 ≥ st.ticks then { st with block := false, ticks := 0 } else st) (m + 1) (List.replicate (m + 1) c!"`" ++ t) := by
    intro st pre t hl ht
    have hk := ticks (m + 1) t ht
    rw [show List.replicate (m + 1) c!"`" ++ t = c!"`" :: (List.replicate m c!"`" ++ t) by simp [List.replicate_succ]] at hk ⊢
    rw [step_tick hl]
    unfold tickStep
    rw [hk]
    simp only [List.length_replicate]
    rw [show min 10 (m + 1) = m + 1 by omega, if_pos h3]
  have hne : List.replicate (m + 1) c!"`" ≠ [] := by simp [List.replicate_succ]
  have hhead : (code ++ (List.replicate (m + 1) c!"`" ++ rest)).head? ≠ some c!"`" := by
    obtain ⟨a, rfl⟩ := h2
    cases a with
    | nil => simp
    | cons x a =>
      have := h1 x (by simp)
      simp only [List.mem_cons, List.not_mem_nil, or_false, not_or] at this
      simp [this.1]
  refine run_copy _ _ hne (by rw [hstep st pre _ hi.1 hhead, if_pos (by rw [hi.2.1]; rfl), List.length_replicate]) ?_
  refine code_run (st := { st with block := true, ticks := m + 1 }) hi.1 rfl _ code _ _ _ (Nat.le_refl _) h1 (Or.inr h2) ?_
  refine run_copy _ _ hne (st' := { st with block := false, ticks := 0 }) (by
    rw [hstep { st with block := true, ticks := m + 1 } _ _ hi.1 (ends_tick hr), if_neg (by simp), if_pos (by simp), List.length_replicate]) ?_
  have := h { st with block := false, ticks := 0 } ⟨hi.1, rfl, hi.2.2.1, hi.2.2.2⟩
  simpa using this

theorem liquid_run {st : St} {pre s rest o : Bytes} (hi : Idle st) (h1 : ¬ b!"%}" <:+: s)
    (h : ∀ st', Idle st' → Run st' ((b!"{%" ++ s ++ b!"%}").reverse ++ pre) rest o) : Run st pre (b!"{%" ++ s ++ b!"%}" ++ rest) (b!"{%" ++ s ++ b!"%}" ++ o) := by
  have e : ∀ x, b!"{%" ++ s ++ b!"%}" ++ x = b!"{%" ++ (s ++ (b!"%}" ++ x)) := by intro x; simp
  rw [e, e]
  refine run_copy b!"{%" _ (by simp) (st' := { st with liquid := true }) ?_ ?_
  · unfold step
    rw [hi.1, if_pos (by simp)]
    rfl
  · have key : ∀ (y q : Bytes), ¬ b!"%}" <:+: y → Run { st with liquid := true } (y.reverse ++ q) (b!"%}" ++ rest) (b!"%}" ++ o) →
        Run { st with liquid := true } q (y ++ (b!"%}" ++ rest)) (y ++ (b!"%}" ++ o)) := by
      intro y
      induction y with
      | nil => intro q _ h; exact h
      | cons c y ih =>
        intro q hy h
        refine run_char c _ ?_ (ih _ (fun hh => hy (hh.trans (List.suffix_cons _ _).isInfix)) (by rwa [List.reverse_cons, List.append_assoc] at h))
        unfold step
        rw [if_neg (by simp), if_pos rfl, if_neg]
        intro hh
        obtain ⟨r, hr⟩ := List.isPrefixOf_iff_prefix.1 hh
        cases y with
        | nil => simp at hr
        | cons d y =>
          simp at hr
          exact hy ⟨[], y, by simp [← hr.1, ← hr.2.1]⟩
    refine key s _ h1 (run_copy b!"%}" _ (by simp) (st' := { st with liquid := false }) ?_ ?_)
    · unfold step
      rw [if_neg (by simp), if_pos rfl, if_pos (by simp)]
      rfl
    · have := h { st with liquid := false } ⟨rfl, hi.2⟩
      simpa using this

/-- A byte in the address of a link. -/
theorem step_url {st : St} {pre : Bytes} {c : Byte} {t : Bytes} (hl : st.liquid = false) (hb : st.block = false) (hs : st.span = false) (hu : st.url = true)
    (hc : c ≠ c!"(" ∧ c ≠ c!")" ∧ c ≠ c!"`" ∧ c ≠ c!"{" ∧ c ≠ 10) (ht : t.head? ≠ some c!"(") (hln : lineStep st pre (c :: t) = none) :
    ∃ k, step st pre (c :: t) = copy { st with brackets := k } 1 (c :: t) := by
  unfold step
  rw [if_neg (by simp; intro _ h; exact absurd h.symm hc.2.2.2.1), if_neg (by simp [hl]), hln]
  simp only
  rw [if_neg (by simpa using hc.2.2.1)]
  unfold textStep
  rw [if_neg (by simp [hb, hs])]
  rw [if_neg (by
    intro h
    simp only [Bool.and_eq_true] at h
    obtain ⟨r, hr⟩ := List.isPrefixOf_iff_prefix.1 h.1
    simp at hr
    rw [← hr.2] at ht
    exact ht rfl)]
  simp only
  have hk : ∃ k, bracketsAt st (c :: t) = { st with brackets := k } := by
    unfold bracketsAt brackets
    simp only
    rw [if_neg (by simp [hu])]
    split
    · exact ⟨_, rfl⟩
    · rw [if_neg (by simp [hc.1]), if_neg (by simp [hc.2.1])]
      exact ⟨st.brackets, rfl⟩
  obtain ⟨k, hk⟩ := hk
  rw [hk]
  simp only
  rw [if_pos (by simp [hu])]
  exact ⟨k, rfl⟩

theorem url_run (st : St) (hl : st.liquid = false) (hb : st.block = false) (hs : st.span = false) (hu : st.url = true) (url pre : Bytes) (d : Byte) (t o : Bytes)
    (h1 : ∀ c ∈ url, c ≠ c!"(" ∧ c ≠ c!")" ∧ c ≠ c!"`" ∧ c ≠ c!"{" ∧ c ≠ 10) (hp : ∃ e, pre.head? = some e ∧ e ≠ 10) (hd : d ≠ c!"(")
    (h : ∀ k, Run { st with brackets := k } (url.reverse ++ pre) (d :: t) o) : Run st pre (url ++ d :: t) (url ++ o) := by
  induction url generalizing st pre with
  | nil => exact h st.brackets
  | cons c url ih =>
    have hc := h1 c (by simp)
    obtain ⟨k, hk⟩ := step_url (t := url ++ d :: t) hl hb hs hu hc (by
      cases url with
      | nil => simpa using hd
      | cons x url => simpa using (h1 x (by simp)).1) (line_inside st pre _ hp)
    refine run_char c _ hk (ih { st with brackets := k } hl hb hs hu (c :: pre) (fun x hx => h1 x (by simp [hx])) ⟨c, rfl, hc.2.2.2.2⟩ ?_)
    intro j
    have := h j
    rwa [List.reverse_cons, List.append_assoc] at this

theorem takeWhile_ends (a rest : Bytes) (h : c!"@" ∉ a) (hr : Ends rest) : c!"@" ∉ (a ++ rest).takeWhile inToken := by
  intro hm
  rcases mem_takeWhile_append hm with hm | hm
  · exact h hm
  · cases rest with
    | nil => simp at hm
    | cons x t =>
      rw [List.takeWhile_cons_of_neg (by unfold inToken; simp [hr x rfl])] at hm
      simp at hm

theorem link_run {st : St} {pre text url rest o : Bytes} (hi : Idle st) (h1 : ∀ c ∈ text, Spec.inTag c) (h2 : ∀ c ∈ url, c ∉ b!"()`{@\n")
    (hr : Ends rest)
    (h : ∀ st', Idle st' → Run st' ((b!"[" ++ text ++ b!"](" ++ url ++ b!")").reverse ++ pre) rest o) :
    Run st pre (b!"[" ++ text ++ b!"](" ++ url ++ b!")" ++ rest) (b!"[" ++ text ++ b!"](" ++ url ++ b!")" ++ o) := by
  have e : ∀ x, b!"[" ++ text ++ b!"](" ++ url ++ b!")" ++ x = c!"[" :: (text ++ (b!"](" ++ (url ++ c!")" :: x))) := by intro x; simp
  rw [e, e]
  have hu : ∀ c ∈ url, c ≠ c!"(" ∧ c ≠ c!")" ∧ c ≠ c!"`" ∧ c ≠ c!"{" ∧ c ≠ c!"@" ∧ c ≠ 10 := by
    intro c hc
    have := h2 c hc
    simpa only [List.mem_cons, List.not_mem_nil, or_false, not_or] using this
  have hat : c!"@" ∉ (b!"](" ++ (url ++ c!")" :: rest)).takeWhile inToken := by
    have := takeWhile_ends (b!"](" ++ (url ++ b!")")) rest (by
      simp only [List.mem_append, not_or]
      exact ⟨by decide, fun hm => (hu _ hm).2.2.2.2.1 rfl, by decide⟩) hr
    simpa using this
  have hat0 : c!"@" ∉ (c!"[" :: (text ++ (b!"](" ++ (url ++ c!")" :: rest)))).takeWhile inToken := by
    intro hm
    rcases mem_takeWhile_append (a := c!"[" :: text) hm with hm | hm
    · rcases List.mem_cons.1 hm with hm | hm
      · exact absurd hm (by decide)
      · exact (intag_marks (h1 _ hm)).2.2.2.1 rfl
    · exact hat hm
  have hi1 : Idle { st with brackets := st.brackets + 1 } := hi
  -- the opening bracket
  refine run_char _ _ (st' := { st with brackets := st.brackets + 1 }) ?_ ?_
  · have hln : lineStep st pre (c!"[" :: (text ++ (b!"](" ++ (url ++ c!")" :: rest)))) = none := by
      unfold lineStep
      rw [if_neg]
      rintro ⟨-, hh⟩
      rcases hh with hh | hh
      · unfold indented at hh
        simp at hh
      · unfold definition at hh
        rw [List.dropWhile_cons_of_neg (by decide)] at hh
        simp only at hh
        rw [List.dropWhile_append_of_pos] at hh
        · simp at hh
        · intro c hc
          have := (intag_marks (h1 c hc)).1
          simp only [List.mem_cons, List.not_mem_nil, or_false, not_or] at this
          simpa using this.2.1
    unfold step
    rw [if_neg (by simp), if_neg (by simp [hi.1]), hln]
    simp only
    rw [if_neg (by simp)]
    unfold textStep
    rw [if_neg (by simp [hi.2.1, hi.2.2.1]), if_neg (by simp)]
    simp only
    have hb : ∀ t, bracketsAt st (c!"[" :: t) = { st with brackets := st.brackets + 1 } := by
      intro t
      show brackets st c!"[" = _
      unfold brackets
      rw [if_pos (by simp [hi.2.2.2])]
    rw [hb, if_neg (by simp [hi.2.2.2]), if_neg (by simp), angle_none _ _ _ (by decide), comment_none _ _ _ (by decide)]
    simp only
    rw [bare_none (by
      intro hp
      rcases protocol_head hp with h | h <;> exact absurd h (by decide)) (Or.inl (email_at hat0))]
  · refine tag_run hi1 text h1 _ c!"]" _ _ (by decide) ⟨_, rfl, by decide⟩ (Or.inl hat) ?_
    -- the end of the text
    refine run_copy b!"](" _ (by simp) (st' := { st with brackets := st.brackets + 1, url := true, parens := 1 }) ?_ ?_
    · unfold step
      rw [if_neg (by simp), if_neg (by simp [hi.1]), show b!"](" ++ (url ++ c!")" :: rest) = c!"]" :: (b!"(" ++ (url ++ c!")" :: rest)) from rfl, line_none _ _ _ _ (by decide)]
      simp only
      rw [if_neg (by simp)]
      unfold textStep
      rw [if_neg (by simp [hi.2.1, hi.2.2.1]), if_pos (by simp)]
      rfl
    · refine url_run { st with brackets := st.brackets + 1, url := true, parens := 1 } hi.1 hi.2.1 hi.2.2.1 rfl url _ c!")" rest _
        (fun c hc => ⟨(hu c hc).1, (hu c hc).2.1, (hu c hc).2.2.1, (hu c hc).2.2.2.1, (hu c hc).2.2.2.2.2⟩) ⟨_, rfl, by decide⟩ (by decide) ?_
      intro k
      refine run_char _ _ (st' := { st with brackets := k, url := false, parens := 0 }) ?_ ?_
      · unfold step
        rw [if_neg (by simp), if_neg (by simp [hi.1]), line_none _ _ _ _ (by decide)]
        simp only
        rw [if_neg (by simp)]
        unfold textStep
        rw [if_neg (by simp [hi.2.1, hi.2.2.1]), if_neg (by simp)]
        simp only
        have hb : ∀ t, bracketsAt { st with brackets := k, url := true, parens := 1 } (c!")" :: t) = { st with brackets := k, url := false, parens := 0 } := by
          intro t
          rfl
        rw [hb, if_neg (by simp), if_neg (by simp), angle_none _ _ _ (by decide), comment_none _ _ _ (by decide)]
        simp only
        have hend : c!"@" ∉ (c!")" :: rest).takeWhile inToken := takeWhile_ends [c!")"] rest (by decide) hr
        rw [bare_none (by
          intro hp
          rcases protocol_head hp with h | h <;> exact absurd h (by decide)) (Or.inl (email_at hend))]
      · have := h { st with brackets := k, url := false, parens := 0 } ⟨hi.1, hi.2.1, hi.2.2.1, rfl⟩
        simpa using this

/-! ### Documents -/

theorem sep_run {st : St} (hi : Idle st) (s : Bytes) (hs : Spec.Sep s) (pre rest o : Bytes) (hp : ∃ d, pre.head? = some d ∧ (d = 10 → ∀ c, s.head? = some c → c ≠ 32 ∧ c ≠ 9))
    (h : Run st (s.reverse ++ pre) rest o) : Run st pre (s ++ rest) (s ++ o) := by
  induction s generalizing pre with
  | nil => exact h
  | cons c s ih =>
    have hc := hs.1 c (by simp)
    obtain ⟨d, hd1, hd2⟩ := hp
    have hm : c ∉ b!"[]<`{" := by
      intro hm
      have : ∀ x ∈ b!"[]<`{", isSpace x = false := by decide
      rw [this c hm] at hc
      cases hc
    refine run_char c _ (step_char hi hm ?_ (Or.inl (bare_space _ _ _ _ hc))) (ih ?_ _ ⟨c, rfl, ?_⟩ (by rwa [List.reverse_cons, List.append_assoc] at h))
    · by_cases h10 : d = 10
      · have := hd2 h10 c rfl
        exact line_none _ _ _ _ ⟨this.1, this.2, fun e => hm (by simp [e])⟩
      · exact line_inside _ _ _ ⟨d, hd1, h10⟩
    · refine ⟨fun x hx => hs.1 x (by simp [hx]), fun a x b hab => hs.2 (c :: a) x b (by rw [hab]; rfl)⟩
    · rintro rfl x hx
      cases s with
      | nil => cases hx
      | cons y s =>
        simp at hx
        subst hx
        exact hs.2 [] y s rfl

/-- The end of a part. -/
theorem item_last (i : Item) (hi : i.Ok) : ∃ a c, i.source = a ++ [c] ∧ c ≠ 10 := by
  cases i with
  | word t =>
    obtain ⟨h1, h2, -⟩ := hi
    rcases List.eq_nil_or_concat t.source with h | ⟨a, c, h⟩
    · exact absurd h h1
    · rw [List.concat_eq_append] at h
      refine ⟨a, c, h, ?_⟩
      rintro rfl
      have := (h2 10 (by rw [h]; simp)).1.1
      exact absurd this (by decide)
  | angle u => exact ⟨_, _, rfl, by decide⟩
  | comment s => exact ⟨b!"<!--" ++ s ++ b!"--", c!">", by simp [Item.source], by decide⟩
  | span code => exact ⟨_, _, rfl, by decide⟩
  | block n code =>
    obtain ⟨h3, -⟩ := hi
    obtain ⟨m, rfl⟩ : ∃ m, n = m + 1 := ⟨n - 1, by omega⟩
    refine ⟨List.replicate (m + 1) c!"`" ++ code ++ List.replicate m c!"`", c!"`", ?_, by decide⟩
    simp only [Item.source]
    rw [List.append_assoc _ (List.replicate m _), ← List.replicate_succ']
  | link text url => exact ⟨_, _, rfl, by decide⟩
  | liquid s => exact ⟨b!"{%" ++ s ++ b!"%", c!"}", by simp [Item.source], by decide⟩
  | tag s => exact ⟨_, _, rfl, by decide⟩
  | attr f u b => exact ⟨_, _, rfl, by decide⟩

theorem clear_between {pre : Bytes} (hc : Clear pre) (a s b : Bytes) (ha : c!"<" ∉ a) (hs : Spec.Closed s) (hb : c!"<" ∉ b) : Clear ((a ++ s ++ b).reverse ++ pre) := by
  have := clear_append (clear_closed (clear_append hc a ha) s hs) b hb
  simpa using this

theorem item_clear (i : Item) (hi : i.Ok) (pre : Bytes) (hc : Clear pre) : Clear (i.source.reverse ++ pre) := by
  cases i with
  | word t => exact clear_append hc _ fun hm => absurd (hi.2.1 _ hm).1.2.1 (by simp)
  | angle u => simp only [Item.source, List.reverse_append]; exact clear_gt _
  | comment s => simp only [Item.source, List.reverse_append]; exact clear_gt _
  | span code => exact clear_between hc _ _ _ (by decide) hi.2.2 (by decide)
  | block n code => exact clear_between hc _ _ _ (by simp) hi.2.2.2.2 (by simp)
  | link text url =>
    refine clear_between hc _ _ _ ?_ hi.2.2 (by decide)
    simp only [List.mem_append, not_or]
    exact ⟨⟨by decide, fun hm => hi.1 _ hm (by decide)⟩, by decide⟩
  | liquid s => exact clear_between hc _ _ _ (by decide) hi.2 (by decide)
  | tag s => simp only [Item.source, List.reverse_append]; exact clear_gt _
  | attr f u b => simp only [Item.source, List.reverse_append]; exact clear_gt _

theorem item_run {st : St} {pre rest o : Bytes} (hi : Idle st) (hc : Clear pre) (hpre : pre = [] ∨ ∃ d, pre.head? = some d ∧ isSpace d = true)
    (i : Item) (ok : i.Ok) (hr : Ends rest) (h : ∀ st', Idle st' → Run st' (i.source.reverse ++ pre) rest o) : Run st pre (i.source ++ rest) (i.result ++ o) := by
  cases i with
  | word t => exact token_run hi hc hpre t ok hr (h st hi)
  | angle u => exact angle_run hi ok.1 ok.2.1 ok.2.2 (h st hi)
  | comment s => exact comment_run hi ok (h st hi)
  | span code => exact span_run hi ok.1 ok.2.1 hr h
  | block n code => exact block_run hi ok.1 ok.2.1 ok.2.2.1 ok.2.2.2.1 hr h
  | link text url => exact link_run hi ok.1 ok.2.1 hr h
  | liquid s => exact liquid_run hi ok.1 h
  | tag s => exact plain_tag_run hi ok.1 ok.2 (h st hi)
  | attr f u b => exact attr_run hi ok.1 ok.2.1 ok.2.2.1 ok.2.2.2.1 ok.2.2.2.2 (h st hi)

theorem doc_run (ds : List (Item × Bytes)) (ok : Spec.DocOk ds) (st : St) (pre : Bytes) (hi : Idle st) (hc : Clear pre)
    (hpre : pre = [] ∨ ∃ d, pre.head? = some d ∧ isSpace d = true) : Run st pre (Spec.docSource ds) (Spec.docResult ds) := by
  induction ds generalizing st pre with
  | nil => exact run_nil st pre
  | cons d ds ih =>
    obtain ⟨i, s⟩ := d
    obtain ⟨o1, o2, o3, o4⟩ := ok
    have e1 : Spec.docSource ((i, s) :: ds) = i.source ++ (s ++ Spec.docSource ds) := by simp [Spec.docSource]
    have e2 : Spec.docResult ((i, s) :: ds) = i.result ++ (s ++ Spec.docResult ds) := by simp [Spec.docResult]
    rw [e1, e2]
    obtain ⟨a, c, hac, hc10⟩ := item_last i o1
    refine item_run hi hc hpre i o1 ?_ fun st' hi' => ?_
    · intro x hx
      cases s with
      | nil =>
        by_cases hd : ds = []
        · subst hd; simp [Spec.docSource] at hx
        · exact absurd rfl (o3 hd)
      | cons y s =>
        simp at hx
        subst hx
        exact o2.1 y (by simp)
    · refine sep_run hi' s o2 _ _ _ ⟨c, by rw [hac]; simp, fun h => absurd h hc10⟩ ?_
      by_cases hd : ds = []
      · subst hd
        exact run_nil _ _
      · refine ih o4 st' _ hi' (clear_append (item_clear i o1 pre hc) s fun hm => absurd (o2.1 _ hm) (by decide)) (Or.inr ?_)
        rcases List.eq_nil_or_concat s with rfl | ⟨b, x, rfl⟩
        · exact absurd rfl (o3 hd)
        · exact ⟨x, by simp, o2.1 x (by simp)⟩

end Verif.Autolinks
