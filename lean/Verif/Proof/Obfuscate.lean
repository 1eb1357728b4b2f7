import Verif.Model.Obfuscate
import Verif.Spec.Obfuscate
import Verif.Proof.Escape

namespace Verif.Obfuscate
open Spec
open Escape (hexEntByte hexEntities)

/-- One byte as a reference. -/
def enc (s : Bytes) : Bytes := s.flatMap hexEntByte

theorem enc_length (s : Bytes) : (enc s).length = 6 * s.length := by
  unfold enc
  induction s with
  | nil => rfl
  | cons c s ih => simp [hexEntByte, Escape.hex2] at ih ⊢; omega

theorem upTo_le (d : Byte) (s : Bytes) : (upTo d s).length ≤ s.length := (List.takeWhile_prefix _).length_le

theorem upTo_lt {d : Byte} {s : Bytes} (h : d ∈ s) : (upTo d s).length < s.length := by
  unfold upTo
  induction s with
  | nil => simp at h
  | cons c s ih =>
    rw [List.takeWhile_cons]
    split
    · rename_i hc
      have : d ∈ s := by
        rcases List.mem_cons.1 h with rfl | h
        · simp at hc
        · exact h
      simpa using ih this
    · simp

/-- `copyByte` without the buffer. -/
def copyP (mail : Bool) : Bytes → Option (Bool × Bytes × Bytes)
  | [] => none
  | c :: t => some (if mail && b!"</a".isPrefixOf (c :: t) then false else mail, [c], t)

/-- The text of a link without the buffer. -/
def textP (t : Bytes) : Option (Bool × Bytes × Bytes) :=
  if upTo c!"<" t = [] then (copyP true t).map fun x => (x.1, c!">" :: x.2.1, x.2.2)
  else some (true, c!">" :: enc (upTo c!"<" t), t.drop (upTo c!"<" t).length)

/-- An address without the buffer. -/
def addrP (q : Bytes) : Bytes × Bytes :=
  (b!"href=\"" ++ enc (upTo c!"\"" q) ++ b!"\"", q.drop ((upTo c!"\"" q).length + 1))

/-- One turn without the buffer: state, what is written, rest. -/
def stepP (mail : Bool) (c : Byte) (t : Bytes) : Option (Bool × Bytes × Bytes) :=
  if !mail && opening.isPrefixOf (c :: t) then
    if c!"\"" ∈ (c :: t).drop 6 then some (true, (addrP ((c :: t).drop 6)).1, (addrP ((c :: t).drop 6)).2) else some (mail, [c], t)
  else if mail && c == c!">" then textP t
  else copyP mail (c :: t)

def loopP : Nat → Bool → Bytes → Option Bytes
  | _, _, [] => some []
  | 0, _, _ => none
  | n + 1, mail, c :: t => (stepP mail c t).bind fun x => (loopP n x.1 x.2.2).map (x.2.1 ++ ·)

theorem grow_le (cap used need : Nat) : cap ≤ grow cap used need := by unfold grow; split <;> omega

theorem copyByte_none {cap : Nat} {mail : Bool} {out p : Bytes} (h : copyP mail p = none) : copyByte cap mail out p = .ub := by
  cases p with
  | nil => rfl
  | cons c t => simp [copyP] at h

theorem copyByte_some {cap : Nat} {mail : Bool} {out p : Bytes} (hc : out.length < cap) {m : Bool} {w r : Bytes}
    (h : copyP mail p = some (m, w, r)) :
    copyByte cap mail out p = .val (m, out ++ w, r) ∧ w.length = 1 ∧ r.length + 1 = p.length := by
  cases p with
  | nil => simp [copyP] at h
  | cons c t =>
    rw [copyP] at h
    obtain ⟨⟩ := h
    refine ⟨?_, rfl, rfl⟩
    rw [copyByte, put_val hc]
    rfl

theorem address_eq {cap : Nat} {out p : Bytes} (hp : opening <+: p) (hq : c!"\"" ∈ p.drop 6)
    (h : out.length + 6 * p.length + 1 ≤ cap) :
    (addrP (p.drop 6)).1.length + 6 * (addrP (p.drop 6)).2.length ≤ 6 * p.length ∧ (addrP (p.drop 6)).2.length + 1 ≤ p.length ∧
    ∃ cap', cap ≤ cap' ∧ address cap out p = .val (some (cap', out ++ (addrP (p.drop 6)).1, (addrP (p.drop 6)).2)) := by
  have hlen : 13 ≤ p.length := hp.length_le
  have hne : upTo c!"\"" (p.drop 6) ≠ [] := by
    obtain ⟨z, rfl⟩ := hp
    simp [opening, upTo]
  unfold address
  simp only [if_pos hq]
  have hql : (p.drop 6).length + 6 = p.length := by rw [List.length_drop]; omega
  generalize p.drop 6 = q at *
  have hlt := upTo_lt hq
  have hw : (addrP q).1.length = 7 + 6 * (upTo c!"\"" q).length := by
    unfold addrP; simp only [List.length_append, enc_length]; simp; omega
  have hr : (addrP q).2.length = q.length - ((upTo c!"\"" q).length + 1) := by unfold addrP; simp
  refine ⟨by omega, by omega, grow cap out.length (6 + (enc (upTo c!"\"" q)).length + 1), grow_le _ _ _, ?_⟩
  rw [Escape.hexEntities_eq _ hne]
  simp only [C.val_bind]
  have hg := grow_le cap out.length (6 + (enc (upTo c!"\"" q)).length + 1)
  show (puts (grow cap out.length (6 + (enc (upTo c!"\"" q)).length + 1)) out (addrP q).1 >>= _) = _
  rw [puts_val (by omega)]
  rfl

theorem linkText_none {cap : Nat} {out t : Bytes} (hc : out.length < cap) (h : textP t = none) : linkText cap out t = .ub := by
  unfold textP at h
  split at h
  · rename_i h3
    unfold linkText
    rw [put_val hc]
    simp only [C.val_bind, h3]
    have he : hexEntities [] = .val none := rfl
    rw [he]
    simp only [C.val_bind]
    rw [copyByte_none (by simpa using h)]
    rfl
  · cases h

theorem linkText_some {cap : Nat} {out t : Bytes} (h : out.length + 6 * (t.length + 1) + 1 ≤ cap) {m : Bool} {w r : Bytes}
    (hs : textP t = some (m, w, r)) : w.length + 6 * r.length ≤ 6 * (t.length + 1) ∧ r.length ≤ t.length ∧
      ∃ cap', cap ≤ cap' ∧ linkText cap out t = .val (cap', m, out ++ w, r) := by
  have hul := upTo_le c!"<" t
  unfold textP at hs
  unfold linkText
  rw [put_val (by omega)]
  simp only [C.val_bind]
  split at hs
  · rename_i h3
    rw [h3]
    have he : hexEntities [] = .val none := rfl
    rw [he]
    simp only [C.val_bind]
    cases hcp : copyP true t with
    | none => rw [hcp] at hs; simp at hs
    | some x =>
      obtain ⟨m', w', r'⟩ := x
      rw [hcp] at hs
      obtain ⟨⟩ := hs
      obtain ⟨h4, h5, h6⟩ := copyByte_some (cap := cap) (out := out ++ [c!">"]) (by simp; omega) hcp
      refine ⟨by simp only [List.length_cons]; omega, by show r'.length ≤ _; omega, cap, Nat.le_refl _, ?_⟩
      rw [h4]
      simp
  · rename_i h3
    obtain ⟨⟩ := hs
    refine ⟨by simp only [List.length_cons, enc_length, List.length_drop]; omega, by simp,
      grow cap (out ++ [c!">"]).length (enc (upTo c!"<" t)).length, grow_le _ _ _, ?_⟩
    rw [Escape.hexEntities_eq _ h3]
    simp only [C.val_bind]
    have hg := grow_le cap (out ++ [c!">"]).length (enc (upTo c!"<" t)).length
    show (puts (grow cap (out ++ [c!">"]).length (enc (upTo c!"<" t)).length) (out ++ [c!">"]) (enc (upTo c!"<" t)) >>= _) = _
    have he := enc_length (upTo c!"<" t)
    rw [puts_val (by simp only [List.length_append, List.length_cons, List.length_nil] at *; omega)]
    rw [List.append_assoc]
    rfl

theorem step_none {cap : Nat} {mail : Bool} {out : Bytes} {c : Byte} {t : Bytes} (hc : out.length < cap)
    (h : stepP mail c t = none) : step cap mail out c t = .ub := by
  unfold stepP at h
  unfold step
  split at h
  · split at h <;> cases h
  · rename_i h1
    rw [if_neg h1]
    split at h
    · rename_i h2
      rw [if_pos h2]
      exact linkText_none hc h
    · cases h

theorem step_some {cap : Nat} {mail : Bool} {out : Bytes} {c : Byte} {t : Bytes} (h : out.length + 6 * (t.length + 1) + 1 ≤ cap)
    {m : Bool} {w r : Bytes} (hs : stepP mail c t = some (m, w, r)) :
    w.length + 6 * r.length ≤ 6 * (t.length + 1) ∧ r.length ≤ t.length ∧
      ∃ cap', cap ≤ cap' ∧ step cap mail out c t = .val (cap', m, out ++ w, r) := by
  unfold stepP at hs
  unfold step
  split at hs
  · rename_i h1
    rw [if_pos h1]
    split at hs
    · rename_i hq
      obtain ⟨⟩ := hs
      have hp : opening <+: c :: t := by
        rw [Bool.and_eq_true] at h1
        exact List.isPrefixOf_iff_prefix.1 h1.2
      obtain ⟨h2, h3, cap', h4, h5⟩ := address_eq (cap := cap) (out := out) hp hq (by simpa using h)
      simp only [List.length_cons] at h2 h3
      refine ⟨h2, by omega, cap', h4, ?_⟩
      rw [h5]
      rfl
    · rename_i hq
      obtain ⟨⟩ := hs
      refine ⟨by simp; omega, Nat.le_refl _, cap, Nat.le_refl _, ?_⟩
      unfold address
      simp only [if_neg hq, C.val_bind]
      rw [put_val (by omega)]
      rfl
  · rename_i h1
    rw [if_neg h1]
    split at hs
    · rename_i h2
      rw [if_pos h2]
      exact linkText_some h hs
    · rename_i h2
      rw [if_neg h2]
      obtain ⟨h3, h4, h5⟩ := copyByte_some (cap := cap) (out := out) (by omega) hs
      simp only [List.length_cons] at h5
      refine ⟨by omega, by omega, cap, Nat.le_refl _, ?_⟩
      rw [h3]
      rfl

theorem loop_eq : ∀ n cap mail (out p : Bytes), p.length ≤ n → out.length + 6 * p.length + 1 ≤ cap →
    loop n cap mail out p = match loopP n mail p with | none => .ub | some w => .val (out ++ w)
  | n, cap, mail, out, [], _, h => by
    have : ∀ n, loopP n mail [] = some [] := by intro n; cases n <;> rfl
    have h2 : loop n cap mail out [] = finish cap out := by cases n <;> rfl
    rw [this, h2, finish_val (by simp at h; omega)]
    simp
  | 0, _, _, _, _ :: _, hn, _ => by simp at hn
  | n + 1, cap, mail, out, c :: t, hn, h => by
    rw [loop, loopP]
    cases hs : stepP mail c t with
    | none => rw [step_none (by simp at h; omega) hs]; rfl
    | some x =>
      obtain ⟨m, w, r⟩ := x
      obtain ⟨h3, h4, cap', h5, h6⟩ := step_some (cap := cap) (out := out) (by simpa using h) hs
      rw [h6]
      simp only [C.val_bind, Option.bind_some]
      rw [loop_eq n cap' m (out ++ w) r (by simp at hn; omega) (by simp at h ⊢; omega)]
      cases loopP n m r with
      | none => rfl
      | some z => simp

theorem obfuscate_eq (html : Bytes) : obfuscate html = match loopP html.length false html with | none => .ub | some w => .val w := by
  unfold obfuscate
  rw [loop_eq _ _ _ _ _ (Nat.le_refl _) (by simp; omega)]
  cases loopP html.length false html <;> simp

/-! ### What is left to read -/

theorem copyP_used {mail : Bool} {p : Bytes} {m : Bool} {w r : Bytes} (h : copyP mail p = some (m, w, r)) : p = w ++ r := by
  cases p with
  | nil => simp [copyP] at h
  | cons c t =>
    rw [copyP] at h
    obtain ⟨⟩ := h
    rfl

theorem upTo_split (d : Byte) (s : Bytes) : upTo d s ++ s.drop (upTo d s).length = s := by
  unfold upTo
  have h := List.takeWhile_append_dropWhile (p := fun x => decide (x ≠ d)) (l := s)
  conv => rhs; rw [← h]
  congr 1
  conv => lhs; arg 2; rw [← h]
  rw [List.drop_left]

theorem upTo_next {d : Byte} {s : Bytes} (h : d ∈ s) : s.drop (upTo d s).length = d :: s.drop ((upTo d s).length + 1) := by
  unfold upTo
  induction s with
  | nil => simp at h
  | cons c s ih =>
    rw [List.takeWhile_cons]
    split
    · rename_i hc
      have : d ∈ s := by
        rcases List.mem_cons.1 h with rfl | h
        · simp at hc
        · exact h
      simpa using ih this
    · rename_i hc
      simp at hc
      simp [hc]

/-- What one turn reads, and what it writes for it. -/
def Reads (used w : Bytes) : Prop :=
  w = used ∨ (∃ s, used = c!">" :: s ∧ w = c!">" :: enc s) ∨
    (∃ s, used = b!"href=\"" ++ s ++ b!"\"" ∧ w = b!"href=\"" ++ enc s ++ b!"\"")

theorem stepP_used {mail : Bool} {c : Byte} {t : Bytes} {m : Bool} {w r : Bytes} (h : stepP mail c t = some (m, w, r)) :
    ∃ used, used ≠ [] ∧ c :: t = used ++ r ∧ Reads used w := by
  unfold stepP at h
  split at h
  · rename_i h1
    split at h
    · rename_i hq
      obtain ⟨⟩ := h
      have hp : opening <+: c :: t := by
        rw [Bool.and_eq_true] at h1
        exact List.isPrefixOf_iff_prefix.1 h1.2
      refine ⟨b!"href=\"" ++ upTo c!"\"" ((c :: t).drop 6) ++ b!"\"", by simp, ?_, Or.inr (Or.inr ⟨_, rfl, rfl⟩)⟩
      have h2 : c :: t = b!"href=\"" ++ (c :: t).drop 6 := by
        obtain ⟨z, hz⟩ := hp
        rw [← hz]; rfl
      conv => lhs; rw [h2]
      have h3 := upTo_split c!"\"" ((c :: t).drop 6)
      rw [upTo_next hq] at h3
      unfold addrP
      conv => lhs; rw [← h3]
      simp
    · obtain ⟨⟩ := h
      exact ⟨[c], by simp, rfl, Or.inl rfl⟩
  · split at h
    · rename_i h2
      rw [Bool.and_eq_true] at h2
      have hc : c = c!">" := by simpa using h2.2
      subst hc
      unfold textP at h
      split at h
      · cases hcp : copyP true t with
        | none => rw [hcp] at h; simp at h
        | some x =>
          obtain ⟨m', w', r'⟩ := x
          rw [hcp] at h
          obtain ⟨⟩ := h
          exact ⟨c!">" :: w', by simp, by rw [copyP_used hcp]; rfl, Or.inl rfl⟩
      · obtain ⟨⟩ := h
        exact ⟨c!">" :: upTo c!"<" t, by simp, by rw [List.cons_append, upTo_split], Or.inr (Or.inl ⟨_, rfl, rfl⟩)⟩
    · refine ⟨w, ?_, copyP_used h, Or.inl rfl⟩
      rw [copyP] at h
      obtain ⟨⟩ := h
      simp

theorem stepP_isSome {mail : Bool} {c : Byte} {t : Bytes} (h : c ≠ c!">" ∨ t ≠ []) : ∃ x, stepP mail c t = some x := by
  unfold stepP
  split
  · split <;> exact ⟨_, rfl⟩
  · split
    · rename_i h2
      rw [Bool.and_eq_true] at h2
      have hc : c = c!">" := by simpa using h2.2
      rcases h with h | h
      · exact absurd hc h
      · unfold textP
        split
        · cases t with
          | nil => exact absurd rfl h
          | cons d t => exact ⟨_, rfl⟩
        · exact ⟨_, rfl⟩
    · exact ⟨_, rfl⟩

theorem loopP_isSome : ∀ n mail (p : Bytes), p.length ≤ n → (∀ q, p ≠ q ++ [c!">"]) → ∃ w, loopP n mail p = some w
  | 0, _, [], _, _ => ⟨[], rfl⟩
  | _ + 1, _, [], _, _ => ⟨[], rfl⟩
  | 0, _, _ :: _, hn, _ => by simp at hn
  | n + 1, mail, c :: t, hn, h => by
    rw [loopP]
    obtain ⟨⟨m, w, r⟩, hs⟩ := stepP_isSome (mail := mail) (c := c) (t := t) (by
      by_cases ht : t = []
      · exact Or.inl fun hc => h [] (by simp [ht, hc])
      · exact Or.inr ht)
    obtain ⟨used, hu, he, _⟩ := stepP_used hs
    have hl := congrArg List.length he
    have hup := List.length_pos_iff.2 hu
    simp at hn hl
    obtain ⟨v, hv⟩ := loopP_isSome n m r (by omega) (fun q hq => h (used ++ q) (by rw [he, hq]; simp))
    exact ⟨w ++ v, by simp [hs, hv]⟩

theorem decode_enc (s z : Bytes) (h : ∀ c ∈ s, c < 128) : Html.decode (enc s ++ z) = s ++ Html.decode z := by
  unfold enc
  induction s with
  | nil => rfl
  | cons c s ih =>
    rw [List.flatMap_cons, List.append_assoc]
    have h1 : hexEntByte c ++ (s.flatMap hexEntByte ++ z) = c!"&" :: 35 :: 120 :: (Escape.hex2 c ++ (59 :: (s.flatMap hexEntByte ++ z))) := by
      rfl
    rw [h1]
    have h2 := Escape.ref_hexEntByte c (s.flatMap hexEntByte ++ z)
    rw [Escape.decode_ref _ _ _ h2, Escape.encode_ascii c (h c (by simp)), ih (fun c hc => h c (by simp [hc]))]
    rfl

theorem decode_same (s z : Bytes) (h : c!"&" ∉ s) : Html.decode (s ++ z) = s ++ Html.decode z := by
  induction s with
  | nil => rfl
  | cons c s ih =>
    rw [List.cons_append, Escape.decode_plain _ _ (fun hc => h (by simp [hc])), ih (fun hc => h (by simp [hc]))]
    rfl

theorem decode_reads {used w : Bytes} (h : Reads used w) (ha : ∀ c ∈ used, c < 128) (hn : c!"&" ∉ used) (z : Bytes) :
    Html.decode (w ++ z) = used ++ Html.decode z := by
  rcases h with rfl | ⟨s, rfl, rfl⟩ | ⟨s, rfl, rfl⟩
  · exact decode_same _ _ hn
  · rw [List.cons_append, Escape.decode_plain _ _ (by decide), decode_enc s z (fun c hc => ha c (by simp [hc]))]
    rfl
  · rw [List.append_assoc, List.append_assoc, decode_same _ _ (by decide), decode_enc s _ (fun c hc => ha c (by simp [hc])),
      decode_same _ _ (by decide)]
    simp

theorem loopP_decode : ∀ n mail (p w : Bytes), (∀ c ∈ p, c < 128) → c!"&" ∉ p → loopP n mail p = some w → Html.decode w = p
  | 0, _, [], w, _, _, h => by cases h; rfl
  | _ + 1, _, [], w, _, _, h => by cases h; rfl
  | 0, _, _ :: _, _, _, _, h => by cases h
  | n + 1, mail, c :: t, w, ha, hn, h => by
    rw [loopP] at h
    cases hs : stepP mail c t with
    | none => rw [hs] at h; cases h
    | some x =>
      obtain ⟨m, v, r⟩ := x
      rw [hs] at h
      simp only [Option.bind_some, Option.map_eq_some_iff] at h
      obtain ⟨z, hz, rfl⟩ := h
      obtain ⟨used, _, he, hr⟩ := stepP_used hs
      rw [he] at ha hn ⊢
      rw [decode_reads hr (fun c hc => ha c (by simp [hc])) (fun hc => hn (by simp [hc])),
        loopP_decode n m r z (fun c hc => ha c (by simp [hc])) (fun hc => hn (by simp [hc])) hz]

/-! ### Links -/

/-- The loop, given enough turns. -/
theorem loopP_fuel : ∀ n k mail (p : Bytes), p.length ≤ n → p.length ≤ k → loopP n mail p = loopP k mail p
  | 0, 0, _, [], _, _ => rfl
  | 0, _ + 1, _, [], _, _ => rfl
  | _ + 1, 0, _, [], _, _ => rfl
  | _ + 1, _ + 1, _, [], _, _ => rfl
  | 0, _, _, _ :: _, h, _ => by simp at h
  | _, 0, _, _ :: _, _, h => by simp at h
  | n + 1, k + 1, mail, c :: t, hn, hk => by
    rw [loopP, loopP]
    cases hs : stepP mail c t with
    | none => rfl
    | some x =>
      obtain ⟨m, v, r⟩ := x
      obtain ⟨used, hu, he, _⟩ := stepP_used hs
      have hl := congrArg List.length he
      have hup := List.length_pos_iff.2 hu
      simp at hn hk hl
      simp only [Option.bind_some]
      rw [loopP_fuel n k m r (by omega) (by omega)]

def run (mail : Bool) (p : Bytes) : Option Bytes := loopP p.length mail p

theorem run_cons {mail : Bool} {c : Byte} {t : Bytes} {m : Bool} {w r : Bytes} (h : stepP mail c t = some (m, w, r)) :
    run mail (c :: t) = (run m r).map (w ++ ·) := by
  obtain ⟨used, hu, he, _⟩ := stepP_used h
  have hl := congrArg List.length he
  have hup := List.length_pos_iff.2 hu
  simp at hl
  unfold run
  rw [List.length_cons, loopP, h]
  simp only [Option.bind_some]
  rw [loopP_fuel t.length r.length m r (by omega) (Nat.le_refl _)]

/-- Text without a mail link is copied. -/
theorem run_text (z : Bytes) : ∀ a : Bytes, (∀ x y, a = x ++ y → y ≠ [] → ¬ opening <+: y ++ z) →
    run false (a ++ z) = (run false z).map (a ++ ·)
  | [], _ => by simp
  | c :: a, h => by
    have h1 : stepP false c (a ++ z) = some (false, [c], a ++ z) := by
      unfold stepP
      have : opening.isPrefixOf (c :: (a ++ z)) = false := by
        rw [Bool.eq_false_iff]
        exact fun hp => h [] (c :: a) rfl (by simp) (List.isPrefixOf_iff_prefix.1 hp)
      simp [this, copyP]
    rw [List.cons_append, run_cons h1, run_text z a (fun x y e hy => h (c :: x) y (by rw [e]; rfl) hy)]
    cases run false z <;> simp

theorem upTo_append {d : Byte} {s z : Bytes} (h : d ∉ s) : upTo d (s ++ d :: z) = s := by
  unfold upTo
  induction s with
  | nil => simp
  | cons c s ih =>
    have hc : c ≠ d := fun e => h (by simp [e])
    rw [List.cons_append, List.takeWhile_cons, if_pos (by simp [hc]), ih (fun hm => h (by simp [hm]))]

/-- One link. -/
theorem run_link (addr text z : Bytes) (ha : c!"\"" ∉ addr) (ht : c!"<" ∉ text) :
    run false (opening ++ addr ++ b!"\">" ++ text ++ b!"</a>" ++ z) =
      (run false z).map (b!"href=\"" ++ enc (b!"mailto:" ++ addr) ++ b!"\">" ++ enc text ++ b!"</a>" ++ ·) := by
  have hq : upTo c!"\"" (b!"mailto:" ++ addr ++ c!"\"" :: (b!">" ++ text ++ b!"</a>" ++ z)) = b!"mailto:" ++ addr :=
    upTo_append (by simp [ha])
  have h1 : stepP false c!"h" (b!"ref=\"mailto:" ++ addr ++ b!"\">" ++ text ++ b!"</a>" ++ z) =
      some (true, b!"href=\"" ++ enc (b!"mailto:" ++ addr) ++ b!"\"", c!">" :: (text ++ b!"</a>" ++ z)) := by
    have hd : (c!"h" :: (b!"ref=\"mailto:" ++ addr ++ b!"\">" ++ text ++ b!"</a>" ++ z)).drop 6 =
        b!"mailto:" ++ addr ++ c!"\"" :: (b!">" ++ text ++ b!"</a>" ++ z) := by simp
    unfold stepP
    rw [if_pos (by simp [opening]), if_pos (by rw [hd]; simp), hd]
    unfold addrP
    rw [hq]
    refine congrArg some (Prod.ext rfl (Prod.ext rfl ?_))
    have hlen : (b!"mailto:" ++ addr).length + 1 = (b!"mailto:" ++ addr ++ [c!"\""]).length := by simp
    have hs : b!"mailto:" ++ addr ++ c!"\"" :: (b!">" ++ text ++ b!"</a>" ++ z) =
        (b!"mailto:" ++ addr ++ [c!"\""]) ++ (b!">" ++ text ++ b!"</a>" ++ z) := by simp
    show List.drop _ _ = _
    rw [hlen, hs, List.drop_left]
    rfl
  have h2 : run false (b!"/a>" ++ z) = (run false z).map (b!"/a>" ++ ·) := by
    apply run_text
    intro x y hxy hy hp
    match x, y, hxy with
    | [], y, hxy => subst hxy; exact absurd hp (by simp [opening])
    | [_], y, hxy => simp at hxy; rw [← hxy.2] at hp; exact absurd hp (by simp [opening])
    | [_, _], y, hxy => simp at hxy; rw [← hxy.2.2] at hp; exact absurd hp (by simp [opening])
    | _ :: _ :: _ :: x, y, hxy =>
      simp at hxy
      exact hy hxy.2.2.2.2
  have h3 : run true (c!">" :: (text ++ b!"</a>" ++ z)) = (run false z).map (b!">" ++ enc text ++ b!"</a>" ++ ·) := by
    have hu : upTo c!"<" (text ++ b!"</a>" ++ z) = text := by
      have := upTo_append (z := b!"/a>" ++ z) ht
      simpa using this
    by_cases he : text = []
    · subst he
      have h4 : stepP true c!">" (b!"</a>" ++ z) = some (false, b!"><", b!"/a>" ++ z) := by
        unfold stepP textP
        rw [if_neg (by simp), if_pos (by simp)]
        rw [if_pos (by simpa using hu)]
        simp [copyP]
      rw [List.nil_append, run_cons h4, h2]
      cases run false z <;> simp [enc]
    · have h4 : stepP true c!">" (text ++ b!"</a>" ++ z) = some (true, c!">" :: enc text, b!"</a>" ++ z) := by
        unfold stepP textP
        rw [if_neg (by simp), if_pos (by simp), hu, if_neg he, List.append_assoc, List.drop_left]
      have h5 : stepP true c!"<" (b!"/a>" ++ z) = some (false, b!"<", b!"/a>" ++ z) := by
        unfold stepP
        rw [if_neg (by simp), if_neg (by simp)]
        simp [copyP]
      have h6 : run true (b!"</a>" ++ z) = (run false (b!"/a>" ++ z)).map (b!"<" ++ ·) := run_cons h5
      rw [run_cons h4, h6, h2]
      cases run false z <;> simp
  have h7 : opening ++ addr ++ b!"\">" ++ text ++ b!"</a>" ++ z =
      c!"h" :: (b!"ref=\"mailto:" ++ addr ++ b!"\">" ++ text ++ b!"</a>" ++ z) := rfl
  rw [h7, run_cons h1, h3]
  cases run false z <;> simp

theorem hides_enc (s : Bytes) : Hides (enc s) s := by
  unfold enc
  induction s with
  | nil => exact .nil
  | cons c s ih =>
    have h : Html.hexVal (Escape.hexDigit (c.toNat / 16)) = some (c.toNat / 16) ∧
        Html.hexVal (Escape.hexDigit (c.toNat % 16)) = some (c.toNat % 16) := by
      revert c; exact forall_byte (by decide +kernel)
    rw [List.flatMap_cons]
    exact Hides.cons h.1 h.2 (by omega) ih

theorem opening_not_prefix {a z : Bytes} (h : ¬ opening <:+: a) (hz : ∀ x y, x ++ y = opening → x ≠ [] → y ≠ [] → ¬ y <+: z)
    {x y : Bytes} (hxy : a = x ++ y) (hy : y ≠ []) : ¬ opening <+: y ++ z := by
  intro hp
  by_cases hl : opening.length ≤ y.length
  · have : opening <+: y := List.prefix_of_prefix_length_le hp (List.prefix_append _ _) hl
    exact h (by rw [hxy]; exact this.isInfix.trans (List.suffix_append _ _).isInfix)
  · have h1 : y <+: opening := List.prefix_of_prefix_length_le (List.prefix_append _ _) hp (by omega)
    obtain ⟨w, hw⟩ := h1
    refine hz y w hw hy (fun e => ?_) ?_
    · rw [e, List.append_nil] at hw; rw [← hw] at hl; omega
    · rw [← hw] at hp
      exact (List.prefix_append_right_inj y).1 hp

/-- Nothing of the opening can begin before a tag and end in it. -/
theorem opening_tag (z x y : Bytes) (h : x ++ y = opening) (_ : x ≠ []) (hy : y ≠ []) : ¬ y <+: c!"<" :: z := by
  intro hp
  have hm : c!"<" ∈ opening := by
    rw [← h]
    cases y with
    | nil => exact absurd rfl hy
    | cons d y =>
      obtain ⟨w, hw⟩ := hp
      simp at hw
      simp [hw.1]
  exact absurd hm (by decide)

theorem run_page (l : List (Bytes × Bytes × Bytes)) (tail : Bytes)
    (hl : ∀ x ∈ l, ¬ opening <:+: x.1 ∧ c!"\"" ∉ x.2.1 ∧ c!"<" ∉ x.2.2) (htl : ¬ opening <:+: tail) :
    ∃ out, run false (page l tail) = some out ∧ Hidden l tail out := by
  induction l with
  | nil =>
    refine ⟨tail, ?_, .nil⟩
    have := run_text [] tail (fun x y e hy => opening_not_prefix htl
      (fun x y _ _ hy hp => hy (List.prefix_nil.1 hp)) e hy)
    simpa [page, run, loopP] using this
  | cons e l ih =>
    obtain ⟨a, addr, text⟩ := e
    obtain ⟨r, hr, hh⟩ := ih (fun x hx => hl x (by simp [hx]))
    obtain ⟨h1, h2, h3⟩ := hl (a, addr, text) (by simp)
    simp only at h1 h2 h3
    refine ⟨_, ?_, Hidden.cons (hides_enc (b!"mailto:" ++ addr)) (hides_enc text) hh⟩
    have e1 : page ((a, addr, text) :: l) tail =
        (a ++ (b!"<a " ++ (opening ++ addr ++ b!"\">" ++ text ++ b!"</a>" ++ page l tail))) := by
      simp [page, link, opening]
    have h4 : ∀ z, run false (b!"<a " ++ (opening ++ z)) = (run false (opening ++ z)).map (b!"<a " ++ ·) := by
      intro z
      apply run_text
      intro x y hxy hy hp
      match x, y, hxy with
      | [], y, hxy => subst hxy; exact absurd hp (by simp [opening])
      | [_], y, hxy => simp at hxy; rw [← hxy.2] at hp; exact absurd hp (by simp [opening])
      | [_, _], y, hxy => simp at hxy; rw [← hxy.2.2] at hp; exact absurd hp (by simp [opening])
      | _ :: _ :: _ :: x, y, hxy =>
        simp at hxy
        exact hy hxy.2.2.2.2
    have h5 := h4 (addr ++ b!"\">" ++ text ++ b!"</a>" ++ page l tail)
    have h6 := run_link addr text (page l tail) h2 h3
    rw [e1, run_text (b!"<a " ++ (opening ++ addr ++ b!"\">" ++ text ++ b!"</a>" ++ page l tail)) a
      (fun x y e hy => opening_not_prefix h1 (opening_tag _) e hy)]
    simp only [List.append_assoc] at h5 h6 ⊢
    rw [h5, h6, hr]
    simp

theorem obfuscate_run {html out : Bytes} : obfuscate html = .val out ↔ run false html = some out := by
  rw [obfuscate_eq]
  unfold run
  cases loopP html.length false html <;> simp

theorem hides_at {h s : Bytes} (hh : Hides h s) : c!"@" ∉ h := by
  induction hh with
  | nil => simp
  | @cons c s h a b x y ha hb _ _ ih =>
    have hx : ∀ d v, Html.hexVal d = some v → d ≠ c!"@" := by
      intro d v hd e
      subst e
      exact absurd hd (by simp [Html.hexVal])
    have h1 := hx a x ha
    have h2 := hx b y hb
    simp [ih, Ne.symm h1, Ne.symm h2]

theorem hidden_at {l : List (Bytes × Bytes × Bytes)} {tail out : Bytes} (h : Hidden l tail out) (ho : ∀ x ∈ l, c!"@" ∉ x.1)
    (hto : c!"@" ∉ tail) : c!"@" ∉ out := by
  induction h with
  | nil => exact hto
  | cons h1 h2 _ ih =>
    have h3 := ih (fun x hx => ho x (by simp [hx])) hto
    have h4 := hides_at h1
    have h5 := hides_at h2
    have h6 := ho _ (List.mem_cons_self)
    simp [h3, h4, h5, h6]

end Verif.Obfuscate
