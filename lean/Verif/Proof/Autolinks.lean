import Verif.Model.Autolinks
import Verif.Spec.Autolinks
import Verif.Proof.FencedDivs

namespace Verif.Autolinks

open Spec (Piece Ok Stop Protocol inWord punct)
open FencedDivs (Buf Buf.store)

/-! ### Words -/

theorem inToken_iff (c : Byte) : inToken c = true ↔ inWord c := by
  unfold inToken inWord
  simp [and_assoc]

def isPunct (c : Byte) : Bool := c == c!"." || c == c!"," || c == c!";" || c == c!":"

theorem isPunct_iff (c : Byte) : isPunct c = true ↔ punct c := by
  unfold isPunct punct
  simp [or_assoc]

theorem dropWhile_stop (p : Byte → Bool) (b : Bytes) (c : Byte) (a : Bytes) (h : p c = false) :
    (b ++ c :: a).dropWhile p = b.dropWhile p ++ c :: a := by
  induction b with
  | nil => rw [List.nil_append, List.dropWhile_cons_of_neg (by simp [h])]; rfl
  | cons d b ih =>
    rw [List.cons_append, List.dropWhile_cons, List.dropWhile_cons]
    split
    · exact ih
    · rfl

theorem trim_eq (u : Bytes) : trim u = (u.reverse.dropWhile isPunct).reverse := rfl

theorem trim_keeps (a : Bytes) (c : Byte) (b : Bytes) (h : ¬ punct c) : ∃ b', trim (a ++ c :: b) = a ++ c :: b' := by
  have hc : isPunct c = false := by
    cases hh : isPunct c with
    | false => rfl
    | true => exact absurd ((isPunct_iff c).1 hh) h
  refine ⟨(b.reverse.dropWhile isPunct).reverse, ?_⟩
  rw [trim_eq, List.reverse_append, List.reverse_cons, List.append_assoc, List.singleton_append, dropWhile_stop _ _ _ _ hc]
  simp

theorem trim_split (u : Bytes) : ∃ e, u = trim u ++ e ∧ (∀ c ∈ e, punct c) ∧ (trim u = [] ∨ ∃ a c, trim u = a ++ [c] ∧ ¬ punct c) := by
  refine ⟨(u.reverse.takeWhile isPunct).reverse, ?_, ?_, ?_⟩
  · rw [trim_eq, ← List.reverse_append, List.takeWhile_append_dropWhile, List.reverse_reverse]
  · intro c hc
    rw [List.mem_reverse] at hc
    exact (isPunct_iff c).1 (List.all_eq_true.1 List.all_takeWhile c hc)
  · rw [trim_eq]
    cases hd : u.reverse.dropWhile isPunct with
    | nil => left; rfl
    | cons c t =>
      right
      refine ⟨t.reverse, c, by simp, fun hp => ?_⟩
      have := FencedDivs.head_dropWhile (p := isPunct) (s := u.reverse) (c := c) (by rw [hd]; rfl)
      rw [(isPunct_iff c).2 hp] at this
      exact absurd this (by simp)

theorem token_prefix {w cur : Bytes} (h : w <+: cur) (hw : ∀ c ∈ w, inToken c = true) : w <+: cur.takeWhile inToken := by
  obtain ⟨t, rfl⟩ := h
  rw [List.takeWhile_append_of_pos hw]
  exact List.prefix_append _ _

theorem protocol_iff (cur : Bytes) : protocol cur = true ↔ Protocol cur := by
  unfold protocol Protocol
  simp [or_assoc]

theorem protocol_trim {cur : Bytes} (h : Protocol cur) : (Protocol (trim (cur.takeWhile inToken)) ∨ trim (cur.takeWhile inToken) = b!"mailto") ∧
    6 ≤ (trim (cur.takeWhile inToken)).length := by
  rcases h with h | h | h
  · obtain ⟨t, ht⟩ := token_prefix h (by decide)
    obtain ⟨b, hb⟩ := trim_keeps b!"http:/" c!"/" t (by unfold punct; decide)
    have e : trim (cur.takeWhile inToken) = b!"http://" ++ b := by rw [← ht]; exact hb
    rw [e]
    exact ⟨Or.inl (Or.inl (List.prefix_append _ _)), by simp⟩
  · obtain ⟨t, ht⟩ := token_prefix h (by decide)
    obtain ⟨b, hb⟩ := trim_keeps b!"https:/" c!"/" t (by unfold punct; decide)
    have e : trim (cur.takeWhile inToken) = b!"https://" ++ b := by rw [← ht]; exact hb
    rw [e]
    exact ⟨Or.inl (Or.inr (Or.inl (List.prefix_append _ _))), by simp⟩
  · obtain ⟨t, ht⟩ := token_prefix h (by decide)
    obtain ⟨b, hb⟩ := trim_keeps b!"mailt" c!"o" (c!":" :: t) (by unfold punct; decide)
    have e : trim (cur.takeWhile inToken) = b!"mailto" ++ b := by rw [← ht]; exact hb
    rw [e]
    refine ⟨?_, by simp⟩
    cases b with
    | nil => exact Or.inr rfl
    | cons x b =>
      left; right; right
      obtain ⟨e', h1, -, -⟩ := trim_split (cur.takeWhile inToken)
      rw [e, ← ht] at h1
      have : x = c!":" := by
        simp at h1
        exact h1.1.symm
      subst this
      exact ⟨b, rfl⟩

theorem tld_split (s : Bytes) (h : tld s = true) : ∃ dom d rest, s = dom ++ c!"." :: d :: rest ∧
    (∀ x ∈ dom, isAlnum x = true ∨ x = c!"-" ∨ x = c!"_") ∧ isAlnum d = true := by
  induction s with
  | nil => cases h
  | cons c t ih =>
    rw [tld] at h
    split at h
    · rename_i hc
      cases t with
      | nil => simp [alnumHead] at hc
      | cons d r =>
        simp [alnumHead] at hc
        exact ⟨[], d, r, by rw [hc.1]; rfl, by simp, hc.2⟩
    · split at h
      · cases h
      · rename_i hn
        obtain ⟨dom, d, rest, rfl, h2, h3⟩ := ih h
        refine ⟨c :: dom, d, rest, rfl, ?_, h3⟩
        intro x hx
        rcases List.mem_cons.1 hx with rfl | hx
        · by_cases ha : isAlnum x = true
          · exact Or.inl ha
          · right
            simp at hn
            by_cases h5 : x = c!"-"
            · exact Or.inl h5
            · exact Or.inr (hn (by simpa using ha) h5)
        · exact h2 x hx

theorem alnum_punct (c : Byte) (h : isAlnum c = true) : ¬ punct c := by
  rintro (rfl | rfl | rfl | rfl) <;> exact absurd h (by decide)

/-- A mail address, and the place where it starts. -/
theorem email_split {pre cur : Bytes} (h : email pre cur = true) :
    Spec.Mail (trim (cur.takeWhile inToken)) ∧ 4 ≤ (trim (cur.takeWhile inToken)).length ∧
      (pre = [] ∨ ∃ d, pre.head? = some d ∧ (isSpace d = true ∨ d = c!"(" ∨ d = c!"[")) := by
  unfold email at h
  simp only [Bool.and_eq_true] at h
  obtain ⟨⟨⟨⟨⟨⟨⟨h1, -⟩, h3⟩, -⟩, -⟩, -⟩, h6⟩, h7⟩ := h
  have hpre : pre = [] ∨ ∃ d, pre.head? = some d ∧ (isSpace d = true ∨ d = c!"(" ∨ d = c!"[") := by
    cases pre with
    | nil => exact Or.inl rfl
    | cons d r =>
      right
      simp [wordStart] at h1
      exact ⟨d, rfl, by rcases h1 with (h | h) | h; exact Or.inl h; exact Or.inr (Or.inl h); exact Or.inr (Or.inr h)⟩
  generalize cur.takeWhile inToken = word at h3 h6 h7 ⊢
  have hw := List.takeWhile_append_dropWhile (p := fun c : Byte => c != c!"@") (l := word)
  have hnot : c!"@" ∉ word.takeWhile (fun c : Byte => c != c!"@") := by
    intro hm
    have := List.all_eq_true.1 (List.all_takeWhile (p := fun c : Byte => c != c!"@") (l := word)) _ hm
    simp at this
  cases hd : word.dropWhile (fun c : Byte => c != c!"@") with
  | nil =>
    rw [hd, List.append_nil] at hw
    rw [hw] at hnot
    exact absurd (by simpa using h3) hnot
  | cons a t =>
    have ha := FencedDivs.head_dropWhile (p := fun c : Byte => c != c!"@") (s := word) (c := a) (by rw [hd]; rfl)
    have ha' : a = c!"@" := by simpa using ha
    subst ha'
    rw [hd] at hw
    generalize word.takeWhile (fun c : Byte => c != c!"@") = user at *
    have ht : word.drop (user.length + 1) = t := by
      rw [← hw, ← List.drop_drop]
      simp
    rw [ht] at h7
    obtain ⟨dom, d, rest, rfl, k2, k3⟩ := tld_split t h7
    rcases List.eq_nil_or_concat user with rfl | ⟨us, c, rfl⟩
    · simp [alnumHead] at h6
    · rw [List.concat_eq_append] at *
      simp [alnumHead] at h6
      obtain ⟨b, hb⟩ := trim_keeps (us ++ [c] ++ b!"@" ++ dom ++ b!".") d rest (alnum_punct d k3)
      have e : trim word = us ++ [c] ++ b!"@" ++ dom ++ b!"." ++ d :: b := by
        rw [← hb, ← hw]
        simp
      rw [e]
      refine ⟨⟨us, c, dom, d, b, rfl, fun hm => hnot (by simp [hm]), h6, k2, k3⟩, ?_, hpre⟩
      simp only [List.length_append, List.length_cons, List.length_nil]
      omega

/-! ### Steps -/

/-- What a step does. -/
structure Fact (pre cur : Bytes) (s : Step) : Prop where
  pos : 1 ≤ s.eat
  le : s.eat ≤ cur.length
  pieces : ∃ ps, Ok (cur.drop s.eat) ps ∧ cur.take s.eat = Spec.source ps ∧ s.out = Spec.result ps
  plain : s.needed = none → s.out.length = s.eat
  room : ∀ k, s.needed = some k → s.out.length ≤ k
  size : s.out.length ≤ s.eat ∨ ((∀ c, (cur.take s.eat).getLast? = some c → isSpace c = false) ∧
    (s.out.length ≤ 4 * s.eat ∨ (s.out.length ≤ 4 * s.eat + 3 ∧ (pre = [] ∨ ∃ d, pre.head? = some d ∧ isSpace d = true))))

theorem same_pieces (s rest : Bytes) : Ok rest (s.map Piece.same) ∧ Spec.source (s.map Piece.same) = s ∧ Spec.result (s.map Piece.same) = s := by
  induction s with
  | nil => exact ⟨trivial, rfl, rfl⟩
  | cons c s ih => exact ⟨⟨trivial, trivial, ih.1⟩, by rw [List.map_cons, Spec.source, List.flatMap_cons, ← Spec.source, ih.2.1]; rfl,
      by rw [List.map_cons, Spec.result, List.flatMap_cons, ← Spec.result, ih.2.2]; rfl⟩

theorem same_fact (pre cur : Bytes) (st : St) (n : Nat) (hn : 1 ≤ n) (hl : n ≤ cur.length) (k : Option Nat) (hk : ∀ m, k = some m → n ≤ m) :
    Fact pre cur ⟨st, n, cur.take n, k⟩ := by
  obtain ⟨p1, p2, p3⟩ := same_pieces (cur.take n) (cur.drop n)
  have hlen : (cur.take n).length = n := by rw [List.length_take]; omega
  exact ⟨hn, hl, ⟨_, p1, p2.symm, p3.symm⟩, fun _ => hlen, fun m hm => by rw [hlen]; exact hk m hm, Or.inl (by rw [hlen]; exact Nat.le_refl _)⟩

theorem copy_fact (pre cur : Bytes) (st : St) (n : Nat) (hn : 1 ≤ n) (hl : n ≤ cur.length) : Fact pre cur (copy st n cur) :=
  same_fact pre cur st n hn hl none (by simp)

theorem prefix_length {w cur : Bytes} (h : w.isPrefixOf cur = true) : w.length ≤ cur.length := (List.isPrefixOf_iff_prefix.1 h).length_le

theorem takeWhile_take (p : Byte → Bool) (s : Bytes) : s.take (s.takeWhile p).length = s.takeWhile p := by
  have := List.takeWhile_append_dropWhile (p := p) (l := s)
  generalize hx : s.takeWhile p = x at *
  rw [← this, List.take_left]

theorem takeWhile_le (p : Byte → Bool) (s : Bytes) : (s.takeWhile p).length ≤ s.length := (List.takeWhile_prefix p).length_le

theorem line_fact {st : St} {pre cur : Bytes} {s : Step} (h : lineStep st pre cur = some s) : Fact pre cur s := by
  unfold lineStep at h
  split at h
  · rename_i hc
    simp only [Option.some.injEq] at h
    subst h
    have hne : 1 ≤ (cur.takeWhile (· != 10)).length := by
      cases cur with
      | nil => rcases hc.2 with h | h <;> exact absurd h (by decide)
      | cons c t =>
        by_cases h10 : c = 10
        · subst h10
          rcases hc.2 with h | h <;> simp [indented, definition] at h
        · rw [List.takeWhile_cons_of_pos (by simpa using h10)]
          simp
    have := same_fact pre cur st _ hne (takeWhile_le _ _) (some (cur.takeWhile (· != 10)).length) (by simp)
    rwa [takeWhile_take] at this
  · cases h

theorem tick_fact (st : St) (pre cur : Bytes) (h : cur.head? = some c!"`") : Fact pre cur (tickStep st cur) := by
  unfold tickStep
  simp only
  have h1 : 1 ≤ (cur.takeWhile (· == c!"`")).length := by
    cases cur with
    | nil => cases h
    | cons c t =>
      simp at h
      subst h
      rw [List.takeWhile_cons_of_pos (by decide)]
      simp
  have h2 : (cur.takeWhile (· == c!"`")).length ≤ cur.length := takeWhile_le _ _
  generalize cur.takeWhile (· == c!"`") = run at *
  split
  · exact copy_fact _ _ _ (min 10 run.length) (by omega) (by omega)
  · split
    · exact copy_fact _ _ _ 1 (by omega) (by omega)
    · exact copy_fact _ _ _ (min 10 run.length) (by omega) (by omega)

theorem address_ok {u : Bytes} (h : address u = true) : Protocol u ∧ u ≠ b!"mailto:" := by
  unfold address at h
  simp at h
  rcases h with (⟨-, h⟩ | ⟨-, h⟩) | ⟨h1, h⟩
  · exact ⟨Or.inl h, fun e => by rw [e] at h; exact absurd h (by decide)⟩
  · exact ⟨Or.inr (Or.inl h), fun e => by rw [e] at h; exact absurd h (by decide)⟩
  · exact ⟨Or.inr (Or.inr h), fun e => by rw [e] at h1; exact absurd h1 (by decide)⟩

theorem angle_fact {st : St} {pre cur : Bytes} {s : Step} (h : angleStep st cur = some s) : Fact pre cur s := by
  unfold angleStep at h
  cases cur with
  | nil => cases h
  | cons c t =>
    simp only at h
    split at h
    · rename_i hc
      split at h
      · rename_i hu
        simp only [Option.some.injEq] at h
        simp only [Bool.and_eq_true, decide_eq_true_eq] at hu
        obtain ⟨⟨hlt, -⟩, hadd⟩ := hu
        have hc' : c = c!"<" := by simpa using hc
        subst hc'
        have ht := List.takeWhile_append_dropWhile (p := fun c : Byte => c != c!">") (l := t)
        have hnot : c!">" ∉ t.takeWhile (fun c : Byte => c != c!">") := by
          intro hm
          have := List.all_eq_true.1 (List.all_takeWhile (p := fun c : Byte => c != c!">") (l := t)) _ hm
          simp at this
        cases hd : t.dropWhile (fun c : Byte => c != c!">") with
        | nil =>
          rw [hd, List.append_nil] at ht
          rw [ht] at hlt
          omega
        | cons d r =>
          have hd' := FencedDivs.head_dropWhile (p := fun c : Byte => c != c!">") (s := t) (c := d) (by rw [hd]; rfl)
          have hd'' : d = c!">" := by simpa using hd'
          subst hd''
          rw [hd] at ht
          generalize t.takeWhile (fun c : Byte => c != c!">") = u at *
          subst h
          have etake : (c!"<" :: t).take (u.length + 2) = b!"<" ++ u ++ b!">" := by
            rw [← ht, show u.length + 2 = (u.length + 1) + 1 from rfl, List.take_succ_cons]
            rw [show u ++ c!">" :: r = (u ++ [c!">"]) ++ r by simp, show u.length + 1 = (u ++ [c!">"]).length by simp, List.take_left]
            rfl
          obtain ⟨a1, a2⟩ := address_ok hadd
          refine ⟨by simp, by rw [← ht]; simp, ⟨[Piece.angle u], ⟨⟨hnot, a1, a2⟩, trivial, trivial⟩, by rw [etake]; simp [Spec.source, Piece.source],
            by simp [Spec.result, Piece.result, Spec.link, link]⟩, by simp, ?_, Or.inr ⟨?_, Or.inl ?_⟩⟩
          · intro k hk
            simp only [Option.some.injEq] at hk
            subst hk
            simp [link]
            omega
          · intro c hc
            rw [etake, List.getLast?_concat] at hc
            simp only [Option.some.injEq] at hc
            subst hc
            decide
          · simp [link]
            omega
      · cases h
    · cases h

theorem comment_fact {st : St} {pre cur : Bytes} {s : Step} (h : commentStep st cur = some s) : Fact pre cur s := by
  unfold commentStep at h
  split at h
  · split at h
    · rename_i a r hf
      simp only [Option.some.injEq] at h
      subst h
      have hlen : a.length + 3 ≤ cur.length := by
        rw [Embed.find_some hf]
        simp
      exact same_fact pre cur st _ (by omega) hlen _ (by simp)
    · cases h
  · cases h

theorem bare_fact {st : St} {pre cur : Bytes} {s : Step} (h : bareStep st pre cur = some s) : Fact pre cur s := by
  unfold bareStep at h
  cases cur with
  | nil => cases h
  | cons c t =>
    dsimp only at h
    split at h
    · rename_i hc
      split at h
      · rename_i hu
        simp only [Option.some.injEq] at h
        subst h
        simp only [Bool.and_eq_true, Bool.or_eq_true] at hc hu
        obtain ⟨⟨hu1, hu2⟩, -⟩ := hu
        obtain ⟨-, hpe⟩ := hc
        generalize hcur : c :: t = cur at *
        obtain ⟨e, e1, e2, e3⟩ := trim_split (cur.takeWhile inToken)
        have hall := List.all_eq_true.1 (List.all_takeWhile (p := inToken) (l := cur))
        have hrest : ∀ x, (cur.dropWhile inToken).head? = some x → ¬ inWord x := by
          intro x hx hw
          have := FencedDivs.head_dropWhile hx
          rw [(inToken_iff x).2 hw] at this
          cases this
        have hsp := List.takeWhile_append_dropWhile (p := inToken) (l := cur)
        generalize hD : cur.dropWhile inToken = r at *
        have hT : ∀ u, trim (cur.takeWhile inToken) = u → cur = u ++ (e ++ r) := by
          intro u hu
          rw [hu] at e1
          conv => lhs; rw [← hsp, e1]
          simp
        have hword : Spec.Word (trim (cur.takeWhile inToken)) := by
          refine ⟨fun x hx => (inToken_iff x).1 (hall x ?_), ?_⟩
          · rw [e1]; exact List.mem_append_left _ hx
          · rcases e3 with e3 | e3
            · rw [e3] at hu1; exact absurd hu1 (by decide)
            · exact e3
        have hmain : ∀ href p, Piece.source p = trim (cur.takeWhile inToken) → Piece.result p = link (trim (cur.takeWhile inToken)) href → p.Ok →
            (∀ s, Stop s → cur = p.source ++ s → p.Before s) →
            (2 * (trim (cur.takeWhile inToken)).length + 4 ≤ 4 * (trim (cur.takeWhile inToken)).length ∧ href.length = (trim (cur.takeWhile inToken)).length ∨
              2 * (trim (cur.takeWhile inToken)).length + 11 ≤ 4 * (trim (cur.takeWhile inToken)).length + 3 ∧
                href.length = (trim (cur.takeWhile inToken)).length + 7 ∧ (pre = [] ∨ ∃ d, pre.head? = some d ∧ isSpace d = true)) →
            Fact pre cur ⟨st, (trim (cur.takeWhile inToken)).length, link (trim (cur.takeWhile inToken)) href,
              some (2 + (trim (cur.takeWhile inToken)).length + 3 + href.length + 2)⟩ := by
          intro href p p1 p2 p3 p5 p4
          have hne : 1 ≤ (trim (cur.takeWhile inToken)).length := by
            obtain ⟨-, a, x, hx, -⟩ := hword
            rw [hx]; simp
          have hcu := hT _ rfl
          generalize trim (cur.takeWhile inToken) = u at *
          have ht : cur.take u.length = u := by rw [hcu, List.take_left]
          have hdr : cur.drop u.length = e ++ r := by rw [hcu, List.drop_left]
          refine ⟨hne, by rw [hcu]; simp, ⟨[p], ⟨p3, ?_, trivial⟩, ?_, ?_⟩, by simp, ?_, Or.inr ⟨?_, ?_⟩⟩
          · rw [hdr]
            exact p5 _ ⟨e, r, by simp [Spec.source], e2, hrest⟩ (by rw [p1, hcu]; simp [Spec.source])
          · rw [ht]; simp [Spec.source, p1]
          · simp [Spec.result, p2]
          · intro k hk
            simp only [Option.some.injEq] at hk
            subst hk
            simp [link]
            omega
          · intro x hx
            rw [ht] at hx
            exact (hword.1 x (List.mem_of_getLast? hx)).1
          · simp only [link, List.length_append, List.length_cons, List.length_nil]
            rcases p4 with p4 | p4
            · left; omega
            · right; exact ⟨by omega, p4.2.2⟩
        by_cases hp : protocol cur = true
        · rw [if_neg (by simp [hp])]
          obtain ⟨q1, q2⟩ := protocol_trim ((protocol_iff _).1 hp)
          exact hmain _ (Piece.bare (trim (cur.takeWhile inToken))) rfl rfl ⟨hword, q1⟩
            (fun s hs hcs => ⟨hs, by rw [show trim (cur.takeWhile inToken) ++ s = cur from hcs.symm]; exact (protocol_iff _).1 hp⟩) (Or.inl ⟨by omega, rfl⟩)
        · have hem := hpe.resolve_left hp
          obtain ⟨m1, m2, m3⟩ := email_split hem
          have hnm : b!"mailto:".isPrefixOf cur = false := by
            unfold protocol at hp
            simp only [Bool.or_eq_true, not_or] at hp
            exact Bool.eq_false_iff.2 hp.2
          rw [if_pos (by rw [hnm, Bool.eq_false_iff.2 hp]; simp)]
          refine hmain _ (Piece.mail (trim (cur.takeWhile inToken))) rfl rfl ⟨hword, m1⟩ (fun s hs _ => hs) (Or.inr ⟨by omega, by simp, ?_⟩)
          rcases m3 with m3 | ⟨d, m3, m4⟩
          · exact Or.inl m3
          · right
            refine ⟨d, m3, m4.resolve_right fun m4 => ?_⟩
            rw [m3] at hu2
            rcases m4 with rfl | rfl <;> exact absurd hu2 (by decide)
      · cases h
    · cases h

theorem text_fact (st : St) (pre cur : Bytes) (hne : cur ≠ []) : Fact pre cur (textStep st pre cur) := by
  have hl : 1 ≤ cur.length := by
    cases cur with
    | nil => exact absurd rfl hne
    | cons c t => simp
  unfold textStep
  split
  · exact copy_fact _ _ _ _ (Nat.le_refl _) hl
  · split
    · rename_i h
      simp only [Bool.and_eq_true] at h
      exact copy_fact _ _ _ _ (by omega) (prefix_length h.1)
    · dsimp only
      generalize bracketsAt st cur = st'
      split
      · exact copy_fact _ _ _ _ (Nat.le_refl _) hl
      · split
        · exact copy_fact _ _ _ _ (Nat.le_refl _) hl
        · split
          · rename_i h; exact angle_fact h
          · split
            · rename_i h; exact comment_fact h
            · split
              · rename_i h; exact bare_fact h
              · exact copy_fact _ _ _ _ (Nat.le_refl _) hl

theorem step_fact (st : St) (pre cur : Bytes) (hne : cur ≠ []) : Fact pre cur (step st pre cur) := by
  have hl : 1 ≤ cur.length := by
    cases cur with
    | nil => exact absurd rfl hne
    | cons c t => simp
  unfold step
  split
  · rename_i h
    simp only [Bool.and_eq_true] at h
    exact copy_fact _ _ _ _ (by omega) (prefix_length h.2)
  · split
    · split
      · rename_i h
        exact copy_fact _ _ _ _ (by omega) (prefix_length h)
      · exact copy_fact _ _ _ _ (Nat.le_refl _) hl
    · split
      · rename_i h; exact line_fact h
      · split
        · rename_i h; exact tick_fact _ _ _ (by simpa using h)
        · exact text_fact _ _ _ hne

/-! ### The loop -/

/-- What holds between two rounds, for a text of `len` bytes. -/
structure Inv (len : Nat) (b : Buf) (pre : Bytes) : Prop where
  cap : 4 * len + 1 ≤ b.cap
  start : pre = [] → b.out = []
  size : b.out.length ≤ 4 * pre.length + 3
  space : ∀ d, pre.head? = some d → isSpace d = true → b.out.length ≤ 4 * pre.length
  full : pre.length = len → b.out.length < b.cap

theorem room_cap (b : Buf) (k : Nat) : (room b k).out = b.out ∧ b.cap ≤ (room b k).cap ∧ b.out.length + k + 1 ≤ (room b k).cap := by
  unfold room
  split
  · exact ⟨rfl, by simp only; omega, by simp only; omega⟩
  · exact ⟨rfl, Nat.le_refl _, by omega⟩

theorem source_append (a b : List Piece) : Spec.source (a ++ b) = Spec.source a ++ Spec.source b := by simp [Spec.source]
theorem result_append (a b : List Piece) : Spec.result (a ++ b) = Spec.result a ++ Spec.result b := by simp [Spec.result]

theorem ok_append (rest : Bytes) (a b : List Piece) (ha : Ok (Spec.source b ++ rest) a) (hb : Ok rest b) : Ok rest (a ++ b) := by
  induction a with
  | nil => exact hb
  | cons p a ih =>
    obtain ⟨h1, h2, h3⟩ := ha
    refine ⟨h1, ?_, ih h3⟩
    have := h2
    rw [List.append_eq, source_append, List.append_assoc]
    exact this

theorem loop_ok (len n : Nat) (st : St) (b : Buf) (pre cur : Bytes) (hn : cur.length < n) (hlen : pre.length + cur.length = len) (hi : Inv len b pre) :
    ∃ b' ps, loop n st b pre cur = .val b' ∧ b'.out.length < b'.cap ∧ cur = Spec.source ps ∧ Ok [] ps ∧ b'.out = b.out ++ Spec.result ps := by
  induction n generalizing st b pre cur with
  | zero => omega
  | succ n ih =>
    rw [loop]
    by_cases hc : cur = []
    · subst hc
      rw [if_pos rfl]
      exact ⟨b, [], rfl, hi.full (by simpa using hlen), rfl, trivial, by simp [Spec.result]⟩
    · rw [if_neg hc]
      have hf := step_fact st pre cur hc
      generalize step st pre cur = s at hf
      obtain ⟨f1, f2, ⟨ps, p1, p2, p3⟩, f4, f5, f6⟩ := hf
      obtain ⟨i1, i2, i3, i4, i5⟩ := hi
      have key : ∃ b1 : Buf, (grow b s.needed).store s.out = .val b1 ∧ b1.out = b.out ++ s.out ∧ b.cap ≤ b1.cap ∧ b1.out.length < b1.cap := by
        cases hk : s.needed with
        | none =>
          have := f4 hk
          rw [grow, Buf.store, if_pos (by omega)]
          exact ⟨⟨b.out ++ s.out, b.cap⟩, rfl, rfl, Nat.le_refl _, by simp only [List.length_append]; omega⟩
        | some k =>
          have := f5 k hk
          obtain ⟨r1, r2, r3⟩ := room_cap b k
          rw [grow, Buf.store, if_pos (by rw [r1]; omega)]
          exact ⟨⟨b.out ++ s.out, (room b k).cap⟩, by rw [r1], rfl, r2, by simp only [List.length_append]; omega⟩
      obtain ⟨b1, k1, k2, k3, k4⟩ := key
      simp only [k1]
      have hpl : ((cur.take s.eat).reverse ++ pre).length = pre.length + s.eat := by
        simp only [List.length_append, List.length_reverse, List.length_take]
        omega
      have hout : b1.out.length = b.out.length + s.out.length := by rw [k2, List.length_append]
      have htne : (cur.take s.eat) ≠ [] := by
        intro h
        have := congrArg List.length h
        simp only [List.length_take, List.length_nil] at this
        omega
      have hhead : ∀ d, ((cur.take s.eat).reverse ++ pre).head? = some d → (cur.take s.eat).getLast? = some d := by
        intro d hd
        rcases List.eq_nil_or_concat (cur.take s.eat) with h | ⟨a, x, h⟩
        · exact absurd h htne
        · rw [h] at hd ⊢
          simpa using hd
      have hsize : b.out.length + s.out.length ≤ 4 * (pre.length + s.eat) + 3 ∧
          (∀ d, (cur.take s.eat).getLast? = some d → isSpace d = true → b.out.length + s.out.length ≤ 4 * (pre.length + s.eat)) := by
        rcases f6 with g | ⟨g1, g2 | ⟨g2, g3⟩⟩
        · exact ⟨by omega, fun d _ _ => by omega⟩
        · refine ⟨by omega, fun d hd hs => ?_⟩
          rw [g1 d hd] at hs
          cases hs
        · refine ⟨?_, fun d hd hs => ?_⟩
          · rcases g3 with g3 | ⟨d, g3, g4⟩
            · rw [i2 g3]
              simp only [List.length_nil]
              omega
            · have := i4 d g3 g4
              omega
          · rw [g1 d hd] at hs
            cases hs
      obtain ⟨b2, qs, l1, l2, l3, l4, l5⟩ := ih s.st b1 ((cur.take s.eat).reverse ++ pre) (cur.drop s.eat)
        (by simp only [List.length_drop]; omega) (by rw [hpl, List.length_drop]; omega)
        ⟨by omega, fun h => absurd (by simpa using h) (fun h => htne (by have := h.1; simpa using this)), by rw [hpl]; omega,
          fun d hd hs => by rw [hpl, hout]; exact hsize.2 d (hhead d hd) hs, fun _ => k4⟩
      refine ⟨b2, ps ++ qs, l1, l2, ?_, ?_, ?_⟩
      · rw [source_append, ← p2, ← l3, List.take_append_drop]
      · refine ok_append [] ps qs ?_ l4
        rw [List.append_nil, ← l3]
        exact p1
      · rw [l5, k2, p3, result_append, List.append_assoc]

theorem result_mem (ps : List Piece) (c : Byte) (h : c ∈ Spec.result ps) : c ∈ Spec.source ps ∨ c ∈ b!"[]()mailto:" := by
  induction ps with
  | nil => simp [Spec.result] at h
  | cons p ps ih =>
    simp only [Spec.result, Spec.source, List.flatMap_cons, List.mem_append] at h ih ⊢
    rcases h with h | h
    · cases p with
      | same d => exact Or.inl (Or.inl h)
      | bare u =>
        simp only [Piece.result, Spec.link, List.mem_append] at h
        rcases h with (((h | h) | h) | h) | h
        all_goals first | exact Or.inl (Or.inl h) | (right; clear ih; revert c; simp)
      | mail u =>
        simp only [Piece.result, Spec.link, List.mem_append] at h
        rcases h with (((h | h) | h) | (h | h)) | h
        all_goals first | exact Or.inl (Or.inl h) | (right; clear ih; revert c; simp)
      | angle u =>
        simp only [Piece.result, Spec.link, List.mem_append] at h
        rcases h with (((h | h) | h) | h) | h
        all_goals first | exact Or.inl (Or.inl (List.mem_append_left _ (List.mem_append_right _ h))) | (right; clear ih; revert c; simp)
    · rcases ih h with h | h
      · exact Or.inl (Or.inr h)
      · exact Or.inr h

/-- Every text is turned into links piece by piece. -/
theorem process_ok (text : Bytes) (h0 : 0 ∉ text) : ∃ ps, Ok [] ps ∧ text = Spec.source ps ∧ process text = .val (Spec.result ps) := by
  obtain ⟨b, ps, h1, h2, h3, h4, h5⟩ := loop_ok text.length (text.length + 1) {} ⟨[], text.length * 4 + 1⟩ [] text (by omega) (by simp)
    ⟨by simp only; omega, fun _ => rfl, by simp, by simp, by simp⟩
  refine ⟨ps, h4, h3, ?_⟩
  unfold process
  rw [h1]
  simp only
  rw [Buf.store, if_pos (by simp only [List.length_cons, List.length_nil]; omega)]
  simp only
  rw [h5, List.nil_append, List.takeWhile_append_of_pos ?_]
  · simp
  · intro c hc
    simp only [bne_iff_ne, ne_eq]
    rintro rfl
    rcases result_mem ps 0 hc with h | h
    · exact h0 (h3 ▸ h)
    · exact absurd h (by decide)

end Verif.Autolinks
