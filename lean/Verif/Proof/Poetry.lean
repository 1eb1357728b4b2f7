/- Lemmas about the class `poetry`. -/
import Verif.Spec.Poetry
import Verif.Proof.Liquid
import Verif.Proof.EmojiHtml

namespace Verif.Poetry
open Spec

theorem copy_ok {e : Nat} {s : Bytes} {b : Buf} (he : 0 < e) (h : b.out.length < b.cap) :
    ∃ k, copy e s b = .val ⟨k, b.out ++ s⟩ ∧ (b.out ++ s).length < k := by
  rw [copy]
  by_cases hs : s.length ≥ b.cap - b.out.length
  · simp only [hs, if_true]
    rw [if_pos (by omega)]
    exact ⟨_, rfl, by simp; omega⟩
  · simp only [hs, if_false]
    rw [if_pos (by omega)]
    exact ⟨_, rfl, by simp; omega⟩

theorem close_ok {b : Buf} (h : b.out.length < b.cap) : ∃ k, close b = .val ⟨k, b.out ++ b!">"⟩ ∧ (b.out ++ b!">").length < k := by
  rw [close]
  by_cases hs : b.cap - b.out.length < 10
  · simp only [hs, if_true]
    rw [if_pos (by omega)]
    exact ⟨_, rfl, by simp; omega⟩
  · simp only [hs, if_false]
    rw [if_pos (by omega)]
    exact ⟨_, rfl, by simp; omega⟩

theorem named_iff (rest : Bytes) : hasLanguage rest = true ↔ Named rest := by
  have hsome : ∀ {w s : Bytes}, w ≠ [] → ((Embed.find w s).isSome = true ↔ w <:+: s) := by
    intro w s hw
    cases h : Embed.find w s with
    | none => simp [(Embed.find_none hw).1 h]
    | some r =>
      have := Embed.find_some h
      simp only [Option.isSome_some, true_iff]
      exact ⟨r.1, r.2, this.symm⟩
  rw [hasLanguage]
  cases h : Embed.find b!"class=" (b!"e" ++ rest) with
  | none =>
    simp only [Bool.false_eq_true, false_iff]
    rintro ⟨a, b, c, e⟩
    exact (Embed.find_none (by decide)).1 h ⟨b!"e" ++ a, b ++ b!"language-" ++ c, by rw [e]; simp⟩
  | some r =>
    obtain ⟨x, y⟩ := r
    have hf := Embed.find_some h
    simp only
    rw [hsome (by decide)]
    constructor
    · rintro ⟨a, c, e⟩
      -- `language-` cannot begin in `class=`
      have h1 : ∃ a', y = a' ++ b!"language-" ++ c := by
        rw [List.append_assoc] at e
        match a, e with
        | [], e => simp at e
        | [_], e => simp at e
        | [_, _], e => simp at e
        | [_, _, _], e => simp at e
        | [_, _, _, _], e => simp at e
        | [_, _, _, _, _], e => simp at e
        | _ :: _ :: _ :: _ :: _ :: _ :: a', e => exact ⟨a', by simp at e; simp [e.2.2.2.2.2.2]⟩
      obtain ⟨a', rfl⟩ := h1
      cases x with
      | nil => simp at hf
      | cons e0 x =>
        simp only [List.cons_append, List.nil_append, List.cons.injEq] at hf
        exact ⟨x, a', c, by rw [hf.2]; simp⟩
    · rintro ⟨a, b, c, e⟩
      -- the first class is not behind this one
      have key : ∀ (s x y a z : Bytes), Embed.find b!"class=" s = some (x, y) → s = a ++ b!"class=" ++ z → ∃ u, b!"class=" ++ y = u ++ b!"class=" ++ z := by
        intro s
        induction s with
        | nil => intro x y a z h; simp [Embed.find] at h
        | cons d s ih =>
          intro x y a z h e
          have hs := Embed.find_some h
          rw [Embed.find] at h
          by_cases hp : b!"class=" <+: d :: s
          · rw [if_pos hp] at h
            simp only [Option.some.injEq, Prod.mk.injEq] at h
            rw [← h.1] at hs
            exact ⟨a, by rw [← e, hs]; simp⟩
          · rw [if_neg hp] at h
            obtain ⟨r, h1, h2⟩ := Option.map_eq_some_iff.1 h
            simp only [Prod.mk.injEq] at h2
            cases a with
            | nil => exact absurd ⟨z, by rw [e]; simp⟩ hp
            | cons d' a =>
              simp only [List.cons_append, List.cons.injEq] at e
              exact ih r.1 y a z (by rw [h1, ← h2.2]) e.2
      obtain ⟨u, hu⟩ := key _ x y (b!"e" ++ a) (b ++ b!"language-" ++ c) h (by rw [e]; simp)
      exact ⟨u ++ b!"class=" ++ b, c, by rw [hu]; simp⟩

theorem find_block {t : Bytes} (ht : ¬ b!"<pre><code" <:+: t) (rest : Bytes) : Embed.find b!"<pre><code" (t ++ b!"<pre><code" ++ rest) = some (t, rest) :=
  Liquid.find_free (by decide) (by decide) t rest ht

theorem cut_ok {x y : Bytes} (hx : c!">" ∉ x) : (x ++ b!">" ++ y).takeWhile (· != c!">") = x ∧ ((x ++ b!">" ++ y).dropWhile (· != c!">")).tail = y := by
  have hp : ∀ c ∈ x, (c != c!">") = true := fun c hc => by simp only [bne_iff_ne]; rintro rfl; exact hx hc
  constructor
  · exact EmojiHtml.takeWhile_split (x := x) (z := y) (p := (· != c!">")) [] hp c!">" (by decide)
  · rw [List.append_assoc, EmojiHtml.dropWhile_pre hp (by intro c hc; simp at hc; subst hc; decide)]
    rfl

theorem loop_ok (bs : List (Bytes × Bytes)) : ∀ (cut : Option Bytes) (t : Bytes) (b : Buf) (n : Nat), ¬ b!"<pre><code" <:+: t →
    (∀ x ∈ bs, c!">" ∉ x.1 ∧ ¬ b!"<pre><code" <:+: x.2) → (∀ c, cut = some c → c!">" ∉ c) → b.out.length < b.cap → (t ++ source bs cut).length < n →
    ∃ k, loop n (t ++ source bs cut) b = .val ⟨k, b.out ++ t ++ marked (fun s => ¬ Named s) bs cut⟩ ∧ (b.out ++ t ++ marked (fun s => ¬ Named s) bs cut).length < k := by
  induction bs with
  | nil =>
    intro cut t b n ht _ hcut hb hn
    obtain ⟨n, rfl⟩ : ∃ m, n = m + 1 := ⟨n - 1, by omega⟩
    rw [loop]
    cases cut with
    | none =>
      simp only [source, marked, List.append_nil]
      by_cases h0 : t = []
      · rw [if_pos h0]; subst h0; exact ⟨b.cap, by simp, by simpa using hb⟩
      · rw [if_neg h0, (Embed.find_none (by decide)).2 ht]
        exact copy_ok (by decide) hb
    | some c =>
      simp only [source, marked]
      rw [if_neg (by simp), ← List.append_assoc, find_block ht]
      simp only
      obtain ⟨k, h1, h2⟩ := copy_ok (e := 100) (s := t) (by decide) hb
      rw [h1]
      simp only [C.bind]
      rw [if_neg (hcut c rfl)]
      obtain ⟨k', h3, h4⟩ := copy_ok (e := 1) (s := b!"<pre><code" ++ c) (b := ⟨k, b.out ++ t⟩) (by decide) h2
      rw [h3]
      exact ⟨k', by simp, by simpa using h4⟩
  | cons x bs ih =>
    obtain ⟨a, t'⟩ := x
    intro cut t b n ht hbs hcut hb hn
    obtain ⟨n, rfl⟩ : ∃ m, n = m + 1 := ⟨n - 1, by omega⟩
    have hx := hbs (a, t') (by simp)
    have e : t ++ source ((a, t') :: bs) cut = t ++ b!"<pre><code" ++ (a ++ b!">" ++ (t' ++ source bs cut)) := by simp [source]
    rw [e, loop, if_neg (by simp), find_block ht]
    simp only
    obtain ⟨k, h1, h2⟩ := copy_ok (e := 100) (s := t) (by decide) hb
    rw [h1]
    simp only [C.bind]
    rw [if_pos (by simp), (cut_ok hx.1).1, (cut_ok hx.1).2]
    have hlen : (t' ++ source bs cut).length < n := by rw [e] at hn; simp only [List.length_append, List.length_cons, List.length_nil] at hn ⊢; omega
    by_cases hl : Named (a ++ b!">" ++ t' ++ source bs cut)
    · have hl' : hasLanguage (a ++ b!">" ++ (t' ++ source bs cut)) = true := (named_iff _).2 (by simpa using hl)
      rw [hl']
      simp only [if_true]
      obtain ⟨k1, h3, h4⟩ := copy_ok (e := 1) (s := b!"<pre><code" ++ a ++ b!">") (b := ⟨k, b.out ++ t⟩) (by decide) h2
      rw [h3]
      simp only
      obtain ⟨k2, h5, h6⟩ := ih cut t' ⟨k1, b.out ++ t ++ (b!"<pre><code" ++ a ++ b!">")⟩ n hx.2 (fun y hy => hbs y (by simp [hy])) hcut h4 hlen
      rw [h5]
      have : b.out ++ t ++ marked (fun s => ¬ Named s) ((a, t') :: bs) cut = b.out ++ t ++ (b!"<pre><code" ++ a ++ b!">") ++ t' ++ marked (fun s => ¬ Named s) bs cut := by
        rw [marked, if_neg (by simpa using hl)]; simp
      rw [this]
      exact ⟨k2, rfl, h6⟩
    · have hl' : hasLanguage (a ++ b!">" ++ (t' ++ source bs cut)) = false := by
        cases hh : hasLanguage (a ++ b!">" ++ (t' ++ source bs cut)) with
        | false => rfl
        | true => exact absurd (by simpa using (named_iff _).1 hh) hl
      rw [hl']
      simp only [Bool.false_eq_true, if_false]
      obtain ⟨k1, h3, h4⟩ := copy_ok (e := 20) (s := b!"<pre><code" ++ a) (b := ⟨k, b.out ++ t⟩) (by decide) h2
      rw [h3]
      simp only
      obtain ⟨k1', g3, g4⟩ := copy_ok (e := 100) (s := b!" class=\"poetry\"") (b := ⟨k1, b.out ++ t ++ (b!"<pre><code" ++ a)⟩) (by decide) h4
      rw [g3]
      simp only
      obtain ⟨k3, q3, q4⟩ := close_ok (b := ⟨k1', b.out ++ t ++ (b!"<pre><code" ++ a) ++ b!" class=\"poetry\""⟩) g4
      rw [q3]
      simp only
      obtain ⟨k2, h5, h6⟩ := ih cut t' ⟨k3, b.out ++ t ++ (b!"<pre><code" ++ a) ++ b!" class=\"poetry\"" ++ b!">"⟩ n hx.2 (fun y hy => hbs y (by simp [hy])) hcut q4 hlen
      rw [h5]
      have : b.out ++ t ++ marked (fun s => ¬ Named s) ((a, t') :: bs) cut = b.out ++ t ++ (b!"<pre><code" ++ a) ++ b!" class=\"poetry\"" ++ b!">" ++ t' ++ marked (fun s => ¬ Named s) bs cut := by
        rw [marked, if_pos (by simpa using hl)]; simp
      rw [this]
      exact ⟨k2, rfl, h6⟩

theorem exists_page (n : Nat) : ∀ s : Bytes, s.length < n → ∃ p : Page, p.Ok ∧ p.html = s := by
  induction n with
  | zero => intro s h; omega
  | succ n ih =>
    intro s hs
    cases h : Embed.find b!"<pre><code" s with
    | none => exact ⟨⟨s, [], none⟩, ⟨(Embed.find_none (by decide)).1 h, by simp, by simp⟩, by simp [Page.html, source]⟩
    | some r =>
      obtain ⟨t, rest⟩ := r
      have e := Embed.find_some h
      have ht := Liquid.find_first h (by decide)
      by_cases hg : c!">" ∈ rest
      · obtain ⟨a, u, rfl, ha⟩ : ∃ a u, rest = a ++ b!">" ++ u ∧ c!">" ∉ a := by
          obtain ⟨a, u, h1, h2⟩ := List.eq_append_cons_of_mem hg
          exact ⟨a, u, by simpa using h1, h2⟩
        obtain ⟨p, hp, he⟩ := ih u (by rw [e] at hs; simp at hs; omega)
        refine ⟨⟨t, (a, p.text) :: p.blocks, p.cut⟩, ⟨ht, ?_, hp.2.2⟩, ?_⟩
        · intro x hx
          simp only [List.mem_cons] at hx
          rcases hx with rfl | hx
          · exact ⟨ha, hp.1⟩
          · exact hp.2.1 x hx
        · rw [e, ← he]; simp [Page.html, source]
      · exact ⟨⟨t, [], some rest⟩, ⟨ht, by simp, by simpa using hg⟩, by rw [e]; simp [Page.html, source]⟩

end Verif.Poetry
