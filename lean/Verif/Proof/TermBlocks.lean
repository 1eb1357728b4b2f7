/- Lemmas about lists and quotes on a terminal. -/
import Verif.Proof.Term
import Verif.Spec.TermBlocks

namespace Verif.Term.Blocks
open Term.Spec TermStyle.Spec
open TermStyle (style reset)

theorem digit_toNat {k : Nat} (h : k < 10) : (UInt8.ofNat (48 + k)).toNat = 48 + k := by
  rw [UInt8.toNat_ofNat']
  omega

theorem decimal_digits (n : Nat) : Digits n (Man.decimal n) := by
  fun_induction Man.decimal n with
  | case1 n h =>
    refine ⟨by simp, ?_, ?_, ?_⟩
    · intro c hc
      rw [List.mem_singleton] at hc
      rw [hc, digit_toNat h]
      omega
    · simp only [List.foldl_cons, List.foldl_nil]
      rw [digit_toNat h]
      omega
    · intro hz
      simp only [List.head?_cons, Option.some.injEq] at hz
      have := congrArg UInt8.toNat hz
      rw [digit_toNat h] at this
      have h0 : (c!"0" : UInt8).toNat = 48 := rfl
      omega
  | case2 n h ih =>
    obtain ⟨h1, h2, h3, h4⟩ := ih
    have hk : n % 10 < 10 := Nat.mod_lt _ (by decide)
    refine ⟨by simp, ?_, ?_, ?_⟩
    · intro c hc
      rw [List.mem_append, List.mem_singleton] at hc
      rcases hc with hc | hc
      · exact h2 c hc
      · rw [hc, digit_toNat hk]
        omega
    · rw [List.foldl_append, h3]
      simp only [List.foldl_cons, List.foldl_nil]
      rw [digit_toNat hk]
      omega
    · intro hz
      obtain ⟨c, t, ht⟩ := List.exists_cons_of_ne_nil h1
      rw [ht] at hz h4
      have := h4 hz
      omega

theorem decimal_calm (n : Nat) : (27 : Byte) ∉ Man.decimal n := by
  intro h
  have := (decimal_digits n).2.1 27 h
  exact absurd this.1 (by decide)

theorem shows_listMark {o : Opt} (ho : Quiet o) (ind : Nat) (bullet : Bool) (n : Nat) :
    Shows (itemMark o ind bullet n) (spaces ind ++ (if bullet then b!"* " else Man.decimal n ++ b!"." ++ b!" ")) := by
  unfold itemMark
  have h1 : Shows (style o.wide (o.theme.listMarker.getD b!"b intense_red")) [] := shows_getD ho.listMarker (shows_style o.wide (by decide) (by decide))
  have h2 : Shows (if bullet then b!"* " else Man.decimal n ++ b!"." ++ b!" ") (if bullet then b!"* " else Man.decimal n ++ b!"." ++ b!" ") := by
    apply shows_calm
    cases bullet with
    | true => simp only [if_true]; decide
    | false =>
      simp only [Bool.false_eq_true, if_false, List.mem_append, not_or]
      exact ⟨⟨decimal_calm n, by decide⟩, by decide⟩
  have := (((shows_calm (calm_spaces ind)).append h1).append h2).append shows_reset
  simpa using this

theorem block_item (o : Opt) (ind : Nat) (out : Bytes) (ks : List Node) : block o ind true out (item ks) = .val (out ++ spaces ind ++ inlines o ks ++ b!"\n") := by
  simp [item, block, blocks]

theorem shows_items {o : Opt} (ho : Quiet o) (ind : Nat) (l : List (List Node)) (hc : ∀ ks ∈ l, Alls Calm ks) (hp : ∀ ks ∈ l, Alls (Plain o.emoji) ks) (n : Nat) (out : Bytes) :
    ∃ x v, items o ind false n out (l.map item) = .val (out ++ x) ∧ Shows x v ∧ Numbered o.emoji (List.replicate (2 * ind) c!" ") n l v := by
  induction l generalizing n out with
  | nil => exact ⟨[], [], by simp [items], shows_calm (by simp), .nil n⟩
  | cons ks l ih =>
    obtain ⟨x, v, h1, h2, h3⟩ := ih (fun k hk => hc k (List.mem_cons_of_mem _ hk)) (fun k hk => hp k (List.mem_cons_of_mem _ hk)) (n + 1)
      (out ++ itemMark o ind false n ++ spaces (ind + 1) ++ inlines o ks ++ b!"\n")
    have hi := shows_inlines ho ks (hc ks List.mem_cons_self)
    rw [seens_reads ks (hp ks List.mem_cons_self)] at hi
    have hs := ((((shows_listMark ho ind false n).append (shows_calm (calm_spaces (ind + 1)))).append hi).append (shows_calm (s := b!"\n") (by decide))).append h2
    refine ⟨_, _, ?_, hs, ?_⟩
    · rw [List.map_cons, items, block_item]
      simp only [C.val_bind]
      rw [h1]
      simp
    · have := Numbered.cons (emoji := o.emoji) (pad := List.replicate (2 * ind) c!" ") (ks := ks) (gap := spaces (ind + 1)) (decimal_digits n) (fun c hc => List.eq_of_mem_replicate hc) h3
      simpa [spaces] using this

/-! ### Quotes -/

theorem quoted_append (o : Opt) (ind : Nat) (a b : List Node) : quoted o ind (a ++ b) = quoted o ind a ++ quoted o ind b := by
  induction a with
  | nil => rfl
  | cons n a ih => rw [List.cons_append, quoted, quoted, ih]; exact (List.append_assoc _ _ _).symm

theorem shows_quoteMark {o : Opt} (ho : Quiet o) (ind : Nat) : Shows (quoteMark o ind) (List.replicate (2 * ind) c!" " ++ o.theme.quoteMarker.getD b!">" ++ b!" ") := by
  have hm : (27 : Byte) ∉ o.theme.quoteMarker.getD b!">" := by
    cases h : o.theme.quoteMarker with
    | none => decide
    | some m => exact ho.marker m h
  unfold quoteMark
  have := ((((shows_calm (calm_spaces ind)).append (shows_style o.wide (s := b!"yellow") (by decide) (by decide))).append (shows_calm hm)).append (shows_calm (s := b!" ") (by decide))).append shows_reset
  simpa [spaces] using this

theorem shows_quoteText {o : Opt} (ho : Quiet o) : Shows (style o.wide (o.theme.quoteColour.getD (if o.wide then b!"i 38;5;250" else b!"i white"))) [] := by
  apply shows_getD ho.quoteColour
  cases o.wide with
  | true => exact (shows_grey true).2
  | false => exact shows_style false (by decide) (by decide)

theorem shows_line {o : Opt} (ho : Quiet o) (ind : Nat) (l : List Node) (hb : ∀ n ∈ l, NoBreak n) (hc : Alls Calm l) (hp : Alls (Plain o.emoji) l) : Shows (quoted o ind l) (readAll o.emoji l) := by
  induction l with
  | nil => exact shows_calm (by simp [quoted])
  | cons n l ih =>
    have h1 := ih (fun k hk => hb k (List.mem_cons_of_mem _ hk)) hc.2 hp.2
    have h2 := shows_inline ho n hc.1
    rw [seen_reads n hp.1] at h2
    have h3 := (((shows_quoteText ho).append h2).append shows_reset).append h1
    have he : quoted o ind (n :: l) = style o.wide (o.theme.quoteColour.getD (if o.wide then b!"i 38;5;250" else b!"i white")) ++ inline o n ++ reset ++ quoted o ind l := by
      rw [quoted]
      have := hb n List.mem_cons_self
      unfold NoBreak at this
      split
      · rename_i hk
        exact absurd hk this
      · rfl
    rw [he, readAll]
    simpa using h3

/-- The lines of a paragraph, each behind the mark. -/
def marked (emoji : Bytes → Bytes) (mark : Bytes) (ls : List (List Node)) : Bytes := ls.flatMap fun l => mark ++ readAll emoji l ++ b!"\n"

theorem shows_para {o : Opt} (ho : Quiet o) (ind : Nat) (ls : List (List Node)) (h0 : ls ≠ []) (hb : ∀ l ∈ ls, ∀ n ∈ l, NoBreak n) (hc : ∀ l ∈ ls, Alls Calm l)
    (hp : ∀ l ∈ ls, Alls (Plain o.emoji) l) :
    Shows (quoteMark o ind ++ quoted o ind (joined ls) ++ b!"\n") (marked o.emoji (List.replicate (2 * ind) c!" " ++ o.theme.quoteMarker.getD b!">" ++ b!" ") ls) := by
  induction ls with
  | nil => exact absurd rfl h0
  | cons l ls ih =>
    have hl := shows_line ho ind l (hb l List.mem_cons_self) (hc l List.mem_cons_self) (hp l List.mem_cons_self)
    have hm := shows_quoteMark ho ind
    cases ls with
    | nil =>
      have := (hm.append hl).append (shows_calm (s := b!"\n") (by decide))
      simpa [joined, marked] using this
    | cons l' ls =>
      have h1 := ih (by simp) (fun x hx => hb x (List.mem_cons_of_mem _ hx)) (fun x hx => hc x (List.mem_cons_of_mem _ hx)) (fun x hx => hp x (List.mem_cons_of_mem _ hx))
      have := ((hm.append hl).append (shows_calm (s := b!"\n") (by decide))).append h1
      rw [show joined (l :: l' :: ls) = l ++ .mk .soft none [] :: joined (l' :: ls) from rfl, quoted_append, quoted]
      rw [marked, List.flatMap_cons, ← marked]
      simpa [Node.kind] using this

/-- A quote of paragraphs. -/
def paras (ps : List (List (List Node))) : List Node := ps.map fun ls => .mk .para none (joined ls)

theorem shows_quotes {o : Opt} (ho : Quiet o) (ind : Nat) (ps : List (List (List Node))) (h0 : ps ≠ []) (hn : ∀ ls ∈ ps, ls ≠ []) (hb : ∀ ls ∈ ps, ∀ l ∈ ls, ∀ n ∈ l, NoBreak n)
    (hc : ∀ ls ∈ ps, ∀ l ∈ ls, Alls Calm l) (hp : ∀ ls ∈ ps, ∀ l ∈ ls, Alls (Plain o.emoji) l) (out : Bytes) :
    ∃ x, quotes o ind out (paras ps) = .val (out ++ x) ∧
      Shows x (ps.flatMap (marked o.emoji (List.replicate (2 * ind) c!" " ++ o.theme.quoteMarker.getD b!">" ++ b!" ")) ++ b!"\n") := by
  induction ps generalizing out with
  | nil => exact absurd rfl h0
  | cons ls ps ih =>
    have h1 := shows_para ho ind ls (hn ls List.mem_cons_self) (hb ls List.mem_cons_self) (hc ls List.mem_cons_self) (hp ls List.mem_cons_self)
    cases ps with
    | nil =>
      refine ⟨quoteMark o ind ++ quoted o ind (joined ls) ++ b!"\n" ++ b!"\n", ?_, ?_⟩
      · simp [paras, quotes]
      · have := h1.append (shows_calm (s := b!"\n") (by decide))
        simpa using this
    | cons ls' ps =>
      obtain ⟨x, h2, h3⟩ := ih (by simp) (fun x hx => hn x (List.mem_cons_of_mem _ hx)) (fun x hx => hb x (List.mem_cons_of_mem _ hx)) (fun x hx => hc x (List.mem_cons_of_mem _ hx))
        (fun x hx => hp x (List.mem_cons_of_mem _ hx)) (out ++ quoteMark o ind ++ quoted o ind (joined ls) ++ b!"\n")
      refine ⟨quoteMark o ind ++ quoted o ind (joined ls) ++ b!"\n" ++ x, ?_, ?_⟩
      · rw [show paras (ls :: ls' :: ps) = .mk .para none (joined ls) :: paras (ls' :: ps) from rfl, quotes]
        simp only [C.val_bind]
        rw [show paras (ls' :: ps) = .mk .para none (joined ls') :: paras ps from rfl] at h2 ⊢
        rw [h2]
        · simp
        · intro h
          simp [paras] at h
      · have := h1.append h3
        rw [List.flatMap_cons]
        simpa using this

end Verif.Term.Blocks
