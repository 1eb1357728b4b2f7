import Verif.Model.SepRows
import Verif.Spec.SepRows
import Verif.Proof.Tags

namespace Verif.SepRows
open Spec
open Transforms (strstr)

/-- The loop without the buffer. -/
def go : Nat → Bool → Bytes → Bytes
  | _, _, [] => []
  | 0, _, _ => []
  | n + 1, inTable, c :: t =>
    if opensTable (c :: t) then c :: go n true t
    else if b!"</table>".isPrefixOf (c :: t) then c :: go n false t
    else if inTable && b!"<tr>".isPrefixOf (c :: t) then
      match removed (c :: t) with
      | some r => go n inTable r
      | none => b!"<tr>" ++ go n inTable ((c :: t).drop 4)
    else c :: go n inTable t

theorem removed_some {p r : Bytes} (h : removed p = some r) :
    ∃ body, p.drop 4 = body ++ b!"</tr>" ++ r ∧ ¬ b!"</tr>" <:+: body := by
  unfold removed at h
  simp only [] at h
  cases hs : strstr (p.drop 4) b!"</tr>" with
  | none => rw [hs] at h; cases h
  | some i =>
    rw [hs] at h
    simp only at h
    split at h
    · obtain ⟨⟩ := h
      obtain ⟨h1, h2⟩ := Transforms.strstr_some hs
      refine ⟨(p.drop 4).take i, h1, ?_⟩
      rintro ⟨u, v, hv⟩
      have h3 := h2 u (v ++ b!"</tr>" ++ (p.drop 4).drop (i + 5)) (by
        conv => lhs; rw [h1, ← hv]
        simp)
      have h4 := congrArg List.length hv
      simp only [List.length_append, List.length_cons, List.length_nil] at h3 h4
      omega
    · cases h

theorem removed_len {p r : Bytes} (h : removed p = some r) : r.length + 9 ≤ p.length := by
  obtain ⟨body, h1, _⟩ := removed_some h
  have := congrArg List.length h1
  simp at this
  omega

theorem loop_eq : ∀ n cap inTable (out p : Bytes), p.length ≤ n → out.length + p.length + 1 ≤ cap →
    loop n cap inTable out p = .val (out ++ go n inTable p)
  | n, cap, i, out, [], _, h => by
    have h1 : go n i [] = [] := by cases n <;> rfl
    have h2 : loop n cap i out [] = finish cap out := by cases n <;> rfl
    rw [h1, h2, finish_val (by simp at h; omega), List.append_nil]
  | 0, _, _, _, _ :: _, hn, _ => by simp at hn
  | n + 1, cap, i, out, c :: t, hn, h => by
    have hn' : t.length ≤ n := by simpa using hn
    have h' : (out ++ [c]).length + t.length + 1 ≤ cap := by simp at h ⊢; omega
    have hc : out.length < cap := by omega
    rw [loop, go]
    split
    · rw [put_val hc, C.val_bind, loop_eq n cap _ _ t hn' h']; simp
    split
    · rw [put_val hc, C.val_bind, loop_eq n cap _ _ t hn' h']; simp
    split
    · rename_i h3
      rw [Bool.and_eq_true, List.isPrefixOf_iff_prefix] at h3
      have h4 := h3.2.length_le
      simp only [List.length_cons, List.length_nil] at h4
      cases hr : removed (c :: t) with
      | none =>
        simp only
        rw [puts_val (by simp at h ⊢; omega), C.val_bind, loop_eq n cap _ _ _ (by simp at hn ⊢; omega) (by simp at h ⊢; omega),
          List.append_assoc]
      | some r =>
        have h5 := removed_len hr
        simp only
        simp only [List.length_cons] at h5 h hn
        exact loop_eq n cap _ _ r (by omega) (by omega)
    · rw [put_val hc, C.val_bind, loop_eq n cap _ _ t hn' h']; simp

theorem removeRows_eq (html : Bytes) : removeRows html = .val (go html.length false html) := by
  unfold removeRows
  rw [loop_eq _ _ _ _ _ (Nat.le_refl _) (by simp)]
  rfl

theorem less_append (a : Bytes) {s o : Bytes} (h : Less s o) : Less (a ++ s) (a ++ o) := by
  induction a with
  | nil => exact h
  | cons c a ih => exact .keep ih

theorem row_split {c : Byte} {t : Bytes} (h : b!"<tr>".isPrefixOf (c :: t) = true) : c :: t = b!"<tr>" ++ (c :: t).drop 4 := by
  rw [List.isPrefixOf_iff_prefix] at h
  obtain ⟨z, hz⟩ := h
  rw [← hz]
  rfl

theorem go_less : ∀ n inTable (p : Bytes), p.length ≤ n → Less p (go n inTable p)
  | 0, _, [], _ => .nil
  | _ + 1, _, [], _ => .nil
  | 0, _, _ :: _, h => by simp at h
  | n + 1, i, c :: t, h => by
    have hn' : t.length ≤ n := by simpa using h
    rw [go]
    split
    · exact .keep (go_less n _ t hn')
    split
    · exact .keep (go_less n _ t hn')
    split
    · rename_i h3
      rw [Bool.and_eq_true] at h3
      have h4 := row_split h3.2
      cases hr : removed (c :: t) with
      | none =>
        simp only
        conv => lhs; rw [h4]
        exact less_append _ (go_less n _ _ (by simp at h ⊢; omega))
      | some r =>
        simp only
        obtain ⟨body, h5, h6⟩ := removed_some hr
        rw [h4, h5]
        have := removed_len hr
        simp only [List.length_cons] at this
        have h7 := Less.row h6 (go_less n i r (by omega))
        simpa using h7
    · exact .keep (go_less n _ t hn')

/-! ### Cells -/

theorem flatten_cons {l : List Bytes} {c : Byte} {t : Bytes} (h : c :: t = l.flatten) (hl : ∀ x ∈ l, x ≠ []) :
    ∃ x l', l = (c :: x) :: l' ∧ t = x ++ l'.flatten := by
  cases l with
  | nil => simp at h
  | cons y l =>
    cases y with
    | nil => exact absurd rfl (hl [] (by simp))
    | cons d y =>
      simp at h
      exact ⟨y, l, by rw [h.1], h.2⟩

def Tok (x : Bytes) : Prop := x ∈ filling ∨ x ∈ strokes

theorem tok_ne {x : Bytes} (h : Tok x) : x ≠ [] := by
  rintro rfl
  exact absurd h (by unfold Tok; decide)

def tags : List Bytes := [b!"<td", b!"<th", b!"</td>", b!"</th>"]

theorem dashes_iff (z : Bytes) : ∀ n has (s : Bytes), s.length ≤ n → (∀ x ∈ tags, ¬ x <:+: s) →
    (dashes n has s (c!"<" :: z) = true ↔ ∃ l : List Bytes, s = l.flatten ∧ (∀ x ∈ l, Tok x) ∧ (has = true ∨ ∃ x ∈ l, x ∈ strokes))
  | n, has, [], _, _ => by
    have : dashes n has [] (c!"<" :: z) = has := by cases n <;> rfl
    rw [this]
    constructor
    · exact fun h => ⟨[], rfl, by simp, Or.inl h⟩
    · rintro ⟨l, h1, h2, h3 | ⟨x, hx, _⟩⟩
      · exact h3
      · cases l with
        | nil => cases hx
        | cons y l =>
          simp at h1
          exact absurd h1.1 (tok_ne (h2 y (by simp)))
  | 0, _, _ :: _, h, _ => by simp at h
  | n + 1, has, c :: t, h, ht => by
    have htn : t.length ≤ n := by simpa using h
    have hts : ∀ x ∈ tags, ¬ x <:+: t := fun x hx hi => ht x hx (hi.trans (List.suffix_cons c t).isInfix)
    rw [dashes]
    have key : ∀ (x : Bytes) (t' : Bytes) (has' : Bool), t = x ++ t' → Tok (c :: x) → ((c :: x) ∈ strokes → has' = true) →
        (has' = true → has = true ∨ (c :: x) ∈ strokes) → (has = true → has' = true) →
        (∀ y, Tok (c :: y) → t.take y.length = y → y = x) →
        ((∃ l : List Bytes, t' = l.flatten ∧ (∀ x ∈ l, Tok x) ∧ (has' = true ∨ ∃ x ∈ l, x ∈ strokes)) ↔
         (∃ l : List Bytes, c :: t = l.flatten ∧ (∀ x ∈ l, Tok x) ∧ (has = true ∨ ∃ x ∈ l, x ∈ strokes))) := by
      intro x t' has' e hx h1 h2 h3 h4
      constructor
      · rintro ⟨l, rfl, hl, hh⟩
        refine ⟨(c :: x) :: l, by rw [e]; simp, ?_, ?_⟩
        · intro y hy
          rcases List.mem_cons.1 hy with rfl | hy
          · exact hx
          · exact hl y hy
        · rcases hh with hh | ⟨y, hy, hys⟩
          · rcases h2 hh with h5 | h5
            · exact Or.inl h5
            · exact Or.inr ⟨_, List.mem_cons_self, h5⟩
          · exact Or.inr ⟨y, List.mem_cons_of_mem _ hy, hys⟩
      · rintro ⟨l, he, hl, hh⟩
        obtain ⟨y, l', rfl, h5⟩ := flatten_cons he (fun x hx => tok_ne (hl x hx))
        have h6 : y = x := h4 y (hl _ List.mem_cons_self) (by rw [h5, List.take_left])
        subst h6
        rw [e] at h5
        refine ⟨l', List.append_cancel_left h5, fun z hz => hl z (List.mem_cons_of_mem _ hz), ?_⟩
        rcases hh with hh | ⟨z, hz, hzs⟩
        · exact Or.inl (h3 hh)
        · rcases List.mem_cons.1 hz with rfl | hz
          · exact Or.inl (h1 hzs)
          · exact Or.inr ⟨z, hz, hzs⟩
    split
    · rename_i hc
      obtain ⟨rfl, hl, htk⟩ := hc
      have e : t = [0x80, 0x94] ++ t.drop 2 := by rw [← htk, List.take_append_drop]
      rw [dashes_iff z n true (t.drop 2) (by simp; omega) (fun x hx => Tags.not_prefix_suffix' (hts x hx) e)]
      refine key [0x80, 0x94] _ true e (by unfold Tok; decide) (fun _ => rfl) (fun _ => Or.inr (by decide)) (fun _ => rfl) ?_
      intro y hy _
      simpa [Tok, filling, strokes] using hy
    rename_i hc1
    split
    · rename_i hc
      rw [dashes_iff z n _ t htn hts]
      refine key [] t _ rfl ?_ ?_ ?_ ?_ ?_
      · rcases hc with rfl | rfl | rfl <;> (unfold Tok; decide)
      · intro hs
        rcases hc with rfl | rfl | rfl
        · simp
        · simp
        · exact absurd hs (by decide)
      · intro hs
        rcases hc with rfl | rfl | rfl
        · exact Or.inr (by decide)
        · exact Or.inr (by decide)
        · exact Or.inl (by simpa using hs)
      · intro hh; simp [hh]
      · intro y hy _
        rcases hc with rfl | rfl | rfl <;> simpa [Tok, filling, strokes] using hy
    rename_i hc2
    split
    · rename_i hc
      rw [dashes_iff z n _ t htn hts]
      refine key [] t _ rfl ?_ ?_ ?_ ?_ ?_
      · rcases hc with rfl | rfl | rfl | rfl <;> (unfold Tok; decide)
      · intro hs
        rcases hc with rfl | rfl | rfl | rfl <;> exact absurd hs (by decide)
      · exact Or.inl
      · exact id
      · intro y hy _
        rcases hc with rfl | rfl | rfl | rfl <;> simpa [Tok, filling, strokes] using hy
    rename_i hc3
    have hno : ¬ ∃ l : List Bytes, c :: t = l.flatten ∧ (∀ x ∈ l, Tok x) ∧ (has = true ∨ ∃ x ∈ l, x ∈ strokes) := by
      rintro ⟨l, he, hl, _⟩
      obtain ⟨y, l', rfl, h5⟩ := flatten_cons he (fun x hx => tok_ne (hl x hx))
      have h6 := hl _ List.mem_cons_self
      simp [Tok, filling, strokes] at h6
      rcases h6 with h6 | h6
      · rcases h6 with h6 | h6 | h6 | h6 | h6
        · exact hc3 (Or.inl h6.1)
        · exact hc3 (Or.inr (Or.inl h6.1))
        · exact hc3 (Or.inr (Or.inr (Or.inl h6.1)))
        · exact hc3 (Or.inr (Or.inr (Or.inr h6.1)))
        · exact hc2 (Or.inr (Or.inr h6.1))
      · rcases h6 with h6 | h6 | h6
        · exact hc2 (Or.inr (Or.inl h6.1))
        · exact hc2 (Or.inl h6.1)
        · obtain ⟨rfl, rfl⟩ := h6
          exact hc1 ⟨rfl, by rw [h5]; simp, by rw [h5]; rfl⟩
    rw [iff_false_intro hno, iff_false]
    split
    · rename_i hc
      subst hc
      have hx : ∀ pt, c!"<" ∉ pt → c!"<" :: pt ∈ tags → (c!"<" :: pt).isPrefixOf (c!"<" :: t ++ c!"<" :: z) = false := by
        intro pt hpt hm
        rw [Bool.eq_false_iff, Ne, List.isPrefixOf_iff_prefix]
        exact Tags.no_cross hpt (by simp) (fun hp => ht _ hm hp.isInfix)
      rw [hx b!"/td>" (by decide) (by decide), hx b!"/th>" (by decide) (by decide), hx b!"td" (by decide) (by decide),
        hx b!"th" (by decide) (by decide)]
      simp
    · simp

theorem onlyDashes_iff {s : Bytes} (z : Bytes) (h : ∀ x ∈ tags, ¬ x <:+: s) : onlyDashes s (c!"<" :: z) = true ↔ Dashy s := by
  unfold onlyDashes
  rw [dashes_iff z _ _ _ (Nat.le_refl _) h]
  simp [Dashy, Tok]

theorem cells_skip {c : Byte} {p : Bytes} (f n : Nat) (h : b!"<td".isPrefixOf (c :: p) = false) (h2 : b!"<th".isPrefixOf (c :: p) = false) :
    cells (f + 1) (n + 1) (c :: p) = cells f n p := by
  rw [cells]
  simp [h, h2]

theorem cells_gap (p : Bytes) : ∀ (g : Bytes) (f n : Nat), c!"<" ∉ g → cells (f + g.length) (n + g.length) (g ++ p) = cells f n p
  | [], f, n, _ => rfl
  | c :: g, f, n, h => by
    have hc : c ≠ c!"<" := fun e => h (by simp [e])
    have h1 : ∀ x : Byte, b!"<t" ++ [x] ≠ [] → (b!"<t" ++ [x]).isPrefixOf (c :: (g ++ p)) = false := by
      intro x _
      rw [Bool.eq_false_iff, Ne, List.isPrefixOf_iff_prefix]
      intro hp
      simp at hp
      exact hc hp.1.symm
    rw [List.cons_append, List.length_cons, ← Nat.add_assoc, ← Nat.add_assoc,
      cells_skip _ _ (h1 c!"d" (by simp)) (h1 c!"h" (by simp)), cells_gap p g f n (fun hm => h (by simp [hm]))]

theorem cells_cell (c : Cell) (hc : c.Ok) (z : Bytes) (f n : Nat) (hf : n + c.html.length ≤ f + 1) :
    (Dashy c.text → cells (f + 1) (n + c.html.length) (c.html ++ z) = cells f n z) ∧
    (¬ Dashy c.text → cells (f + 1) (n + c.html.length) (c.html ++ z) = false) := by
  obtain ⟨ha, ht⟩ := hc
  have htags : ∀ x ∈ tags, ¬ x <:+: c.text := by
    intro x hx
    apply ht
    simp [tags] at hx ⊢
    rcases hx with h | h | h | h <;> simp [h]
  obtain ⟨head, attrs, text⟩ := c
  simp only at *
  have core : ∀ (start pt : Bytes), (start = b!"<td" ∧ pt = b!"/td>" ∨ start = b!"<th" ∧ pt = b!"/th>") →
      ∀ m, m = n + (start ++ attrs ++ b!">" ++ text ++ c!"<" :: pt).length →
      (Dashy text → cells (f + 1) m (start ++ attrs ++ b!">" ++ text ++ c!"<" :: pt ++ z) = cells f n z) ∧
      (¬ Dashy text → cells (f + 1) m (start ++ attrs ++ b!">" ++ text ++ c!"<" :: pt ++ z) = false) := by
    intro start pt hs m hm
    have hst : c!">" ∉ start ++ attrs := by rcases hs with ⟨rfl, rfl⟩ | ⟨rfl, rfl⟩ <;> simp [ha]
    have hpl : pt.length = 4 := by rcases hs with ⟨rfl, rfl⟩ | ⟨rfl, rfl⟩ <;> rfl
    have e1 : start ++ attrs ++ b!">" ++ text ++ c!"<" :: pt ++ z = start ++ attrs ++ c!">" :: (text ++ (c!"<" :: pt ++ z)) := by simp
    have hm1 : c!">" ∈ start ++ attrs ++ c!">" :: (text ++ (c!"<" :: pt ++ z)) := by simp
    have hw : (start ++ attrs ++ c!">" :: (text ++ (c!"<" :: pt ++ z))).takeWhile (· ≠ c!">") = start ++ attrs := Tags.takeWhile_stop hst
    have hd : (start ++ attrs ++ c!">" :: (text ++ (c!"<" :: pt ++ z))).drop ((start ++ attrs).length + 1) = text ++ (c!"<" :: pt ++ z) := by
      have h1 : start ++ attrs ++ c!">" :: (text ++ (c!"<" :: pt ++ z)) = (start ++ attrs ++ [c!">"]) ++ (text ++ (c!"<" :: pt ++ z)) := by simp
      have h2 : (start ++ attrs).length + 1 = (start ++ attrs ++ [c!">"]).length := by simp; omega
      rw [h1, h2, List.drop_left]
    have hd2 : (start ++ attrs ++ c!">" :: (text ++ (c!"<" :: pt ++ z))).drop ((start ++ attrs).length + 1 + text.length + 5) = z := by
      rw [← e1]
      have h2 : (start ++ attrs).length + 1 + text.length + 5 = (start ++ attrs ++ b!">" ++ text ++ c!"<" :: pt).length := by simp; omega
      rw [h2, List.drop_left]
    have hss : strstr (text ++ (c!"<" :: pt ++ z)) (c!"<" :: pt) = some text.length := by
      apply Tags.strstr_first
      · rcases hs with ⟨rfl, rfl⟩ | ⟨rfl, rfl⟩ <;> decide
      · apply ht
        rcases hs with ⟨rfl, rfl⟩ | ⟨rfl, rfl⟩ <;> simp
    have hcl : (if b!"<td".isPrefixOf (start ++ attrs ++ c!">" :: (text ++ (c!"<" :: pt ++ z))) then b!"</td>" else b!"</th>") = c!"<" :: pt := by
      rcases hs with ⟨rfl, rfl⟩ | ⟨rfl, rfl⟩ <;> simp
    have hop : (b!"<td".isPrefixOf (start ++ attrs ++ c!">" :: (text ++ (c!"<" :: pt ++ z))) ||
        b!"<th".isPrefixOf (start ++ attrs ++ c!">" :: (text ++ (c!"<" :: pt ++ z)))) = true := by
      rcases hs with ⟨rfl, rfl⟩ | ⟨rfl, rfl⟩ <;> simp
    obtain ⟨m', rfl⟩ : ∃ m', m = m' + 1 := ⟨m - 1, by simp at hm; omega⟩
    have hle : (start ++ attrs).length + 1 + text.length + 5 ≤ m' + 1 := by simp at hm ⊢; omega
    have hsub : m' + 1 - ((start ++ attrs).length + 1 + text.length + 5) = n := by simp at hm ⊢; omega
    have htk : (text ++ (c!"<" :: pt ++ z)).take text.length = text := List.take_left
    have hdr : (text ++ (c!"<" :: pt ++ z)).drop text.length = c!"<" :: (pt ++ z) := List.drop_left
    rw [e1, cells]
    simp only [hop, if_true, if_pos hm1, hw, hd, hcl, hss, if_pos hle, htk, hdr, hsub, hd2]
    have := onlyDashes_iff (pt ++ z) htags
    constructor
    · intro h
      rw [this.2 h, if_pos rfl]
    · intro h
      rw [Bool.eq_false_iff.2 (fun e => h (this.1 e))]
      rfl
  cases head with
  | false => exact core b!"<td" b!"/td>" (Or.inl ⟨rfl, rfl⟩) _ rfl
  | true => exact core b!"<th" b!"/th>" (Or.inr ⟨rfl, rfl⟩) _ rfl

def rowBody (l : List (Bytes × Cell)) (last : Bytes) : Bytes := l.flatMap (fun x => x.1 ++ x.2.html) ++ last

theorem cells_zero (f : Nat) (p : Bytes) : cells f 0 p = true := by cases f <;> rfl

theorem cells_end (f : Nat) (z : Bytes) : cells (f + 5) 5 (b!"</tr>" ++ z) = true := by
  show cells (f + 4 + 1) (4 + 1) _ = true
  rw [show b!"</tr>" ++ z = c!"<" :: (b!"/tr>" ++ z) from rfl, cells_skip _ _ rfl rfl]
  have h2 := cells_gap z b!"/tr>" f 0 (by decide)
  exact h2.trans (cells_zero f z)

theorem cells_row (z last : Bytes) (hlast : c!"<" ∉ last) : ∀ (l : List (Bytes × Cell)), (∀ x ∈ l, c!"<" ∉ x.1 ∧ x.2.Ok) → ∀ f,
    (rowBody l last).length + 5 ≤ f →
    (cells f ((rowBody l last).length + 5) (rowBody l last ++ (b!"</tr>" ++ z)) = true ↔ ∀ x ∈ l, Dashy x.2.text)
  | [], _, f, hf => by
    have e : rowBody [] last = last := rfl
    rw [e] at hf ⊢
    obtain ⟨k, rfl⟩ : ∃ k, f = k + 5 + last.length := ⟨f - 5 - last.length, by omega⟩
    rw [Nat.add_comm last.length 5, cells_gap _ _ _ _ hlast, cells_end]
    simp
  | (g, c) :: l, hl, f, hf => by
    obtain ⟨hg, hc⟩ := hl (g, c) List.mem_cons_self
    have hl' : ∀ x ∈ l, c!"<" ∉ x.1 ∧ x.2.Ok := fun x hx => hl x (List.mem_cons_of_mem _ hx)
    have e : rowBody ((g, c) :: l) last ++ (b!"</tr>" ++ z) = g ++ (c.html ++ (rowBody l last ++ (b!"</tr>" ++ z))) := by simp [rowBody]
    have el : (rowBody ((g, c) :: l) last).length + 5 = (rowBody l last).length + 5 + c.html.length + g.length := by
      simp [rowBody]; omega
    have hpos : 0 < c.html.length := by unfold Cell.html; split <;> simp
    rw [el] at hf
    obtain ⟨k, rfl⟩ : ∃ k, f = k + 1 + g.length := ⟨f - 1 - g.length, by omega⟩
    rw [e, el, cells_gap _ _ _ _ hg]
    obtain ⟨h1, h2⟩ := cells_cell c hc (rowBody l last ++ (b!"</tr>" ++ z)) k ((rowBody l last).length + 5) (by omega)
    by_cases hd : Dashy c.text
    · rw [h1 hd, cells_row z last hlast l hl' k (by omega)]
      simp [hd]
    · rw [h2 hd]
      simp [hd]

/-! ### Rows, tables and pages -/

theorem go_fuel : ∀ n k i (p : Bytes), p.length ≤ n → p.length ≤ k → go n i p = go k i p
  | 0, 0, _, [], _, _ => rfl
  | 0, _ + 1, _, [], _, _ => rfl
  | _ + 1, 0, _, [], _, _ => rfl
  | _ + 1, _ + 1, _, [], _, _ => rfl
  | 0, _, _, _ :: _, h, _ => by simp at h
  | _, 0, _, _ :: _, _, h => by simp at h
  | n + 1, k + 1, i, c :: t, hn, hk => by
    have hn' : t.length ≤ n := by simpa using hn
    have hk' : t.length ≤ k := by simpa using hk
    rw [go, go, go_fuel n k true t hn' hk', go_fuel n k false t hn' hk', go_fuel n k i t hn' hk',
      go_fuel n k i ((c :: t).drop 4) (by simp; omega) (by simp; omega)]
    cases hr : removed (c :: t) with
    | none => rfl
    | some r =>
      have := removed_len hr
      simp only [List.length_cons] at this
      simp only
      rw [go_fuel n k i r (by omega) (by omega)]

def run (i : Bool) (p : Bytes) : Bytes := go p.length i p

theorem run_cons (i : Bool) (c : Byte) (t : Bytes) : run i (c :: t) =
    if opensTable (c :: t) then c :: run true t
    else if b!"</table>".isPrefixOf (c :: t) then c :: run false t
    else if i && b!"<tr>".isPrefixOf (c :: t) then
      match removed (c :: t) with
      | some r => run i r
      | none => b!"<tr>" ++ run i ((c :: t).drop 4)
    else c :: run i t := by
  unfold run
  rw [List.length_cons, go, go_fuel t.length ((c :: t).drop 4).length i ((c :: t).drop 4) (by simp) (Nat.le_refl _)]
  cases hr : removed (c :: t) with
  | none => rfl
  | some r =>
    have := removed_len hr
    simp only [List.length_cons] at this
    simp only
    rw [go_fuel t.length r.length i r (by omega) (Nat.le_refl _)]

/-- Text in a table. -/
theorem run_in (z : Bytes) : ∀ s : Bytes, (∀ u v, s = u ++ v → v ≠ [] → ¬ b!"<tr>" <+: v ++ z ∧ ¬ b!"</table>" <+: v ++ z) →
    run true (s ++ z) = s ++ run true z
  | [], _ => rfl
  | c :: s, h => by
    obtain ⟨h1, h2⟩ := h [] (c :: s) rfl (by simp)
    rw [← List.isPrefixOf_iff_prefix, Bool.not_eq_true] at h1 h2
    rw [List.cons_append] at *
    rw [run_cons, h1, h2, run_in z s (fun u v e hv => h (c :: u) v (by rw [e]; rfl) hv)]
    simp

/-- Text outside. -/
theorem run_out (z : Bytes) : ∀ s : Bytes, (∀ u v, s = u ++ v → v ≠ [] → ¬ b!"<table>" <+: v ++ z ∧ ¬ b!"<table " <+: v ++ z) →
    run false (s ++ z) = s ++ run false z
  | [], _ => rfl
  | c :: s, h => by
    obtain ⟨h1, h2⟩ := h [] (c :: s) rfl (by simp)
    have h3 : opensTable (c :: s ++ z) = false := by
      rw [← List.isPrefixOf_iff_prefix, Bool.not_eq_true] at h1 h2
      unfold opensTable
      rw [h1, h2]
      rfl
    rw [List.cons_append] at *
    rw [run_cons, h3, run_out z s (fun u v e hv => h (c :: u) v (by rw [e]; rfl) hv)]
    simp

theorem no_tag {pt s z : Bytes} (hpt : c!"<" ∉ pt) (hs : ¬ (c!"<" :: pt) <:+: s) (hz : z = [] ∨ ∃ w, z = c!"<" :: w) {u v : Bytes}
    (e : s = u ++ v) (hv : v ≠ []) : ¬ (c!"<" :: pt) <+: v ++ z := by
  have h1 := Tags.not_prefix_suffix hs e
  rcases hz with rfl | ⟨w, rfl⟩
  · rwa [List.append_nil]
  · exact Tags.no_cross hpt hv h1

theorem no_lt {pt s z : Bytes} (hs : c!"<" ∉ s) {u v : Bytes} (e : s = u ++ v) (hv : v ≠ []) : ¬ (c!"<" :: pt) <+: v ++ z := by
  intro hp
  cases v with
  | nil => exact hv rfl
  | cons c v =>
    rw [List.cons_append, List.cons_prefix_cons] at hp
    exact hs (by rw [e, hp.1]; simp)

theorem run_plainIn {s z : Bytes} (h : plainIn s) (hz : z = [] ∨ ∃ w, z = c!"<" :: w) : run true (s ++ z) = s ++ run true z :=
  run_in z s (fun _ _ e hv => ⟨no_tag (by decide) (h _ (by simp)) hz e hv, no_tag (by decide) (h _ (by simp)) hz e hv⟩)

theorem run_plainOut {s z : Bytes} (h : plainOut s) (hz : z = [] ∨ ∃ w, z = c!"<" :: w) : run false (s ++ z) = s ++ run false z :=
  run_out z s (fun _ _ e hv => ⟨no_tag (by decide) (h _ (by simp)) hz e hv, no_tag (by decide) (h _ (by simp)) hz e hv⟩)

theorem run_in_lt {s : Bytes} (z : Bytes) (h : c!"<" ∉ s) : run true (s ++ z) = s ++ run true z :=
  run_in z s (fun _ _ e hv => ⟨no_lt h e hv, no_lt h e hv⟩)

theorem run_out_lt {s : Bytes} (z : Bytes) (h : c!"<" ∉ s) : run false (s ++ z) = s ++ run false z :=
  run_out z s (fun _ _ e hv => ⟨no_lt h e hv, no_lt h e hv⟩)

theorem run_start (t : Table) (i : Bool) (z : Bytes) : run i (t.start ++ z) = t.start ++ run true z := by
  unfold Table.start
  split
  · have h1 : b!"<table " ++ z = c!"<" :: (b!"table " ++ z) := rfl
    rw [h1, run_cons, if_pos (by simp [opensTable]), run_in_lt z (by decide)]
    rfl
  · have h1 : b!"<table>" ++ z = c!"<" :: (b!"table>" ++ z) := rfl
    rw [h1, run_cons, if_pos (by simp [opensTable]), run_in_lt z (by decide)]
    rfl

theorem run_stop (i : Bool) (z : Bytes) : run i (b!"</table>" ++ z) = b!"</table>" ++ run false z := by
  have h1 : b!"</table>" ++ z = c!"<" :: (b!"/table>" ++ z) := rfl
  have h2 : opensTable (c!"<" :: (b!"/table>" ++ z)) = false := rfl
  rw [h1, run_cons, h2, if_neg (by simp), if_pos (by simp), run_out_lt z (by decide)]
  rfl

theorem run_row (r : Row) (hr : r.Ok) (z : Bytes) :
    (r.Holds → run true (r.html ++ z) = r.html ++ run true z) ∧ (¬ r.Holds → run true (r.html ++ z) = run true z) := by
  obtain ⟨h1, h2, h3⟩ := hr
  have e0 : r.html ++ z = c!"<" :: (b!"tr>" ++ (r.body ++ (b!"</tr>" ++ z))) := by simp [Row.html]
  have e1 : ∀ w, (c!"<" :: (b!"tr>" ++ w)).drop 4 = w := fun w => rfl
  have ho : ∀ w, opensTable (c!"<" :: (b!"tr>" ++ w)) = false := fun w => rfl
  have hc : ∀ w, b!"</table>".isPrefixOf (c!"<" :: (b!"tr>" ++ w)) = false := fun w => rfl
  have ht : ∀ w, b!"<tr>".isPrefixOf (c!"<" :: (b!"tr>" ++ w)) = true := fun w => by simp
  have hs : strstr (r.body ++ (b!"</tr>" ++ z)) b!"</tr>" = some r.body.length :=
    Tags.strstr_first z (by decide) (h3 _ (by simp))
  have hd : (r.body ++ (b!"</tr>" ++ z)).drop (r.body.length + 5) = z := by
    rw [← List.append_assoc]
    have : r.body.length + 5 = (r.body ++ b!"</tr>").length := by simp
    rw [this, List.drop_left]
  have hcells := cells_row z r.last h2 r.cells h1 (r.body.length + 5) (Nat.le_refl _)
  rw [show rowBody r.cells r.last = r.body from rfl] at hcells
  have hrem : removed (c!"<" :: (b!"tr>" ++ (r.body ++ (b!"</tr>" ++ z)))) =
      if cells (r.body.length + 5) (r.body.length + 5) (r.body ++ (b!"</tr>" ++ z)) then some z else none := by
    unfold removed
    simp only [e1, hs, hd]
  have hH : r.Holds ↔ ¬ ∀ x ∈ r.cells, Dashy x.2.text := by
    unfold Row.Holds
    constructor
    · rintro ⟨x, hx, hn⟩ hall
      exact hn (hall x hx)
    · intro hn
      exact Classical.byContradiction fun he => hn fun x hx => Classical.byContradiction fun hd => he ⟨x, hx, hd⟩
  rw [e0, run_cons, ho, hc, ht, hrem]
  simp only [Bool.false_eq_true, if_false, Bool.and_true, if_true]
  constructor
  · intro h
    rw [hH, ← hcells] at h
    rw [if_neg h]
    simp only [e1]
    rw [run_in (b!"</tr>" ++ z) r.body (fun u v e hv =>
      ⟨no_tag (by decide) (h3 _ (by simp)) (Or.inr ⟨b!"/tr>" ++ z, rfl⟩) e hv,
       no_tag (by decide) (h3 _ (by simp)) (Or.inr ⟨b!"/tr>" ++ z, rfl⟩) e hv⟩)]
    have e2 : b!"</tr>" ++ z = c!"<" :: (b!"/tr>" ++ z) := rfl
    have h4 : run true (b!"</tr>" ++ z) = b!"</tr>" ++ run true z := by
      rw [e2, run_cons]
      have a1 : opensTable (c!"<" :: (b!"/tr>" ++ z)) = false := rfl
      have a2 : b!"</table>".isPrefixOf (c!"<" :: (b!"/tr>" ++ z)) = false := rfl
      have a3 : b!"<tr>".isPrefixOf (c!"<" :: (b!"/tr>" ++ z)) = false := rfl
      rw [a1, a2, a3, run_in_lt z (by decide)]
      simp
    rw [h4]
    simp [Row.html]
  · intro h
    rw [hH, ← hcells, Classical.not_not] at h
    rw [if_pos h]

theorem row_lt (r : Row) (z : Bytes) : ∃ w, r.html ++ z = c!"<" :: w := ⟨b!"tr>" ++ r.body ++ b!"</tr>" ++ z, by simp [Row.html]⟩

theorem run_rows (z : Bytes) : ∀ l : List (Bytes × Row), (∀ x ∈ l, plainIn x.1 ∧ x.2.Ok) →
    ∃ o, Kept l o ∧ run true (l.flatMap (fun x => x.1 ++ x.2.html) ++ z) = o ++ run true z
  | [], _ => ⟨[], .nil, rfl⟩
  | (a, r) :: l, h => by
    obtain ⟨h1, h2⟩ := h (a, r) List.mem_cons_self
    obtain ⟨o, h3, h4⟩ := run_rows z l (fun x hx => h x (List.mem_cons_of_mem _ hx))
    have e : ((a, r) :: l).flatMap (fun x => x.1 ++ x.2.html) ++ z =
        a ++ (r.html ++ (l.flatMap (fun x => x.1 ++ x.2.html) ++ z)) := by simp
    obtain ⟨h5, h6⟩ := run_row r h2 (l.flatMap (fun x => x.1 ++ x.2.html) ++ z)
    rw [e, run_plainIn h1 (Or.inr (row_lt r _))]
    by_cases hh : r.Holds
    · exact ⟨_, .keep hh h3, by rw [h5 hh, h4]; simp⟩
    · exact ⟨_, .drop hh h3, by rw [h6 hh, h4]; simp⟩

theorem run_page : ∀ (l : List (Bytes × Table)) (tail : Bytes), (∀ x ∈ l, plainOut x.1 ∧ x.2.Ok) → plainOut tail →
    Clean l tail (run false (page l tail))
  | [], tail, _, ht => by
    have := run_plainOut (z := []) ht (Or.inl rfl)
    rw [List.append_nil] at this
    have e : page [] tail = tail := rfl
    rw [e, this]
    have e2 : run false [] = [] := rfl
    rw [e2, List.append_nil]
    exact .nil
  | (a, t) :: l, tail, h, ht => by
    obtain ⟨h1, h2, h3⟩ := h (a, t) List.mem_cons_self
    have ih := run_page l tail (fun x hx => h x (List.mem_cons_of_mem _ hx)) ht
    have e : page ((a, t) :: l) tail = a ++ (t.start ++ (t.rows.flatMap (fun x => x.1 ++ x.2.html) ++ (t.last ++ (b!"</table>" ++ page l tail)))) := by
      simp [page, Table.html]
    obtain ⟨o, h4, h5⟩ := run_rows (t.last ++ (b!"</table>" ++ page l tail)) t.rows h2
    have hst : ∀ z, ∃ w, t.start ++ z = c!"<" :: w := by
      intro z
      unfold Table.start
      split
      · exact ⟨b!"table " ++ z, rfl⟩
      · exact ⟨b!"table>" ++ z, rfl⟩
    rw [e, run_plainOut h1 (Or.inr (hst _)), run_start, h5, run_plainIn (s := t.last) (z := b!"</table>" ++ page l tail) h3
      (Or.inr ⟨b!"/table>" ++ page l tail, rfl⟩), run_stop]
    have := Clean.cons (a := a) h4 ih
    simpa using this

end Verif.SepRows
