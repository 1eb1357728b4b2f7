import Verif.Model.Embed
import Verif.Spec.Embed
import Verif.Proof.InlineTables
import Verif.Props.Base64

namespace Verif.Embed
open InlineNotes (infix_of takeWhile_stop)
open InlineTables (cross)

/-! ### Searching -/

theorem find_some {w s a b : Bytes} (h : find w s = some (a, b)) : s = a ++ w ++ b := by
  induction s generalizing a with
  | nil => simp [find] at h
  | cons c t ih =>
    rw [find] at h
    split at h
    · rename_i hp
      simp at h
      obtain ⟨rfl, rfl⟩ := h
      obtain ⟨u, hu⟩ := hp
      rw [← hu]
      simp
    · obtain ⟨⟨x, y⟩, h1, h2⟩ := Option.map_eq_some_iff.1 h
      simp at h2
      obtain ⟨rfl, rfl⟩ := h2
      rw [ih h1]; simp

theorem find_none {w s : Bytes} (hw : w ≠ []) : find w s = none ↔ ¬ w <:+: s := by
  induction s with
  | nil => simp [find, hw]
  | cons c t ih =>
    rw [find]
    split
    · rename_i hp
      simp
      exact hp.isInfix
    · rename_i hp
      simp only [Option.map_eq_none_iff, ih, List.infix_cons_iff, not_or]
      exact ⟨fun h => ⟨hp, h⟩, fun h => h.2⟩

/-- The first occurrence of a word whose first byte does not come again in it. -/
theorem find_eq {d : Byte} {w : Bytes} (hd : d ∉ w) (a b : Bytes) : find (d :: w) (a ++ d :: w ++ b) = some (a, b) ↔ ¬ d :: w <:+: a := by
  constructor
  · intro h hi
    have key : ∀ s a' b', find (d :: w) s = some (a', b') → ¬ d :: w <:+: a' := by
      intro s
      induction s with
      | nil => intro a' b' h; simp [find] at h
      | cons c t ih =>
        intro a' b' h
        rw [find] at h
        split at h
        · simp at h
          obtain ⟨rfl, rfl⟩ := h
          simp
        · rename_i hp
          obtain ⟨⟨x, y⟩, h1, h2⟩ := Option.map_eq_some_iff.1 h
          simp at h2
          obtain ⟨rfl, rfl⟩ := h2
          rw [List.infix_cons_iff, not_or]
          refine ⟨fun hx => hp ?_, ih x y h1⟩
          rw [find_some h1, List.append_assoc, ← List.cons_append]
          exact hx.trans (List.prefix_append _ _)
    exact key _ _ _ h hi
  · intro h
    induction a with
    | nil => rw [List.nil_append, List.cons_append, find, if_pos ⟨b, by simp⟩]; simp
    | cons c a ih =>
      rw [List.infix_cons_iff, not_or] at h
      have : (c :: a) ++ d :: w ++ b = c :: (a ++ d :: w ++ b) := by simp
      rw [this, find, if_neg, ih h.2]
      · rfl
      · intro hp
        refine h.1 (cross (s := c :: a) (d := d) (r := w ++ b) ?_ (by simp) (by simpa using hd))
        simpa using hp

theorem source_iff (body before url after : Bytes) : source body = some (before, url, after) ↔ Source body before url after := by
  constructor
  · intro h
    unfold source at h
    split at h
    · cases h
    · rename_i x b rest q hx
      split at h
      · rename_i hq
        simp at h
        obtain ⟨rfl, rfl, rfl⟩ := h
        have hr : rest = rest.takeWhile (· != q) ++ q :: (rest.dropWhile (· != q)).tail := by
          have : (rest.dropWhile (· != q)) ≠ [] := by
            intro e
            have h2 := List.takeWhile_append_dropWhile (p := (· != q)) (l := rest)
            rw [e, List.append_nil] at h2
            have := Highlight.takeWhile_all (p := (· != q)) rest q (by rw [h2]; exact hq)
            simp at this
          obtain ⟨y, z, hy⟩ := List.exists_cons_of_ne_nil this
          have hyq : y = q := by
            have := List.head?_dropWhile_not (· != q) rest
            rw [hy] at this
            simpa using this
          have h2 := List.takeWhile_append_dropWhile (p := (· != q)) (l := rest)
          rw [hy, hyq] at h2
          rw [hy]
          exact h2.symm
        have hu : q ∉ rest.takeWhile (· != q) := by
          intro hm
          have := Highlight.takeWhile_all (p := (· != q)) rest q hm
          simp at this
        split at hx
        · rename_i r hr1
          simp at hx
          obtain ⟨rfl, rfl⟩ := hx
          have e1 := find_some hr1
          have e2 : ¬ b!"src=\"" <:+: b := by
            rw [e1] at hr1
            exact (find_eq (d := c!"s") (w := b!"rc=\"") (by decide) _ _).1 hr1
          have := Source.double (after := (rest.dropWhile (· != c!"\"")).tail) e2 hu
          rwa [show b ++ b!"src=\"" ++ rest.takeWhile (· != c!"\"") ++ b!"\"" ++ (rest.dropWhile (· != c!"\"")).tail = body by
            rw [e1]
            conv => rhs; rw [hr]
            simp] at this
        · rename_i hr1
          obtain ⟨r, hr2, hr3⟩ := Option.map_eq_some_iff.1 hx
          simp at hr3
          obtain ⟨rfl, rfl⟩ := hr3
          have e1 := find_some hr2
          have e2 : ¬ b!"src='" <:+: b := by
            rw [e1] at hr2
            exact (find_eq (d := c!"s") (w := b!"rc='") (by decide) _ _).1 hr2
          have e3 := (find_none (by decide)).1 hr1
          have e4 : body = b ++ b!"src='" ++ rest.takeWhile (· != c!"'") ++ b!"'" ++ (rest.dropWhile (· != c!"'")).tail := by
            rw [e1]
            conv => lhs; rw [hr]
            simp
          have := Source.single (after := (rest.dropWhile (· != c!"'")).tail) (e4 ▸ e3) e2 hu
          rwa [← e4] at this
      · cases h
  · have key : ∀ (q : Byte) (url after : Bytes), q ∉ url → (if q ∈ url ++ q :: after then some (before, (url ++ q :: after).takeWhile (· != q),
        ((url ++ q :: after).dropWhile (· != q)).tail) else none) = some (before, url, after) := by
      intro q url after hq
      have ha : ∀ x ∈ url, (x != q) = true := by intro x hx; simp; rintro rfl; exact hq hx
      rw [if_pos (by simp), takeWhile_stop ha (by simp), InlineTables.dropWhile_all _ ha]
      simp
    intro h
    cases h with
    | double h1 h2 =>
      unfold source
      rw [show before ++ b!"src=\"" ++ url ++ b!"\"" ++ after = before ++ b!"src=\"" ++ (url ++ c!"\"" :: after) by simp,
        (find_eq (d := c!"s") (w := b!"rc=\"") (by decide) _ _).2 h1]
      exact key _ _ _ h2
    | single h0 h1 h2 =>
      unfold source
      rw [(find_none (by decide)).2 h0, show before ++ b!"src='" ++ url ++ b!"'" ++ after = before ++ b!"src='" ++ (url ++ c!"'" :: after) by simp,
        (find_eq (d := c!"s") (w := b!"rc='") (by decide) _ _).2 h1]
      exact key _ _ _ h2

/-! ### File names -/

theorem resolve_path (base : Option Bytes) (url : Bytes) : Path base url (resolve url base) := by
  unfold resolve
  cases url with
  | nil =>
    rw [if_neg (by simp)]
    cases base with
    | none => exact .none []
    | some d => simp only []; split
                · rename_i h; subst h; exact .empty []
                · rename_i h; exact .relative h (by simp)
  | cons c t =>
    split
    · rename_i h
      simp at h
      subst h
      exact .absolute base t
    · rename_i h
      cases base with
      | none => exact .none _
      | some d => simp only []; split
                  · rename_i h; subst h; exact .empty _
                  · rename_i h2; exact .relative h2 h

theorem path_unique {base : Option Bytes} {url p : Bytes} (h : Path base url p) : p = resolve url base := by
  cases h with
  | absolute t => simp [resolve]
  | none url => simp [resolve]
  | empty url => simp [resolve]
  | relative h1 h2 => rw [resolve, if_neg h2]; simp [h1]

/-- The extension the code takes. -/
def ext (path : Bytes) : Bytes :=
  (path.reverse.takeWhile (· != c!".")).reverse.takeWhile fun c => c != c!"?" && c != c!"#" && c != c!"/" && c != c!" "

theorem ext_eq {front e rest : Bytes} (h1 : c!"." ∉ e ++ rest) (h2 : ∀ c ∈ e, c ∉ b!"?#/ ") (h3 : ∀ c ∈ rest.head?, c ∈ b!"?#/ ") :
    ext (front ++ b!"." ++ e ++ rest) = e := by
  unfold ext
  have ha : ∀ x ∈ (e ++ rest).reverse, (x != c!".") = true := by intro x hx; simp; rintro rfl; exact h1 (List.mem_reverse.1 hx)
  rw [show (front ++ b!"." ++ e ++ rest).reverse = (e ++ rest).reverse ++ c!"." :: front.reverse by simp, takeWhile_stop ha (by simp), List.reverse_reverse]
  have hb : ∀ x ∈ e, (x != c!"?" && x != c!"#" && x != c!"/" && x != c!" ") = true := by
    intro x hx
    have := h2 x hx
    simp at this ⊢
    grind
  cases rest with
  | nil => rw [List.append_nil]; have := List.takeWhile_append_of_pos (l₂ := []) hb; simpa using this
  | cons y r =>
    rw [takeWhile_stop hb]
    have := h3 y (by simp)
    simp at this ⊢
    grind

theorem ext_iff (path e : Bytes) : Extension path e ↔ c!"." ∈ path ∧ ext path = e := by
  constructor
  · rintro ⟨front, rest, rfl, h1, h2, h3⟩
    exact ⟨by simp, ext_eq h1 h2 h3⟩
  · rintro ⟨h1, rfl⟩
    have hr : path = (path.reverse.dropWhile (· != c!".")).reverse ++ (path.reverse.takeWhile (· != c!".")).reverse := by
      rw [← List.reverse_append, List.takeWhile_append_dropWhile, List.reverse_reverse]
    obtain ⟨front, hf⟩ : ∃ f, path.reverse.dropWhile (· != c!".") = c!"." :: f := by
      cases hd : path.reverse.dropWhile (· != c!".") with
      | nil =>
        have h2 := List.takeWhile_append_dropWhile (p := (· != c!".")) (l := path.reverse)
        rw [hd, List.append_nil] at h2
        have := Highlight.takeWhile_all (p := (· != c!".")) path.reverse c!"." (by rw [h2]; simpa using h1)
        simp at this
      | cons y f =>
        have := List.head?_dropWhile_not (· != c!".") path.reverse
        rw [hd] at this
        simp at this
        exact ⟨f, by rw [this]⟩
    rw [hf] at hr
    have hs : (path.reverse.takeWhile (· != c!".")).reverse = ext path ++ (path.reverse.takeWhile (· != c!".")).reverse.dropWhile
        (fun c => c != c!"?" && c != c!"#" && c != c!"/" && c != c!" ") := (List.takeWhile_append_dropWhile).symm
    refine ⟨front.reverse, _, by rw [List.append_assoc, ← hs]; conv => lhs; rw [hr]
                                 simp, by
      rw [← hs]
      intro hm
      have := Highlight.takeWhile_all (p := (· != c!".")) path.reverse c!"." (List.mem_reverse.1 hm)
      simp at this, ?_, ?_⟩
    · intro c hc
      have := Highlight.takeWhile_all _ c hc
      simp at this ⊢
      grind
    · intro c hc
      have := List.head?_dropWhile_not (fun c => c != c!"?" && c != c!"#" && c != c!"/" && c != c!" ") (path.reverse.takeWhile (· != c!".")).reverse
      rw [Option.mem_def.1 hc] at this
      simp at this ⊢
      grind

theorem mime_media (path : Bytes) : Media path (mime path) := by
  unfold mime
  split
  · rename_i h
    exact .unknown fun e m he => absurd ((ext_iff _ _).1 he).1 h
  · rename_i h
    have hE : Extension path (ext path) := (ext_iff _ _).2 ⟨by simpa using h, rfl⟩
    have key : ∀ m, ((ext path).map toLower, m) ∈ types → Media path m := fun m hm => .known hE hm
    simp only []
    rw [show (List.takeWhile (fun c => c != c!"?" && c != c!"#" && c != c!"/" && c != c!" ") (path.reverse.takeWhile (· != c!".")).reverse) = ext path from rfl]
    by_cases h1 : (ext path).map toLower = b!"jpg"; · rw [if_pos h1]; exact key _ (by rw [h1]; decide)
    rw [if_neg h1]
    by_cases h2 : (ext path).map toLower = b!"jpeg"; · rw [if_pos h2]; exact key _ (by rw [h2]; decide)
    rw [if_neg h2]
    by_cases h3 : (ext path).map toLower = b!"png"; · rw [if_pos h3]; exact key _ (by rw [h3]; decide)
    rw [if_neg h3]
    by_cases h4 : (ext path).map toLower = b!"gif"; · rw [if_pos h4]; exact key _ (by rw [h4]; decide)
    rw [if_neg h4]
    by_cases h5 : (ext path).map toLower = b!"webp"; · rw [if_pos h5]; exact key _ (by rw [h5]; decide)
    rw [if_neg h5]
    by_cases h6 : (ext path).map toLower = b!"svg"; · rw [if_pos h6]; exact key _ (by rw [h6]; decide)
    rw [if_neg h6]
    by_cases h7 : (ext path).map toLower = b!"bmp"; · rw [if_pos h7]; exact key _ (by rw [h7]; decide)
    rw [if_neg h7]
    by_cases h8 : (ext path).map toLower = b!"ico"; · rw [if_pos h8]; exact key _ (by rw [h8]; decide)
    rw [if_neg h8]
    refine .unknown fun e m he hm => ?_
    rw [← ((ext_iff _ _).1 he).2] at hm
    simp only [types, List.mem_cons, Prod.mk.injEq, List.not_mem_nil, or_false] at hm
    grind

theorem media_unique {path m m' : Bytes} (h : Media path m) (h' : Media path m') : m = m' := by
  have fn : ∀ e a b, (e, a) ∈ types → (e, b) ∈ types → a = b := by
    intro e a b ha hb
    have : ∀ x ∈ types, ∀ y ∈ types, x.1 = y.1 → x.2 = y.2 := by decide +kernel
    exact this _ ha _ hb rfl
  cases h with
  | known h1 h2 =>
    cases h' with
    | known h3 h4 =>
      have := ((ext_iff _ _).1 h1).2.symm.trans ((ext_iff _ _).1 h3).2
      subst this
      exact fn _ _ _ h2 h4
    | unknown h3 => exact absurd h2 (h3 _ _ h1)
  | unknown h1 =>
    cases h' with
    | known h3 h4 => exact absurd h4 (h1 _ _ h3)
    | unknown _ => rfl

/-! ### Tags -/

theorem source_img {body : Bytes} : source (b!"<img" ++ body) = (source body).map fun r => (b!"<img" ++ r.1, r.2) := by
  have key : ∀ w : Bytes, find (c!"s" :: w) (b!"<img" ++ body) = (find (c!"s" :: w) body).map fun r => (b!"<img" ++ r.1, r.2) := by
    intro w
    simp [find]
    rfl
  unfold source
  rw [key b!"rc=\"", key b!"rc='"]
  cases find b!"src=\"" body with
  | some r => simp
  | none =>
    cases find b!"src='" body with
    | some r => simp
    | none => rfl

theorem encoded_val (file : Bytes → Option Bytes) (path : Bytes) : ∃ r, encoded file path = .val r := by
  unfold encoded
  cases file path with
  | none => exact ⟨_, rfl⟩
  | some content =>
    simp only []
    split
    · exact ⟨_, rfl⟩
    · by_cases h : content = []
      · subst h; exact ⟨none, rfl⟩
      · obtain ⟨e, he, -⟩ := Base64.C14_decodes content h
        exact ⟨_, he⟩

/-- What is written for a tag. -/
theorem tag_shown (file : Bytes → Option Bytes) (base : Option Bytes) (body : Bytes) : ∃ need out, tag file base (b!"<img" ++ body) = .val (.chunk need (b!"<img" ++ out ++ b!">")) ∧
    Shown file base body out ∧ ((need = out.length + 5 ∧ out = body ∧ ¬ ∃ before after content path, Holds file base body before after content path) ∨
      (need = out.length + 6 ∧ ∃ before after content path, Holds file base body before after content path)) := by
  unfold tag
  rw [source_img]
  cases hs : source body with
  | none =>
    have hn : ¬ ∃ before after content path, Holds file base body before after content path := by
      rintro ⟨b, a, c, p, url, h, -⟩
      rw [(source_iff _ _ _ _).2 h] at hs
      cases hs
    exact ⟨_, body, rfl, .kept hn, .inl ⟨by simp, rfl, hn⟩⟩
  | some r =>
    obtain ⟨before, url, after⟩ := r
    have hS := (source_iff _ _ _ _).1 hs
    have uniq : ∀ {b u a}, Source body b u a → b = before ∧ u = url ∧ a = after := by
      intro b u a h
      have := (source_iff _ _ _ _).2 h
      rw [hs] at this
      simp at this
      exact ⟨this.1.symm, this.2.1.symm, this.2.2.symm⟩
    have keep : (¬ ∃ before after content path, Holds file base body before after content path) →
        ∃ need out, C.val (Tok.chunk ((b!"<img" ++ body).length + 1) (b!"<img" ++ body ++ b!">")) = .val (.chunk need (b!"<img" ++ out ++ b!">")) ∧
          Shown file base body out ∧ ((need = out.length + 5 ∧ out = body ∧ ¬ ∃ before after content path, Holds file base body before after content path) ∨
      (need = out.length + 6 ∧ ∃ before after content path, Holds file base body before after content path)) := fun h =>
      ⟨_, body, rfl, .kept h, .inl ⟨by simp, rfl, h⟩⟩
    simp only [Option.map_some]
    unfold dataUrl
    split
    · rename_i x hx
      split at hx
      · cases hx
      · obtain ⟨r, hr⟩ := encoded_val file (resolve url base)
        rw [hr] at hx
        cases r <;> cases hx
    · rename_i x hx
      apply keep
      rintro ⟨b, a, content, p, u, h1, h2, h3, h4, h5, h6⟩
      obtain ⟨rfl, rfl, rfl⟩ := uniq h1
      have hp := path_unique h3
      subst hp
      split at hx
      · rename_i hl
        obtain ⟨l1, l2, l3, l4⟩ := h2
        rcases hl with hl | hl | hl | hl
        · exact l1 hl
        · exact l2 hl
        · exact l3 hl
        · exact l4 hl
      · obtain ⟨e, he, -⟩ := Base64.C14_decodes content h5
        have : encoded file (resolve u base) = .val (some e) := by
          unfold encoded
          rw [h4]
          simp only []
          rw [if_neg (by omega), he]
        rw [this] at hx
        cases hx
    · rename_i x d hx
      split at hx
      · cases hx
      · rename_i hl
        split at hx
        · cases hx
        · cases hx
        · rename_i e he
          cases hx
          unfold encoded at he
          cases hf : file (resolve url base) with
          | none => rw [hf] at he; cases he
          | some content =>
            rw [hf] at he
            simp only [] at he
            split at he
            · cases he
            · rename_i hlen
              have hne : content ≠ [] := by rintro rfl; simp [Base64.encode] at he
              obtain ⟨e', he', hdec⟩ := Base64.C14_decodes content hne
              rw [he'] at he
              cases he
              simp only [not_or] at hl
              refine ⟨(before ++ b!"src=\"data:" ++ mime (resolve url base) ++ b!";base64," ++ e ++ b!"\"" ++ after).length + 6, before ++ b!"src=\"data:" ++ mime (resolve url base) ++ b!";base64," ++ e ++ b!"\"" ++ after, ?_, .embedded
                ⟨url, hS, hl, resolve_path _ _, hf, hne, by omega⟩ (mime_media _) hdec ?_ ?_, ?_⟩
              · congr 2
                · simp; omega
                · simp
              · intro h; rw [if_pos (by omega)]
              · split <;> omega
              · refine .inr ⟨?_, _, _, _, _, url, hS, hl, resolve_path _ _, hf, hne, by omega⟩
                rfl

/-! ### Pages -/

/-- Nothing, or something that begins with `<`. -/
def Opens (r : Bytes) : Prop := r = [] ∨ r.head? = some c!"<"

theorem text_copy (file : Bytes → Option Bytes) (base : Option Bytes) {t : Bytes} (ht : ¬ b!"<img" <:+: t) {r : Bytes} (hr : Opens r) (n : Nat) :
    scan file base (t.length + n) (t ++ r) = (scan file base n r).bind fun ks => .val (t.map .byte ++ ks) := by
  induction t with
  | nil => simp; cases scan file base n r <;> rfl
  | cons c t ih =>
    rw [List.infix_cons_iff, not_or] at ht
    rw [show (c :: t).length + n = (t.length + n) + 1 by simp; omega, List.cons_append, scan, if_neg, ih ht.2]
    · cases scan file base n r <;> rfl
    · rintro ⟨hp, -⟩
      apply ht.1
      rcases hr with rfl | hr
      · simpa using hp
      · cases r with
        | nil => simp at hr
        | cons d r =>
          simp at hr
          subst hr
          exact cross (s := c :: t) (by simpa using hp) (by simp) (by decide)

theorem tail_copy (file : Bytes → Option Bytes) (base : Option Bytes) {t : Bytes} (ht : c!">" ∉ t) (n : Nat) :
    scan file base (t.length + n) t = .val (t.map .byte) := by
  induction t with
  | nil => cases n <;> rfl
  | cons c t ih =>
    rw [show (c :: t).length + n = (t.length + n) + 1 by simp; omega, scan, if_neg (fun h => ht h.2), ih (fun h => ht (by simp [h]))]
    rfl

theorem img_step (file : Bytes → Option Bytes) (base : Option Bytes) {body : Bytes} (hb : c!">" ∉ body) (rest : Bytes) (n : Nat) :
    scan file base (n + 1) (b!"<img" ++ body ++ b!">" ++ rest) = (tag file base (b!"<img" ++ body)).bind fun k => (scan file base n rest).bind fun ks => .val (k :: ks) := by
  have ha : ∀ x ∈ b!"<img" ++ body, (x != c!">") = true := by
    intro x hx
    simp only [bne_iff_ne, ne_eq]
    rintro rfl
    rcases List.mem_append.1 hx with h | h
    · revert h; decide
    · exact hb h
  have e : b!"<img" ++ body ++ b!">" ++ rest = c!"<" :: (b!"img" ++ body ++ b!">" ++ rest) := by simp
  rw [e, scan, if_pos ⟨⟨body ++ b!">" ++ rest, by simp⟩, by simp⟩, ← e, show b!"<img" ++ body ++ b!">" ++ rest = (b!"<img" ++ body) ++ c!">" :: rest by simp,
    takeWhile_stop ha (by simp), InlineTables.dropWhile_all _ ha]
  simp
  rfl

/-- What is written for a page. -/
inductive Toks (file : Bytes → Option Bytes) (base : Option Bytes) : List (Bytes × Bytes) → List Bytes → List Tok → Prop
  | nil : Toks file base [] [] []
  | cons {body t out : Bytes} {need : Nat} {ps : List (Bytes × Bytes)} {outs : List Bytes} {ks : List Tok} : Shown file base body out →
      ((need = out.length + 5 ∧ out = body ∧ ¬ ∃ before after content path, Holds file base body before after content path) ∨
      (need = out.length + 6 ∧ ∃ before after content path, Holds file base body before after content path)) → Toks file base ps outs ks →
      Toks file base ((body, t) :: ps) (out :: outs) (.chunk need (b!"<img" ++ out ++ b!">") :: (t.map .byte ++ ks))

theorem scan_imgs (file : Bytes → Option Bytes) (base : Option Bytes) (ps : List (Bytes × Bytes)) (h : ∀ i ∈ ps, c!">" ∉ i.1 ∧ ¬ b!"<img" <:+: i.2) (tail : Bytes)
    (ht : tail = [] ∨ (b!"<img" <+: tail ∧ c!">" ∉ tail)) (n : Nat) (hn : ((ps.flatMap fun i => b!"<img" ++ i.1 ++ b!">" ++ i.2) ++ tail).length ≤ n) :
    ∃ outs ks, Toks file base ps outs ks ∧ scan file base n ((ps.flatMap fun i => b!"<img" ++ i.1 ++ b!">" ++ i.2) ++ tail) = .val (ks ++ tail.map .byte) := by
  have hto : Opens tail := by
    rcases ht with rfl | ⟨⟨u, rfl⟩, -⟩
    · exact .inl rfl
    · exact .inr (by simp)
  induction ps generalizing n with
  | nil =>
    refine ⟨[], [], .nil, ?_⟩
    have hg : c!">" ∉ tail := by
      rcases ht with rfl | ⟨-, h⟩
      · simp
      · exact h
    obtain ⟨m, rfl⟩ : ∃ m, n = tail.length + m := ⟨n - tail.length, by simp at hn; omega⟩
    simpa using tail_copy file base hg m
  | cons p ps ih =>
    obtain ⟨body, t⟩ := p
    have h1 := h (body, t) (by simp)
    have hop : Opens ((ps.flatMap fun i => b!"<img" ++ i.1 ++ b!">" ++ i.2) ++ tail) := by
      cases ps with
      | nil => simpa using hto
      | cons q qs => exact .inr (by simp)
    simp only [List.flatMap_cons, List.append_assoc] at hn ⊢
    simp only [List.length_append] at hn
    obtain ⟨m, rfl⟩ : ∃ m, n = t.length + m + 1 := ⟨n - t.length - 1, by simp at hn; omega⟩
    obtain ⟨outs, ks, hT, hs⟩ := ih (fun i hi => h i (by simp [hi])) m (by simp only [List.length_append, List.append_assoc] at hn ⊢; simp at hn; simp; omega)
    obtain ⟨need, out, ht1, ht2, ht3⟩ := tag_shown file base body
    refine ⟨out :: outs, _, .cons ht2 ht3 hT, ?_⟩
    have := img_step file base h1.1 (t ++ ((ps.flatMap fun i => b!"<img" ++ i.1 ++ b!">" ++ i.2) ++ tail)) (t.length + m)
    simp only [List.append_assoc] at this hs
    rw [this, ht1, text_copy file base h1.2 (by simpa only [List.append_assoc] using hop), hs]
    simp [C.bind]

def Tok.out : Tok → Bytes
  | .byte c => [c]
  | .chunk _ w => w

/-- Tokens that ask for enough room, and at most for one byte more. -/
def Tok.Fair : Tok → Prop
  | .byte _ => True
  | .chunk need w => w.length ≤ need ∧ need ≤ w.length + 1

theorem write_fits {s : St} {k : Tok} (hk : k.Fair) (h : s.out.length + k.out.length < s.cap) : s.write k = .val { s with out := s.out ++ k.out } := by
  cases k with
  | byte c => simp [Tok.out] at h; simp [St.write, Tok.out]; omega
  | chunk need w =>
    simp only [Tok.out] at h
    obtain ⟨h1, h2⟩ := hk
    unfold St.write
    simp only []
    rw [if_neg (by omega), puts_val (by omega)]
    rfl

theorem writeAll_fits (s : St) (ks : List Tok) (hk : ∀ k ∈ ks, k.Fair) (h : s.out.length + (ks.flatMap Tok.out).length < s.cap) :
    writeAll s ks = .val { s with out := s.out ++ ks.flatMap Tok.out } := by
  induction ks generalizing s with
  | nil => simp [writeAll]
  | cons k ks ih =>
    rw [List.flatMap_cons, List.length_append] at h
    rw [writeAll, write_fits (hk k (by simp)) (by omega)]
    simp only []
    rw [ih _ (fun x hx => hk x (by simp [hx])) (by simp only [List.length_append]; omega)]
    simp

theorem bytes_out (t : Bytes) : (t.map Tok.byte).flatMap Tok.out = t := by
  induction t with
  | nil => rfl
  | cons c t ih => simp [Tok.out, ih]

theorem toks_out {file : Bytes → Option Bytes} {base : Option Bytes} {ps : List (Bytes × Bytes)} {outs : List Bytes} {ks : List Tok} (h : Toks file base ps outs ks) :
    ks.flatMap Tok.out = (ps.zip outs).flatMap (fun i => b!"<img" ++ i.2 ++ b!">" ++ i.1.2) ∧ (∀ k ∈ ks, k.Fair) ∧ Shows file base ps outs := by
  induction h with
  | nil => exact ⟨rfl, by simp, .nil⟩
  | cons h1 h2 h3 ih =>
    obtain ⟨a1, a2, a3⟩ := ih
    refine ⟨?_, ?_, .cons h1 a3⟩
    · simp only [List.flatMap_cons, List.flatMap_append, bytes_out, a1, List.zip_cons_cons]
      simp [Tok.out]
    · intro k hk
      simp only [List.mem_cons, List.mem_append, List.mem_map] at hk
      rcases hk with rfl | ⟨c, -, rfl⟩ | hk
      · unfold Tok.Fair; simp; omega
      · trivial
      · exact a2 k hk

theorem embed_page (file : Bytes → Option Bytes) (base : Option Bytes) (p : Page) (hp : p.Ok) : ∃ outs ks, Toks file base p.imgs outs ks ∧
    scan file base p.html.length p.html = .val (p.text.map .byte ++ ks ++ p.tail.map .byte) := by
  obtain ⟨m, hm⟩ : ∃ m, p.html.length = p.text.length + m := ⟨p.html.length - p.text.length, by simp [Page.html]⟩
  obtain ⟨outs, ks, hT, hs⟩ := scan_imgs file base p.imgs hp.imgs p.tail hp.tail m (by simp [Page.html] at hm; simp; omega)
  refine ⟨outs, ks, hT, ?_⟩
  have hop : Opens ((p.imgs.flatMap fun i => b!"<img" ++ i.1 ++ b!">" ++ i.2) ++ p.tail) := by
    cases p.imgs with
    | nil =>
      rcases hp.tail with h | ⟨⟨u, h⟩, -⟩
      · exact .inl (by simp [h])
      · exact .inr (by simp [← h])
    | cons q qs => exact .inr (by simp)
  rw [hm, Page.html, List.append_assoc, text_copy file base hp.text hop, hs]
  simp [C.bind]

/-- Every page is of this form. -/
theorem page_exists (html : Bytes) : ∃ p : Page, p.Ok ∧ p.html = html := by
  induction hn : html.length using Nat.strongRecOn generalizing html with
  | _ n ih =>
    cases hf : find b!"<img" html with
    | none => exact ⟨⟨html, [], []⟩, ⟨(find_none (by decide)).1 hf, by simp, .inl rfl⟩, by simp [Page.html]⟩
    | some r =>
      obtain ⟨a, b⟩ := r
      have e := find_some hf
      have ha : ¬ b!"<img" <:+: a := by
        rw [e] at hf
        exact (find_eq (d := c!"<") (w := b!"img") (by decide) _ _).1 hf
      by_cases hg : c!">" ∈ b
      · obtain ⟨u, v, rfl, hu⟩ := List.append_of_mem hg |> fun ⟨s, t, h⟩ => (⟨b.takeWhile (· != c!">"), (b.dropWhile (· != c!">")).tail, by
            have : (b.dropWhile (· != c!">")) ≠ [] := by
              intro e
              have h2 := List.takeWhile_append_dropWhile (p := (· != c!">")) (l := b)
              rw [e, List.append_nil] at h2
              have := Highlight.takeWhile_all (p := (· != c!">")) b c!">" (by rw [h2]; exact hg)
              simp at this
            obtain ⟨y, z, hy⟩ := List.exists_cons_of_ne_nil this
            have hyq : y = c!">" := by
              have := List.head?_dropWhile_not (· != c!">") b
              rw [hy] at this
              simpa using this
            have h2 := List.takeWhile_append_dropWhile (p := (· != c!">")) (l := b)
            rw [hy, hyq] at h2
            rw [hy]
            exact h2.symm, by
            intro hm
            have := Highlight.takeWhile_all (p := (· != c!">")) b c!">" hm
            simp at this⟩ : ∃ u v, b = u ++ c!">" :: v ∧ c!">" ∉ u)
        obtain ⟨p, hp, he⟩ := ih v.length (by rw [← hn, e]; simp; omega) v rfl
        refine ⟨⟨a, (u, p.text) :: p.imgs, p.tail⟩, ⟨ha, ?_, hp.tail⟩, ?_⟩
        · intro i hi
          simp at hi
          rcases hi with rfl | hi
          · exact ⟨hu, hp.text⟩
          · exact hp.imgs i hi
        · rw [e, ← he]
          simp [Page.html]
      · exact ⟨⟨a, [], b!"<img" ++ b⟩, ⟨ha, by simp, .inr ⟨⟨b, rfl⟩, by simp [hg]⟩⟩, by simp [Page.html, e]⟩

end Verif.Embed
