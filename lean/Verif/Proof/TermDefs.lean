/- Lemmas about lists of definitions on a terminal. -/
import Verif.Model.Term
import Verif.Spec.TermDefs

namespace Verif.Term.Defs

/-- What comes out with enough steps. -/
def Out (ind : Nat) (dt dd f : Bool) (s r : Bytes) : Prop := ∀ n, s.length ≤ n → defs ind n dt dd f s = r

theorem out_nil (ind : Nat) (dt dd f : Bool) : Out ind dt dd f [] [] := by
  intro n _
  cases n <;> rfl

theorem pre_ne {c : Byte} (h : c ≠ c!"<") (k s : Bytes) : (c!"<" :: k).isPrefixOf (c :: s) = false := by
  rw [List.isPrefixOf_cons_cons]
  simp [Ne.symm h]

theorem out_char {ind : Nat} {dt dd f : Bool} {s r : Bytes} {c : Byte} (hc : c ≠ c!"<") (h : Out ind dt dd f s r) :
    Out ind dt dd f (c :: s) ((if dt || dd then oneLine [c] else []) ++ r) := by
  intro n hn
  cases n with
  | zero => exact absurd hn (by simp)
  | succ n =>
    rw [defs]
    have e1 := pre_ne hc b!"dt>" s
    have e2 := pre_ne hc b!"/dt>" s
    have e3 := pre_ne hc b!"dd>" s
    have e4 := pre_ne hc b!"/dd>" s
    have e5 := pre_ne hc b!"dl>" s
    have e6 := pre_ne hc b!"/dl>" s
    rw [e1, e2, e3, e4, e5, e6]
    simp only [Bool.false_eq_true, if_false]
    rw [h n (by rw [List.length_cons] at hn; omega), if_pos hc]
    congr 1
    cases hd : (dt || dd) with
    | false => rfl
    | true =>
      simp only [if_true, oneLine, List.map_cons, List.map_nil]
      by_cases hx : c = c!"\n" ∨ c = c!"\r"
      · rw [if_pos hx, if_pos (by simpa using hx)]
      · rw [if_neg hx, if_neg (by simpa using hx)]

theorem out_text {ind : Nat} {dt dd f : Bool} {s r : Bytes} (t : Bytes) (ht : c!"<" ∉ t) (h : Out ind dt dd f s r) :
    Out ind dt dd f (t ++ s) ((if dt || dd then oneLine t else []) ++ r) := by
  induction t with
  | nil => cases (dt || dd) <;> exact h
  | cons c t ih =>
    rw [List.mem_cons, not_or] at ht
    have := out_char (Ne.symm ht.1) (ih ht.2)
    cases hd : (dt || dd) <;> rw [hd] at this <;> exact this

/-- A `<` that does not begin a tag of the list. -/
theorem out_lt {ind : Nat} {dt dd f : Bool} {s r : Bytes} {c : Byte} (h1 : c ≠ c!"d") (h2 : c ≠ c!"/") (h : Out ind dt dd f (c :: s) r) :
    Out ind dt dd f (c!"<" :: c :: s) r := by
  intro n hn
  cases n with
  | zero => exact absurd hn (by simp)
  | succ n =>
    rw [defs]
    have e (k : Bytes) : (c!"<" :: c!"d" :: k).isPrefixOf (c!"<" :: c :: s) = false := by simp [List.isPrefixOf_cons_cons, Ne.symm h1]
    have e' (k : Bytes) : (c!"<" :: c!"/" :: k).isPrefixOf (c!"<" :: c :: s) = false := by simp [List.isPrefixOf_cons_cons, Ne.symm h2]
    rw [e b!"t>", e b!"d>", e b!"l>", e' b!"dt>", e' b!"dd>", e' b!"dl>"]
    simp only [Bool.false_eq_true, if_false]
    rw [h n (by rw [List.length_cons] at hn; omega)]
    cases (dt || dd) <;> simp

/-- The begin of an end tag that is not one of the list. -/
theorem out_lt_end {ind : Nat} {dt dd f : Bool} {s r : Bytes} {c : Byte} (h1 : c ≠ c!"d") (h : Out ind dt dd f (c!"/" :: c :: s) r) :
    Out ind dt dd f (c!"<" :: c!"/" :: c :: s) r := by
  intro n hn
  cases n with
  | zero => exact absurd hn (by simp)
  | succ n =>
    rw [defs]
    have e (k : Bytes) : (c!"<" :: c!"d" :: k).isPrefixOf (c!"<" :: c!"/" :: c :: s) = false := by simp [List.isPrefixOf_cons_cons]
    have e' (k : Bytes) : (c!"<" :: c!"/" :: c!"d" :: k).isPrefixOf (c!"<" :: c!"/" :: c :: s) = false := by simp [List.isPrefixOf_cons_cons, Ne.symm h1]
    rw [e b!"t>", e b!"d>", e b!"l>", e' b!"t>", e' b!"d>", e' b!"l>"]
    simp only [Bool.false_eq_true, if_false]
    rw [h n (by rw [List.length_cons] at hn; omega)]
    cases (dt || dd) <;> simp

theorem isPre (k s : Bytes) : k.isPrefixOf (k ++ s) = true := by rw [List.isPrefixOf_iff_prefix]; exact ⟨s, rfl⟩

theorem out_dt {ind : Nat} {dt dd f : Bool} {s r : Bytes} (h : Out ind true dd false s r) : Out ind dt dd f (b!"<dt>" ++ s) ((if f then [] else b!"\n") ++ r) := by
  intro n hn
  cases n with
  | zero => exact absurd hn (by simp)
  | succ n =>
    show defs ind (n + 1) dt dd f (c!"<" :: (b!"dt>" ++ s)) = _
    rw [defs, show (c!"<" :: (b!"dt>" ++ s)) = b!"<dt>" ++ s from rfl]
    rw [isPre, if_pos rfl, show (b!"<dt>" ++ s).drop 4 = s from rfl, h n (by rw [List.length_append] at hn; have : (b!"<dt>").length = 4 := rfl; omega)]

theorem out_dt_end {ind : Nat} {dt dd f : Bool} {s r : Bytes} (h : Out ind false dd f s r) : Out ind dt dd f (b!"</dt>" ++ s) (b!"\n" ++ r) := by
  intro n hn
  cases n with
  | zero => exact absurd hn (by simp)
  | succ n =>
    show defs ind (n + 1) dt dd f (c!"<" :: (b!"/dt>" ++ s)) = _
    rw [defs, show (c!"<" :: (b!"/dt>" ++ s)) = b!"</dt>" ++ s from rfl]
    rw [show (b!"<dt>").isPrefixOf (b!"</dt>" ++ s) = false from rfl, if_neg (by decide), isPre, if_pos rfl, show (b!"</dt>" ++ s).drop 5 = s from rfl,
      h n (by rw [List.length_append] at hn; have : (b!"</dt>").length = 5 := rfl; omega)]

theorem out_dd {ind : Nat} {dt dd f : Bool} {s r : Bytes} (h : Out ind dt true f s r) : Out ind dt dd f (b!"<dd>" ++ s) (spaces (ind + 1) ++ r) := by
  intro n hn
  cases n with
  | zero => exact absurd hn (by simp)
  | succ n =>
    show defs ind (n + 1) dt dd f (c!"<" :: (b!"dd>" ++ s)) = _
    rw [defs, show (c!"<" :: (b!"dd>" ++ s)) = b!"<dd>" ++ s from rfl]
    rw [show (b!"<dt>").isPrefixOf (b!"<dd>" ++ s) = false from rfl, if_neg (by decide), show (b!"</dt>").isPrefixOf (b!"<dd>" ++ s) = false from rfl, if_neg (by decide), isPre, if_pos rfl,
      show (b!"<dd>" ++ s).drop 4 = s from rfl, h n (by rw [List.length_append] at hn; have : (b!"<dd>").length = 4 := rfl; omega)]

theorem out_dd_end {ind : Nat} {dt dd f : Bool} {s r : Bytes} (h : Out ind dt false f s r) : Out ind dt dd f (b!"</dd>" ++ s) (b!"\n" ++ r) := by
  intro n hn
  cases n with
  | zero => exact absurd hn (by simp)
  | succ n =>
    show defs ind (n + 1) dt dd f (c!"<" :: (b!"/dd>" ++ s)) = _
    rw [defs, show (c!"<" :: (b!"/dd>" ++ s)) = b!"</dd>" ++ s from rfl]
    rw [show (b!"<dt>").isPrefixOf (b!"</dd>" ++ s) = false from rfl, if_neg (by decide), show (b!"</dt>").isPrefixOf (b!"</dd>" ++ s) = false from rfl, if_neg (by decide),
      show (b!"<dd>").isPrefixOf (b!"</dd>" ++ s) = false from rfl, if_neg (by decide), isPre, if_pos rfl,
      show (b!"</dd>" ++ s).drop 5 = s from rfl, h n (by rw [List.length_append] at hn; have : (b!"</dd>").length = 5 := rfl; omega)]

theorem out_dl {ind : Nat} {dt dd f : Bool} {s r : Bytes} (h : Out ind dt dd f s r) : Out ind dt dd f (b!"<dl>" ++ s) r := by
  intro n hn
  cases n with
  | zero => exact absurd hn (by simp)
  | succ n =>
    show defs ind (n + 1) dt dd f (c!"<" :: (b!"dl>" ++ s)) = _
    rw [defs, show (c!"<" :: (b!"dl>" ++ s)) = b!"<dl>" ++ s from rfl]
    rw [show (b!"<dt>").isPrefixOf (b!"<dl>" ++ s) = false from rfl, if_neg (by decide), show (b!"</dt>").isPrefixOf (b!"<dl>" ++ s) = false from rfl, if_neg (by decide),
      show (b!"<dd>").isPrefixOf (b!"<dl>" ++ s) = false from rfl, if_neg (by decide), show (b!"</dd>").isPrefixOf (b!"<dl>" ++ s) = false from rfl, if_neg (by decide), isPre, if_pos rfl,
      show (b!"<dl>" ++ s).drop 4 = s from rfl, h n (by rw [List.length_append] at hn; have : (b!"<dl>").length = 4 := rfl; omega)]

theorem out_dl_end {ind : Nat} {dt dd f : Bool} {s r : Bytes} (h : Out ind dt dd f s r) : Out ind dt dd f (b!"</dl>" ++ s) r := by
  intro n hn
  cases n with
  | zero => exact absurd hn (by simp)
  | succ n =>
    show defs ind (n + 1) dt dd f (c!"<" :: (b!"/dl>" ++ s)) = _
    rw [defs, show (c!"<" :: (b!"/dl>" ++ s)) = b!"</dl>" ++ s from rfl]
    rw [show (b!"<dt>").isPrefixOf (b!"</dl>" ++ s) = false from rfl, if_neg (by decide), show (b!"</dt>").isPrefixOf (b!"</dl>" ++ s) = false from rfl, if_neg (by decide),
      show (b!"<dd>").isPrefixOf (b!"</dl>" ++ s) = false from rfl, if_neg (by decide), show (b!"</dd>").isPrefixOf (b!"</dl>" ++ s) = false from rfl, if_neg (by decide),
      show (b!"<dl>").isPrefixOf (b!"</dl>" ++ s) = false from rfl, if_neg (by decide), isPre, if_pos rfl,
      show (b!"</dl>" ++ s).drop 5 = s from rfl, h n (by rw [List.length_append] at hn; have : (b!"</dl>").length = 5 := rfl; omega)]

/-- A line end outside of terms and definitions. -/
theorem out_nl {ind : Nat} {f : Bool} {s r : Bytes} (h : Out ind false false f s r) : Out ind false false f (b!"\n" ++ s) r := by
  have := out_text (ind := ind) (dt := false) (dd := false) b!"\n" (by decide) h
  simpa using this

theorem out_dds {ind : Nat} {f : Bool} {s r : Bytes} (ds : List Bytes) (hd : ∀ d ∈ ds, c!"<" ∉ d) (h : Out ind false false f s r) :
    Out ind false false f (ds.flatMap Item.dd ++ s) ((ds.flatMap fun d => spaces (ind + 1) ++ oneLine d ++ b!"\n") ++ r) := by
  induction ds with
  | nil => exact h
  | cons d ds ih =>
    have h1 := ih fun x hx => hd x (List.mem_cons_of_mem _ hx)
    have h2 := out_dd (dd := false) (out_text d (hd d List.mem_cons_self) (out_dd_end (dd := true) (out_nl h1)))
    simp only [Bool.false_or, if_true] at h2
    rw [List.flatMap_cons, List.flatMap_cons, Item.dd, show b!"</dd>\n" = b!"</dd>" ++ b!"\n" from rfl]
    simp only [List.append_assoc] at h2 ⊢
    exact h2

theorem out_item {ind : Nat} {f : Bool} {s r : Bytes} {i : Item} (hp : Plain i) (h : Out ind false false false s r) :
    Out ind false false f (i.html ++ s) ((if f then [] else b!"\n") ++ (i.shown (spaces (ind + 1)) ++ r)) := by
  have h1 := out_dds i.defs hp.2 h
  have h2 := out_dt (dt := false) (f := f) (out_text i.term hp.1 (out_dt_end (dt := true) (out_nl h1)))
  simp only [Bool.true_or, if_true] at h2
  rw [Item.html, Item.shown, show b!"</dt>\n" = b!"</dt>" ++ b!"\n" from rfl]
  simp only [List.append_assoc] at h2 ⊢
  exact h2

theorem out_rest {ind : Nat} {s r : Bytes} (l : List Item) (hp : ∀ i ∈ l, Plain i) (h : Out ind false false false s r) :
    Out ind false false false (l.flatMap Item.html ++ s) ((l.flatMap fun i => b!"\n" ++ i.shown (spaces (ind + 1))) ++ r) := by
  induction l with
  | nil => exact h
  | cons i l ih =>
    have := out_item (f := false) (hp i List.mem_cons_self) (ih fun x hx => hp x (List.mem_cons_of_mem _ hx))
    rw [List.flatMap_cons, List.flatMap_cons]
    simp only [List.append_assoc]
    exact this

theorem shown_cons (pad : Bytes) (i : Item) (l : List Item) : shown pad (i :: l) = i.shown pad ++ l.flatMap fun i => b!"\n" ++ i.shown pad := by
  induction l generalizing i with
  | nil => simp [shown]
  | cons j l ih => rw [shown, ih, List.flatMap_cons]; simp only [List.append_assoc]; simp

theorem out_list (ind : Nat) (l : List Item) (hp : ∀ i ∈ l, Plain i) : Out ind false false true (html l) (shown (spaces (ind + 1)) l) := by
  have he (f : Bool) : Out ind false false f b!"</dl>\n" [] := out_dl_end (out_nl (out_nil ind false false f))
  have : Out ind false false true (l.flatMap Item.html ++ b!"</dl>\n") (shown (spaces (ind + 1)) l) := by
    cases l with
    | nil => exact he true
    | cons i l =>
      have h1 := out_rest l (fun x hx => hp x (List.mem_cons_of_mem _ hx)) (he false)
      have h2 := out_item (f := true) (hp i List.mem_cons_self) h1
      rw [shown_cons, List.flatMap_cons]
      simpa only [List.append_assoc, if_true, List.nil_append, List.append_nil] using h2
  have h3 := out_dl (out_nl this)
  rw [html, show b!"<dl>\n" = b!"<dl>" ++ b!"\n" from rfl]
  simpa only [List.append_assoc] using h3

end Verif.Term.Defs
