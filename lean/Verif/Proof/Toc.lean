import Verif.Spec.Toc
import Verif.Proof.DropBuf
import Verif.Proof.Critic
import Verif.Proof.HeaderIds
import Verif.Proof.Plugins

namespace Verif.Toc
open Spec
open DropBuf (Tok)

/-! ### Levels -/

theorem goUp_eq (level : Nat) : ∀ current, goUp level current = (List.replicate (current - level) b!"</ul>\n</li>\n", min current level) := by
  intro current
  induction current with
  | zero => simp [goUp]
  | succ n ih =>
    rw [goUp]
    split
    · rename_i h
      rw [ih]
      simp only []
      have e : n + 1 - level = (n - level) + 1 := by omega
      rw [e, List.replicate_succ]
      congr 1
      omega
    · rename_i h
      have e : n + 1 - level = 0 := by omega
      rw [e]
      congr 1
      omega

/-- What is in front of an item, and the level behind it. -/
def lead (current last level : Nat) : List Bytes × Nat :=
  ((goUp level current).1 ++ (goDown (goUp level current).2 last level).1 ++ closeItem last level,
    (goDown (goUp level current).2 last level).2)

theorem entries_cons {min max : Int} {current last : Nat} {e : Entry} {es : List Entry} (h : min ≤ e.level ∧ (e.level : Int) ≤ max) :
    entries min max current last (e :: es) = ((lead current last e.level).1 ++ [item e] ++
      (entries min max (lead current last e.level).2 e.level es).1, (entries min max (lead current last e.level).2 e.level es).2) := by
  conv => lhs; unfold entries
  rw [if_neg (by omega)]
  rfl

theorem entries_skip {min max : Int} {current last : Nat} {e : Entry} {es : List Entry} (h : ¬ (min ≤ e.level ∧ (e.level : Int) ≤ max)) :
    entries min max current last (e :: es) = entries min max current last es := by
  conv => lhs; unfold entries
  rw [if_pos (by omega)]

/-- The levels outside the range do not matter. -/
theorem entries_shown (min max : Int) (es : List Entry) : ∀ current last,
    entries min max current last es = entries min max current last (shown min max es) := by
  induction es with
  | nil => intro current last; rfl
  | cons e es ih =>
    intro current last
    by_cases h : min ≤ e.level ∧ (e.level : Int) ≤ max
    · have e1 : shown min max (e :: es) = e :: shown min max es := by
        unfold shown; rw [List.filter_cons_of_pos (by simpa using h)]
      rw [e1, entries_cons h, entries_cons h, ih]
    · have e1 : shown min max (e :: es) = shown min max es := by
        unfold shown; rw [List.filter_cons_of_neg (by simpa using h)]
      rw [e1, entries_skip h, ih]

theorem shown_mem {min max : Int} {es : List Entry} {e : Entry} (h : e ∈ shown min max es) : min ≤ e.level ∧ (e.level : Int) ≤ max := by
  unfold shown at h
  simpa using (List.mem_filter.1 h).2

/-! ### Size -/

def len (l : List Bytes) : Nat := l.flatten.length

theorem len_nil : len [] = 0 := rfl
theorem len_cons (a : Bytes) (l : List Bytes) : len (a :: l) = a.length + len l := by simp [len]
theorem len_append (a b : List Bytes) : len (a ++ b) = len a + len b := by simp [len]
theorem len_replicate (n : Nat) (a : Bytes) : len (List.replicate n a) = n * a.length := by
  induction n with
  | zero => simp [len]
  | succ n ih => rw [List.replicate_succ, len_cons, ih, Nat.succ_mul]; omega

theorem item_length (e : Entry) : (item e).length ≤ e.id.length + e.text.length + 20 := by
  unfold item
  rw [List.length_take]
  simp
  omega

theorem lead_len (current last level : Nat) : len (lead current last level).1 + 12 * (lead current last level).2 ≤ 12 * current + 23 := by
  unfold lead
  rw [goUp_eq]
  simp only []
  rw [len_append, len_append, len_replicate]
  have h1 : len (closeItem last level) ≤ 6 := by
    unfold closeItem; split <;> simp [len]
  have h2 : len (goDown (min current level) last level).1 + 12 * (goDown (min current level) last level).2 ≤ 12 * (min current level) + 17 := by
    unfold goDown
    split
    · split
      · rename_i h; rw [h]; simp [len]
      · split
        · simp [len]; omega
        · simp [len]
    · simp [len]
  have h3 : (b!"</ul>\n</li>\n" : Bytes).length = 12 := rfl
  rw [h3]
  omega

theorem entries_len (min max : Int) (es : List Entry) : (∀ e ∈ es, min ≤ e.level ∧ (e.level : Int) ≤ max) → ∀ current last,
    len (entries min max current last es).1 + 12 * (entries min max current last es).2 ≤
      12 * current + (es.map fun e => e.id.length + e.text.length + 55).sum := by
  induction es with
  | nil => intro _ current last; simp [entries, len]
  | cons e es ih =>
    intro h current last
    rw [entries_cons (h e (by simp))]
    simp only []
    rw [len_append, len_append, len_cons, len_nil]
    have h1 := ih (fun e he => h e (by simp [he])) (lead current last e.level).2 e.level
    have h2 := lead_len current last e.level
    have h3 := item_length e
    rw [List.map_cons, List.sum_cons]
    omega

theorem pieces_len (min max : Int) (es : List Entry) : len (pieces min max es) < size (shown min max es) := by
  unfold pieces
  simp only []
  rw [entries_shown, len_append, len_append, len_append, len_replicate, len_cons, len_cons, len_nil]
  have h := entries_len min max (shown min max es) (fun e he => shown_mem he) 0 0
  have h1 : (b!"</li>\n</ul>\n" : Bytes).length = 12 := rfl
  have h2 : (b!"<nav class=\"toc\">\n" : Bytes).length = 18 := rfl
  have h3 : (b!"</nav>\n" : Bytes).length = 7 := rfl
  rw [h1, h2, h3]
  unfold size
  omega

theorem table_fits {min max : Int} {es : List Entry} (h : size (shown min max es) ≤ 4096) :
    table min max es = .val (pieces min max es).flatten := by
  have h1 := pieces_len min max es
  have e : ((pieces min max es).map Tok.chunk).flatMap Tok.out = (pieces min max es).flatten := by
    rw [List.flatMap_map]; simp [Tok.out, List.flatMap_def]
  unfold table
  rw [DropBuf.run_fits, e]
  · intro t ht n k
    obtain ⟨a, _, rfl⟩ := List.mem_map.1 ht
    simp
  · rw [e]
    unfold len at h1
    omega

/-- The buffer never runs over. -/
theorem table_safe (min max : Int) (es : List Entry) : ∃ t, table min max es = .val t := by
  unfold table DropBuf.run
  simp only []
  have key : ∀ (l : List Bytes) (out : Bytes), out.length < 4096 →
      ((l.map Tok.chunk).foldl DropBuf.St.write ⟨4096, out⟩).cap = 4096 ∧
      ((l.map Tok.chunk).foldl DropBuf.St.write ⟨4096, out⟩).out.length < 4096 := by
    intro l
    induction l with
    | nil => intro out h; exact ⟨rfl, h⟩
    | cons a l ih =>
      intro out h
      rw [List.map_cons, List.foldl_cons, DropBuf.St.write]
      split
      · rename_i h2
        simp only [] at h2
        exact ih _ (by rw [List.length_append]; show out.length + _ < _; omega)
      · exact ih _ h
  obtain ⟨h1, h2⟩ := key (pieces min max es) [] (by decide)
  rw [finish_val (by omega)]
  exact ⟨_, rfl⟩

/-! ### Entries -/

theorem table_append {es : List Entry} {s : Bytes} (l : List Bytes) (hl : ∀ t ∈ l, t ∈ [b!"<ul>\n", b!"</ul>\n", b!"</li>\n", b!"</ul>\n</li>\n", b!"</li>\n</ul>\n"])
    (h : Table es s) : Table es (l.flatten ++ s) := by
  induction l with
  | nil => exact h
  | cons t l ih =>
    have ih := ih fun t ht => hl t (by simp [ht])
    rw [List.flatten_cons, List.append_assoc]
    have ht := hl t (by simp)
    simp only [List.mem_cons, List.not_mem_nil, or_false] at ht
    rcases ht with rfl | rfl | rfl | rfl | rfl
    · exact .tag (by simp) ih
    · exact .tag (by simp) ih
    · exact .tag (by simp) ih
    · exact .tag (t := b!"</ul>\n") (by simp) (.tag (t := b!"</li>\n") (by simp) ih)
    · exact .tag (t := b!"</li>\n") (by simp) (.tag (t := b!"</ul>\n") (by simp) ih)

theorem lead_mem {current last level : Nat} : ∀ t ∈ (lead current last level).1,
    t ∈ [b!"<ul>\n", b!"</ul>\n", b!"</li>\n", b!"</ul>\n</li>\n", b!"</li>\n</ul>\n"] := by
  unfold lead
  rw [goUp_eq]
  intro t ht
  simp only [List.mem_append] at ht
  rcases ht with (ht | ht) | ht
  · rw [(List.mem_replicate.1 ht).2]; simp
  · unfold goDown at ht
    split at ht
    · split at ht
      · simp at ht; rw [ht]; simp
      · split at ht
        · simp at ht; rw [ht]; simp
        · simp at ht
    · simp at ht
  · unfold closeItem at ht
    split at ht
    · simp at ht; rw [ht]; simp
    · simp at ht

theorem item_link {e : Entry} (h : e.id.length + e.text.length ≤ 1000) : item e = link e := by
  unfold item link
  rw [List.take_of_length_le]
  simp
  omega

theorem entries_table {min max : Int} {es : List Entry} (hr : ∀ e ∈ es, min ≤ e.level ∧ (e.level : Int) ≤ max)
    (h : ∀ e ∈ es, e.id.length + e.text.length ≤ 1000) (s : Bytes) (hs : Table [] s) : ∀ current last,
    Table es ((entries min max current last es).1.flatten ++ s) := by
  induction es with
  | nil => intro current last; simpa [entries] using hs
  | cons e es ih =>
    intro current last
    rw [entries_cons (hr e (by simp))]
    simp only [List.flatten_append, List.flatten_cons, List.flatten_nil, List.append_nil, List.append_assoc]
    rw [item_link (h e (by simp))]
    exact table_append _ lead_mem (.link (ih (fun e he => hr e (by simp [he])) (fun e he => h e (by simp [he])) _ _))

/-! ### The outline -/

theorem tags_plain {s : Bytes} (h : c!"<" ∉ s) (t : Bytes) : tags (s ++ t) = tags t := by
  induction s with
  | nil => rfl
  | cons c s ih =>
    rw [List.cons_append, tags, if_neg (by intro e; apply h; simp [e])]
    exact ih fun hm => h (by simp [hm])

theorem tags_ul (t : Bytes) : tags (b!"<ul>\n" ++ t) = .ul :: tags t := by
  have : tagAt (b!"ul>\n" ++ t) = some .ul := by
    unfold tagAt; rw [if_pos ⟨10 :: t, rfl⟩]
  show (tagAt (b!"ul>\n" ++ t)).toList ++ tags (b!"ul>\n" ++ t) = _
  rw [this, tags_plain (by decide)]
  rfl

theorem tags_ulEnd (t : Bytes) : tags (b!"</ul>\n" ++ t) = .ulEnd :: tags t := by
  have : tagAt (b!"/ul>\n" ++ t) = some .ulEnd := by
    unfold tagAt; rw [if_neg (by rintro ⟨x, h⟩; cases h), if_pos ⟨10 :: t, rfl⟩]
  show (tagAt (b!"/ul>\n" ++ t)).toList ++ tags (b!"/ul>\n" ++ t) = _
  rw [this, tags_plain (by decide)]
  rfl

theorem tags_liEnd (t : Bytes) : tags (b!"</li>\n" ++ t) = .liEnd :: tags t := by
  have : tagAt (b!"/li>\n" ++ t) = some .liEnd := by
    unfold tagAt
    rw [if_neg (by rintro ⟨x, h⟩; cases h), if_neg (by rintro ⟨x, h⟩; cases h), if_neg (by rintro ⟨x, h⟩; cases h),
      if_pos ⟨10 :: t, rfl⟩]
  show (tagAt (b!"/li>\n" ++ t)).toList ++ tags (b!"/li>\n" ++ t) = _
  rw [this, tags_plain (by decide)]
  rfl

theorem tags_link {e : Entry} (h : Plain e) (t : Bytes) : tags (link e ++ t) = .li :: .a :: tags t := by
  have h1 : ∀ s, tagAt (b!"li>" ++ s) = some .li := by
    intro s
    unfold tagAt
    rw [if_neg (by rintro ⟨x, h⟩; cases h), if_neg (by rintro ⟨x, h⟩; cases h), if_pos ⟨s, rfl⟩]
  have h2 : ∀ s, tagAt (b!"a " ++ s) = some .a := by
    intro s
    unfold tagAt
    rw [if_neg (by rintro ⟨x, h⟩; cases h), if_neg (by rintro ⟨x, h⟩; cases h), if_neg (by rintro ⟨x, h⟩; cases h),
      if_neg (by rintro ⟨x, h⟩; cases h), if_pos ⟨s, rfl⟩]
  have h3 : ∀ s, tagAt (b!"/a>" ++ s) = none := by
    intro s
    unfold tagAt
    rw [if_neg (by rintro ⟨x, h⟩; cases h), if_neg (by rintro ⟨x, h⟩; cases h), if_neg (by rintro ⟨x, h⟩; cases h),
      if_neg (by rintro ⟨x, h⟩; cases h), if_neg (by rintro ⟨x, h⟩; cases h)]
  have e1 : link e ++ t = c!"<" :: (b!"li>" ++ c!"<" :: (b!"a " ++ (b!"href=\"#" ++ (e.id ++ (b!"\">" ++ (e.text ++ (c!"<" :: (b!"/a>" ++ t)))))))) := by
    simp [link]
  rw [e1, tags, if_pos rfl, h1, tags_plain (by decide), tags, if_pos rfl, h2, tags_plain (by decide), tags_plain (by decide),
    tags_plain h.1, tags_plain (by decide), tags_plain h.2, tags, if_pos rfl, h3, tags_plain (by decide)]
  rfl

/-- `n` lists with an open item in each. -/
def nest : Nat → List Elem
  | 0 => []
  | n + 1 => .li :: .ul :: nest n

theorem nest_count (n : Nat) : (nest n).count .ul = n := by
  induction n with
  | zero => rfl
  | succ n ih => rw [nest, List.count_cons_of_ne (by decide), List.count_cons_self, ih]

theorem depths_up (n : Nat) : ∀ (k : Nat) (s : Bytes),
    depths (nest (k + n + 1)) (tags ((List.replicate (n + 1) b!"</ul>\n</li>\n").flatten ++ s)) =
      depths (match k with | 0 => [] | m + 1 => .ul :: nest m) (tags s) := by
  have one : ∀ (st : List Elem) (s : Bytes), depths st (tags (b!"</ul>\n</li>\n" ++ s)) = depths (step (step st .ulEnd) .liEnd) (tags s) := by
    intro st s
    have : b!"</ul>\n</li>\n" ++ s = b!"</ul>\n" ++ (b!"</li>\n" ++ s) := by simp
    rw [this, tags_ulEnd, tags_liEnd]
    simp [depths]
  intro k s
  have first : step (step (nest (k + n + 1)) .ulEnd) .liEnd = match k + n with | 0 => [] | m + 1 => .ul :: nest m := by
    show step (nest (k + n)) .liEnd = _
    cases k + n with
    | zero => rfl
    | succ m => rfl
  rw [List.replicate_succ, List.flatten_cons, List.append_assoc, one, first]
  clear first
  induction n with
  | zero => rfl
  | succ n ih =>
    rw [List.replicate_succ, List.flatten_cons, List.append_assoc, one]
    have : step (step (match k + (n + 1) with | 0 => [] | m + 1 => .ul :: nest m) .ulEnd) .liEnd =
        match k + n with | 0 => [] | m + 1 => .ul :: nest m := by
      show step (nest (k + n)) .liEnd = _
      cases k + n with
      | zero => rfl
      | succ m => rfl
    rw [this]
    exact ih

theorem depths_lead {l m : Nat} (h1 : 1 ≤ m) (h2 : m ≤ l + 1) {e : Entry} (hp : Plain e) (s : Bytes) :
    (lead l l m).2 = m ∧
    depths (nest l) (tags ((lead l l m).1.flatten ++ (link e ++ s))) = m :: depths (nest m) (tags s) := by
  have key : ∀ st, step st .li = nest m → depths st (tags (link e ++ s)) = m :: depths (nest m) (tags s) := by
    intro st hst
    rw [tags_link hp]
    rw [depths, hst, depths, if_neg (by decide), if_pos rfl, nest_count]
    rfl
  unfold lead
  rw [goUp_eq]
  simp only []
  by_cases hlt : m < l
  · have e1 : min l m = m := by omega
    rw [e1]
    unfold goDown closeItem
    rw [if_neg (by omega), if_pos (by omega)]
    refine ⟨rfl, ?_⟩
    simp only [List.append_nil, List.flatten_append, List.flatten_cons, List.flatten_nil, List.append_assoc]
    obtain ⟨n, rfl⟩ : ∃ n, l = m + n + 1 := ⟨l - m - 1, by omega⟩
    have e2 : m + n + 1 - m = n + 1 := by omega
    rw [e2, depths_up n m]
    obtain ⟨m', rfl⟩ : ∃ m', m = m' + 1 := ⟨m - 1, by omega⟩
    rw [tags_liEnd]
    simp only [depths]
    exact key _ rfl
  · have e1 : min l m = l := by omega
    have e2 : l - m = 0 := by omega
    rw [e1, e2]
    unfold goDown closeItem
    by_cases hl : l < m
    · have hm : m = l + 1 := by omega
      subst hm
      have hc : ¬ (l > 0 ∧ l + 1 ≤ l) := by omega
      rw [if_pos hl, if_neg hc]
      by_cases h0 : l = 0
      · subst h0
        refine ⟨rfl, ?_⟩
        simp only [List.replicate_zero, List.nil_append, if_true, List.append_nil, List.flatten_cons, List.flatten_nil]
        rw [tags_ul]
        simp only [depths]
        exact key _ rfl
      · rw [if_neg h0, if_pos (by omega)]
        refine ⟨rfl, ?_⟩
        simp only [List.replicate_zero, List.nil_append, List.append_nil, List.flatten_cons, List.flatten_nil]
        rw [tags_ul]
        simp only [depths]
        exact key _ rfl
    · have hm : m = l := by omega
      subst hm
      rw [if_neg (by omega), if_pos (by omega)]
      refine ⟨rfl, ?_⟩
      simp only [List.replicate_zero, List.nil_append, List.append_nil, List.flatten_cons, List.flatten_nil]
      rw [tags_liEnd]
      simp only [depths]
      obtain ⟨m', rfl⟩ : ∃ m', m = m' + 1 := ⟨m - 1, by omega⟩
      exact key _ rfl

theorem depths_close : ∀ (n : Nat) (st : List Elem) (s : Bytes), ∃ st',
    depths st (tags ((List.replicate n b!"</li>\n</ul>\n").flatten ++ s)) = depths st' (tags s) := by
  intro n
  induction n with
  | zero => intro st s; exact ⟨st, rfl⟩
  | succ n ih =>
    intro st s
    obtain ⟨st', h⟩ := ih (step (step st .liEnd) .ulEnd) s
    refine ⟨st', ?_⟩
    rw [← h]
    have : (List.replicate (n + 1) b!"</li>\n</ul>\n").flatten ++ s = b!"</li>\n" ++ (b!"</ul>\n" ++ ((List.replicate n b!"</li>\n</ul>\n").flatten ++ s)) := by
      simp [List.replicate_succ]
    rw [this, tags_liEnd, tags_ulEnd]
    simp [depths]

theorem depths_entries {min max : Int} (es : List Entry) : (∀ e ∈ es, min ≤ e.level ∧ (e.level : Int) ≤ max) →
    (∀ e ∈ es, Plain e) → (∀ e ∈ es, e.id.length + e.text.length ≤ 1000) → ∀ (l : Nat), Steps l es → ∀ (s : Bytes),
    depths (nest l) (tags ((entries min max l l es).1.flatten ++ s)) =
      es.map Entry.level ++ depths (nest (entries min max l l es).2) (tags s) := by
  induction es with
  | nil => intro _ _ _ l _ s; simp [entries]
  | cons e es ih =>
    intro hr hp hs l hst s
    obtain ⟨h1, h2, h3⟩ := hst
    obtain ⟨k1, k2⟩ := depths_lead h1 h2 (hp e (by simp)) ((entries min max e.level e.level es).1.flatten ++ s)
    rw [entries_cons (hr e (by simp)), k1]
    simp only [List.flatten_append, List.flatten_cons, List.flatten_nil, List.append_nil, List.append_assoc]
    rw [item_link (hs e (by simp)), k2, ih (fun e he => hr e (by simp [he])) (fun e he => hp e (by simp [he]))
      (fun e he => hs e (by simp [he])) _ h3]
    rfl

/-! ### Strictly -/

theorem strict_lead {l m : Nat} (h1 : 1 ≤ m) (h0 : l ≤ m) (h2 : m ≤ l + 1) {e : Entry} (hp : Plain e) (s : Bytes) :
    (lead l l m).2 = m ∧ strict (nest l) (tags ((lead l l m).1.flatten ++ (link e ++ s))) = strict (nest m) (tags s) := by
  unfold lead
  rw [goUp_eq]
  simp only []
  have e1 : min l m = l := by omega
  have e2 : l - m = 0 := by omega
  rw [e1, e2]
  unfold goDown closeItem
  by_cases hl : l < m
  · have hm : m = l + 1 := by omega
    subst hm
    have hc : ¬ (l > 0 ∧ l + 1 ≤ l) := by omega
    rw [if_pos hl, if_neg hc]
    by_cases h0 : l = 0
    · subst h0
      refine ⟨rfl, ?_⟩
      simp only [List.replicate_zero, List.nil_append, if_true, List.append_nil, List.flatten_cons, List.flatten_nil]
      rw [tags_ul, tags_link hp]
      rfl
    · rw [if_neg h0, if_pos (by omega)]
      refine ⟨rfl, ?_⟩
      simp only [List.replicate_zero, List.nil_append, List.append_nil, List.flatten_cons, List.flatten_nil]
      rw [tags_ul, tags_link hp]
      simp only [strict, nest]
  · have hm : m = l := by omega
    subst hm
    rw [if_neg (by omega), if_pos (by omega)]
    refine ⟨rfl, ?_⟩
    simp only [List.replicate_zero, List.nil_append, List.append_nil, List.flatten_cons, List.flatten_nil]
    rw [tags_liEnd, tags_link hp]
    obtain ⟨m', rfl⟩ : ∃ m', m = m' + 1 := ⟨m - 1, by omega⟩
    simp only [strict, nest]

theorem strict_close : ∀ (n : Nat) (s : Bytes),
    strict (nest n) (tags ((List.replicate n b!"</li>\n</ul>\n").flatten ++ s)) = strict [] (tags s) := by
  intro n
  induction n with
  | zero => intro s; rfl
  | succ n ih =>
    intro s
    have : (List.replicate (n + 1) b!"</li>\n</ul>\n").flatten ++ s = b!"</li>\n" ++ (b!"</ul>\n" ++ ((List.replicate n b!"</li>\n</ul>\n").flatten ++ s)) := by
      simp [List.replicate_succ]
    rw [this, tags_liEnd, tags_ulEnd]
    simp only [nest, strict]
    exact ih s

theorem strict_entries {min max : Int} (es : List Entry) : (∀ e ∈ es, min ≤ e.level ∧ (e.level : Int) ≤ max) →
    (∀ e ∈ es, Plain e) → (∀ e ∈ es, e.id.length + e.text.length ≤ 1000) → ∀ (l : Nat), Descends l es → ∀ (s : Bytes),
    strict (nest l) (tags ((entries min max l l es).1.flatten ++ s)) = strict (nest (entries min max l l es).2) (tags s) := by
  induction es with
  | nil => intro _ _ _ l _ s; simp [entries]
  | cons e es ih =>
    intro hr hp hs l hst s
    obtain ⟨h1, h0, h2, h3⟩ := hst
    obtain ⟨k1, k2⟩ := strict_lead h1 h0 h2 (hp e (by simp)) ((entries min max e.level e.level es).1.flatten ++ s)
    rw [entries_cons (hr e (by simp)), k1]
    simp only [List.flatten_append, List.flatten_cons, List.flatten_nil, List.append_nil, List.append_assoc]
    rw [item_link (hs e (by simp)), k2, ih (fun e he => hr e (by simp [he])) (fun e he => hp e (by simp [he]))
      (fun e he => hs e (by simp [he])) _ h3]

/-! ### Numbers -/

open Plugins (atoi atoiDigits atoiDigits_append atoiDigits_decimal decimal_digits)
open Man (decimal)
open Transforms (strstr strstr_le)
open Transforms.Spec (FirstOcc)
open HeaderIds (splitFirst splitFirst_iff)

theorem decimal_cons (n : Nat) : ∃ c r, decimal n = c :: r ∧ isDigit c = true := by
  have h := decimal_digits n
  cases hd : decimal n with
  | nil =>
    have h1 := Plugins.atoi_decimal (n * 10 + 1)
    rw [Man.decimal] at hd
    split at hd <;> simp at hd
  | cons c r => rw [hd] at h; exact ⟨c, r, rfl, h c (by simp)⟩

theorem digit_char : ∀ c : Byte, isDigit c = true → isSpace c = false ∧ c ≠ c!"-" ∧ c ≠ c!"+" ∧ c ≠ c!":" ∧ c ≠ c!"m" :=
  fun c h => forall_byte (p := fun c => isDigit c = true → isSpace c = false ∧ c ≠ c!"-" ∧ c ≠ c!"+" ∧ c ≠ c!":" ∧ c ≠ c!"m")
    (by decide +kernel) c h

theorem atoi_front (n : Nat) {d : Byte} (hd : isDigit d = false) (s : Bytes) : atoi (decimal n ++ d :: s) = n := by
  obtain ⟨c, r, hc, hcd⟩ := decimal_cons n
  obtain ⟨h1, h2, h3, _⟩ := digit_char c hcd
  have h := atoiDigits_append 0 (decimal n) (d :: s) (decimal_digits n)
  rw [atoiDigits_decimal] at h
  have hz : atoiDigits (n : Int) (d :: s) = n := by simp [atoiDigits, hd]
  rw [hz] at h
  rw [← h, hc]
  unfold atoi
  rw [List.cons_append, List.dropWhile_cons_of_neg (by simp [h1])]
  simp only []
  rw [if_neg h2, if_neg h3]

theorem levels_range (a b : Nat) (rest : Bytes) :
    levels (b!"{{TOC:" ++ decimal a ++ b!"-" ++ decimal b ++ b!"}}" ++ rest) = ((a : Int), (b : Int)) := by
  obtain ⟨c, r, hc, hcd⟩ := decimal_cons a
  obtain ⟨d, u, hd, hdd⟩ := decimal_cons b
  have e : b!"{{TOC:" ++ decimal a ++ b!"-" ++ decimal b ++ b!"}}" ++ rest =
      b!"{{TOC" ++ c!":" :: (decimal a ++ c!"-" :: (decimal b ++ c!"}" :: (c!"}" :: rest))) := by simp
  unfold levels
  rw [e]
  generalize (numberBehind _ _).getD 1 = m1
  generalize (numberBehind _ _).getD 6 = m2
  unfold afterColon
  rw [(splitFirst_iff ..).2 ⟨rfl, by decide⟩]
  simp only []
  have h1 : (decimal a ++ c!"-" :: (decimal b ++ c!"}" :: (c!"}" :: rest))).dropWhile isSpace =
      c :: (r ++ c!"-" :: (decimal b ++ c!"}" :: (c!"}" :: rest))) := by
    rw [hc, List.cons_append, List.dropWhile_cons_of_neg (by simp [(digit_char c hcd).1])]
  have h2 : splitFirst c!"-" (c :: (r ++ c!"-" :: (decimal b ++ c!"}" :: (c!"}" :: rest)))) =
      some (decimal a, d :: (u ++ c!"}" :: (c!"}" :: rest))) := by
    rw [splitFirst_iff]
    refine ⟨by rw [hc, hd]; simp, ?_⟩
    intro hm
    exact (digit_char _ (decimal_digits a _ hm)).2.1 rfl
  rw [h1]
  simp only []
  rw [if_pos hcd, h2]
  simp only []
  rw [if_pos hdd]
  have h3 := atoi_front a (d := c!"-") (by decide) (decimal b ++ c!"}" :: (c!"}" :: rest))
  have h4 := atoi_front b (d := c!"}") (by decide) (c!"}" :: rest)
  rw [hc, List.cons_append] at h3
  rw [hd, List.cons_append] at h4
  rw [h3, h4]

theorem afterColon_none {s : Bytes} (h : c!":" ∉ s) (m1 m2 : Int) : afterColon m1 m2 s = (m1, m2) := by
  unfold afterColon
  cases hs : splitFirst c!":" s with
  | none => rfl
  | some p =>
    obtain ⟨a, b⟩ := p
    exact absurd (by rw [((splitFirst_iff ..).1 hs).1]; simp) h

theorem strstr_skip {a : Bytes} {c : Byte} {p : Bytes} (h : c ∉ a) (s : Bytes) :
    strstr (a ++ s) (c :: p) = (strstr s (c :: p)).map (· + a.length) := by
  induction a with
  | nil => rw [List.nil_append]; cases strstr s (c :: p) <;> rfl
  | cons x a ih =>
    rw [List.cons_append]
    conv => lhs; unfold strstr
    rw [if_neg]
    · simp only []
      rw [ih fun hm => h (by simp [hm])]
      cases strstr s (c :: p) with
      | none => rfl
      | some i => simp; omega
    · intro hp
      obtain ⟨t, ht⟩ := List.isPrefixOf_iff_prefix.1 hp
      simp at ht
      exact h (by simp [ht.1])

theorem numberBehind_max (a : Nat) (w : Bytes) {d : Byte} (hd : isDigit d = false) (s : Bytes) (hw : c!"m" ∉ w) :
    numberBehind b!"max" (w ++ b!"max" ++ decimal a ++ d :: s) = some (a : Int) := by
  obtain ⟨c, r, hc, hcd⟩ := decimal_cons a
  have h1 : strstr (w ++ b!"max" ++ decimal a ++ d :: s) b!"max" = some w.length := by
    rw [List.append_assoc, List.append_assoc, strstr_skip hw]
    unfold strstr
    rw [if_pos (List.isPrefixOf_iff_prefix.2 ⟨_, rfl⟩)]
    simp
  have h2 : (w ++ b!"max" ++ decimal a ++ d :: s).drop (w.length + (b!"max").length) = decimal a ++ d :: s := by
    rw [List.append_assoc, ← List.length_append, List.drop_left]
  unfold numberBehind
  rw [h1]
  simp only []
  rw [h2, hc, List.cons_append, List.dropWhile_cons_of_neg (by simp [hcd])]
  simp only []
  rw [← List.cons_append, ← hc, atoi_front a hd]

theorem numberBehind_min (a b : Nat) (s : Bytes) :
    numberBehind b!"min" (b!"<!--TOC max" ++ decimal a ++ b!" min" ++ decimal b ++ b!"-->" ++ s) = some (b : Int) := by
  obtain ⟨c, r, hc, hcd⟩ := decimal_cons b
  have hm : c!"m" ∉ decimal a := fun h => (digit_char _ (decimal_digits a _ h)).2.2.2.2 rfl
  have e : b!"<!--TOC max" ++ decimal a ++ b!" min" ++ decimal b ++ b!"-->" ++ s =
      b!"<!--TOC " ++ c!"m" :: (b!"ax" ++ (decimal a ++ (b!" " ++ (b!"min" ++ (decimal b ++ c!"-" :: (b!"->" ++ s)))))) := by simp
  have one : ∀ t, strstr (c!"m" :: (b!"ax" ++ t)) b!"min" = (strstr (b!"ax" ++ t) b!"min").map (· + 1) := by
    intro t
    conv => lhs; unfold strstr
    rw [if_neg (by intro h; simp [List.isPrefixOf] at h)]
  have h1 : strstr (b!"<!--TOC max" ++ decimal a ++ b!" min" ++ decimal b ++ b!"-->" ++ s) b!"min" = some (12 + (decimal a).length) := by
    rw [e, strstr_skip (by decide), one, strstr_skip (by decide), strstr_skip hm, strstr_skip (by decide)]
    unfold strstr
    rw [if_pos (List.isPrefixOf_iff_prefix.2 ⟨_, rfl⟩)]
    simp
    omega
  have h2 : (b!"<!--TOC max" ++ decimal a ++ b!" min" ++ decimal b ++ b!"-->" ++ s).drop (12 + (decimal a).length + (b!"min").length) =
      decimal b ++ c!"-" :: (b!"->" ++ s) := by
    have e1 : b!"<!--TOC max" ++ decimal a ++ b!" min" ++ decimal b ++ b!"-->" ++ s =
        (b!"<!--TOC max" ++ decimal a ++ b!" min") ++ (decimal b ++ c!"-" :: (b!"->" ++ s)) := by simp
    have e2 : 12 + (decimal a).length + (b!"min").length = (b!"<!--TOC max" ++ decimal a ++ b!" min").length := by
      simp; omega
    rw [e1, e2, List.drop_left]
  unfold numberBehind
  rw [h1]
  simp only []
  rw [h2, hc, List.cons_append, List.dropWhile_cons_of_neg (by simp [hcd])]
  simp only []
  rw [← List.cons_append, ← hc, atoi_front b (by decide)]

theorem levels_words (a b : Nat) {rest : Bytes} (h : c!":" ∉ rest) :
    levels (b!"<!--TOC max" ++ decimal a ++ b!" min" ++ decimal b ++ b!"-->" ++ rest) = ((b : Int), (a : Int)) := by
  unfold levels
  rw [numberBehind_min, afterColon_none]
  · have e : b!"<!--TOC max" ++ decimal a ++ b!" min" ++ decimal b ++ b!"-->" ++ rest =
        b!"<!--TOC " ++ b!"max" ++ decimal a ++ 32 :: (b!"min" ++ decimal b ++ b!"-->" ++ rest) := by simp
    rw [e, numberBehind_max a b!"<!--TOC " (by decide) _ (by decide)]
    rfl
  · have h1 : ∀ n, c!":" ∉ decimal n := fun n h => (digit_char _ (decimal_digits n _ h)).2.2.2.1 rfl
    simp only [List.mem_append, not_or]
    exact ⟨⟨⟨⟨⟨by decide, h1 a⟩, by decide⟩, h1 b⟩, by decide⟩, h⟩

theorem levels_bare {m : Bytes} (hm : m = b!"<!--TOC-->" ∨ m = b!"{{TOC}}") {rest : Bytes} (h : c!":" ∉ rest) (h1 : ¬ b!"max" <:+: rest)
    (h2 : ¬ b!"min" <:+: rest) : levels (m ++ rest) = (1, 6) := by
  have hmm : c!"m" ∉ m ∧ c!":" ∉ m := by rcases hm with rfl | rfl <;> decide
  have n1 : strstr (m ++ rest) b!"max" = none := by
    rw [strstr_skip hmm.1, Transforms.strstr_of_not_infix h1]; rfl
  have n2 : strstr (m ++ rest) b!"min" = none := by
    rw [strstr_skip hmm.1, Transforms.strstr_of_not_infix h2]; rfl
  unfold levels
  rw [afterColon_none]
  · unfold numberBehind
    rw [n1, n2]
    rfl
  · simp only [List.mem_append, not_or]
    exact ⟨hmm.2, h⟩

/-! ### Code -/

theorem opens_iff {name r : Bytes} : opens name (c!"<" :: r) = true ↔
    ∃ n c u, r = n ++ c :: u ∧ n.length = name.length ∧ n.map toLower = name ∧ (c = c!">" ∨ c = 32 ∨ c = 9 ∨ c = 10) := by
  unfold opens
  have e1 : (c!"<" :: r).drop 1 = r := rfl
  have e2 : (c!"<" :: r).drop (1 + name.length) = r.drop name.length := by rw [Nat.add_comm]; rfl
  rw [e1, e2]
  constructor
  · intro h
    simp only [Bool.and_eq_true, beq_iff_eq] at h
    obtain ⟨h1, h2⟩ := h
    cases hd : r.drop name.length with
    | nil => rw [hd] at h2; simp at h2
    | cons c u =>
      rw [hd] at h2
      refine ⟨r.take name.length, c, u, by rw [← hd, List.take_append_drop], ?_, h1, ?_⟩
      · rw [← h1]; simp
      · simp only [Bool.or_eq_true, beq_iff_eq] at h2
        rcases h2 with ((h | h) | h) | h <;> simp [h]
  · rintro ⟨n, c, u, rfl, hn, h1, h2⟩
    rw [← hn, List.take_left, List.drop_left]
    simp only [Bool.and_eq_true, beq_iff_eq, Bool.or_eq_true]
    refine ⟨h1, ?_⟩
    rcases h2 with h | h | h | h <;> simp [h]

theorem closes_iff {name r : Bytes} (h : closes name (c!"<" :: r) = true) :
    ∃ n u, r = c!"/" :: n ++ c!">" :: u ∧ n.length = name.length ∧ n.map toLower = name := by
  unfold closes at h
  simp only [Bool.and_eq_true, beq_iff_eq] at h
  obtain ⟨⟨h0, h1⟩, h2⟩ := h
  cases r with
  | nil => simp at h0
  | cons x r =>
    have hx : x = c!"/" := by simpa using h0
    subst hx
    have e1 : (c!"<" :: c!"/" :: r).drop 2 = r := rfl
    have e2 : (c!"<" :: c!"/" :: r).drop (2 + name.length) = r.drop name.length := by rw [Nat.add_comm]; rfl
    rw [e1] at h1
    rw [e2] at h2
    cases hd : r.drop name.length with
    | nil => rw [hd] at h2; simp at h2
    | cons c u =>
      rw [hd] at h2
      have hc : c = c!">" := by simpa using h2
      subst hc
      refine ⟨r.take name.length, u, ?_, ?_, h1⟩
      · rw [List.cons_append, ← hd, List.take_append_drop]
      · rw [← h1]; simp

theorem lower_lt : ∀ c : Byte, toLower c = c!"<" ↔ c = c!"<" :=
  fun c => forall_byte (p := fun c => toLower c = c!"<" ↔ c = c!"<") (by decide +kernel) c

theorem no_lt {n name : Bytes} (h : n.map toLower = name) (hn : c!"<" ∉ name) : c!"<" ∉ n := by
  intro hm
  apply hn
  rw [← h]
  exact List.mem_map.2 ⟨_, hm, (lower_lt _).2 rfl⟩

/-- A part without `<` does not reach behind the next `<`. -/
theorem before_lt {a r n u : Bytes} (h : a ++ c!"<" :: r = n ++ u) (hn : c!"<" ∉ n) : n.length ≤ a.length := by
  rcases Nat.lt_or_ge a.length n.length with hl | hl
  · exfalso
    apply hn
    have : (a ++ c!"<" :: r)[a.length]? = some c!"<" := by simp
    rw [h, List.getElem?_append_left hl] at this
    exact List.mem_of_getElem? this
  · exact hl

theorem openTag_iff {r : Bytes} : OpenTag (c!"<" :: r) ↔ opens b!"code" (c!"<" :: r) = true ∨ opens b!"pre" (c!"<" :: r) = true := by
  rw [opens_iff, opens_iff]
  constructor
  · rintro ⟨n, c, u, e, h, hc⟩
    have e : r = n ++ c :: u := by simpa using e
    simp only [List.mem_cons, List.not_mem_nil, or_false] at h
    rcases h with h | h
    · exact .inl ⟨n, c, u, e, by rw [← h]; simp, h, hc⟩
    · exact .inr ⟨n, c, u, e, by rw [← h]; simp, h, hc⟩
  · rintro (⟨n, c, u, e, -, h, hc⟩ | ⟨n, c, u, e, -, h, hc⟩)
    · exact ⟨n, c, u, by rw [e]; rfl, by simp [h], hc⟩
    · exact ⟨n, c, u, by rw [e]; rfl, by simp [h], hc⟩

theorem openTag_lt {t : Bytes} (h : OpenTag t) : ∃ r, t = c!"<" :: r := by
  obtain ⟨n, c, r, e, -⟩ := h
  exact ⟨n ++ c :: r, by rw [e]; rfl⟩

/-- What the search does to one byte. -/
theorem scan_cons (code pre : Nat) (c : Byte) (r : Bytes) : ∃ k code' pre', scan code pre (c :: r) = scan code' pre' (r.drop k) ∧
    (k ≤ r.length) ∧ (∃ n, c!"<" ∉ n ∧ n.length = k ∧ r = n ++ r.drop k) ∧
    (¬ OpenTag (c :: r) → code' ≤ code ∧ pre' ≤ pre) ∧
    (OpenTag (c :: r) → code' + pre' = code + pre + 1) ∧
    (¬ b!"</" <+: c :: r → code ≤ code' ∧ pre ≤ pre') := by
  conv in scan code pre (c :: r) => unfold scan
  have fresh : ∀ {name n u : Bytes} {k : Nat}, c!"<" ∉ name → n.map toLower = name → n.length = name.length → r = n ++ u → name.length = k →
      k ≤ r.length ∧ ∃ n, c!"<" ∉ n ∧ n.length = k ∧ r = n ++ r.drop k := by
    intro name n u k h1 h2 h3 h4 h5
    subst h4
    refine ⟨by simp; omega, n, no_lt h2 h1, by omega, ?_⟩
    rw [← h5, ← h3, List.drop_left]
  by_cases hc : c = c!"<"
  · subst hc
    by_cases h1 : opens b!"code" (c!"<" :: r) = true
    · obtain ⟨n, d, u, e, hl, hm, -⟩ := opens_iff.1 h1
      obtain ⟨f1, f2⟩ := fresh (k := 4) (by decide) hm hl e rfl
      refine ⟨4, code + 1, pre, by rw [if_pos ⟨rfl, h1⟩], f1, f2, ?_, fun _ => by omega, fun _ => by omega⟩
      intro hn
      exact absurd (openTag_iff.2 (.inl h1)) hn
    · by_cases h2 : opens b!"pre" (c!"<" :: r) = true
      · obtain ⟨n, d, u, e, hl, hm, -⟩ := opens_iff.1 h2
        obtain ⟨f1, f2⟩ := fresh (k := 3) (by decide) hm hl e rfl
        refine ⟨3, code, pre + 1, by rw [if_neg (by simp [h1]), if_pos ⟨rfl, h2⟩], f1, f2, ?_, fun _ => by omega, fun _ => by omega⟩
        intro hn
        exact absurd (openTag_iff.2 (.inr h2)) hn
      · have ho : ¬ OpenTag (c!"<" :: r) := fun h => by rcases openTag_iff.1 h with h | h <;> contradiction
        by_cases h3 : closes b!"code" (c!"<" :: r) = true
        · obtain ⟨n, u, e, hl, hm⟩ := closes_iff h3
          have e1 : r = (c!"/" :: n ++ [c!">"]) ++ u := by rw [e]; simp
          refine ⟨6, code - 1, pre, by rw [if_neg (by simp [h1]), if_neg (by simp [h2]), if_pos ⟨rfl, h3⟩], ?_, ?_, fun _ => by omega,
            fun h => absurd h ho, ?_⟩
          · rw [e1]; simp at hl ⊢; omega
          · have hlen : (c!"/" :: n ++ [c!">"]).length = 6 := by simp at hl ⊢; omega
            refine ⟨_, ?_, hlen, ?_⟩
            · simpa using no_lt hm (by decide)
            · conv => rhs; rw [e1, ← hlen, List.drop_left]
              exact e1
          · intro hn
            exact absurd ⟨n ++ c!">" :: u, by rw [e]; rfl⟩ hn
        · by_cases h4 : closes b!"pre" (c!"<" :: r) = true
          · obtain ⟨n, u, e, hl, hm⟩ := closes_iff h4
            have e1 : r = (c!"/" :: n ++ [c!">"]) ++ u := by rw [e]; simp
            refine ⟨5, code, pre - 1, by rw [if_neg (by simp [h1]), if_neg (by simp [h2]), if_neg (by simp [h3]), if_pos ⟨rfl, h4⟩],
              ?_, ?_, fun _ => by omega, fun h => absurd h ho, ?_⟩
            · rw [e1]; simp at hl ⊢; omega
            · have hlen : (c!"/" :: n ++ [c!">"]).length = 5 := by simp at hl ⊢; omega
              refine ⟨_, ?_, hlen, ?_⟩
              · simpa using no_lt hm (by decide)
              · conv => rhs; rw [e1, ← hlen, List.drop_left]
                exact e1
            · intro hn
              exact absurd ⟨n ++ c!">" :: u, by rw [e]; rfl⟩ hn
          · refine ⟨0, code, pre, by simp [h1, h2, h3, h4], by omega, ⟨[], by simp, rfl, rfl⟩, fun _ => by omega, fun h => absurd h ho,
              fun _ => by omega⟩
  · refine ⟨0, code, pre, by simp [hc], by omega, ⟨[], by simp, rfl, rfl⟩, fun _ => by omega, ?_, fun _ => by omega⟩
    intro h
    obtain ⟨r', h'⟩ := openTag_lt h
    simp at h'
    exact absurd h'.1 hc

theorem scan_split (r : Bytes) : ∀ (n : Nat) (a : Bytes), a.length ≤ n → ∀ code pre, ∃ code' pre',
    scan code pre (a ++ c!"<" :: r) = scan code' pre' (c!"<" :: r) := by
  intro n
  induction n with
  | zero =>
    intro a ha code pre
    have : a = [] := List.eq_nil_of_length_eq_zero (by omega)
    subst this
    exact ⟨code, pre, rfl⟩
  | succ n ih =>
    intro a ha code pre
    cases a with
    | nil => exact ⟨code, pre, rfl⟩
    | cons c a =>
      rw [List.cons_append]
      obtain ⟨k, code', pre', h, hk, ⟨m, hm1, hm2, hm3⟩, -⟩ := scan_cons code pre c (a ++ c!"<" :: r)
      have hle := before_lt hm3 hm1
      rw [hm2] at hle
      rw [h, List.drop_append_of_le_length hle]
      exact ih _ (by simp at ha ⊢; omega) _ _

theorem scan_open {t : Bytes} (h : OpenTag t) (hn : ¬ b!"</" <:+: t) (code pre : Nat) :
    0 < (scan code pre t).1 + (scan code pre t).2 := by
  have mono : ∀ (n : Nat) (t : Bytes), t.length ≤ n → ¬ b!"</" <:+: t → ∀ code pre,
      code + pre ≤ (scan code pre t).1 + (scan code pre t).2 := by
    intro n
    induction n with
    | zero =>
      intro t ht _ code pre
      have : t = [] := List.eq_nil_of_length_eq_zero (by omega)
      subst this
      rw [scan]
      exact Nat.le_refl _
    | succ n ih =>
      intro t ht hn code pre
      cases t with
      | nil => rw [scan]; exact Nat.le_refl _
      | cons c r =>
        obtain ⟨k, code', pre', h, hk, -, -, -, h3⟩ := scan_cons code pre c r
        have h4 := h3 fun hp => hn hp.isInfix
        rw [h]
        have := ih (r.drop k) (by simp at ht ⊢; omega)
          (fun hi => hn (hi.trans ((List.drop_suffix k r).isInfix.trans (List.suffix_cons c r).isInfix))) code' pre'
        omega
  obtain ⟨r, rfl⟩ := openTag_lt h
  obtain ⟨k, code', pre', e, hk, -, -, h2, -⟩ := scan_cons code pre c!"<" r
  rw [e]
  have := mono _ (r.drop k) (Nat.le_refl _)
    (fun hi => hn (hi.trans ((List.drop_suffix k r).isInfix.trans (List.suffix_cons c!"<" r).isInfix))) code' pre'
  have := h2 h
  omega

theorem inside_code {before : Bytes} (h : InCode before) : inside before = true := by
  obtain ⟨a, t, rfl, ho, hn⟩ := h
  obtain ⟨r, rfl⟩ := openTag_lt ho
  obtain ⟨code, pre, e⟩ := scan_split r _ a (Nat.le_refl _) 0 0
  have := scan_open ho hn code pre
  unfold inside
  rw [e]
  simp only [Bool.or_eq_true, decide_eq_true_eq]
  omega

theorem inside_plain {before : Bytes} (h : NoCode before) : inside before = false := by
  have key : ∀ (n : Nat) (t : Bytes), t.length ≤ n → NoCode t → scan 0 0 t = (0, 0) := by
    intro n
    induction n with
    | zero =>
      intro t ht _
      have : t = [] := List.eq_nil_of_length_eq_zero (by omega)
      subst this
      rw [scan]
    | succ n ih =>
      intro t ht hn
      cases t with
      | nil => rw [scan]
      | cons c r =>
        obtain ⟨k, code', pre', h, hk, -, h2, -⟩ := scan_cons 0 0 c r
        have h3 := h2 (hn [] _ rfl)
        have h4 : code' = 0 := by omega
        have h5 : pre' = 0 := by omega
        subst h4 h5
        rw [h]
        refine ih _ (by simp at ht ⊢; omega) ?_
        intro a t e
        refine hn (c :: r.take k ++ a) t ?_
        rw [List.append_assoc, ← e, List.cons_append, List.take_append_drop]
  unfold inside
  rw [key _ before (Nat.le_refl _) h]
  rfl

/-! ### The marker -/

/-- No two kinds of markers at one place. -/
theorem marks_same {s : Bytes} {i : Nat} (h1 : strstr s b!"<!--TOC" = some i) (h2 : strstr s b!"{{TOC" = some i) : False := by
  have e1 := (Transforms.strstr_some h1).1
  have e2 := (Transforms.strstr_some h2).1
  rw [e1, List.append_assoc, List.append_assoc] at e2
  have e3 : (s.take i ++ (b!"<!--TOC" ++ s.drop (i + (b!"<!--TOC").length))).take i = s.take i := by
    rw [← List.append_assoc, ← e1]
  rw [e3] at e2
  have := List.append_cancel_left e2
  simp at this

theorem nextMarker_some {s : Bytes} {i : Nat} {k : Bool} (h : nextMarker s = some (i, k)) :
    ∃ m ∈ marks, k = decide (m = b!"<!--TOC") ∧ ∃ r, s = s.take i ++ m ++ r := by
  have key : ∀ m ∈ marks, ∀ i, strstr s m = some i → ∃ r, s = s.take i ++ m ++ r :=
    fun m hm i hi => ⟨_, (Transforms.strstr_some hi).1⟩
  unfold nextMarker at h
  split at h
  · cases h
  · rename_i h1 _; cases h; exact ⟨b!"<!--TOC", by decide, by decide, key _ (by decide) _ h1⟩
  · rename_i _ h1; cases h; exact ⟨b!"{{TOC", by decide, by decide, key _ (by decide) _ h1⟩
  · rename_i a b h1 h2
    split at h
    · cases h; exact ⟨b!"<!--TOC", by decide, by decide, key _ (by decide) _ h1⟩
    · have hne : a ≠ i := by
        intro he
        cases h
        exact marks_same h1 (by rw [he]; exact h2)
      cases h
      exact ⟨b!"{{TOC", by decide, by simp [hne], key _ (by decide) _ h2⟩

theorem find_some (html : Bytes) (p : Nat) {i : Nat} {k : Bool} (h : find html p = some (i, k)) :
    inside (html.take i) = false ∧ i < html.length ∧ ∃ m ∈ marks, k = decide (m = b!"<!--TOC") ∧ ∃ r, html = html.take i ++ m ++ r := by
  fun_induction find html p with
  | case1 => cases h
  | case2 p j k' hm hi ih => exact ih h
  | case3 p j k' hm hi =>
    cases h
    have hlt := nextMarker_lt hm
    rw [List.length_drop] at hlt
    refine ⟨by simpa using hi, by omega, ?_⟩
    obtain ⟨m, hmm, hk, r, e⟩ := nextMarker_some hm
    refine ⟨m, hmm, hk, r, ?_⟩
    have : html.take (p + j) = html.take p ++ (html.drop p).take j := by rw [List.take_add]
    rw [this, List.append_assoc, List.append_assoc, ← List.append_assoc ((html.drop p).take j), ← e, List.take_append_drop]

/-- The end of a marker is behind its start. -/
theorem closer_behind {m : Bytes} (hm : m ∈ marks) {x r r' : Bytes}
    (h : m ++ r' = x ++ closer (decide (m = b!"<!--TOC")) ++ r) : ∃ y, x = m ++ y := by
  unfold marks at hm
  simp only [List.mem_cons, List.not_mem_nil, or_false] at hm
  rcases hm with rfl | rfl
  · rw [show closer (decide (b!"<!--TOC" = b!"<!--TOC")) = b!"-->" by decide] at h
    rcases x with _ | ⟨x1, _ | ⟨x2, _ | ⟨x3, _ | ⟨x4, _ | ⟨x5, _ | ⟨x6, _ | ⟨x7, x⟩⟩⟩⟩⟩⟩⟩ <;> simp at h
    obtain ⟨rfl, rfl, rfl, rfl, rfl, rfl, rfl, -⟩ := h
    exact ⟨x, rfl⟩
  · rw [show closer (decide (b!"{{TOC" = b!"<!--TOC")) = b!"}}" by decide] at h
    rcases x with _ | ⟨x1, _ | ⟨x2, _ | ⟨x3, _ | ⟨x4, _ | ⟨x5, x⟩⟩⟩⟩⟩ <;> simp at h
    obtain ⟨rfl, rfl, rfl, rfl, rfl, -⟩ := h
    exact ⟨x, rfl⟩

theorem nextMarker_first {s : Bytes} {a m r : Bytes} (hm : m ∈ marks) (e : s = a ++ m ++ r)
    (h : ∀ m' ∈ marks, ∀ a' r', s = a' ++ m' ++ r' → a.length ≤ a'.length) :
    nextMarker s = some (a.length, decide (m = b!"<!--TOC")) := by
  have first : strstr s m = some a.length := Critic.strstr_first ⟨e, fun p r' e' => h m hm p r' e'⟩
  have other : ∀ m' ∈ marks, ∀ j, strstr s m' = some j → a.length ≤ j := by
    intro m' hm' j hj
    have hf := Transforms.strstr_some hj
    have hle := strstr_le hj
    have := h m' hm' _ _ hf.1
    rw [List.length_take] at this
    omega
  have same : ∀ m' ∈ marks, m' ≠ m → strstr s m' ≠ some a.length := by
    intro m' hm' hne hj
    have h1 := (Transforms.strstr_some hj).1
    have e2 : s.take a.length = a := by rw [e, List.append_assoc, List.take_left]
    rw [e2] at h1
    rw [e, List.append_assoc, List.append_assoc] at h1
    have h2 := List.append_cancel_left h1
    unfold marks at hm hm'
    simp only [List.mem_cons, List.not_mem_nil, or_false] at hm hm'
    rcases hm with rfl | rfl <;> rcases hm' with rfl | rfl
    · exact hne rfl
    · simp at h2
    · simp at h2
    · exact hne rfl
  unfold nextMarker
  unfold marks at hm
  simp only [List.mem_cons, List.not_mem_nil, or_false] at hm
  rcases hm with rfl | rfl
  · rw [first]
    cases h2 : strstr s b!"{{TOC" with
    | none => simp
    | some j =>
      have h3 := other _ (by decide) _ h2
      have h4 : j ≠ a.length := fun hh => same b!"{{TOC" (by decide) (by decide) (by rw [h2, hh])
      simp only []
      rw [if_pos (by omega)]
      simp
  · rw [first]
    cases h2 : strstr s b!"<!--TOC" with
    | none => simp
    | some j =>
      have h3 := other _ (by decide) _ h2
      have h4 : j ≠ a.length := fun hh => same b!"<!--TOC" (by decide) (by decide) (by rw [h2, hh])
      simp only []
      rw [if_neg (by omega)]
      simp [h4]

theorem find_first {html a m r : Bytes} (hm : m ∈ marks) (e : html = a ++ m ++ r)
    (h : ∀ m' ∈ marks, ∀ a' r', html = a' ++ m' ++ r' → a.length ≤ a'.length) (hc : NoCode a) :
    find html 0 = some (a.length, decide (m = b!"<!--TOC")) := by
  unfold find
  have hn := nextMarker_first hm e h
  have e2 : html.take a.length = a := by rw [e, List.append_assoc, List.take_left]
  split
  · rename_i hx
    rw [List.drop_zero, hn] at hx
    cases hx
  · rename_i i k hx
    rw [List.drop_zero, hn] at hx
    cases hx
    rw [Nat.zero_add, e2, inside_plain hc]
    rfl

theorem replace_eq (html toc : Bytes) (i : Nat) (k : Bool) :
    (¬ closer k <:+: html.drop i ∧ replace html toc i k = .val html) ∨
    ∃ x r, FirstOcc (closer k) (html.drop i) x r ∧ replace html toc i k = .val (html.take i ++ toc ++ r) := by
  unfold replace
  cases hs : strstr (html.drop i) (closer k) with
  | none => exact .inl ⟨Transforms.strstr_none hs, rfl⟩
  | some e =>
    right
    refine ⟨_, _, Transforms.strstr_some hs, ?_⟩
    have hle := strstr_le hs
    rw [List.length_drop] at hle
    simp only []
    rw [puts_val (by simp; omega)]
    simp only [C.val_bind]
    rw [puts_val (by simp; omega)]
    simp only [C.val_bind]
    rw [puts_val (by simp; omega)]
    simp only [C.val_bind]
    rw [finish_val (by simp; omega), List.nil_append, List.drop_drop, Nat.add_assoc]

theorem withIds_map {tab : List Emoji.Entry} {fmt : HeaderIds.Format} : ∀ {hs : List Heading} {es : List Entry}, withIds tab fmt hs = .val es →
    es.map (fun e => (e.level, e.text)) = hs.map (fun h => (h.level, h.text)) ∧
    ∀ e ∈ es, HeaderIds.generate tab fmt e.text = .val e.id := by
  intro hs
  induction hs with
  | nil => intro es h; cases h; simp
  | cons h hs ih =>
    intro es he
    unfold withIds at he
    cases hg : HeaderIds.generate tab fmt h.text with
    | ub => rw [hg] at he; cases he
    | val id =>
      rw [hg, C.val_bind] at he
      cases hw : withIds tab fmt hs with
      | ub => rw [hw] at he; cases he
      | val es' =>
        rw [hw, C.val_bind] at he
        cases he
        obtain ⟨h1, h2⟩ := ih hw
        constructor
        · simp [h1]
        · intro e hm
          rcases List.mem_cons.1 hm with rfl | hm
          · exact hg
          · exact h2 e hm

end Verif.Toc
