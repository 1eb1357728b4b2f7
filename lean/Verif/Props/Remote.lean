/-
The directories of plugins and filters (C196 - C198).
-/
import Verif.Proof.Remote

namespace Verif.Remote
open Spec

/-! ### Texts for the examples -/

/-- A member without blanks but for one behind its colon. -/
def mem (k v : Bytes) : Member := ⟨k, v, [], [], b!" ", []⟩

/-- An object on its own line. -/
def obj (ms : List (Bytes × Bytes)) : Item := ⟨b!"\n  ", ms.map fun p => mem p.1 p.2, []⟩

/-- A string of bytes that need no escape, decided. -/
theorem str_of {s : Bytes} (h : ∀ c ∈ s, c ≠ c!"\"" ∧ c ≠ c!"\\") : Str s := by
  induction s with
  | nil => exact .nil
  | cons c s ih => exact .plain (h c (List.mem_cons_self ..)).1 (h c (List.mem_cons_self ..)).2 (ih fun x hx => h x (List.mem_cons_of_mem _ hx))

theorem mem_ok {k v : Bytes} (hk : ∀ c ∈ k, isAlpha c = true) (hv : ∀ c ∈ v, c ≠ c!"\"" ∧ c ≠ c!"\\" ∧ c ≠ c!"{" ∧ c ≠ c!"}") : (mem k v).Ok :=
  ⟨⟨by simp [mem, Gap], by simp [mem, Gap], by simp [mem, Near], by simp [mem, Gap]⟩, hk, str_of fun c hc => ⟨(hv c hc).1, (hv c hc).2.1⟩,
    fun h => (hv _ h).2.2.1 rfl, fun h => (hv _ h).2.2.2 rfl⟩

/-- A value with a byte that is in no key and no quote inside. -/
theorem mem_quiet {k v key : Bytes} (hk : ∀ c ∈ k, isAlpha c = true) (hv : ∀ c ∈ v, c ≠ c!"\"") (h : ∃ a b c, v = a ++ c :: b ∧ Sep c) : Quiet k (mem key v) := by
  obtain ⟨a, b, c, rfl, hc⟩ := h
  have one : ∀ x : Bytes, c!"\"" ∉ x → ¬ str k <:+: c!"\"" :: x := by
    rintro x hx ⟨p, s, e⟩
    have := congrArg (List.count c!"\"") e
    simp only [str, List.count_append, List.count_cons_self, List.count_eq_zero.2 hx, List.count_singleton_self, List.count_eq_zero.2 (alpha_not hk)] at this
    omega
  have two : ∀ x : Bytes, c!"\"" ∉ x → ¬ str k <:+: x ++ [c!"\""] := by
    rintro x hx ⟨p, s, e⟩
    have := congrArg (List.count c!"\"") e
    simp only [str, List.count_append, List.count_eq_zero.2 hx, List.count_singleton_self, List.count_eq_zero.2 (alpha_not hk)] at this
    omega
  have e : str (mem key (a ++ c :: b)).val = (c!"\"" :: a) ++ c :: (b ++ [c!"\""]) := by simp [mem, str]
  unfold Quiet
  rw [e]
  exact not_mid (sep_not hk hc) (one a fun h => hv _ (by simp [h]) rfl) (two b fun h => hv _ (by simp [h]) rfl)

/-! ### C196: the directory is read as it is written -/

/-- C196, for directories of objects of strings without braces whose values are on the line of their colons and cannot be taken for keys: the entries are those of the objects with an id and a repository,
the last first; values keep their escapes.  Missing: all other JSON. -/
theorem C196_directory_partial {word before g1 g2 after : Bytes} {xs : List Item} (hw : ∀ c ∈ word, isAlpha c = true) (hb : ¬ str word <:+: before)
    (hl : before = [] ∨ ∃ b c, before = b ++ [c] ∧ Sep c) (h1 : Gap g1) (h2 : Gap g2) (hx : ∀ x ∈ xs, x.Ok) (hq : ∀ k ∈ keys, ∀ x ∈ xs, ∀ m ∈ x.members, Quiet k m) :
    parse word (directory word before g1 g2 after xs) = some (xs.filterMap fun x => entryOf x.members).reverse := parse_directory hw hb hl h1 h2 hx hq

/-- C196: the value of a key in an object, for all such objects. -/
theorem C196_value_partial {k : Bytes} (hk : ∀ c ∈ k, isAlpha c = true) (ms : List Member) (hm : ∀ m ∈ ms, m.Ok ∧ Quiet k m) : extract k (object ms) = value k ms :=
  extract_object hk ms hm

/-- Two objects. -/
def two : List Item := [obj [(b!"id", b!"a-1"), (b!"repo", b!"u/a")], obj [(b!"title", b!"B 2"), (b!"id", b!"b-2"), (b!"repo", b!"u/b")]]

theorem two_members {x : Item} (hx : x ∈ two) {m : Member} (hm : m ∈ x.members) :
    m ∈ [mem b!"id" b!"a-1", mem b!"repo" b!"u/a", mem b!"title" b!"B 2", mem b!"id" b!"b-2", mem b!"repo" b!"u/b"] := by
  simp only [two, List.mem_cons, List.not_mem_nil, or_false] at hx
  rcases hx with rfl | rfl <;> simp only [obj, List.map_cons, List.map_nil, List.mem_cons, List.not_mem_nil, or_false] at hm ⊢
  · rcases hm with rfl | rfl <;> simp
  · rcases hm with rfl | rfl | rfl <;> simp

theorem two_ok {x : Item} (hx : x ∈ two) : x.Ok := by
  refine ⟨?_, fun m hm => ?_⟩
  · simp only [two, List.mem_cons, List.not_mem_nil, or_false] at hx
    rcases hx with rfl | rfl <;> exact ⟨by simp [obj, Gap], by simp [obj, Gap]⟩
  · have h := two_members hx hm
    simp only [List.mem_cons, List.not_mem_nil, or_false] at h
    rcases h with rfl | rfl | rfl | rfl | rfl <;> exact mem_ok (by decide) (by decide)

theorem two_quiet {x : Item} (hx : x ∈ two) {m : Member} (hm : m ∈ x.members) {k : Bytes} (hk : ∀ c ∈ k, isAlpha c = true) : Quiet k m := by
  have h := two_members hx hm
  simp only [List.mem_cons, List.not_mem_nil, or_false] at h
  rcases h with rfl | rfl | rfl | rfl | rfl
  · exact mem_quiet hk (by decide) ⟨b!"a", b!"1", c!"-", rfl, by decide, by decide⟩
  · exact mem_quiet hk (by decide) ⟨b!"u", b!"a", c!"/", rfl, by decide, by decide⟩
  · exact mem_quiet hk (by decide) ⟨b!"B", b!"2", c!" ", rfl, by decide, by decide⟩
  · exact mem_quiet hk (by decide) ⟨b!"b", b!"2", c!"-", rfl, by decide, by decide⟩
  · exact mem_quiet hk (by decide) ⟨b!"u", b!"b", c!"/", rfl, by decide, by decide⟩

example : parse b!"plugins" (directory b!"plugins" b!"{ " [] b!" " b!"\n}" two) =
    some [⟨b!"b-2", b!"u/b", some b!"B 2", none, none, none⟩, ⟨b!"a-1", b!"u/a", none, none, none, none⟩] := by
  rw [C196_directory_partial (word := b!"plugins") (before := b!"{ ") (by decide) (by
      refine not_gap (str_ne _) fun c hc => ?_
      simp only [List.mem_cons, List.not_mem_nil, or_false] at hc
      rcases hc with rfl | rfl <;> decide) (.inr ⟨b!"{", c!" ", rfl, by decide, by decide⟩) (by simp [Gap]) (by simp [Gap]) (fun x => two_ok)
    (fun k hk x hx m hm => two_quiet hx hm (by
      have : ∀ k ∈ keys, ∀ c ∈ k, isAlpha c = true := by decide
      exact this k hk))]
  decide

/-- C196 fails: a title `id` is taken for the key, and the name of the author for the id. -/
theorem C196_taken : parse b!"plugins" b!"{\"plugins\":[{\"title\":\"id\",\"author\":\"x\",\"id\":\"y\",\"repo\":\"r\"}]}" = some [⟨b!"x", b!"r", some b!"id", none, some b!"x", none⟩] := by decide +kernel

/-- C196 fails: one brace in a description hides the entries that follow, or also its own, and two make the whole directory unreadable. -/
theorem C196_brace : parse b!"plugins" b!"{\"plugins\":[{\"id\":\"a\",\"repo\":\"r\",\"description\":\"Use {\"},{\"id\":\"b\",\"repo\":\"s\"}]}" = some [⟨b!"a", b!"r", none, some b!"Use {", none, none⟩] ∧
    parse b!"plugins" b!"{\"plugins\":[{\"id\":\"a\",\"description\":\"Ends at }\",\"repo\":\"r\"},{\"id\":\"b\",\"repo\":\"s\"}]}" = some [] ∧
    parse b!"plugins" b!"{\"plugins\":[{\"id\":\"a\",\"repo\":\"r\"},{\"id\":\"b\",\"repo\":\"s\",\"description\":\"From {{ on\"}]}" = none := by decide +kernel

/-- C196 fails: an entry with a value on the line below its key is left out, and an escape is not undone. -/
theorem C196_line : parse b!"plugins" b!"{\"plugins\":[{\"id\":\n\"a\",\"repo\":\"r\"}]}" = some [] ∧
    parse b!"plugins" b!"{\"plugins\":[{\"id\":\"a\",\"repo\":\"https:\\/\\/h\\/r\"}]}" = some [⟨b!"a", b!"https:\\/\\/h\\/r", none, none, none, none⟩] := by decide +kernel

/-! ### C197: the plugin installed is the one named -/

theorem find_last {l : List Entry} {name : Bytes} {e : Entry} : l.reverse.find? (fun e => e.id = name) = some e ↔ Last (fun e => e.id = name) l e := by
  rw [List.find?_eq_some_iff_append]
  constructor
  · rintro ⟨h1, a, b, h2, h3⟩
    refine ⟨b.reverse, a.reverse, ?_, by simpa using h1, fun x hx => by simpa using h3 x (by simpa using hx)⟩
    have := congrArg List.reverse h2
    simpa using this
  · rintro ⟨a, b, rfl, h1, h2⟩
    exact ⟨by simpa using h1, b.reverse, a.reverse, by simp, fun x hx => by simpa using h2 x (by simpa using hx)⟩

/-- C197: in such a directory, the repository of a name is that of the last entry with it, and there is none if no entry has it. -/
theorem C197_last_partial {before g1 g2 after name : Bytes} {xs : List Item} (hb : ¬ str b!"plugins" <:+: before)
    (hl : before = [] ∨ ∃ b c, before = b ++ [c] ∧ Sep c) (h1 : Gap g1) (h2 : Gap g2) (hx : ∀ x ∈ xs, x.Ok) (hq : ∀ k ∈ keys, ∀ x ∈ xs, ∀ m ∈ x.members, Quiet k m) (repo : Bytes) :
    plugin (directory b!"plugins" before g1 g2 after xs) name = some repo ↔
      ∃ e, Last (fun e => e.id = name) (xs.filterMap fun x => entryOf x.members) e ∧ e.repo = repo := by
  unfold plugin
  rw [C196_directory_partial (by decide) hb hl h1 h2 hx hq, Option.bind_some]
  constructor
  · intro h
    cases hf : (xs.filterMap fun x => entryOf x.members).reverse.find? (fun e => e.id = name) with
    | none => rw [hf] at h; cases h
    | some e =>
      rw [hf] at h
      exact ⟨e, find_last.1 hf, by simpa using h⟩
  · rintro ⟨e, he, rfl⟩
    rw [find_last.2 he]
    rfl

/-- C197 fails: a later entry with the same id takes the place of an earlier one. -/
theorem C197_later : plugin b!"{\"plugins\":[{\"id\":\"a\",\"repo\":\"good\"},{\"id\":\"a\",\"repo\":\"evil\"}]}" b!"a" = some b!"evil" := by decide +kernel

/-- C197 fails: a description can name another plugin: the value `"id"` is looked up as the key, and the next value is its id. -/
theorem C197_spoofed : plugin b!"{\"plugins\":[{\"id\":\"a\",\"repo\":\"good\"},{\"title\":\"id\",\"author\":\"a\",\"id\":\"b\",\"repo\":\"evil\"}]}" b!"a" = some b!"evil" := by decide +kernel

/-! ### C198: the filter installed is the one named -/

/-- C198, where each object has one id and the repository is behind it: the repository is that of the first object with the name, and the file is the one in that object if it is behind the id;
without one, no object that follows may have any.  Missing: objects with the repository or the file in front of the id, and objects without a file. -/
theorem C198_filter_partial {head foot name repo : Bytes} {xs ys : List Item} {x : Item} {b : List Member} (hh : ¬ str b!"id" <:+: head) (hg : Gap x.g1)
    (hxs : ∀ y ∈ xs, Gap y.g1 ∧ Gap y.g2 ∧ ∃ i c, Named y i c ∧ i ≠ name) (hx : Named x name b) (hr : value b!"repo" b = some repo)
    (hp : value b!"path" b ≠ none ∨ ¬ str b!"path" <:+: b!"}" ++ x.g2 ++ rest ys ++ foot) :
    lookup (head ++ array (xs ++ x :: ys) ++ foot) name = some (repo, value b!"path" b) := by
  have hlen : xs.length < (head ++ array (xs ++ x :: ys) ++ foot).length + 1 := by
    have h2 : (xs ++ x :: ys).length ≤ (array (xs ++ x :: ys)).length + 1 := by
      cases h : xs ++ x :: ys with
      | nil => simp
      | cons z zs =>
        have := rest_length zs
        simp [array]; omega
    simp only [List.length_append, List.length_cons] at h2 ⊢
    omega
  unfold lookup
  rw [List.append_assoc, filter_rest x ys hx hr xs _ head hh (by simpa using hlen) hxs hg]
  cases hv : value b!"path" b with
  | some p => rfl
  | none =>
    rcases hp with hp | hp
    · exact absurd hv hp
    · rw [extract_none (by simpa using hp)]; rfl

example : lookup (b!"{\"filters\": [" ++ array two ++ b!"]}") b!"b-2" = some (b!"u/b", none) := by
  have named : ∀ x ∈ two, ∀ a m b, x.members = a ++ m :: b → m.key = b!"id" → c!"\"" ∉ m.val → (∀ y ∈ a ++ b, y.key ≠ b!"id") → Named x m.val b := by
    intro x hx a m b e hk hv hn
    refine ⟨a, m, e, hk, rfl, hv, hn, fun y hy => ⟨(two_ok hx).members y (by rw [e]; exact hy), fun k hk => two_quiet hx (by rw [e]; exact hy) ?_⟩⟩
    have : ∀ k ∈ [b!"id", b!"repo", b!"path"], ∀ c ∈ k, isAlpha c = true := by decide
    exact this k hk
  have := C198_filter_partial (head := b!"{\"filters\": [") (foot := b!"]}") (name := b!"b-2") (repo := b!"u/b") (xs := [obj [(b!"id", b!"a-1"), (b!"repo", b!"u/a")]]) (ys := [])
    (x := obj [(b!"title", b!"B 2"), (b!"id", b!"b-2"), (b!"repo", b!"u/b")]) (b := [mem b!"repo" b!"u/b"]) (by decide) (by simp [obj, Gap])
    (fun y hy => by
      rw [List.mem_singleton] at hy
      subst hy
      exact ⟨by simp [obj, Gap], by simp [obj, Gap], b!"a-1", [mem b!"repo" b!"u/a"],
        named _ (by simp [two]) [] (mem b!"id" b!"a-1") _ rfl rfl (by decide) (by simp [mem]), by decide⟩)
    (named _ (by simp [two]) [mem b!"title" b!"B 2"] (mem b!"id" b!"b-2") _ rfl rfl (by decide) (by simp [mem])) rfl
    (.inr (by decide))
  exact this

/-- C198 fails: if the repository is in front of the id, the one of the next filter is installed under the name asked for. -/
theorem C198_next : lookup b!"{\"filters\":[{\"repo\":\"good\",\"id\":\"a\"},{\"repo\":\"evil\",\"id\":\"b\"}]}" b!"a" = some (b!"evil", none) := by decide +kernel

/-- C198 fails: a filter without a file gets the file of a later one. -/
theorem C198_path : lookup b!"{\"filters\":[{\"id\":\"a\",\"repo\":\"good\"},{\"id\":\"b\",\"repo\":\"other\",\"path\":\"src/b.lua\"}]}" b!"a" = some (b!"good", some b!"src/b.lua") := by decide +kernel

/-! ### C199: a directory is fetched whole or not at all -/

/-- C199: for all that a command prints, of any length, no byte is written behind the buffer; the text is what was printed, up to a zero byte, if the command succeeded, and there is none if it failed. -/
theorem C199_fetch (input : Bytes) (status : Nat) :
    (status = 0 → ∀ text rest, (0 : Byte) ∉ text → (rest = [] ∨ rest.head? = some 0) → input = text ++ rest → fetch input status = .val (some text)) ∧ (status ≠ 0 → fetch input status = .val none) := by
  unfold fetch
  rw [slurp_eq _ _ _ _ (by omega) (by decide)]
  constructor
  · rintro rfl text rest hn hr rfl
    simp only [List.nil_append, C.val_bind, if_true, C.val.injEq, Option.some.injEq]
    rw [List.takeWhile_append_of_pos (p := fun x => decide (x ≠ 0)) fun c hc => decide_eq_true (p := c ≠ 0) fun h => hn (h ▸ hc)]
    rcases hr with rfl | hr
    · simp
    · cases rest with
      | nil => simp
      | cons c s =>
        obtain rfl : c = 0 := by simpa using hr
        simp
  · intro h
    simp [h]

example : fetch (List.replicate 4096 c!"x") 0 = .val (some (List.replicate 4096 c!"x")) :=
  (C199_fetch _ 0).1 rfl _ [] (fun h => by rw [List.mem_replicate] at h; exact absurd h.2 (by decide)) (.inl rfl) (List.append_nil _).symm

end Verif.Remote
