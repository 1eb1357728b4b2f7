/-
File includes, for every file system.
C47: they terminate.  C80: texts without includes.  C81: code.  C82: what is inserted.  C83: files that cannot be read.
C84: raw HTML.  C85: wildcards.  C86: the transclude base.
-/
import Verif.Proof.Includes

namespace Verif.Includes

open Spec

/-- The result of processing the includes of a text `depth` files deep, where `base` is the directory and `tb` the
transclude base of the metadata. -/
def Result (w : World) (depth : Nat) (base tb : Option Bytes) (text out : Bytes) : Prop :=
  ∃ fuel, process w fuel depth base tb text = some (.val out)

/-- There is at most one result. -/
theorem C47_deterministic {w : World} {depth : Nat} {base tb : Option Bytes} {text out out' : Bytes}
    (h : Result w depth base tb text out) (h' : Result w depth base tb text out') : out = out' := by
  obtain ⟨f, hf⟩ := h
  obtain ⟨f', hf'⟩ := h'
  have h1 := process_mono (Nat.le_max_left f f') _ hf
  have h2 := process_mono (Nat.le_max_right f f') _ hf'
  rw [h1] at h2
  cases h2; rfl

/-- C47, the part that holds: whatever the files, processing ends, when every pattern is a regular expression. -/
theorem C47_terminates_partial (w : World) (hre : ∀ p, (w.regcomp p).isSome = true) (depth : Nat) (base tb : Option Bytes) (text : Bytes) :
    ∃ fuel r, process w fuel depth base tb text = some r :=
  process_ev hre 11 depth base tb text (by omega)

/-- Deeper than ten files the text is left as it is. -/
theorem C47_depth (w : World) {depth : Nat} (base tb : Option Bytes) (text : Bytes) (h : 10 < depth) : Result w depth base tb text text :=
  ⟨1, by rw [process, if_pos h]⟩

/-- One file `x`, one line; no pattern is a regular expression. -/
def badPattern : World where
  read := fun p => if p = b!"x" then some b!"text\n" else none
  exist := fun p => p = b!"x"
  glob := fun _ => none
  dirname := fun _ => b!"."
  base := fun _ => none
  regcomp := fun _ => none

/-- A bad pattern with a prefix: processing does not end (the stack overflows). -/
theorem C47_loops (fuel : Nat) :
    process badPattern fuel 0 none none b!"{{x}}[/(/;prefix=\"> \"]" = none := by
  have hex : ∀ (fuel : Nat) (content : Bytes) (s : Address.Spec), s.isRegex = true → s.pre.isSome = true →
      Address.extract (fun _ => none) fuel content s = none := by
    intro fuel content s h1 h2
    induction fuel with
    | zero => rfl
    | succ n ih =>
      unfold Address.extract
      rw [if_neg (by simp [h1])]
      simp only [h1, if_true]
      have e : ∀ o : Option Bytes, o.bind (fun _ => (none : Option (Bytes → Bool))) = none := by intro o; cases o <;> rfl
      rw [e, e, if_pos (by simp), if_pos h2]
      exact ih
  have hparse : Address.parse b!"/(/;prefix=\"> \"" = some ⟨false, true, 0, some 0, some b!"(", none, some b!"> "⟩ := by decide +kernel
  have hsel : ∀ (fuel : Nat) (content : Bytes), Address.select (fun _ => none) fuel content b!"/(/;prefix=\"> \"" = none := by
    intro fuel content
    unfold Address.select
    rw [hparse]
    exact hex fuel content _ rfl rfl
  have hnorm : normalize b!"{{x}}[/(/;prefix=\"> \"]" = .val b!"{{x}}[/(/;prefix=\"> \"]" := by decide +kernel
  cases fuel with
  | zero => rfl
  | succ fuel =>
    rw [process, if_neg (by decide), hnorm]
    simp only [M.bind]
    cases fuel with
    | zero => rfl
    | succ fuel =>
      rw [loop]
      have hb : ∀ rec, braces badPattern fuel rec (transcludeBase none none) b!"{{x}}[/(/;prefix=\"> \"]" = none := by
        intro rec
        unfold braces
        have h1 : Transforms.strstr (b!"{{x}}[/(/;prefix=\"> \"]".drop 2) b!"}}" = some 1 := by decide +kernel
        rw [h1]
        simp only []
        rw [if_pos (by decide)]
        have h2 : (b!"{{x}}[/(/;prefix=\"> \"]".drop 2).take 1 = b!"x" := by decide +kernel
        have h3 : address ((b!"{{x}}[/(/;prefix=\"> \"]".drop 2).drop (1 + 2)) = some (b!"/(/;prefix=\"> \"", []) := by decide +kernel
        have h4 : (resolveWildcard badPattern b!"x" (transcludeBase none none)).getD (resolvePath b!"x" (transcludeBase none none)) = b!"x" := by
          decide +kernel
        have h5 : badPattern.read b!"x" = some b!"text\n" := by decide +kernel
        rw [h2, h3, h4, h5]
        simp only [part]
        rw [if_pos (by decide)]
        show M.bind (Address.select (fun _ => none) fuel _ _) _ = none
        rw [hsel]; rfl
      have hs : ∀ rec, step badPattern fuel rec (transcludeBase none none) true false b!"{{x}}[/(/;prefix=\"> \"]" = none := by
        intro rec
        unfold step
        rw [if_neg (by decide), if_pos (by decide)]
        exact hb rec
      rw [if_neg (by decide), hs]
      rfl

/-- A file that includes itself: eleven rounds, then the include is left as text. -/
def selfInclude : World where
  read := fun p => if p = b!"./x" ∨ p = b!"x" then some b!"a{{x}}b" else none
  exist := fun _ => false
  glob := fun _ => none
  dirname := fun _ => b!"."
  base := fun _ => none
  regcomp := fun _ => some fun _ => false

example : process selfInclude 40 0 none none b!"{{x}}" = some (.val b!"aaaaaaaaaaa{{x}}bbbbbbbbbbb") := by decide +kernel

/-! ### C80 -/

/-- C80, the part that holds: a text in which no include begins, and no line starts with four, six, … backticks, is
left as it is. -/
theorem C80_quiet_partial (w : World) (depth : Nat) (base tb : Option Bytes) {text : Bytes} (hn : NoEvenFence text)
    (hq : Quiet [] text []) : Result w depth base tb text text :=
  process_quiet hn hq

/-- A code block with four backticks whose end is indented: its start gets a fifth backtick, its end does not, so the
rest of the document becomes code. -/
theorem C80_fence :
    process selfInclude 40 0 none none b!"````\na\n ````\ntext\n" = some (.val b!"`````\na\n ````\ntext\n") := by decide +kernel

/-! ### C81 -/

/-- C81, the part that holds: nothing is included between one backtick and the next. -/
theorem C81_code_partial (w : World) (depth : Nat) (base tb : Option Bytes) {pre code post : Bytes}
    (hn : NoEvenFence (pre ++ b!"`" ++ code ++ b!"`" ++ post)) (hq1 : Quiet [] pre (b!"`" ++ code ++ b!"`" ++ post)) (hb : Balanced pre)
    (hcode : c!"`" ∉ code) (hq2 : Quiet (pre ++ b!"`" ++ code ++ b!"`") post []) :
    Result w depth base tb (pre ++ b!"`" ++ code ++ b!"`" ++ post) (pre ++ b!"`" ++ code ++ b!"`" ++ post) := by
  by_cases hd : depth > 10
  · exact C47_depth w base tb _ hd
  · have htext : pre ++ b!"`" ++ code ++ b!"`" ++ post = pre ++ ((b!"`" ++ code) ++ (b!"`" ++ post)) := by simp
    generalize hcap : max ((pre ++ b!"`" ++ code ++ b!"`" ++ post).length * 10) (1024 * 1024) = cap
    have hlen : pre.length + (1 + code.length) + (1 + post.length) < cap := by
      have : (pre ++ b!"`" ++ code ++ b!"`" ++ post).length = pre.length + (1 + code.length) + (1 + post.length) := by simp; omega
      omega
    have hF : ∀ rec : Recurse, loop w rec (transcludeBase base tb) cap (0 + 1 + (b!"`" ++ post).length + (b!"`" ++ code).length + pre.length)
        true false [] (pre ++ ((b!"`" ++ code) ++ (b!"`" ++ post))) = some (.val (pre ++ ((b!"`" ++ code) ++ (b!"`" ++ post)))) := by
      intro rec
      obtain ⟨st1, ha1, hb1, hl1⟩ := loop_copy (w := w) (recurse := rec) (base := transcludeBase base tb) (cap := cap) pre
        (0 + 1 + (b!"`" ++ post).length + (b!"`" ++ code).length) true false [] [] ((b!"`" ++ code) ++ (b!"`" ++ post)) (by simp [LineStart])
        (by intro a b h1 h2; right; have := hq1 a b h1 h2; simpa using this) (by simp; omega)
      have hst1 : st1 = true ↔ LineStart pre := by
        by_cases hp : pre = []
        · rw [hb1 hp]; simp [LineStart, hp]
        · simpa using ha1 hp
      obtain ⟨st2, ha2, hb2, hl2⟩ := loop_copy (w := w) (recurse := rec) (base := transcludeBase base tb) (cap := cap) (b!"`" ++ code)
        (0 + 1 + (b!"`" ++ post).length) st1 false pre pre (b!"`" ++ post) hst1
        (by
          intro a b h1 h2
          left
          have hcount : (a ++ b.take 1).count c!"`" = 1 := by
            cases a with
            | nil =>
              rw [List.nil_append] at h1
              rw [← h1]; rfl
            | cons x a =>
              have hx : x = c!"`" ∧ code = a ++ b := by
                have : x = c!"`" ∧ a ++ b = code := by simpa using h1.symm
                exact ⟨this.1, this.2.symm⟩
              have hz : (a ++ b.take 1).count c!"`" = 0 := by
                rw [List.count_eq_zero]
                intro hm
                apply hcode
                rw [hx.2]
                rcases List.mem_append.1 hm with hm | hm
                · exact List.mem_append.2 (.inl hm)
                · exact List.mem_append.2 (.inr (List.mem_of_mem_take hm))
              rw [List.cons_append, List.count_cons, hz, hx.1]; rfl
          unfold toggled
          rw [hcount]; rfl) (by simp; omega)
      have htog : toggled false (b!"`" ++ code) = true := by
        unfold toggled
        have : (b!"`" ++ code).count c!"`" = 1 := by
          rw [List.count_append, List.count_eq_zero.2 hcode]; rfl
        rw [this]; rfl
      obtain ⟨st3, ha3, hb3, hl3⟩ := loop_copy (w := w) (recurse := rec) (base := transcludeBase base tb) (cap := cap) (b!"`" ++ post)
        (0 + 1) st2 true (pre ++ (b!"`" ++ code)) (pre ++ (b!"`" ++ code)) [] (ha2 (by simp))
        (by
          intro a b h1 h2
          right
          cases a with
          | nil =>
            rw [List.nil_append] at h1
            rw [← h1]
            unfold IncludeAt
            simp
          | cons x a =>
            have hx : x = c!"`" ∧ post = a ++ b := by
              have : x = c!"`" ∧ a ++ b = post := by simpa using h1.symm
              exact ⟨this.1, this.2.symm⟩
            have := hq2 a b hx.2 h2
            rw [hx.1]
            simpa using this) (by simp; omega)
      rw [hl1, toggled_even hb, List.nil_append, hl2, htog]
      rw [List.append_nil] at hl3
      rw [hl3, loop, finish_val (by simp; omega)]
      simp
    refine ⟨(0 + 1 + (b!"`" ++ post).length + (b!"`" ++ code).length + pre.length) + 1, ?_⟩
    rw [process, if_neg hd, normalize_id hn]
    simp only [M.bind]
    rw [hcap, htext, hF]

/-- The world with one file `x`. -/
def oneFile (content : Bytes) : World where
  read := fun p => if p = b!"x" then some content else none
  exist := fun p => p = b!"x"
  glob := fun _ => none
  dirname := fun _ => b!"."
  base := fun _ => none
  regcomp := fun _ => some fun _ => false

/-- Between double backticks the file is included. -/
theorem C81_double : process (oneFile b!"text") 40 0 none none b!"``{{x}}``" = some (.val b!"``text``") := by decide +kernel

/-! ### C82 -/

/-- C82, the part that holds: `{{file}}`, perhaps with an address, is replaced by the file, after its own includes,
when the result fits into ten times the text, at least a megabyte. -/
theorem C82_braces_partial {w : World} {depth : Nat} {base tb : Option Bytes} {pre file post content sel tab ins : Bytes} {addr : Option Bytes}
    (hd : depth ≤ 10)
    (hn : NoEvenFence (pre ++ (b!"{{" ++ file ++ b!"}}" ++ addressText addr) ++ post))
    (hq1 : Quiet [] pre (b!"{{" ++ file ++ b!"}}" ++ addressText addr ++ post)) (hb : Balanced pre)
    (hq2 : Quiet (pre ++ (b!"{{" ++ file ++ b!"}}" ++ addressText addr)) post [])
    (hname : Name file) (hread : w.read (resolvePath file (transcludeBase base tb)) = some content)
    (hsel : Selected w content addr sel) (hnone : addr = none → post.head? ≠ some c!"[")
    (htab : tabled (fileType (resolvePath file (transcludeBase base tb))) sel = some (.val tab))
    (hin : Result w (depth + 1) (innerBase w (resolvePath file (transcludeBase base tb)) content) (w.base content) tab ins)
    (hfit : pre.length + ins.length + post.length <
      max ((pre ++ (b!"{{" ++ file ++ b!"}}" ++ addressText addr) ++ post).length * 10) (1024 * 1024)) :
    Result w depth base tb (pre ++ (b!"{{" ++ file ++ b!"}}" ++ addressText addr) ++ post) (pre ++ ins ++ post) := by
  refine core hd hn hq1 hb hq2 ⟨c!"{", _, rfl, by decide⟩ ?_ ?_ rfl (.inl ⟨hfit, rfl⟩)
  · cases addr with
    | none =>
      have e : b!"{{" ++ file ++ b!"}}" ++ addressText none = (b!"{{" ++ file ++ b!"}") ++ [c!"}"] := by simp [addressText]
      rw [e, List.getLast?_concat]; decide
    | some a =>
      have e : b!"{{" ++ file ++ b!"}}" ++ addressText (some a) = (b!"{{" ++ file ++ b!"}}[" ++ a) ++ [c!"]"] := by simp [addressText]
      rw [e, List.getLast?_concat]; decide
  · intro start _
    exact step_braces hname hread hsel hnone htab hin

/-- `<<[file]` at the start of a line likewise. -/
theorem C82_marked_partial {w : World} {depth : Nat} {base tb : Option Bytes} {pre file post content sel tab ins : Bytes} {addr : Option Bytes}
    (hd : depth ≤ 10)
    (hn : NoEvenFence (pre ++ (b!"<<[" ++ file ++ b!"]" ++ addressText addr) ++ post))
    (hq1 : Quiet [] pre (b!"<<[" ++ file ++ b!"]" ++ addressText addr ++ post)) (hb : Balanced pre) (hl : LineStart pre)
    (hq2 : Quiet (pre ++ (b!"<<[" ++ file ++ b!"]" ++ addressText addr)) post [])
    (hne : 0 < file.length) (hshort : file.length < 1024) (hfile : c!"]" ∉ file)
    (hread : w.read (resolvePath file (transcludeBase base tb)) = some content)
    (hsel : Selected w content addr sel) (hnone : addr = none → (Address.skipSpace post).head? ≠ some c!"[")
    (htab : tabled (fileType (resolvePath file (transcludeBase base tb))) sel = some (.val tab))
    (hin : Result w (depth + 1) (innerBase w (resolvePath file (transcludeBase base tb)) content) (w.base content) tab ins)
    (hfit : pre.length + ins.length + post.length <
      max ((pre ++ (b!"<<[" ++ file ++ b!"]" ++ addressText addr) ++ post).length * 10) (1024 * 1024)) :
    Result w depth base tb (pre ++ (b!"<<[" ++ file ++ b!"]" ++ addressText addr) ++ post) (pre ++ ins ++ post) := by
  refine core hd hn hq1 hb hq2 ⟨c!"<", _, rfl, by decide⟩ ?_ ?_ rfl (.inl ⟨hfit, rfl⟩)
  · cases addr with
    | none =>
      have e : b!"<<[" ++ file ++ b!"]" ++ addressText none = (b!"<<[" ++ file) ++ [c!"]"] := by simp [addressText]
      rw [e, List.getLast?_concat]; decide
    | some a =>
      have e : b!"<<[" ++ file ++ b!"]" ++ addressText (some a) = (b!"<<[" ++ file ++ b!"][" ++ a) ++ [c!"]"] := by simp [addressText]
      rw [e, List.getLast?_concat]; decide
  · intro start hs
    rw [hs.2 hl]
    exact step_marked hne hshort hfile hread hsel hnone htab hin

/-- `/file` at the start of a line, up to white space, likewise; text and Markdown. -/
theorem C82_slash_partial {w : World} {depth : Nat} {base tb : Option Bytes} {pre file post content ins : Bytes}
    (hd : depth ≤ 10) (hn : NoEvenFence (pre ++ (b!"/" ++ file) ++ post))
    (hq1 : Quiet [] pre (b!"/" ++ file ++ post)) (hb : Balanced pre) (hl : LineStart pre) (hq2 : Quiet (pre ++ (b!"/" ++ file)) post [])
    (hne : 0 < file.length) (hshort : file.length < 1024) (hfile : ∀ c ∈ file, isSep c = false)
    (hpost : ∀ c, post.head? = some c → isSep c = true) (hex : w.exist (resolvePath file (transcludeBase base tb)) = true)
    (hread : w.read (resolvePath file (transcludeBase base tb)) = some content)
    (htype : fileType (resolvePath file (transcludeBase base tb)) = .text)
    (hin : Result w (depth + 1) (innerBase w (resolvePath file (transcludeBase base tb)) content) (w.base content) content ins)
    (hfit : pre.length + ins.length + post.length < max ((pre ++ (b!"/" ++ file) ++ post).length * 10) (1024 * 1024)) :
    Result w depth base tb (pre ++ (b!"/" ++ file) ++ post) (pre ++ ins ++ post) := by
  refine core hd hn hq1 hb hq2 ⟨c!"/", _, rfl, by decide⟩ ?_ ?_ rfl (.inl ⟨hfit, rfl⟩)
  · intro h
    obtain ⟨init, d, hdd⟩ : ∃ init d, file = init ++ [d] := by
      have : file ≠ [] := List.length_pos_iff.1 hne
      exact ⟨_, _, (List.dropLast_concat_getLast this).symm⟩
    rw [hdd, ← List.append_assoc, List.getLast?_concat] at h
    have h2 := hfile d (by rw [hdd]; simp)
    rw [Option.some.inj h] at h2
    exact absurd h2 (by decide)
  · intro start hs
    rw [hs.2 hl]
    exact step_slash hne hshort hfile hpost hex hread htype hin

/-- `/file` for an image becomes an image, for source code a code block in the language of its extension. -/
theorem C82_slash_block_partial {w : World} {depth : Nat} {base tb : Option Bytes} {pre file post content ins : Bytes}
    (hd : depth ≤ 10) (hn : NoEvenFence (pre ++ (b!"/" ++ file) ++ post))
    (hq1 : Quiet [] pre (b!"/" ++ file ++ post)) (hb : Balanced pre) (hl : LineStart pre) (hq2 : Quiet (pre ++ (b!"/" ++ file)) post [])
    (hne : 0 < file.length) (hshort : file.length < 1024) (hfile : ∀ c ∈ file, isSep c = false)
    (hpost : ∀ c, post.head? = some c → isSep c = true) (hex : w.exist (resolvePath file (transcludeBase base tb)) = true)
    (hread : w.read (resolvePath file (transcludeBase base tb)) = some content)
    (htype : (fileType (resolvePath file (transcludeBase base tb)) = .image ∧ ins = b!"![](" ++ file ++ b!")\n") ∨
      (fileType (resolvePath file (transcludeBase base tb)) = .code ∧
        ins = b!"\n```" ++ (extension file).getD [] ++ b!"\n" ++ content ++ b!"\n```\n"))
    (hfit : pre.length + ins.length + post.length < max ((pre ++ (b!"/" ++ file) ++ post).length * 10) (1024 * 1024)) :
    Result w depth base tb (pre ++ (b!"/" ++ file) ++ post) (pre ++ ins ++ post) := by
  refine core hd hn hq1 hb hq2 ⟨c!"/", _, rfl, by decide⟩ ?_ ?_ rfl (.inl ⟨hfit, rfl⟩)
  · intro h
    obtain ⟨init, d, hdd⟩ : ∃ init d, file = init ++ [d] := by
      have : file ≠ [] := List.length_pos_iff.1 hne
      exact ⟨_, _, (List.dropLast_concat_getLast this).symm⟩
    rw [hdd, ← List.append_assoc, List.getLast?_concat] at h
    have h2 := hfile d (by rw [hdd]; simp)
    rw [Option.some.inj h] at h2
    exact absurd h2 (by decide)
  · intro start hs
    rw [hs.2 hl]
    exact step_slash_block hne hshort hfile hpost hex hread htype

/-- What a file is treated as depends on its extension alone, in any case: pictures, source code, tables and Markdown. -/
theorem C82_types (name ext : Bytes) :
    (ext.map toLower ∈ [b!"jpg", b!"jpeg", b!"png", b!"gif", b!"webp", b!"svg"] → fileType (name ++ b!"." ++ ext) = .image) ∧
    (ext.map toLower ∈ [b!"c", b!"h", b!"cpp", b!"py", b!"js", b!"java", b!"swift", b!"go", b!"rs", b!"sh"] →
      fileType (name ++ b!"." ++ ext) = .code) ∧
    (ext.map toLower = b!"csv" → fileType (name ++ b!"." ++ ext) = .csv) ∧
    (ext.map toLower = b!"tsv" → fileType (name ++ b!"." ++ ext) = .tsv) ∧
    (ext.map toLower ∈ [b!"md", b!"markdown", b!"mmd", b!"html", b!"htm", b!"txt"] → fileType (name ++ b!"." ++ ext) = .text) := by
  have key : ∀ l : Bytes, ext.map toLower = l → c!"." ∉ l → fileType (name ++ b!"." ++ ext) =
      if l ∈ [b!"jpg", b!"jpeg", b!"png", b!"gif", b!"webp", b!"svg"] then .image
      else if l = b!"csv" then .csv
      else if l = b!"tsv" then .tsv
      else if l ∈ [b!"html", b!"htm", b!"md", b!"markdown", b!"mmd"] then .text
      else if l ∈ [b!"c", b!"h", b!"cpp", b!"py", b!"js", b!"java", b!"swift", b!"go", b!"rs", b!"sh"] then .code
      else .text := by
    intro l h hl
    unfold fileType
    rw [extension_dot name (lower_dot (by rw [h]; exact hl))]
    simp only [h]
  refine ⟨?_, ?_, ?_, ?_, ?_⟩
  · intro h
    simp only [List.mem_cons, List.not_mem_nil, or_false] at h
    rcases h with h | h | h | h | h | h <;> (rw [key _ h (by decide)]; decide)
  · intro h
    simp only [List.mem_cons, List.not_mem_nil, or_false] at h
    rcases h with h | h | h | h | h | h | h | h | h | h <;> (rw [key _ h (by decide)]; decide)
  · intro h; rw [key _ h (by decide)]; decide
  · intro h; rw [key _ h (by decide)]; decide
  · intro h
    simp only [List.mem_cons, List.not_mem_nil, or_false] at h
    rcases h with h | h | h | h | h | h <;> (rw [key _ h (by decide)]; decide)

/-- The language of a file included as code with `<<(file)`: the name of the language for some extensions, the extension for
others. -/
theorem C82_language (name ext : Bytes) (h : c!"." ∉ ext) :
    language (name ++ b!"." ++ ext) =
      (([(b!"h", b!"c"), (b!"cc", b!"cpp"), (b!"py", b!"python"), (b!"js", b!"javascript"), (b!"rb", b!"ruby"), (b!"sh", b!"bash")] :
        List (Bytes × Bytes)).lookup ext).getD ext := by
  unfold language
  rw [extension_dot name h]
  simp only [List.lookup]
  (repeat' split) <;> simp_all

example : fileType b!"a.b/Photo.JPG" = .image := by decide +kernel
example : language b!"src/run.rb" = b!"ruby" := by decide +kernel

/-- `<<(file)` at the start of a line: the file in a code block. -/
theorem C82_code_partial {w : World} {depth : Nat} {base tb : Option Bytes} {pre file post content sel : Bytes} {addr : Option Bytes}
    (hd : depth ≤ 10)
    (hn : NoEvenFence (pre ++ (b!"<<(" ++ file ++ b!")" ++ addressText addr) ++ post))
    (hq1 : Quiet [] pre (b!"<<(" ++ file ++ b!")" ++ addressText addr ++ post)) (hb : Balanced pre) (hl : LineStart pre)
    (hq2 : Quiet (pre ++ (b!"<<(" ++ file ++ b!")" ++ addressText addr)) post [])
    (hne : 0 < file.length) (hshort : file.length < 1024) (hlang : (language file).length ≤ 122) (hfile : c!")" ∉ file)
    (hread : w.read (resolvePath file (transcludeBase base tb)) = some content)
    (hsel : Selected w content addr sel) (hnone : addr = none → (Address.skipSpace post).head? ≠ some c!"[")
    (hfit : pre.length + (b!"\n```" ++ language file ++ b!"\n" ++ sel ++ b!"\n```\n").length + post.length <
      max ((pre ++ (b!"<<(" ++ file ++ b!")" ++ addressText addr) ++ post).length * 10) (1024 * 1024)) :
    Result w depth base tb (pre ++ (b!"<<(" ++ file ++ b!")" ++ addressText addr) ++ post)
      (pre ++ (b!"\n```" ++ language file ++ b!"\n" ++ sel ++ b!"\n```\n") ++ post) := by
  have ht : (b!"\n```" ++ language file ++ b!"\n").take 127 = b!"\n```" ++ language file ++ b!"\n" := by
    apply List.take_of_length_le; simp; omega
  refine core hd hn hq1 hb hq2 ⟨c!"<", _, rfl, by decide⟩ ?_ ?_ rfl (.inl ⟨hfit, rfl⟩)
  · cases addr with
    | none =>
      have e : b!"<<(" ++ file ++ b!")" ++ addressText none = (b!"<<(" ++ file) ++ [c!")"] := by simp [addressText]
      rw [e, List.getLast?_concat]; decide
    | some a =>
      have e : b!"<<(" ++ file ++ b!")" ++ addressText (some a) = (b!"<<(" ++ file ++ b!")[" ++ a) ++ [c!"]"] := by simp [addressText]
      rw [e, List.getLast?_concat]; decide
  · intro start hs
    rw [hs.2 hl]
    have := step_marked_code (w := w) (depth := depth) hne hshort hfile hread hsel hnone
    rw [ht] at this
    exact this

/-- A file that does not fit is dropped without a word. -/
theorem C82_dropped {w : World} {depth : Nat} {base tb : Option Bytes} {pre file post content ins : Bytes}
    (hd : depth ≤ 10) (hn : NoEvenFence (pre ++ (b!"{{" ++ file ++ b!"}}") ++ post))
    (hq1 : Quiet [] pre (b!"{{" ++ file ++ b!"}}" ++ post)) (hb : Balanced pre)
    (hq2 : Quiet (pre ++ (b!"{{" ++ file ++ b!"}}")) post [])
    (hname : Name file) (hread : w.read (resolvePath file (transcludeBase base tb)) = some content)
    (hnone : post.head? ≠ some c!"[")
    (htype : fileType (resolvePath file (transcludeBase base tb)) = .text)
    (hin : Result w (depth + 1) (innerBase w (resolvePath file (transcludeBase base tb)) content) (w.base content) content ins)
    (hfit : max ((pre ++ (b!"{{" ++ file ++ b!"}}") ++ post).length * 10) (1024 * 1024) ≤ pre.length + ins.length) :
    Result w depth base tb (pre ++ (b!"{{" ++ file ++ b!"}}") ++ post) (pre ++ post) := by
  refine core hd hn hq1 hb hq2 ⟨c!"{", _, rfl, by decide⟩ ?_ ?_ rfl (.inr (.inl ⟨hfit, rfl⟩))
  · have e : b!"{{" ++ file ++ b!"}}" = (b!"{{" ++ file ++ b!"}") ++ [c!"}"] := by simp
    rw [e, List.getLast?_concat]; decide
  · intro start _
    have := step_braces (w := w) (depth := depth) (start := start) (addr := none) hname hread rfl (fun _ => hnone)
      (by rw [htype]; rfl) hin
    simpa [addressText] using this

/-- A file that fits, but leaves no room for the rest of the text: a write behind the end of the buffer. -/
theorem C82_overflow {w : World} {depth : Nat} {base tb : Option Bytes} {pre file post content ins : Bytes}
    (hd : depth ≤ 10) (hn : NoEvenFence (pre ++ (b!"{{" ++ file ++ b!"}}") ++ post))
    (hq1 : Quiet [] pre (b!"{{" ++ file ++ b!"}}" ++ post)) (hb : Balanced pre)
    (hq2 : Quiet (pre ++ (b!"{{" ++ file ++ b!"}}")) post [])
    (hname : Name file) (hread : w.read (resolvePath file (transcludeBase base tb)) = some content)
    (hnone : post.head? ≠ some c!"[")
    (htype : fileType (resolvePath file (transcludeBase base tb)) = .text)
    (hin : Result w (depth + 1) (innerBase w (resolvePath file (transcludeBase base tb)) content) (w.base content) content ins)
    (hfits : pre.length + ins.length < max ((pre ++ (b!"{{" ++ file ++ b!"}}") ++ post).length * 10) (1024 * 1024))
    (hfull : max ((pre ++ (b!"{{" ++ file ++ b!"}}") ++ post).length * 10) (1024 * 1024) ≤ pre.length + ins.length + post.length) :
    ∃ fuel, process w fuel depth base tb (pre ++ (b!"{{" ++ file ++ b!"}}") ++ post) = some .ub := by
  refine core hd hn hq1 hb hq2 ⟨c!"{", _, rfl, by decide⟩ ?_ ?_ rfl (.inr (.inr ⟨hfits, hfull, rfl⟩))
  · have e : b!"{{" ++ file ++ b!"}}" = (b!"{{" ++ file ++ b!"}") ++ [c!"}"] := by simp
    rw [e, List.getLast?_concat]; decide
  · intro start _
    have := step_braces (w := w) (depth := depth) (start := start) (addr := none) hname hread rfl (fun _ => hnone)
      (by rw [htype]; rfl) hin
    simpa [addressText] using this

/-- Plain bytes hold no includes. -/
theorem quiet_replicate (n : Nat) (before after : Bytes) :
    Quiet before (List.replicate n c!"a") after := by
  intro a b hab hb
  obtain ⟨c, t, rfl⟩ := List.exists_cons_of_ne_nil hb
  have hc : c = c!"a" := by
    have : c ∈ List.replicate n c!"a" := by rw [hab]; simp
    exact List.eq_of_mem_replicate this
  subst hc
  unfold IncludeAt
  simp

theorem noFence_replicate (n : Nat) : NoEvenFence (List.replicate n c!"a") := by
  intro a k b hab _ _ hk
  have : c!"`" ∈ List.replicate n c!"a" := by
    rw [hab]
    obtain ⟨k, rfl⟩ : ∃ j, k = j + 1 := ⟨k - 1, by omega⟩
    simp [List.replicate_succ]
  exact absurd (List.eq_of_mem_replicate this) (by decide)

/-- A file of one megabyte less one byte, and one letter after the include. -/
theorem C82_overflow_case (n : Nat) (hn : n = 1048575) :
    ∃ fuel, process (oneFile (List.replicate n c!"a")) fuel 0 none none b!"{{x}}a" = some .ub := by
  have hin : Result (oneFile (List.replicate n c!"a")) 1 (some b!".") none (List.replicate n c!"a") (List.replicate n c!"a") :=
    C80_quiet_partial _ _ _ _ (noFence_replicate _) (quiet_replicate _ _ _)
  have := C82_overflow (w := oneFile (List.replicate n c!"a")) (depth := 0) (base := none) (tb := none) (pre := []) (file := b!"x")
    (post := b!"a") (content := List.replicate n c!"a") (ins := List.replicate n c!"a") (by omega)
    (by
      intro a k b hab _ _ hk
      have : c!"`" ∈ b!"{{x}}a" := by
        have e : b!"{{x}}a" = a ++ List.replicate k c!"`" ++ b := hab
        rw [e]
        obtain ⟨k, rfl⟩ : ∃ j, k = j + 1 := ⟨k - 1, by omega⟩
        simp [List.replicate_succ]
      exact absurd this (by decide))
    (by intro a b hab hb; exact absurd (List.append_eq_nil_iff.1 hab.symm).2 hb)
    (by unfold Balanced; decide) (quiet_replicate 1 _ _) ⟨by decide, by decide, by decide⟩
    (by simp [oneFile, resolvePath, transcludeBase]) (by decide) (by decide) hin
    (by rw [List.length_replicate]; simp; omega) (by rw [List.length_replicate]; simp; omega)
  exact this

/-! ### C83 -/

/-- C83, the part that holds: `{{file}}` that cannot be read is left as it is. -/
theorem C83_braces_partial {w : World} {depth : Nat} {base tb : Option Bytes} {pre file post : Bytes}
    (hn : NoEvenFence (pre ++ b!"{{" ++ file ++ b!"}}" ++ post))
    (hq1 : Quiet [] pre (b!"{{" ++ file ++ b!"}}" ++ post))
    (hq2 : Quiet (pre ++ b!"{") (b!"{" ++ file ++ b!"}}" ++ post) [])
    (hname : Name file) (hread : w.read (resolvePath file (transcludeBase base tb)) = none) :
    Result w depth base tb (pre ++ b!"{{" ++ file ++ b!"}}" ++ post) (pre ++ b!"{{" ++ file ++ b!"}}" ++ post) := by
  by_cases hd : depth > 10
  · exact C47_depth w base tb _ hd
  · have htext : pre ++ b!"{{" ++ file ++ b!"}}" ++ post = pre ++ (b!"{{" ++ file ++ b!"}}" ++ post) := by simp
    generalize hT : pre ++ b!"{{" ++ file ++ b!"}}" ++ post = text at *
    refine ⟨(0 + 1 + text.length) + 1, ?_⟩
    rw [process, if_neg hd, normalize_id hn]
    simp only [M.bind]
    obtain ⟨st, _, _, h⟩ := loop_copy_none (w := w) (recurse := fun b t s => process w (0 + 1 + text.length) (depth + 1) b t s)
      (base := transcludeBase base tb) (cap := max (text.length * 10) (1024 * 1024)) text (0 + 1) true false [] [] []
      (by simp [LineStart])
      (by
        intro a b hab hb2 fuel start hs
        rw [List.append_nil]
        rw [htext] at hab
        by_cases hla : a.length = pre.length
        · obtain ⟨h1, h2⟩ := List.append_inj hab hla.symm
          unfold step
          have hr : braces w fuel (fun b t s => process w (0 + 1 + text.length) (depth + 1) b t s) (transcludeBase base tb) b =
              some (.val none) := by
            unfold braces
            have e2 : b.drop 2 = file ++ b!"}}" ++ post := by rw [← h2]; rfl
            rw [e2, strstr_braces file _ fun hm => (hname.plain _ hm).1 rfl]
            simp only []
            rw [if_pos ⟨hname.ne, hname.short⟩]
            have e3 : (file ++ b!"}}" ++ post).take file.length = file := by simp
            rw [e3, wildcard_name hname, Option.getD_some, hread]
          rw [if_neg (by rw [← h2]; simp), hr]
          split
          · rfl
          · rw [if_neg (by rw [← h2]; simp)]
        · apply step_quiet hs.1
          rw [List.nil_append]
          rcases List.append_eq_append_iff.1 hab with ⟨x, hx1, hx2⟩ | ⟨x, hx1, hx2⟩
          · have hxne : x ≠ [] := by
              rintro rfl
              rw [List.append_nil] at hx1; rw [hx1] at hla; exact hla rfl
            obtain ⟨d, x', rfl⟩ := List.exists_cons_of_ne_nil hxne
            have hdd : d = c!"{" ∧ b!"{" ++ file ++ b!"}}" ++ post = x' ++ b := by
              have := hx2
              simp at this
              exact ⟨this.1.symm, by simpa using this.2⟩
            have := hq2 x' b hdd.2 hb2
            rw [List.append_nil] at this
            rw [hx1, hdd.1]
            simpa using this
          · by_cases hxne : x = []
            · subst hxne; rw [List.append_nil] at hx1; rw [← hx1] at hla; exact absurd rfl hla
            · have := hq1 a x hx1 hxne
              rw [hx2]
              simpa using this) (by simp; omega)
    rw [List.append_nil] at h
    rw [h, loop, finish_val (by simp; omega)]; rfl

/-- `<<[file]` that cannot be read disappears. -/
theorem C83_marked {w : World} {depth : Nat} {base tb : Option Bytes} {pre file post : Bytes}
    (hd : depth ≤ 10) (hn : NoEvenFence (pre ++ (b!"<<[" ++ file ++ b!"]") ++ post))
    (hq1 : Quiet [] pre (b!"<<[" ++ file ++ b!"]" ++ post)) (hb : Balanced pre) (hl : LineStart pre)
    (hq2 : Quiet (pre ++ (b!"<<[" ++ file ++ b!"]")) post [])
    (hne : 0 < file.length) (hshort : file.length < 1024) (hfile : c!"]" ∉ file)
    (hread : w.read (resolvePath file (transcludeBase base tb)) = none) (hnone : (Address.skipSpace post).head? ≠ some c!"[") :
    Result w depth base tb (pre ++ (b!"<<[" ++ file ++ b!"]") ++ post) (pre ++ post) := by
  have := core (w := w) (tb := tb) (base := base) (ins := []) (res := .val (pre ++ post)) hd hn hq1 hb hq2 ⟨c!"<", _, rfl, by decide⟩
    (by
      have e : b!"<<[" ++ file ++ b!"]" = (b!"<<[" ++ file) ++ [c!"]"] := by simp
      rw [e, List.getLast?_concat]; decide)
    (by
      intro start hs
      rw [hs.2 hl]
      exact step_marked_missing hne hshort hfile hread hnone) rfl
    (.inl ⟨by simp; omega, by simp⟩)
  exact this

/-! ### C84 -/

/-- C84 is false: for every file, `<<{file}` leaves a comment with its path; the text of the file does not matter. -/
theorem C84_raw {w : World} {depth : Nat} {base tb : Option Bytes} {pre file post content : Bytes}
    (hd : depth ≤ 10) (hn : NoEvenFence (pre ++ (b!"<<{" ++ file ++ b!"}") ++ post))
    (hq1 : Quiet [] pre (b!"<<{" ++ file ++ b!"}" ++ post)) (hb : Balanced pre) (hl : LineStart pre)
    (hq2 : Quiet (pre ++ (b!"<<{" ++ file ++ b!"}")) post [])
    (hne : 0 < file.length) (hfile : c!"}" ∉ file)
    (hread : w.read (resolvePath file (transcludeBase base tb)) = some content)
    (hshort : (resolvePath file (transcludeBase base tb)).length ≤ 999) (hfs : file.length < 1024)
    (hnone : (Address.skipSpace post).head? ≠ some c!"[") :
    Result w depth base tb (pre ++ (b!"<<{" ++ file ++ b!"}") ++ post)
      (pre ++ (b!"<!--APEX_RAW_INCLUDE:" ++ resolvePath file (transcludeBase base tb) ++ b!"-->") ++ post) := by
  have ht : (b!"<!--APEX_RAW_INCLUDE:" ++ resolvePath file (transcludeBase base tb) ++ b!"-->").take 1023 =
      b!"<!--APEX_RAW_INCLUDE:" ++ resolvePath file (transcludeBase base tb) ++ b!"-->" := by
    apply List.take_of_length_le; simp; omega
  refine core hd hn hq1 hb hq2 ⟨c!"<", _, rfl, by decide⟩ ?_ ?_ rfl (.inl ⟨?_, rfl⟩)
  · have e : b!"<<{" ++ file ++ b!"}" = (b!"<<{" ++ file) ++ [c!"}"] := by simp
    rw [e, List.getLast?_concat]; decide
  · intro start hs
    rw [hs.2 hl]
    have := step_marked_raw (w := w) (depth := depth) hne hfs hfile hread hnone
    rw [ht] at this
    exact this
  · simp; omega

/-! ### C85 -/

/-- C85 is false: a name with `.*` always goes to `glob`; the preferred extensions are never tried. -/
theorem C85_wildcard (w : World) (base : Option Bytes) {file : Bytes} (h : b!".*" <:+: file) :
    resolveWildcard w file base = w.glob (resolvePath file base) := by
  obtain ⟨a, b, hab⟩ := h
  have hmem : c!"*" ∈ file := by rw [← hab]; simp
  have hg : hasGlob file = true := by
    unfold hasGlob
    rw [List.any_eq_true]
    exact ⟨_, hmem, by decide⟩
  unfold resolveWildcard
  cases hs : Transforms.strstr file b!".*" with
  | none => simp [hg]
  | some i =>
    have hl := Transforms.strstr_le hs
    have hnot : ((file.drop (i + 1)).head? == none) = false := by
      have : (file.drop (i + 1)).length ≠ 0 := by
        rw [List.length_drop]
        have : i + 2 ≤ file.length := hl
        omega
      cases hd : file.drop (i + 1) with
      | nil => rw [hd] at this; exact absurd rfl this
      | cons c t => rfl
    simp only [hg, hnot, Bool.not_false, Bool.and_self, Bool.not_true, Bool.false_eq_true, if_false, if_true]

/-- `x.html` exists, but `glob` gives `x.csv`. -/
theorem C85_preference : ∃ w : World, w.exist b!"x.html" = true ∧ resolveWildcard w b!"x.*" none = some b!"x.csv" :=
  ⟨{ (oneFile []) with exist := fun _ => true, glob := fun _ => some b!"x.csv" }, rfl, by decide +kernel⟩

/-! ### C86 -/

/-- C86, the part that holds: the base of the document itself. -/
theorem C86_top_partial (dir t : Bytes) (h1 : t.head? ≠ some c!"/") (h2 : ¬ (t.head? = some c!"." ∧ ((t.drop 1).head? = some c!"/" ∨ t.drop 1 = []))) :
    transcludeBase (some dir) (some t) = some (dir ++ b!"/" ++ t) := by
  unfold transcludeBase
  simp only []
  rw [if_neg h1, if_neg h2]

/-- In an included file the base is applied twice. -/
theorem C86_twice (w : World) {path content t : Bytes} (ht : w.base content = some t) (h1 : t.head? ≠ some c!"/")
    (h2 : ¬ (t.head? = some c!"." ∧ ((t.drop 1).head? = some c!"/" ∨ t.drop 1 = []))) :
    transcludeBase (innerBase w path content) (w.base content) = some (w.dirname path ++ b!"/" ++ t ++ b!"/" ++ t) := by
  unfold innerBase
  rw [ht, C86_top_partial _ t h1 h2, C86_top_partial _ t h1 h2]

/-- A file `a/f` with transclude base `sub` that includes `g`: `a/sub/g` is not found, `a/sub/sub/g` is. -/
def nested (at_ : Bytes) : World where
  read := fun p => if p = b!"a/f" then some b!"{{g}}" else if p = at_ then some b!"text" else none
  exist := fun _ => false
  glob := fun _ => none
  dirname := fun _ => b!"a"
  base := fun c => if c = b!"{{g}}" then some b!"sub" else none
  regcomp := fun _ => none

theorem C86_not_found : process (nested b!"a/sub/g") 40 0 none none b!"{{a/f}}" = some (.val b!"{{g}}") ∧
    process (nested b!"a/sub/sub/g") 40 0 none none b!"{{a/f}}" = some (.val b!"text") := by decide +kernel

/-! Cases that meet the hypotheses. -/

example : process (oneFile b!"one\ntwo\nthree\n") 40 0 none none b!"a {{x}}[2,3] b\n<<[x]\n/x\n" =
    some (.val b!"a two\n b\none\ntwo\nthree\n\none\ntwo\nthree\n\n") := by decide +kernel
example : Name b!"part one.md" := ⟨by decide, by decide, by decide⟩
example : process (oneFile b!"text") 40 0 none none b!"<<[y] and {{y}}\n" = some (.val b!" and {{y}}\n") := by decide +kernel
example : process (oneFile b!"text") 40 0 none none b!"<<{x}\n" = some (.val b!"<!--APEX_RAW_INCLUDE:x-->\n") := by decide +kernel
example : process (oneFile b!"x = 1") 40 0 none none b!"<<(x)\n" = some (.val b!"\n```\nx = 1\n```\n\n") := by decide +kernel


end Verif.Includes
