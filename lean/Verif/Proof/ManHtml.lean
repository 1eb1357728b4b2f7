/- Lemmas for `Verif.Props.ManHtml`. -/
import Verif.Model.ManHtml
import Verif.Spec.ManHtml
import Verif.Proof.Embed

namespace Verif.ManHtml
open Man (Node Kind plainText plainTexts isDlBlock decimal)
open Spec

theorem Spec.Html.app {s t s' t' : Bytes} {a a' : List (Bytes × Bytes)} (h : Html s t a) (h' : Html s' t' a') : Html (s ++ s') (t ++ t') (a ++ a') := by
  induction h with
  | nil => exact h'
  | char c h1 h2 _ ih => exact .char c h1 h2 ih
  | entity e c he _ ih => rw [List.append_assoc]; exact .entity e c he ih
  | empty w hw hx _ ih =>
    have := Html.empty w hw hx ih
    simpa [List.append_assoc] using this
  | elem w hw hv hx hi _ _ ih =>
    have := Html.elem w hw hv hx hi ih
    simpa [List.append_assoc] using this

theorem html_plain {s : Bytes} (h : ∀ c ∈ s, c ≠ c!"<" ∧ c ≠ c!"&") : Html s s [] := by
  induction s with
  | nil => exact .nil
  | cons c s ih => exact .char c (h c (by simp)).1 (h c (by simp)).2 (ih fun x hx => h x (by simp [hx]))

theorem escs_cons (c : Byte) (s : Bytes) : (c!"&" = c ∧ esc (c :: s) = b!"&amp;" ++ esc s) ∨ (c!"<" = c ∧ esc (c :: s) = b!"&lt;" ++ esc s) ∨ (c!">" = c ∧ esc (c :: s) = b!"&gt;" ++ esc s) ∨
    (c!"\"" = c ∧ esc (c :: s) = b!"&quot;" ++ esc s) ∨ (c!"'" = c ∧ esc (c :: s) = b!"&#39;" ++ esc s) ∨ (c ≠ c!"<" ∧ c ≠ c!"&" ∧ c ≠ c!"\"" ∧ esc (c :: s) = c :: esc s) := by
  unfold esc
  rw [List.flatMap_cons]
  by_cases h1 : c = c!"&"
  · left; subst h1; exact ⟨rfl, rfl⟩
  by_cases h2 : c = c!"<"
  · right; left; subst h2; exact ⟨rfl, rfl⟩
  by_cases h3 : c = c!">"
  · right; right; left; subst h3; exact ⟨rfl, rfl⟩
  by_cases h4 : c = c!"\""
  · right; right; right; left; subst h4; exact ⟨rfl, rfl⟩
  by_cases h5 : c = c!"'"
  · right; right; right; right; left; subst h5; exact ⟨rfl, rfl⟩
  right; right; right; right; right
  rw [if_neg h1, if_neg h2, if_neg h3, if_neg h4, if_neg h5]
  exact ⟨h2, h1, h4, rfl⟩

theorem html_esc (s : Bytes) : Html (esc s) s [] := by
  induction s with
  | nil => exact .nil
  | cons c s ih =>
    rcases escs_cons c s with ⟨h, e⟩ | ⟨h, e⟩ | ⟨h, e⟩ | ⟨h, e⟩ | ⟨h, e⟩ | ⟨h1, h2, _, e⟩
    iterate 5 (· rw [e, ← h]; exact .entity _ _ (by decide) ih)
    rw [e]; exact .char c h1 h2 ih

theorem value_esc (s : Bytes) : Value (esc s) s := by
  induction s with
  | nil => exact .nil
  | cons c s ih =>
    rcases escs_cons c s with ⟨h, e⟩ | ⟨h, e⟩ | ⟨h, e⟩ | ⟨h, e⟩ | ⟨h, e⟩ | ⟨_, h2, h3, e⟩
    iterate 5 (· rw [e, ← h]; exact .entity _ _ (by decide) ih)
    rw [e]; exact .char c h3 h2 ih

theorem value_plain {s : Bytes} (h : ∀ c ∈ s, c ≠ c!"\"" ∧ c ≠ c!"&") : Value s s := by
  induction s with
  | nil => exact .nil
  | cons c s ih => exact .char c (h c (by simp)).1 (h c (by simp)).2 (ih fun x hx => h x (by simp [hx]))

theorem value_app {s t s' t' : Bytes} (h : Value s t) (h' : Value s' t') : Value (s ++ s') (t ++ t') := by
  induction h with
  | nil => exact h'
  | char c h1 h2 _ ih => exact .char c h1 h2 ih
  | entity e c he _ ih => rw [List.append_assoc]; exact .entity e c he ih

theorem attr1 {w raw v : Bytes} (hw : Word w) (h : Value raw v) : Attrs (b!" " ++ w ++ b!"=\"" ++ raw ++ b!"\"") [(w, v)] := by
  have := Attrs.cons w hw h .nil
  rwa [List.append_nil] at this

theorem attr2 {w raw v w' raw' v' : Bytes} (hw : Word w) (h : Value raw v) (hw' : Word w') (h' : Value raw' v') :
    Attrs (b!" " ++ w ++ b!"=\"" ++ raw ++ b!"\"" ++ (b!" " ++ w' ++ b!"=\"" ++ raw' ++ b!"\"")) [(w, v), (w', v')] := Attrs.cons w hw h (attr1 hw' h')

theorem html_elem {w x i t : Bytes} {as bs : List (Bytes × Bytes)} (hw : Word w) (hv : w ∉ void) (hx : Attrs x as) (h : Html i t bs) :
    Html (b!"<" ++ w ++ x ++ b!">" ++ i ++ b!"</" ++ w ++ b!">") t (as ++ bs) := by
  have := Html.elem w hw hv hx h .nil
  simpa using this

theorem html_void {w x : Bytes} {as : List (Bytes × Bytes)} (hw : w ∈ void) (hx : Attrs x as) : Html (b!"<" ++ w ++ x ++ b!">") [] as := by
  have := Html.empty w hw hx .nil
  simpa using this

theorem html_nl : Html b!"\n" b!"\n" [] := html_plain (by decide)

/-- An element without attributes. -/
theorem html_bare {w i t : Bytes} {bs : List (Bytes × Bytes)} (hw : Word w) (hv : w ∉ void) (h : Html i t bs) (s e : Bytes) (hs : s = b!"<" ++ w ++ b!">") (he : e = b!"</" ++ w ++ b!">") :
    Html (s ++ i ++ e) t bs := by
  have := html_elem hw hv .nil h
  subst hs he
  simpa [List.append_assoc] using this

theorem word_iff (w : Bytes) (h : (!w.isEmpty && w.all isAlnum) = true) : Word w := by
  simp at h
  exact ⟨h.1, h.2⟩

theorem ink_append (s t : Bytes) : ink (s ++ t) = ink s ++ ink t := List.filter_append ..

theorem values_append (w : Bytes) (a b : List (Bytes × Bytes)) : valuesOf w (a ++ b) = valuesOf w a ++ valuesOf w b := by
  simp [valuesOf]

theorem slug_anchor (s : Bytes) : slug s = anchor s := by
  induction s with
  | nil => rfl
  | cons c s ih =>
    have e : slug (c :: s) = (if c = c!" " || c = c!"\t" then b!"-" else if isAlnum c || c = c!"-" then [c] else []) ++ slug s := rfl
    rw [e, ih]
    unfold anchor
    rw [List.filterMap_cons]
    by_cases h1 : c = c!" " ∨ c = c!"\t"
    · simp [h1]
    · simp only [h1, if_false]
      rw [if_neg (c := (decide (c = c!" ") || decide (c = c!"\t")) = true) (by simpa using h1)]
      by_cases h2 : isAlnum c = true ∨ c = c!"-"
      · simp [h2]
      · rw [if_neg (by simpa using h2)]; simp [h2]

theorem slug_word {s : Bytes} : ∀ c ∈ slug s, isAlnum c = true ∨ c = c!"-" := by
  intro c hc
  unfold slug at hc
  rw [List.mem_flatMap] at hc
  obtain ⟨d, _, h⟩ := hc
  split at h
  · right; simpa using h
  · split at h
    · rename_i h2
      simp at h h2
      subst h
      exact h2
    · simp at h

theorem slug_length (s : Bytes) : (slug s).length ≤ s.length := by
  rw [slug_anchor]
  exact List.length_filterMap_le ..

mutual
theorem id_word : ∀ (n : Node), ∀ c ∈ sectionId n, isAlnum c = true ∨ c = c!"-"
  | .mk _ kids => by
    intro c hc
    rw [sectionId] at hc
    exact ids_word kids c hc
theorem ids_word : ∀ (ns : List Node), ∀ c ∈ sectionIds ns, isAlnum c = true ∨ c = c!"-"
  | [] => by intro c hc; simp [sectionIds] at hc
  | n :: ns => by
    intro c hc
    rw [sectionIds] at hc
    cases h : literal n with
    | some s => rw [h] at hc; exact slug_word c hc
    | none =>
      rw [h] at hc
      simp only [List.mem_append] at hc
      rcases hc with hc | hc
      · exact id_word n c hc
      · exact ids_word ns c hc
end

theorem alnum_safe : ∀ c : Byte, (isAlnum c = true ∨ c = c!"-") → (c ≠ c!"\"" ∧ c ≠ c!"&" ∧ c ≠ c!"<" ∧ c ≠ c!">" ∧ c ≠ c!"'") :=
  forall_byte (p := fun c => (isAlnum c = true ∨ c = c!"-") → (c ≠ c!"\"" ∧ c ≠ c!"&" ∧ c ≠ c!"<" ∧ c ≠ c!">" ∧ c ≠ c!"'")) (by decide +kernel)

theorem esc_id {s : Bytes} (h : ∀ c ∈ s, isAlnum c = true ∨ c = c!"-") : esc s = s := by
  induction s with
  | nil => rfl
  | cons c s ih =>
    have hc := alnum_safe c (h c (by simp))
    have e : esc (c :: s) = (if c = c!"&" then b!"&amp;" else if c = c!"<" then b!"&lt;" else if c = c!">" then b!"&gt;" else if c = c!"\"" then b!"&quot;" else if c = c!"'" then b!"&#39;" else [c]) ++ esc s := rfl
    rw [e, ih fun x hx => h x (by simp [hx]), if_neg hc.2.1, if_neg hc.2.2.1, if_neg hc.2.2.2.1, if_neg hc.1, if_neg hc.2.2.2.2]
    rfl

mutual
/-- Runs of text are well-formed; they show what is written, and lead where the links lead. -/
theorem inline_html : ∀ (n : Node), ∃ t as, Html (inline n) t as ∧ (inlineTree n = true → ink t = ink (prose n) ∧ valuesOf b!"href" as = targets n) ∧ valuesOf b!"id" as = []
  | .mk k kids => by
    obtain ⟨t, as, h, hp, hi⟩ := inlines_html kids
    have hd : inline (.mk k kids) = inlines kids → (inlineTree (.mk k kids) = true → prose (.mk k kids) = proses kids ∧ targets (.mk k kids) = targetss kids) →
        ∃ t as, Html (inline (.mk k kids)) t as ∧ (inlineTree (.mk k kids) = true → ink t = ink (prose (.mk k kids)) ∧ valuesOf b!"href" as = targets (.mk k kids)) ∧ valuesOf b!"id" as = [] := by
      intro he hq
      refine ⟨t, as, by rw [he]; exact h, ?_, hi⟩
      intro hn
      rw [(hq hn).1, (hq hn).2]
      rw [inlineTree] at hn
      simp only [Bool.and_eq_true] at hn
      exact hp hn.2
    have hk : ∀ k, inlineTree (.mk k kids) = true → inlineTrees kids = true := by
      intro k hn
      rw [inlineTree] at hn
      simp only [Bool.and_eq_true] at hn
      exact hn.2
    have hl : ∀ k, leafKind k = true → inlineTree (.mk k kids) = true → kids = [] := by
      intro k hlf hn
      rw [inlineTree] at hn
      simp only [Bool.and_eq_true, hlf, Bool.not_true, Bool.false_or] at hn
      exact List.isEmpty_iff.mp hn.1.2
    cases k with
    | text s =>
      refine ⟨s, [], by rw [inline]; exact html_esc s, fun hn => ⟨rfl, ?_⟩, rfl⟩
      rw [hl _ rfl hn]; rfl
    | code s =>
      refine ⟨s, [], ?_, fun hn => ⟨rfl, ?_⟩, rfl⟩
      · rw [inline]
        exact html_bare (w := b!"code") (word_iff _ (by decide)) (by decide) (html_esc s) _ _ rfl rfl
      · rw [hl _ rfl hn]; rfl
    | lineBreak =>
      refine ⟨b!"\n", [], ?_, fun hn => ⟨?_, ?_⟩, rfl⟩
      · rw [inline]
        exact (html_void (w := b!"br") (by decide) .nil).app html_nl
      · rw [hl _ rfl hn]; rfl
      · rw [hl _ rfl hn]; rfl
    | softBreak =>
      refine ⟨b!" ", [], ?_, fun hn => ⟨?_, ?_⟩, rfl⟩
      · rw [inline]
        exact html_plain (by decide)
      · rw [hl _ rfl hn]; rfl
      · rw [hl _ rfl hn]; rfl
    | strong =>
      refine ⟨t, as, ?_, fun hn => ?_, hi⟩
      · rw [inline]
        exact html_bare (w := b!"strong") (word_iff _ (by decide)) (by decide) h _ _ rfl rfl
      · exact hp (hk _ hn)
    | emph =>
      refine ⟨t, as, ?_, fun hn => ?_, hi⟩
      · rw [inline]
        exact html_bare (w := b!"em") (word_iff _ (by decide)) (by decide) h _ _ rfl rfl
      · exact hp (hk _ hn)
    | link url =>
      by_cases hu : url = []
      · refine hd (by rw [inline]; simp [hu]) fun _ => ⟨rfl, (by show (if url = [] then [] else [url]) ++ targetss kids = _; simp [hu])⟩
      · refine ⟨t, [(b!"href", url)] ++ as, ?_, fun hn => ?_, by rw [values_append, hi]; rfl⟩
        · rw [inline]
          simp only [hu, ne_eq, not_false_eq_true, if_true]
          have := html_elem (w := b!"a") (word_iff _ (by decide)) (by decide) (attr1 (w := b!"href") (word_iff _ (by decide)) (value_esc url)) h
          simpa [List.append_assoc] using this
        · refine ⟨(hp (hk _ hn)).1, ?_⟩
          have e : targets (.mk (.link url) kids) = (if url = [] then [] else [url]) ++ targetss kids := rfl
          rw [e, if_neg hu, values_append, (hp (hk _ hn)).2]
          rfl
    | htmlInline =>
      refine ⟨[], [], by rw [inline]; exact .nil, fun hn => ⟨?_, ?_⟩, rfl⟩
      · rw [hl _ rfl hn]; rfl
      · rw [hl _ rfl hn]; rfl
    | other => exact hd rfl fun _ => ⟨rfl, rfl⟩
    | document => exact hd rfl fun _ => ⟨rfl, rfl⟩
    | heading l => exact hd rfl fun _ => ⟨rfl, rfl⟩
    | paragraph => exact hd rfl fun _ => ⟨rfl, rfl⟩
    | list b => exact hd rfl fun _ => ⟨rfl, rfl⟩
    | item b => exact hd rfl fun _ => ⟨rfl, rfl⟩
    | codeBlock b => exact hd rfl fun hn => by simp [inlineTree, inlineKind] at hn
    | blockQuote => exact hd rfl fun _ => ⟨rfl, rfl⟩
    | thematicBreak => exact hd rfl fun _ => ⟨rfl, rfl⟩
    | htmlBlock b => exact hd rfl fun _ => ⟨rfl, rfl⟩
    | defList => exact hd rfl fun _ => ⟨rfl, rfl⟩
    | defTerm => exact hd rfl fun _ => ⟨rfl, rfl⟩
    | defData => exact hd rfl fun _ => ⟨rfl, rfl⟩
theorem inlines_html : ∀ (ns : List Node), ∃ t as, Html (inlines ns) t as ∧ (inlineTrees ns = true → ink t = ink (proses ns) ∧ valuesOf b!"href" as = targetss ns) ∧ valuesOf b!"id" as = []
  | [] => ⟨[], [], .nil, fun _ => ⟨rfl, rfl⟩, rfl⟩
  | n :: ns => by
    obtain ⟨t, as, h, hp, hi⟩ := inline_html n
    obtain ⟨t', as', h', hp', hi'⟩ := inlines_html ns
    refine ⟨t ++ t', as ++ as', by rw [inlines]; exact h.app h', fun hn => ?_, by rw [values_append, hi, hi']; rfl⟩
    rw [inlineTrees, Bool.and_eq_true] at hn
    rw [ink_append, values_append, proses, targetss, ink_append, (hp hn.1).1, (hp hn.1).2, (hp' hn.2).1, (hp' hn.2).2]
    exact ⟨rfl, rfl⟩
end

/-- The tag of a heading. -/
theorem tag_word (l : Nat) : Word (b!"h" ++ decimal (min (l + 1) 4)) ∧ b!"h" ++ decimal (min (l + 1) 4) ∉ void := by
  have : min (l + 1) 4 = 1 ∨ min (l + 1) 4 = 2 ∨ min (l + 1) 4 = 3 ∨ min (l + 1) 4 = 4 := by omega
  rcases this with h | h | h | h <;> rw [h] <;> exact ⟨word_iff _ (by decide +kernel), by decide +kernel⟩

theorem ink_nl {t : Bytes} : ink (b!"\n" ++ t ++ b!"\n") = ink t := by
  rw [ink_append, ink_append]
  show [] ++ ink t ++ [] = _
  simp

theorem ink_nl' {t : Bytes} : ink (t ++ b!"\n") = ink t := by
  rw [ink_append]
  show ink t ++ [] = _
  simp

theorem ink_nl2 {t : Bytes} : ink (b!"\n" ++ (b!"\n" ++ t) ++ b!"\n") = ink t := by
  rw [ink_nl, ink_append]; rfl

theorem html_lines {s t : Bytes} {as : List (Bytes × Bytes)} (h : Html s t as) : Html (b!"\n" ++ s ++ b!"\n") (b!"\n" ++ t ++ b!"\n") as := by
  have := (html_nl.app h).app html_nl
  rwa [List.nil_append, List.append_nil] at this

theorem html_line {s t : Bytes} {as : List (Bytes × Bytes)} (h : Html s t as) : Html (s ++ b!"\n") (t ++ b!"\n") as := by
  have := h.app html_nl
  rwa [List.append_nil] at this

theorem html_below {s t : Bytes} {as : List (Bytes × Bytes)} (h : Html s t as) : Html (b!"\n" ++ s) (b!"\n" ++ t) as := html_nl.app h

mutual
/-- Blocks without HTML are well-formed. -/
theorem block_html : ∀ (b : Bool) (n : Node), noHtml n = true → ∃ t as, Html (block b n) t as ∧ (plainTree n = true → ink t = ink (prose n) ∧ valuesOf b!"href" as = targets n)
  | b, .mk k kids => by
    intro hh
    obtain ⟨t, as, h, hp, _⟩ := inlines_html kids
    have hb : ∀ b', noHtmls kids = true → ∃ t as, Html (blocks b' kids) t as ∧ (plainTrees kids = true → ink t = ink (proses kids) ∧ valuesOf b!"href" as = targetss kids) :=
      fun b' hn => blocks_html b' kids hn
    have hd : block b (.mk k kids) = blocks false kids → noHtmls kids = true → (plainTree (.mk k kids) = true → plainTrees kids = true ∧ prose (.mk k kids) = proses kids ∧ targets (.mk k kids) = targetss kids) →
        ∃ t as, Html (block b (.mk k kids)) t as ∧ (plainTree (.mk k kids) = true → ink t = ink (prose (.mk k kids)) ∧ valuesOf b!"href" as = targets (.mk k kids)) := by
      intro he hno hq
      obtain ⟨t, as, h, hp⟩ := hb false hno
      refine ⟨t, as, by rw [he]; exact h, fun hn => ?_⟩
      rw [(hq hn).2.1, (hq hn).2.2]
      exact hp (hq hn).1
    cases k with
    | heading l =>
      refine ⟨b!"\n" ++ t ++ b!"\n", [(b!"class", b!"man-section")] ++ ([(b!"id", sectionIds kids)] ++ as), ?_, fun hn => ?_⟩
      · rw [block]
        have h1 := html_elem (tag_word l).1 (tag_word l).2 (attr1 (w := b!"id") (word_iff _ (by decide)) (value_plain (s := sectionIds kids) fun c hc => by
          have := alnum_safe c (ids_word kids c hc); exact ⟨this.1, this.2.1⟩)) h
        have h2 := html_lines (html_elem (w := b!"div") (word_iff _ (by decide)) (by decide) (attr1 (w := b!"class") (word_iff _ (by decide)) (value_plain (s := b!"man-section") (by decide))) h1)
        simp only [List.append_assoc] at h2 ⊢
        exact h2
      · rw [ink_nl, values_append, values_append, (hp hn).1, (hp hn).2]
        exact ⟨rfl, rfl⟩
    | paragraph =>
      refine ⟨t ++ b!"\n", as, ?_, fun hn => ?_⟩
      · rw [block]
        split
        · exact html_line h
        · have := html_line (html_bare (w := b!"p") (word_iff _ (by decide)) (by decide) h _ _ rfl rfl)
          simp only [List.append_assoc] at this ⊢
          exact this
      · rw [ink_nl']
        exact hp hn
    | list bl =>
      obtain ⟨t, as, h, hp⟩ := hb false hh
      refine ⟨b!"\n" ++ (b!"\n" ++ t) ++ b!"\n", as, ?_, fun hn => ?_⟩
      · rw [block]
        cases bl
        · have := html_lines (html_bare (w := b!"ol") (word_iff _ (by decide)) (by decide) (html_below h) _ _ rfl rfl)
          simp only [Bool.false_eq_true, if_false, List.append_assoc] at this ⊢
          exact this
        · have := html_lines (html_bare (w := b!"ul") (word_iff _ (by decide)) (by decide) (html_below h) _ _ rfl rfl)
          simp only [if_true, List.append_assoc] at this ⊢
          exact this
      · rw [ink_nl2]
        exact hp hn
    | item i =>
      obtain ⟨t, as, h, hp⟩ := hb true hh
      refine ⟨t ++ b!"\n", as, ?_, fun hn => ?_⟩
      · rw [block]
        have := html_line (html_bare (w := b!"li") (word_iff _ (by decide)) (by decide) h _ _ rfl rfl)
        simp only [List.append_assoc] at this ⊢
        exact this
      · rw [ink_nl']
        exact hp hn
    | codeBlock s =>
      refine ⟨b!"\n" ++ s ++ b!"\n", [], ?_, fun hn => ?_⟩
      · rw [block]
        have := html_lines (html_bare (w := b!"pre") (word_iff _ (by decide)) (by decide) (html_bare (w := b!"code") (word_iff _ (by decide)) (by decide) (html_esc s) _ _ rfl rfl) _ _ rfl rfl)
        simp only [List.append_assoc] at this ⊢
        exact this
      · rw [ink_nl, List.isEmpty_iff.mp hn]
        exact ⟨rfl, rfl⟩
    | blockQuote =>
      obtain ⟨t, as, h, hp⟩ := hb false hh
      refine ⟨b!"\n" ++ (b!"\n" ++ t) ++ b!"\n", as, ?_, fun hn => ?_⟩
      · rw [block]
        have := html_lines (html_bare (w := b!"blockquote") (word_iff _ (by decide)) (by decide) (html_below h) _ _ rfl rfl)
        simp only [List.append_assoc] at this ⊢
        exact this
      · rw [ink_nl2]
        exact hp hn
    | thematicBreak =>
      refine ⟨b!"\n" ++ [] ++ b!"\n", [], ?_, fun hn => ?_⟩
      · rw [block]
        exact html_lines (html_void (w := b!"hr") (by decide) .nil)
      · rw [ink_nl, List.isEmpty_iff.mp hn]
        exact ⟨rfl, rfl⟩
    | htmlBlock s => simp [noHtml] at hh
    | document => exact hd rfl hh fun hn => ⟨hn, rfl, rfl⟩
    | text s => exact hd rfl hh fun hn => by simp [plainTree] at hn
    | code s => exact hd rfl hh fun hn => by simp [plainTree] at hn
    | lineBreak => exact hd rfl hh fun hn => by simp [plainTree] at hn
    | softBreak => exact hd rfl hh fun hn => by simp [plainTree] at hn
    | strong => exact hd rfl hh fun hn => by simp [plainTree] at hn
    | emph => exact hd rfl hh fun hn => by simp [plainTree] at hn
    | link u => exact hd rfl hh fun hn => by simp [plainTree] at hn
    | htmlInline => exact hd rfl hh fun hn => by simp [plainTree] at hn
    | other => exact hd rfl hh fun hn => by simp [plainTree] at hn
    | defList => exact hd rfl hh fun hn => by simp [plainTree] at hn
    | defTerm => exact hd rfl hh fun hn => by simp [plainTree] at hn
    | defData => exact hd rfl hh fun hn => by simp [plainTree] at hn
theorem blocks_html : ∀ (b : Bool) (ns : List Node), noHtmls ns = true → ∃ t as, Html (blocks b ns) t as ∧ (plainTrees ns = true → ink t = ink (proses ns) ∧ valuesOf b!"href" as = targetss ns)
  | _, [] => fun _ => ⟨[], [], by rw [blocks]; exact .nil, fun _ => ⟨rfl, rfl⟩⟩
  | b, n :: ns => by
    intro hh
    rw [noHtmls, Bool.and_eq_true] at hh
    obtain ⟨t, as, h, hp⟩ := block_html b n hh.1
    obtain ⟨t', as', h', hp'⟩ := blocks_html false ns hh.2
    refine ⟨t ++ t', as ++ as', by rw [blocks]; exact h.app h', fun hn => ?_⟩
    rw [plainTrees, Bool.and_eq_true] at hn
    rw [ink_append, values_append, proses, targetss, ink_append, (hp hn.1).1, (hp hn.1).2, (hp' hn.2).1, (hp' hn.2).2]
    exact ⟨rfl, rfl⟩
end

mutual
/-- The kinds of runs of text are not blocks of HTML. -/
theorem inline_noHtml : ∀ (n : Node), inlineTree n = true → noHtml n = true
  | .mk k kids => by
    intro h
    rw [inlineTree] at h
    simp only [Bool.and_eq_true] at h
    have := inlines_noHtml kids h.2
    cases k <;> first | exact this | (simp [inlineKind] at h)
theorem inlines_noHtml : ∀ (ns : List Node), inlineTrees ns = true → noHtmls ns = true
  | [] => fun _ => rfl
  | n :: ns => by
    intro h
    rw [inlineTrees, Bool.and_eq_true] at h
    rw [noHtmls, inline_noHtml n h.1, inlines_noHtml ns h.2]; rfl
end

mutual
theorem plain_noHtml : ∀ (n : Node), plainTree n = true → noHtml n = true
  | .mk k kids => by
    intro h
    rw [plainTree.eq_def] at h
    have hk : inlineTrees kids = true ∨ plainTrees kids = true ∨ kids.isEmpty = true → noHtmls kids = true := by
      intro h
      rcases h with h | h | h
      · exact inlines_noHtml kids h
      · exact plains_noHtml kids h
      · rw [List.isEmpty_iff.mp h]; rfl
    cases k <;> simp only [Bool.false_eq_true] at h <;> first | exact hk (.inl h) | exact hk (.inr (.inl h)) | exact hk (.inr (.inr h))
theorem plains_noHtml : ∀ (ns : List Node), plainTrees ns = true → noHtmls ns = true
  | [] => fun _ => rfl
  | n :: ns => by
    intro h
    rw [plainTrees, Bool.and_eq_true] at h
    rw [noHtmls, plain_noHtml n h.1, plains_noHtml ns h.2]; rfl
end

end Verif.ManHtml
