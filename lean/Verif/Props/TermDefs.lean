/- C275: lists of definitions on a terminal. -/
import Verif.Proof.TermDefs

namespace Verif.Term
open Defs (Item Plain shown oneLine Out)

theorem block_list (o : Opt) (ind : Nat) (out s r : Bytes) (h : Out ind false false true (b!"<dl>" ++ s) r) : htmlBlock o ind out (b!"<dl>" ++ s) = .val (out ++ r ++ b!"\n") := by
  have hf : (Embed.find b!"<dl>" (b!"<dl>" ++ s)).isSome = true := by
    show (Embed.find b!"<dl>" (c!"<" :: (b!"dl>" ++ s))).isSome = true
    rw [Embed.find, show (c!"<" :: (b!"dl>" ++ s)) = b!"<dl>" ++ s from rfl, if_pos ⟨s, rfl⟩]
    rfl
  unfold htmlBlock
  rw [hf, Bool.true_or, Bool.true_or, if_pos rfl, h _ (Nat.le_refl _)]

/-- C275, for terms and definitions without tags: each term is on a line of its own, each of its definitions on a line below it that begins with the blanks of one more level,
with an empty line in front of each further term and behind the list.  Missing: terms and definitions with tags. -/
theorem C275_partial (o : Opt) (ind : Nat) (out : Bytes) (l : List Item) (h : ∀ i ∈ l, Plain i) :
    htmlBlock o ind out (Defs.html l) = .val (out ++ shown (List.replicate (2 * (ind + 1)) c!" ") l ++ b!"\n") := by
  have := Defs.out_list ind l h
  rw [Defs.html, show b!"<dl>\n" = b!"<dl>" ++ b!"\n" from rfl, List.append_assoc, List.append_assoc] at this ⊢
  exact block_list o ind out _ _ this

/-- C275, refuted: the tags of the text are not shown.  Of each element in a definition only the `<` is left out. -/
theorem C275_tags_fails (o : Opt) (ind : Nat) (out t a x b w : Bytes) (c : Byte) (ht : c!"<" ∉ t) (ha : c!"<" ∉ a) (hx : c!"<" ∉ x) (hb : c!"<" ∉ b) (hw : c!"<" ∉ c :: w)
    (h1 : c ≠ c!"d") (h2 : c ≠ c!"/") :
    htmlBlock o ind out (Defs.html [⟨t, [a ++ b!"<" ++ c :: w ++ b!">" ++ x ++ b!"</" ++ c :: w ++ b!">" ++ b]⟩]) =
      .val (out ++ (oneLine t ++ b!"\n" ++ List.replicate (2 * (ind + 1)) c!" " ++ oneLine (a ++ c :: w ++ b!">" ++ x ++ b!"/" ++ c :: w ++ b!">" ++ b) ++ b!"\n") ++ b!"\n") := by
  have e1 : Out ind false true false (b ++ (b!"</dd>" ++ (b!"\n" ++ (b!"</dl>" ++ (b!"\n" ++ []))))) (oneLine b ++ (b!"\n" ++ [])) := by
    have := Defs.out_text (ind := ind) (dt := false) (dd := true) (f := false) b hb (Defs.out_dd_end (Defs.out_nl (Defs.out_dl_end (Defs.out_nl (Defs.out_nil ind false false false)))))
    simpa using this
  have e2 := Defs.out_text (c!"/" :: c :: w ++ b!">") (by
    rw [List.mem_append]
    rintro (h | h)
    · rw [List.mem_cons] at h
      rcases h with h | h
      · exact absurd h (by decide)
      · exact hw h
    · exact absurd h (by decide)) e1
  have e3 := Defs.out_text x hx (Defs.out_lt_end h1 e2)
  have e4 := Defs.out_text (c :: w ++ b!">") (by
    rw [List.mem_append]
    rintro (h | h)
    · exact hw h
    · exact absurd h (by decide)) e3
  have e5 := Defs.out_text a ha (Defs.out_lt h1 h2 e4)
  have e6 := Defs.out_dl (Defs.out_nl (Defs.out_dt (dt := false) (f := true) (Defs.out_text t ht (Defs.out_dt_end (dt := true) (Defs.out_nl (Defs.out_dd (dd := false) e5))))))
  have e7 := block_list o ind out _ _ e6
  simp only [Bool.false_or, Bool.true_or, if_true, List.nil_append] at e7
  simp only [Defs.html, Item.html, Item.dd, oneLine, List.map_append, List.map_cons, List.flatMap_cons, List.flatMap_nil, List.append_assoc, List.append_nil, spaces] at e7 ⊢
  simpa using e7

/-- C275, refuted: characters are shown as such.  References to characters stay as they are. -/
theorem C275_entity_fails (o : Opt) : htmlBlock o 0 [] (Defs.html [⟨b!"a &amp; b", [b!"1 &lt; 2"]⟩]) = .val b!"a &amp; b\n  1 &lt; 2\n\n" := by
  rw [C275_partial o 0 [] _ (by
    intro i hi
    rw [List.mem_singleton] at hi
    subst hi
    exact ⟨by decide, by intro d hd; rw [List.mem_singleton] at hd; subst hd; decide⟩)]
  rfl

/-- C275: a case. -/
theorem C275_case : htmlBlock {} 1 b!"x\n" (Defs.html [⟨b!"a", [b!"one\ntwo", b!"three"]⟩, ⟨b!"b", [b!"four"]⟩]) = .val b!"x\na\n    one two\n    three\n\nb\n    four\n\n" ∧
    htmlBlock {} 0 [] (Defs.html [⟨b!"a", [b!"an <em>old</em> one"]⟩]) = .val b!"a\n  an em>old/em> one\n\n" := by
  constructor <;> decide +kernel

end Verif.Term
