/-
Specification for quotation marks in the language of a document.
-/
import Verif.Basic

namespace Verif.QuoteLang.Spec

/-- The four marks: double and single, opening and closing. -/
inductive Mark
  | double_open | double_close | single_open | single_close

/-- How a mark is written in a page: as an entity or as a character in UTF-8. -/
def entity : Mark → Bytes
  | .double_open => b!"&ldquo;"
  | .double_close => b!"&rdquo;"
  | .single_open => b!"&lsquo;"
  | .single_close => b!"&rsquo;"

def character : Mark → Bytes
  | .double_open => [0xE2, 0x80, 0x9C]
  | .double_close => [0xE2, 0x80, 0x9D]
  | .single_open => [0xE2, 0x80, 0x98]
  | .single_close => [0xE2, 0x80, 0x99]

/-- The languages with marks of their own, and these marks. -/
inductive Style : Bytes → (Mark → Bytes) → Prop
  | french {n} : n ∈ [b!"french", b!"fr"] → Style n fun
      | .double_open => b!"&laquo;&nbsp;" | .double_close => b!"&nbsp;&raquo;" | .single_open => b!"&rsquo;" | .single_close => b!"&rsquo;"
  | german {n} : n ∈ [b!"german", b!"de", b!"dutch", b!"nl"] → Style n fun
      | .double_open => b!"&bdquo;" | .double_close => b!"&ldquo;" | .single_open => b!"&sbquo;" | .single_close => b!"&lsquo;"
  | guillemets {n} : n = b!"germanguillemets" → Style n fun
      | .double_open => b!"&raquo;" | .double_close => b!"&laquo;" | .single_open => b!"&rsaquo;" | .single_close => b!"&lsaquo;"
  | spanish {n} : n ∈ [b!"spanish", b!"es"] → Style n fun
      | .double_open => b!"&laquo;" | .double_close => b!"&raquo;" | .single_open => b!"&lsquo;" | .single_close => b!"&rsquo;"
  | swedish {n} : n ∈ [b!"swedish", b!"sv"] → Style n fun
      | .double_open => b!"&rdquo;" | .double_close => b!"&rdquo;" | .single_open => b!"&rsquo;" | .single_close => b!"&rsquo;"

/-- A letter in another case. -/
def sameLetter (a b : Byte) : Prop := a = b ∨ (65 ≤ a ∧ a ≤ 90 ∧ b = a + 32)

/-- `lang` is a way to write the name `n`, which is in lower case: white space does not count, nor does case. -/
inductive Writes : Bytes → Bytes → Prop
  | nil : Writes [] []
  | space {c l n} : c ∈ b!" \t\n\r" ∨ c = 11 ∨ c = 12 → Writes l n → Writes (c :: l) n
  | letter {c d l n} : ¬ (c ∈ b!" \t\n\r" ∨ c = 11 ∨ c = 12) → ¬ (65 ≤ d ∧ d ≤ 90) → sameLetter c d → Writes l n → Writes (c :: l) (d :: n)

/-- All marks of a page are replaced and nothing else. -/
inductive Replaced (q : Mark → Bytes) : Bytes → Bytes → Prop
  | nil : Replaced q [] []
  | entity {k s o} : Replaced q s o → Replaced q (entity k ++ s) (q k ++ o)
  | character {k s o} : Replaced q s o → Replaced q (character k ++ s) (q k ++ o)
  | other {c s o} : (∀ k, ¬ Spec.entity k <+: c :: s ∧ ¬ Spec.character k <+: c :: s) → Replaced q s o → Replaced q (c :: s) (c :: o)

/-- Some marks of a page are replaced and nothing else. -/
inductive Partly (q : Mark → Bytes) : Bytes → Bytes → Prop
  | nil : Partly q [] []
  | entity {k s o} : Partly q s o → Partly q (Spec.entity k ++ s) (q k ++ o)
  | character {k s o} : Partly q s o → Partly q (Spec.character k ++ s) (q k ++ o)
  | keep {c s o} : Partly q s o → Partly q (c :: s) (c :: o)

end Verif.QuoteLang.Spec
