/- JSON texts, after RFC 8259. -/
import Verif.Spec.Html

namespace Verif.JsonText

/-- RFC 8259 section 2: insignificant whitespace. -/
def Ws (w : Bytes) : Prop := ∀ c ∈ w, c = 0x20 ∨ c = 0x09 ∨ c = 0x0A ∨ c = 0x0D

/-- RFC 8259 section 7: one character of a string. -/
inductive Char : Bytes → Prop
  | plain (c : Byte) : c ≠ c!"\"" → c ≠ c!"\\" → 0x20 ≤ c → Char [c]
  | escape (e : Byte) : e ∈ b!"\"\\/bfnrt" → Char [c!"\\", e]
  | unicode (a b c d : Byte) : (∀ x ∈ [a, b, c, d], (Html.hexVal x).isSome) → Char [c!"\\", c!"u", a, b, c, d]

/-- RFC 8259 section 7: a string with its quotes. -/
def IsString (w : Bytes) : Prop := ∃ cs : List Bytes, (∀ x ∈ cs, Char x) ∧ w = c!"\"" :: cs.flatten ++ [c!"\""]

/-- One or more digits. -/
def Digits (w : Bytes) : Prop := w ≠ [] ∧ ∀ c ∈ w, 0x30 ≤ c ∧ c ≤ 0x39

/-- RFC 8259 section 6: a number. -/
def IsNumber (w : Bytes) : Prop :=
  ∃ sign int frac exp, w = sign ++ int ++ frac ++ exp ∧
    (sign = [] ∨ sign = b!"-") ∧
    (Digits int ∧ (int.head? = some c!"0" → int = b!"0")) ∧
    (frac = [] ∨ ∃ d, Digits d ∧ frac = c!"." :: d) ∧
    (exp = [] ∨ ∃ e s d, (e = c!"e" ∨ e = c!"E") ∧ (s = [] ∨ s = b!"+" ∨ s = b!"-") ∧ Digits d ∧ exp = e :: s ++ d)

mutual
/-- RFC 8259 section 3: a value. -/
inductive Val : Bytes → Prop
  | str {w} : IsString w → Val w
  | num {w} : IsNumber w → Val w
  | word {w} : w ∈ [b!"true", b!"false", b!"null"] → Val w
  | arrayEmpty {a} : Ws a → Val (b!"[" ++ a ++ b!"]")
  | array {e} : Elems e → Val (b!"[" ++ e ++ b!"]")
  | objectEmpty {a} : Ws a → Val (b!"{" ++ a ++ b!"}")
  | object {m} : Members m → Val (b!"{" ++ m ++ b!"}")

/-- RFC 8259 section 5: one or more elements of an array. -/
inductive Elems : Bytes → Prop
  | one {a v b} : Ws a → Val v → Ws b → Elems (a ++ v ++ b)
  | more {a v b e} : Ws a → Val v → Ws b → Elems e → Elems (a ++ v ++ b ++ b!"," ++ e)

/-- RFC 8259 section 4: one or more members of an object. -/
inductive Members : Bytes → Prop
  | one {a k b c v d} : Ws a → IsString k → Ws b → Ws c → Val v → Ws d → Members (a ++ k ++ b ++ b!":" ++ c ++ v ++ d)
  | more {a k b c v d m} : Ws a → IsString k → Ws b → Ws c → Val v → Ws d → Members m →
      Members (a ++ k ++ b ++ b!":" ++ c ++ v ++ d ++ b!"," ++ m)
end

/-- RFC 8259 section 2: a JSON text. -/
def IsText (w : Bytes) : Prop := ∃ a v b, Ws a ∧ Val v ∧ Ws b ∧ w = a ++ v ++ b

end Verif.JsonText
