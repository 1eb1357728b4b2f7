/-
Specification for hiding e-mail addresses.
-/
import Verif.Spec.Html
import Verif.Basic

namespace Verif.Obfuscate.Spec

/-- A link to an e-mail address with its text, as the renderer writes it. -/
def link (addr text : Bytes) : Bytes := b!"<a href=\"mailto:" ++ addr ++ b!"\">" ++ text ++ b!"</a>"

/-- `h` hides `s`: one numeric reference with two digits for every byte. -/
inductive Hides : Bytes → Bytes → Prop
  | nil : Hides [] []
  | cons {c s h a b x y} : Html.hexVal a = some x → Html.hexVal b = some y → c.toNat = 16 * x + y → Hides h s →
      Hides (b!"&#x" ++ [a, b] ++ b!";" ++ h) (c :: s)

/-- A page with links to e-mail addresses: text, address, text of the link; and what follows the last of them. -/
def page (l : List (Bytes × Bytes × Bytes)) (tail : Bytes) : Bytes :=
  l.flatMap (fun (a, addr, text) => a ++ link addr text) ++ tail

/-- The same page with the addresses and the texts hidden. -/
inductive Hidden : List (Bytes × Bytes × Bytes) → Bytes → Bytes → Prop
  | nil {tail} : Hidden [] tail tail
  | cons {a addr text l tail h1 h2 r} : Hides h1 (b!"mailto:" ++ addr) → Hides h2 text → Hidden l tail r →
      Hidden ((a, addr, text) :: l) tail (a ++ b!"<a href=\"" ++ h1 ++ b!"\">" ++ h2 ++ b!"</a>" ++ r)

end Verif.Obfuscate.Spec
