/- Percent-decoding of URLs (RFC 3986, section 2.1). -/
import Verif.Spec.Html

namespace Verif.Url

/-- Every `%` with two hexadecimal digits stands for the byte with that number. -/
def decode : Bytes → Bytes
  | [] => []
  | [a] => [a]
  | [a, b] => [a, b]
  | c :: a :: b :: t =>
    match Html.hexVal a, Html.hexVal b with
    | some x, some y => if c = c!"%" then .ofNat (16 * x + y) :: decode t else c :: decode (a :: b :: t)
    | _, _ => c :: decode (a :: b :: t)

end Verif.Url
