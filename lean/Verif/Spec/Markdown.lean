/- CommonMark backslash escapes. -/
import Verif.Basic

namespace Verif.Markdown

/-- ASCII punctuation: the characters a backslash can escape. -/
def isPunct (c : Byte) : Bool :=
  (33 ≤ c && c ≤ 47) || (58 ≤ c && c ≤ 64) || (91 ≤ c && c ≤ 96) || (123 ≤ c && c ≤ 126)

/-- Read backslash escapes: a backslash before ASCII punctuation stands for that character. -/
def unescape : Bytes → Bytes
  | [] => []
  | [c] => [c]
  | c :: d :: t =>
    if c = c!"\\" ∧ isPunct d then d :: unescape t else c :: unescape (d :: t)

/-- Characters with a meaning in running Markdown text. MultiMarkdown documents use braces and dashes
for `{{TOC:2-4}}`, so apex leaves them alone there. -/
def special (mmd : Bool) : Bytes := b!"\\`*_[]()#+.!" ++ (if mmd then [] else b!"{}-")

end Verif.Markdown
