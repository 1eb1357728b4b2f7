/- Pages with code blocks. -/
import Verif.Model.Poetry

namespace Verif.Poetry.Spec

/-- A page: text, and code blocks each with what is in its tag and the text behind it; `cut` is the rest of a tag that is not closed. -/
structure Page where
  text : Bytes
  blocks : List (Bytes × Bytes)
  cut : Option Bytes

def source : List (Bytes × Bytes) → Option Bytes → Bytes
  | [], none => []
  | [], some c => b!"<pre><code" ++ c
  | (a, t) :: bs, c => b!"<pre><code" ++ a ++ b!">" ++ t ++ source bs c

def Page.html (p : Page) : Bytes := p.text ++ source p.blocks p.cut

def Page.Ok (p : Page) : Prop :=
  ¬ b!"<pre><code" <:+: p.text ∧ (∀ b ∈ p.blocks, c!">" ∉ b.1 ∧ ¬ b!"<pre><code" <:+: b.2) ∧ ∀ c, p.cut = some c → c!">" ∉ c

/-- There is a class, and a language somewhere behind it. -/
def Named (s : Bytes) : Prop := ∃ a b c, s = a ++ b!"class=" ++ b ++ b!"language-" ++ c

open Classical in
/-- The blocks with the class `poetry` in the tags for which `f` holds; `f` gets the tag and everything behind it. -/
noncomputable def marked (f : Bytes → Prop) : List (Bytes × Bytes) → Option Bytes → Bytes
  | [], c => source [] c
  | (a, t) :: bs, c => (b!"<pre><code" ++ a ++ if f (a ++ b!">" ++ t ++ source bs c) then b!" class=\"poetry\">" else b!">") ++ t ++ marked f bs c

end Verif.Poetry.Spec
