/- What one reads of a document on a terminal.  Uses the tree of the model, not its functions. -/
import Verif.Spec.TermStyle
import Verif.Model.Term

namespace Verif.Term.Spec
open TermStyle.Spec

mutual
/-- All nodes of a tree are so. -/
def All (p : Kind → Prop) : Node → Prop
  | .mk k _ kids => p k ∧ Alls p kids
/-- All nodes of trees are so. -/
def Alls (p : Kind → Prop) : List Node → Prop
  | [] => True
  | n :: ns => All p n ∧ Alls p ns
end

/-- No byte of a node begins a command. -/
def Calm : Kind → Prop
  | .codeBlock info s => (27 : Byte) ∉ info ∧ (27 : Byte) ∉ s
  | .htmlBlock s => (27 : Byte) ∉ s
  | .text s => (27 : Byte) ∉ s
  | .code s => (27 : Byte) ∉ s
  | .link url => (27 : Byte) ∉ url
  | .image url => (27 : Byte) ∉ url
  | .html s => (27 : Byte) ∉ s
  | _ => True

/-- No block of HTML. -/
def NoBlock : Kind → Prop
  | .htmlBlock _ => False
  | _ => True

/-- No HTML in text. -/
def NoInline : Kind → Prop
  | .html _ => False
  | _ => True

/-- Bytes by which a terminal shows a text and gets no command, in whatever style it is. -/
def Shows (out v : Bytes) : Prop := ∀ s, ∃ s' ev, exec (ready s) out = (ready s', ev) ∧ text ev = v ∧ Event.command ∉ ev

/-- Text without the mark for an escaped `<<` in tables, and no HTML. -/
def Plain (emoji : Bytes → Bytes) : Kind → Prop
  | .html _ => False
  | .text s => ¬ b!"APEXLTLT" <:+: emoji s
  | _ => True

mutual
/-- What one reads of a text: links are followed by their target, images are as in Markdown.  `emoji` is what is done with `:emoji:`. -/
def reads (emoji : Bytes → Bytes) : Node → Bytes
  | .mk k _ kids =>
    match k with
    | .text s => emoji s
    | .soft => b!"\n"
    | .hard => b!"  \n"
    | .code s => s
    | .link url => readAll emoji kids ++ (if url = [] then [] else b!" (" ++ url ++ b!")")
    | .image url => b!"![" ++ readAll emoji kids ++ b!"]" ++ (if url = [] then [] else b!"(" ++ url ++ b!")")
    | _ => readAll emoji kids
/-- What one reads of texts. -/
def readAll (emoji : Bytes → Bytes) : List Node → Bytes
  | [] => []
  | n :: ns => reads emoji n ++ readAll emoji ns
end

mutual
/-- What one has written in paragraphs, headings and code, in its order, in and out of lists and quotes. -/
def prose (emoji : Bytes → Bytes) : Node → Bytes
  | .mk k _ kids =>
    match k with
    | .para => readAll emoji kids
    | .heading _ => readAll emoji kids
    | .codeBlock _ s => s
    | .htmlBlock _ => []
    | .rule => []
    | .table => []
    | _ => proseAll emoji kids
/-- The same of many. -/
def proseAll (emoji : Bytes → Bytes) : List Node → Bytes
  | [] => []
  | n :: ns => prose emoji n ++ proseAll emoji ns
end

/-- A theme is quiet: none of its styles shows anything, nor does its mark for quotes give a command. -/
structure Quiet (o : Opt) : Prop where
  emoji : ∀ s, (27 : Byte) ∉ s → (27 : Byte) ∉ o.emoji s
  marker : ∀ m, o.theme.quoteMarker = some m → (27 : Byte) ∉ m
  colour : o.colour = none
  head : ∀ l s, o.theme.head l = some s → ∃ f, Effect (TermStyle.style o.wide s) f
  linkText : ∀ s, o.theme.linkText = some s → ∃ f, Effect (TermStyle.style o.wide s) f
  linkUrl : ∀ s, o.theme.linkUrl = some s → ∃ f, Effect (TermStyle.style o.wide s) f
  codeSpan : ∀ s, o.theme.codeSpan = some s → ∃ f, Effect (TermStyle.style o.wide s) f
  codeBlock : ∀ s, o.theme.codeBlock = some s → ∃ f, Effect (TermStyle.style o.wide s) f
  quoteColour : ∀ s, o.theme.quoteColour = some s → ∃ f, Effect (TermStyle.style o.wide s) f
  border : ∀ s, o.theme.border = some s → ∃ f, Effect (TermStyle.style o.wide s) f
  listMarker : ∀ s, o.theme.listMarker = some s → ∃ f, Effect (TermStyle.style o.wide s) f
  classes : ∀ e ∈ o.theme.classes, ∃ f, Effect (TermStyle.style o.wide e.2) f

end Verif.Term.Spec
