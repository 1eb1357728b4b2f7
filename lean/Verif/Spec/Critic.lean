/-
What critic markup means, without the program: a document is a sequence of plain bytes and edits.
-/
import Verif.Basic

namespace Verif.Critic.Spec

/-- A plain byte, or an edit. -/
inductive Seg where
  | plain (c : Byte)
  /-- `{++x++}` -/
  | insert (x : Bytes)
  /-- `{--x--}` -/
  | delete (x : Bytes)
  /-- `{~~old~>new~~}` -/
  | replace (old new : Bytes)
  /-- `{~~x~~}`, without the separator: only new text -/
  | fresh (x : Bytes)
  /-- `{==x==}` -/
  | highlight (x : Bytes)
  /-- `{>>x<<}` -/
  | comment (x : Bytes)

/-- How a segment is written. -/
def Seg.source : Seg → Bytes
  | plain c => [c]
  | insert x => b!"{++" ++ x ++ b!"++}"
  | delete x => b!"{--" ++ x ++ b!"--}"
  | replace old new => b!"{~~" ++ old ++ b!"~>" ++ new ++ b!"~~}"
  | fresh x => b!"{~~" ++ x ++ b!"~~}"
  | highlight x => b!"{==" ++ x ++ b!"==}"
  | comment x => b!"{>>" ++ x ++ b!"<<}"

/-- The text after all changes. -/
def Seg.accepted : Seg → Bytes
  | plain c => [c]
  | insert x => x
  | delete _ => []
  | replace _ new => new
  | fresh x => x
  | highlight x => x
  | comment _ => []

/-- The text before all changes. -/
def Seg.rejected : Seg → Bytes
  | plain c => [c]
  | insert _ => []
  | delete x => x
  | replace old _ => old
  | fresh _ => []
  | highlight x => x
  | comment _ => []

/-- The changes shown in HTML. -/
def Seg.shown : Seg → Bytes
  | plain c => [c]
  | insert x => b!"<ins class=\"critic\">" ++ x ++ b!"</ins>"
  | delete x => b!"<del class=\"critic\">" ++ x ++ b!"</del>"
  | replace old new =>
    if old = [] then b!"<ins class=\"critic\">" ++ new ++ b!"</ins>"
    else b!"<del class=\"critic break\">" ++ old ++ b!"</del><ins class=\"critic break\">" ++ new ++ b!"</ins>"
  | fresh x => b!"<ins class=\"critic\">" ++ x ++ b!"</ins>"
  | highlight x => b!"<mark class=\"critic\">" ++ x ++ b!"</mark>"
  | comment x => b!"<span class=\"critic comment\">" ++ x ++ b!"</span>"

/-- The mark does not occur in the text, nor across its end when the mark follows. -/
def Free (mark x : Bytes) : Prop := ¬ mark <:+: (x ++ mark).dropLast

/-- Edits end at the first closing mark, and the separator is the first one. -/
def Seg.Proper : Seg → Prop
  | plain _ => True
  | insert x => Free b!"++}" x
  | delete x => Free b!"--}" x
  | replace old new => Free b!"~~}" (old ++ b!"~>" ++ new) ∧ ¬ b!"~>" <:+: old
  | fresh x => Free b!"~~}" x ∧ ¬ b!"~>" <:+: x
  | highlight x => Free b!"==}" x
  | comment x => Free b!"<<}" x

def source (d : List Seg) : Bytes := d.flatMap Seg.source

/-- The text starts with an edit. -/
def StartsEdit (s : Bytes) : Prop :=
  ∃ e : Seg, (∀ c, e ≠ .plain c) ∧ e.Proper ∧ e.source <+: s

/-- How a document is read: from left to right, and as an edit whenever possible. -/
def Proper : List Seg → Prop
  | [] => True
  | .plain c :: d => ¬ StartsEdit (c :: source d) ∧ Proper d
  | e :: d => e.Proper ∧ Proper d

end Verif.Critic.Spec
