/-
Critic markup: src/extensions/critic.c.
Not modelled: `apex_process_critic_markup_in_tree` (critic.c:176-272), which nothing calls.
Simplified: lengths are natural numbers, not `int` (critic.c:25-76); `malloc` succeeds.
-/
import Verif.Model.DropBuf
import Verif.Model.Transforms

namespace Verif.Critic

open DropBuf

/-- `critic_type_t` without `CRITIC_NONE` (critic.c:16-23). -/
inductive Kind where
  | add | del | sub | highlight | comment
deriving DecidableEq, Repr

/-- `critic_mode_t` (critic.h). -/
inductive Mode where
  | accept | reject | markup
deriving DecidableEq, Repr

/-- The opening markers (critic.c:37-53), without the brace. -/
def kindOf (a b : Byte) : Option Kind :=
  if a = c!"+" ∧ b = c!"+" then some .add
  else if a = c!"-" ∧ b = c!"-" then some .del
  else if a = c!"~" ∧ b = c!"~" then some .sub
  else if a = c!"=" ∧ b = c!"=" then some .highlight
  else if a = c!">" ∧ b = c!">" then some .comment
  else none

/-- The closing markers (critic.c:37-53). -/
def closer : Kind → Bytes
  | .add => b!"++}"
  | .del => b!"--}"
  | .sub => b!"~~}"
  | .highlight => b!"==}"
  | .comment => b!"<<}"

/-- What `scan_critic_markup` finds: the kind, `old_text` (with `old_len`), `content`, and the number of bytes
`consumed`. -/
structure Found where
  kind : Kind
  old : Option Bytes
  content : Bytes
  consumed : Nat
deriving DecidableEq, Repr

/-- `scan_critic_markup` (critic.c:25-76). -/
def scan (input : Bytes) : Option Found :=
  if input.length < 6 then none
  else match input with
    | brace :: a :: b :: body =>
      if brace ≠ c!"{" then none
      else match kindOf a b with
        | none => none
        | some k =>
          match Transforms.strstr body (closer k) with
          | none => none
          | some n =>
            match k, Transforms.strstr body b!"~>" with
            | .sub, some m =>
              if m < n then some ⟨.sub, some (body.take m), (body.take n).drop (m + 2), n + 6⟩
              else some ⟨.sub, none, body.take n, n + 6⟩
            | _, _ => some ⟨k, none, body.take n, n + 6⟩
    | _ => none

/-- `critic_to_html` (critic.c:81-171).  The buffer is large enough for every format, so `snprintf` never cuts. -/
def toHtml (f : Found) : Mode → Bytes
  | .accept =>
    match f.kind with
    | .add => f.content
    | .sub => f.content
    | .highlight => f.content
    | .del => []
    | .comment => []
  | .reject =>
    match f.kind with
    | .sub => match f.old with
      | some o => if 0 < o.length then o else []
      | none => []
    | .del => f.content
    | .highlight => f.content
    | .add => []
    | .comment => []
  | .markup =>
    match f.kind with
    | .add => b!"<ins class=\"critic\">" ++ f.content ++ b!"</ins>"
    | .del => b!"<del class=\"critic\">" ++ f.content ++ b!"</del>"
    | .sub =>
      let plain := b!"<ins class=\"critic\">" ++ f.content ++ b!"</ins>"
      match f.old with
      | some o =>
        if 0 < o.length then
          b!"<del class=\"critic break\">" ++ o ++ b!"</del><ins class=\"critic break\">" ++ f.content ++ b!"</ins>"
        else plain
      | none => plain
    | .highlight => b!"<mark class=\"critic\">" ++ f.content ++ b!"</mark>"
    | .comment => b!"<span class=\"critic comment\">" ++ f.content ++ b!"</span>"

/-- The loop of `apex_process_critic_markup_text` (critic.c:289-325), as what it writes; the first argument
bounds the number of rounds. -/
def tokens (mode : Mode) : Nat → Bytes → List Tok
  | 0, _ => []
  | _, [] => []
  | n + 1, c :: t =>
    match (if c = c!"{" then scan (c :: t) else none) with
    | some f => .chunk (toHtml f mode) :: tokens mode n ((c :: t).drop f.consumed)
    | none => .byte c :: tokens mode n t

/-- `apex_process_critic_markup_text` (critic.c:277-329). -/
def process (mode : Mode) (text : Bytes) : C Bytes :=
  run (text.length * 2) (tokens mode text.length text)

end Verif.Critic
