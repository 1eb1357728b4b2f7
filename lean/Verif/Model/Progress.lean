/- cli/main.c:368-462, 1906-1909, 3506-3527: the line of progress on the standard error.

Simplified: times are whole milliseconds; the percentage is left out, since apex passes −1 everywhere (src/apex.c:4176, 4189, 4204, 4374, 4379, 5066). -/
import Verif.Basic

namespace Verif.Progress

/-- cli/main.c:376-387 `init_progress`: what APEX_PROGRESS and the terminal say. -/
def fromEnv (env : Option Bytes) (tty : Bool) : Bool :=
  match env with
  | some v =>
    if v = b!"1" ∨ v = b!"yes" ∨ v = b!"true" then true
    else if v = b!"0" ∨ v = b!"no" ∨ v = b!"false" then false
    else tty
  | none => tty

/-- cli/main.c:1906-1909: the options, one after the other. -/
def options : List Bytes → Bool → Bool
  | [], on => on
  | a :: as, on => options as (if a = b!"--progress" then true else if a = b!"--no-progress" then false else on)

/-- cli/main.c:369-373: the state; `err` is what was written on the standard error. -/
structure St where
  on : Bool
  shown : Bool
  last : Option Bytes
  err : Bytes

/-- cli/main.c:420, 438, 451: the text that is written. -/
def text (stage : Bytes) : Bytes := b!"\rProcessing: " ++ stage ++ b!"..."

/-- cli/main.c:396-425 `progress_callback`, at a time since the start. -/
def report (s : St) (stage : Option Bytes) (time : Nat) : St :=
  if !s.on then s
  else
    let s := if stage.isSome then { s with last := stage } else s
    if time < 1000 ∧ s.shown = false then s
    else if 1000 ≤ time then
      { s with shown := true, err := s.err ++ text (stage.getD (s.last.getD b!"Processing")) }
    else s

/-- cli/main.c:443-453 `check_delayed_progress`. -/
def delayed (s : St) (time : Nat) : St :=
  match s.last with
  | none => s
  | some l => if !s.on || s.shown then s else if 1000 ≤ time then { s with shown := true, err := s.err ++ text l } else s

/-- cli/main.c:428-441 `update_progress_if_needed`. -/
def update (s : St) (time : Nat) : St :=
  match s.last with
  | none => s
  | some l => if !s.on then s else if 1000 ≤ time then { s with shown := true, err := s.err ++ text l } else s

/-- cli/main.c:456-462 `clear_progress`. -/
def clear (s : St) : St :=
  if s.on && s.shown then { s with err := s.err ++ b!"\r" ++ List.replicate 80 c!" " ++ b!"\r" } else s

/-- src/apex.c:2956-2961 while the document is converted: the reports, each with its time. -/
def reports : List (Option Bytes × Nat) → St → St
  | [], s => s
  | (stage, t) :: es, s => reports es (report s stage t)

/-- cli/main.c:3507-3524: until the document is converted; `t1` and `t2` are the times behind it. -/
def convert (on : Bool) (es : List (Option Bytes × Nat)) (t1 t2 : Nat) : St :=
  let s : St := ⟨on, false, none, []⟩
  if on then update (delayed (reports es s) t1) t2 else s

/-- cli/main.c:376-387, 1906-1909, 3507-3527: all that is written on the standard error for the progress. -/
def run (env : Option Bytes) (tty : Bool) (args : List Bytes) (es : List (Option Bytes × Nat)) (t1 t2 : Nat) : Bytes :=
  (clear (convert (options args (fromEnv env tty)) es t1 t2)).err

end Verif.Progress
