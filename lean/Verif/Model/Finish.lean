/- cli/main.c:1507-1515, 3537-3582, 3616: the end of the work, on top of the wrapping of text.  Allocations succeed. -/
import Verif.Model.Wrap

namespace Verif.Finish

/-- include/apex/apex.h: the formats, as far as they matter here. -/
inductive Format
  | terminal
  | terminal256
  | other
deriving DecidableEq

/-- Where the result goes.  `opens` says whether the file can be opened, `room` how many bytes can be written, if there is a limit. -/
structure Sink where
  opens : Bool
  room : Option Nat

/-- What is left of the work: the status, what was written, and whether an error was reported. -/
structure Result where
  status : Nat
  written : Bytes
  error : Bool
deriving DecidableEq

/-- cli/main.c:1512-1515: --width. -/
def override (w : Int) : Int := if w < 0 then 0 else w

/-- cli/main.c:3549-3554: the width. -/
def effective (w tw : Int) : Int := if override w > 0 then override w else if tw > 0 then tw else 0

/-- cli/main.c:3547-3562: the text to be written. -/
def final (f : Format) (w tw : Int) (html : Bytes) : C Bytes :=
  if f = .terminal ∨ f = .terminal256 then
    if effective w tw > 0 then Wrap.wrap html (effective w tw).toNat else .val html
  else .val html

/-- cli/main.c:3574, 3578 `fwrite`: as much as there is room for; what it gives back is not looked at. -/
def fwrite (s : Sink) (text : Bytes) : Bytes :=
  match s.room with
  | some n => text.take n
  | none => text

/-- cli/main.c:3537-3582, 3616: `file` says whether -o was given.  The text has no NUL (it ends there).  What was in the file before is gone with the opening. -/
def finish (html : Option Bytes) (f : Format) (w tw : Int) (file : Bool) (s : Sink) : C Result :=
  match html with
  | none => .val ⟨1, [], true⟩
  | some html =>
    (final f w tw html).bind fun text =>
      if file then
        if s.opens then .val ⟨0, fwrite s text, false⟩ else .val ⟨1, [], true⟩
      else .val ⟨0, fwrite s text, false⟩

end Verif.Finish
