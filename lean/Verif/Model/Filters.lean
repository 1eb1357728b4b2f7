/-
External AST filters and the pipes to external commands: src/filters_ast.c and src/plugins_env.c.
-/
import Verif.Basic

namespace Verif.Filters

/-! ### The read buffer -/

/-- src/filters_ast.c:77-105 (and src/plugins_env.c:121-150): the loop reading the child's output.  `chunks`
are the sizes of the successive reads before the end of file; the result is the size read.  A read of more
than 4096 bytes cannot happen; writing the chunk or the final NUL outside the buffer is undefined. -/
def readLoop (cap size : Nat) : List Nat → C Nat
  | [] =>
    let cap := if size + 4096 > cap then cap * 2 else cap
    if size + 4096 > cap then .ub            -- the kernel may store 4096 bytes
    else if size < cap then .val size else .ub
  | n :: ns =>
    let cap := if size + 4096 > cap then cap * 2 else cap
    if size + 4096 > cap then .ub
    else readLoop cap (size + n) ns

/-! ### The list of filters -/

/-- What the loop needs from its surroundings, for a type `D` of documents: serialiser, external commands
(exit status and output, `none` when no process could be started), parser, and whether there are blocks. -/
structure World (D : Type) where
  toJson : D → Option Bytes
  run : Bytes → Bytes → Option (Nat × Bytes)
  fromJson : Bytes → Option D
  hasBlocks : D → Bool

/-- src/filters_ast.c:22-122, `run_single_ast_filter`: a command that does not exit with 0 gives NULL.
The exchange over pipes is modelled apart (below); here a command simply answers. -/
def runSingle {D : Type} (w : World D) (cmd json : Bytes) : Option Bytes :=
  if cmd = [] then none
  else match w.run cmd json with
    | none => none
    | some (code, out) => if code ≠ 0 then none else some (out.takeWhile (· != 0))

/-- src/filters_ast.c:138-191: the loop of `apex_run_ast_filters`; returns the document (or NULL) and
the commands that were started. -/
def loop {D : Type} (w : World D) (strict : Bool) : List (Option Bytes) → D → List Bytes → Option D × List Bytes
  | [], current, log => (some current, log)
  | cmd :: rest, current, log =>
    match cmd with
    | none => loop w strict rest current log
    | some cmd =>
      if cmd = [] then loop w strict rest current log
      else match w.toJson current with
        | none => if strict then (none, log) else loop w strict rest current log
        | some j =>
          match runSingle w cmd j with
          | none => if strict then (none, log ++ [cmd]) else loop w strict rest current (log ++ [cmd])
          | some o =>
            match w.fromJson o with
            | none => if strict then (none, log ++ [cmd]) else loop w strict rest current (log ++ [cmd])
            | some new =>
              if !w.hasBlocks new && w.hasBlocks current then loop w strict rest current (log ++ [cmd])
              else loop w strict rest new (log ++ [cmd])

/-- src/filters_ast.c:124-194, `apex_run_ast_filters`. -/
def runFilters {D : Type} (w : World D) (strict : Bool) (cmds : List (Option Bytes)) (d : D) :
    Option D × List Bytes := loop w strict cmds d []

/-! ### Pipes -/

/-- The exchange of filters_ast.c:57-105 and plugins_env.c:111-150 with a child that passes its input on:
bytes still to be written by apex, in the pipe to the child, held by the child, in the pipe back, and
received. -/
structure Pipes where
  toWrite : Nat
  inPipe : Nat
  held : Nat
  outPipe : Nat
  received : Nat
  deriving DecidableEq, Repr

/-- One byte moves.  `cap` is the capacity of a pipe, `buf` the buffer of the child.  apex reads only after
everything is written (`read`), because the write loop comes before the read loop. -/
inductive Move (cap buf : Nat) : Pipes → Pipes → Prop
  | write {w a h b r} : a < cap → Move cap buf ⟨w + 1, a, h, b, r⟩ ⟨w, a + 1, h, b, r⟩
  | childRead {w a h b r} : h < buf → Move cap buf ⟨w, a + 1, h, b, r⟩ ⟨w, a, h + 1, b, r⟩
  | childWrite {w a h b r} : b < cap → Move cap buf ⟨w, a, h + 1, b, r⟩ ⟨w, a, h, b + 1, r⟩
  | read {a h b r} : Move cap buf ⟨0, a, h, b + 1, r⟩ ⟨0, a, h, b, r + 1⟩

end Verif.Filters
