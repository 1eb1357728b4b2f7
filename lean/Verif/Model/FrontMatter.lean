/-
The front matter the command line tool puts in front of a document: cli/main.c, `main`, "Build enhanced markdown".
-/
import Verif.Model.MetaParse
import Verif.Model.Options

namespace Verif.FrontMatter
open Metadata (Item Meta cliMerge)
open MetaParse (extract)
open Options (Mode docMeta)

/-- cli/main.c:3153-3155: does a value need quotes? -/
def needsQuotes (v : Bytes) : Bool := v.contains c!":" || v.contains 10 || v.contains c!"\"" || v.contains c!"\\"

/-- cli/main.c:3170-3176: the text of an entry. -/
def entry (it : Item) : Bytes :=
  if needsQuotes it.2 then it.1 ++ b!": \"" ++ it.2 ++ b!"\"\n" else it.1 ++ b!": " ++ it.2 ++ b!"\n"

/-- `yaml_buf`: its size and the bytes before `yaml_pos`. -/
structure Buf where
  size : Nat
  out : Bytes

/-- cli/main.c:3157-3167: the buffer grows for an entry. -/
def grown (b : Buf) (it : Item) : Nat :=
  let needed := it.1.length + it.2.length + (if needsQuotes it.2 then 4 else 0) + 10
  if b.out.length + needed ≥ b.size then (b.out.length + needed) * 2 else b.size

/-- cli/main.c:3151-3178: one turn of the loop. `snprintf` returns the length of the whole text even where it has cut it, so
a text that does not fit leaves `yaml_pos` behind bytes never written: `ub`. -/
def addEntry (b : Buf) (it : Item) : C Buf :=
  if (entry it).length < grown b it - b.out.length then .val ⟨grown b it, b.out ++ entry it⟩ else .ub

/-- cli/main.c:3150-3179: the loop. -/
def addEntries (b : Buf) : Meta → C Buf
  | [] => .val b
  | it :: md => do
    let b ← addEntry b it
    addEntries b md

/-- cli/main.c:3137-3188: the front matter (allocations are assumed to succeed). -/
def front (md : Meta) : C Bytes := do
  let b ← addEntries ⟨512, b!"---\n"⟩ md
  let out ← puts b.size b.out b!"---\n"
  finish b.size out

/-- cli/main.c:3097-3218: the text that is rendered. `m` is the mode of the command line, `lib` libyaml, `file` the metadata of
the configuration files, `cmd` that of the command line. -/
def rendered (lib : Bytes → Option Meta) (m : Mode) (file cmd : Meta) (text : Bytes) : C Bytes :=
  let doc := docMeta m (extract lib text).1
  let merged := cliMerge file doc cmd
  if merged = [] then .val text
  else do
    let y ← front merged
    .val (y ++ if doc ≠ [] then (extract lib text).2 else text)

/-- apex.c:4033-4043: the metadata and the text behind it, as the renderer sees them in the mode `m`. -/
def seen (lib : Bytes → Option Meta) (m : Mode) (text : Bytes) : Meta × Bytes :=
  if m = .multimarkdown ∨ m = .kramdown ∨ m = .unified then extract lib text else ([], text)

end Verif.FrontMatter
