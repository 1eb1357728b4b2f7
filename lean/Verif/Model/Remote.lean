/- src/plugins_remote.c and cli/main.c:2345-2374, 2678-2724: the directories of plugins and filters, read from JSON that was fetched.  Allocations succeed; the text has no zero byte. -/
import Verif.Model.Embed

namespace Verif.Remote
open Embed (find)

/-- `"key"`, src/plugins_remote.c:90-91. -/
def quoted (key : Bytes) : Bytes := c!"\"" :: key ++ [c!"\""]

/-- src/plugins_remote.c:100-108: the text up to the closing quote, escapes and all. -/
def rawStr : Bytes → Option Bytes
  | [] => none
  | c :: r =>
    if c = c!"\"" then some []
    else if c = c!"\\" then
      match r with
      | [] => none
      | d :: r' => (rawStr r').map (c :: d :: ·)
    else (rawStr r).map (c :: ·)

/-- src/plugins_remote.c:97-114: a string behind a colon. -/
def strVal (s : Bytes) : Option Bytes :=
  match s.dropWhile fun c => c = c!" " || c = c!"\t" with
  | c :: r => if c = c!"\"" then rawStr r else none
  | [] => none

/-- src/plugins_remote.c:88-115 `apex_remote_extract_string`. -/
def extract (key obj : Bytes) : Option Bytes :=
  match find (quoted key) obj with
  | some (_, r) =>
    match find b!":" r with
    | some (_, v) => strVal v
    | none => none
  | none => none

/-- src/plugins_remote.c:135-151: an object, from its brace on, with the number of braces open. -/
def close : Nat → Bytes → Option (Bytes × Bytes)
  | _, [] => none
  | d, c :: r =>
    if c = c!"{" then (close (d + 1) r).map fun p => (c :: p.1, p.2)
    else if c = c!"}" then if d = 1 then some ([c], r) else (close (d - 1) r).map fun p => (c :: p.1, p.2)
    else (close d r).map fun p => (c :: p.1, p.2)

/-- src/plugins_remote.c:8-16: an entry. -/
structure Entry where
  id : Bytes
  repo : Bytes
  title : Option Bytes
  description : Option Bytes
  author : Option Bytes
  homepage : Option Bytes
  deriving DecidableEq

/-- src/plugins_remote.c:161-185: the entry of an object; one without an id or a repository is left out. -/
def entry (obj : Bytes) : Option Entry :=
  match extract b!"id" obj, extract b!"repo" obj with
  | some i, some r => some ⟨i, r, extract b!"title" obj, extract b!"description" obj, extract b!"author" obj, extract b!"homepage" obj⟩
  | _, _ => none

/-- src/plugins_remote.c:130. -/
def isSep (c : Byte) : Bool := c = c!" " || c = c!"\t" || c = c!"\n" || c = c!"\r" || c = c!","

/-- src/plugins_remote.c:129-189: the objects, each put in front of the list. -/
def items : Nat → List Entry → Bytes → Option (List Entry)
  | 0, l, _ => some l
  | n + 1, l, s =>
    match s.dropWhile isSep with
    | [] => some l
    | c :: r =>
      if c = c!"{" then
        match close 0 (c :: r) with
        | some (o, rest) =>
          match entry o with
          | some e => items n (e :: l) rest
          | none => items n l rest
        | none => none
      else some l

/-- src/plugins_remote.c:118-213 `apex_remote_parse_array`; `word` is `"plugins"` or `"filters"`. -/
def parse (word json : Bytes) : Option (List Entry) :=
  match find (quoted word) json with
  | some (_, r) =>
    match find b!"[" r with
    | some (_, s) => items (s.length + 1) [] s
    | none => none
  | none => none

/-- src/plugins_remote.c:275-288 and cli/main.c:2345-2355: the repository of a plugin. -/
def plugin (json name : Bytes) : Option Bytes :=
  (parse b!"plugins" json).bind fun l => (l.find? fun e => e.id = name).map Entry.repo

/-- cli/main.c:2687-2717: the repository of a filter and the file in it, looked for in all the text that follows the id.  `none` is an error. -/
def filter (name : Bytes) : Nat → Bytes → Option (Bytes × Option Bytes)
  | 0, _ => none
  | n + 1, json =>
    match find (quoted b!"id") json with
    | none => none
    | some (_, r) =>
      match find b!":" r with
      | none => none
      | some (_, v) =>
        match v.dropWhile fun c => c = c!" " || c = c!"\t" with
        | [] => none
        | c :: s =>
          if c = c!"\"" then
            match find b!"\"" s with
            | none => none
            | some (i, t) =>
              if i = name then
                match extract b!"repo" (quoted b!"id" ++ r) with
                | some repo => some (repo, extract b!"path" (quoted b!"id" ++ r))
                | none => none
              else filter name n (c!"\"" :: t)
          else filter name n (c :: s)

/-- cli/main.c:2685-2724: all the text. -/
def lookup (json name : Bytes) : Option (Bytes × Option Bytes) := filter name (json.length + 1) json

/-- src/plugins_remote.c:52-74: what the command prints, read into a buffer of `cap` bytes that holds `buf` and is doubled when full.  `fread` gives as many bytes as fit or as there are; writing the
zero byte behind the buffer is undefined. -/
def slurp : Nat → Nat → Bytes → Bytes → C Bytes
  | 0, _, _, _ => .ub
  | k + 1, cap, buf, input =>
    match input.take (cap - buf.length) with
    | [] => if buf.length < cap then .val buf else .ub
    | c :: s =>
      let buf' := buf ++ c :: s
      slurp k (if buf'.length = cap then cap * 2 else cap) buf' (input.drop (cap - buf.length))

/-- src/plugins_remote.c:40-83 `apex_remote_fetch_json`: the text a command prints that ends with a status; as a C string it ends at its first zero byte. -/
def fetch (input : Bytes) (status : Nat) : C (Option Bytes) := do
  let buf ← slurp (input.length + 1) 4096 [] input
  if status = 0 then .val (some (buf.takeWhile (· ≠ 0))) else .val none

end Verif.Remote
