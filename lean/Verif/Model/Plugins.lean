/-
Plugins: src/plugins.c and src/plugins_env.c.
-/
import Verif.Model.Metadata
import Verif.Model.Escape

namespace Verif.Plugins

open Metadata (Meta)

/-- What `regexec(.., cursor, 10, matches, 0)` reports for a compiled pattern: nothing, or the offsets of
the groups (`none` for -1). -/
abbrev Rx := Bytes → Option (Nat → Option (Nat × Nat))

inductive Phase | pre | post
  deriving DecidableEq, Repr

/-- src/plugins.c:97-117, `struct apex_plugin`: the fields that matter for running it.  `regex` is the
compiled pattern and the replacement (`has_regex`). -/
structure Plugin where
  id : Bytes
  phase : Phase
  priority : Int
  command : Option Bytes
  regex : Option (Rx × Bytes)
  dir : Bytes
  support : Option Bytes

/-- `strcmp`. -/
def strcmp : Bytes → Bytes → Ordering
  | [], [] => .eq
  | [], _ :: _ => .lt
  | _ :: _, [] => .gt
  | a :: as, b :: bs => if a < b then .lt else if b < a then .gt else strcmp as bs

/-- plugins.c:196-203: the walk behind the head. -/
def insertTail (p : Plugin) : List Plugin → List Plugin
  | [] => [p]
  | n :: t =>
    if n.priority < p.priority ∨ n.priority = p.priority ∧ strcmp n.id p.id ≠ .gt then n :: insertTail p t
    else p :: n :: t

/-- plugins.c:186-204, `append_plugin_sorted`. -/
def insert (p : Plugin) : List Plugin → List Plugin
  | [] => [p]
  | h :: t =>
    if h.priority > p.priority ∨ h.priority = p.priority ∧ strcmp h.id p.id = .gt then p :: h :: t
    else h :: insertTail p t

/-- plugins.c:206-212, `plugin_id_exists`. -/
def idExists (l : List Plugin) (id : Bytes) : Bool := l.any fun q => strcmp q.id id == .eq

/-- plugins.c:530-540 (and 408-418): a plugin is attached to the list of its phase. -/
def attach (ph : Phase) (l : List Plugin) (p : Plugin) : List Plugin :=
  if p.phase = ph then
    if idExists l p.id then l else insert p l
  else l

/-- The list of a phase after the plugins `ps` have been found in this order. -/
def found (ph : Phase) (ps : List Plugin) : List Plugin := ps.foldl (attach ph) []

/-! ### Manifests -/

/-- The value of the last item with this key: the loops at plugins.c:452-467 assign on every hit. -/
def lastValue (m : Meta) (keys : List Bytes) : Option Bytes :=
  (m.filter fun it => keys.contains it.1).getLast?.map (·.2)

/-- plugins.c:152-159, `plugin_phase_mask_from_string`, the two phases that run; other strings give a mask
that is rejected at 475. -/
def phaseOf (s : Bytes) : Option Phase :=
  if s = b!"pre_parse" then some .pre else if s = b!"post_render" then some .post else none

/-- The digits read by `atoi`. -/
def atoiDigits (n : Int) : Bytes → Int
  | [] => n
  | c :: t => if isDigit c then atoiDigits (n * 10 + (c.toNat - 48 : Int)) t else n

/-- `atoi` (no overflow: values are taken as integers). -/
def atoi (s : Bytes) : Int :=
  match s.dropWhile isSpace with
  | c :: t =>
    if c = c!"-" then - atoiDigits 0 t
    else if c = c!"+" then atoiDigits 0 t
    else atoiDigits 0 (c :: t)
  | [] => 0

/-- plugins.c:437-540: one manifest (without bundles) as a plugin.  `entry` is the directory entry,
`dir` the plugin's directory, `supportBase` the support directory, `regcomp` the regex compiler. -/
def fromManifest (regcomp : Bytes → Bool → Option Rx) (entry dir : Bytes) (supportBase : Option Bytes)
    (m : Meta) : Option Plugin :=
  match (lastValue m [b!"phase"]).bind phaseOf with
  | none => none
  | some phase =>
    let id := (lastValue m [b!"id"]).getD entry
    let command := lastValue m [b!"handler.command", b!"handler_command"]
    let priority := match lastValue m [b!"priority"] with
      | some s => atoi s
      | none => 100
    let support := supportBase.map fun b => b ++ b!"/" ++ id
    let plugin := fun rx => some (Plugin.mk id phase priority command rx dir support)
    match command, lastValue m [b!"pattern"], lastValue m [b!"replacement"] with
    | none, some pat, some rep =>
      match regcomp pat (((lastValue m [b!"flags"]).getD []).contains c!"i") with
      | some rx => plugin (some (rx, rep))
      | none => none
    | _, _, _ => plugin none

/-! ### Directories -/

/-- plugins.c:549-563, `dup_join`. -/
def join (a b : Bytes) : Bytes := if b = [] then a else if a = [] then b else a ++ b!"/" ++ b

/-- plugins.c:565-632: the directories scanned, in order.  `cwd`, `base`, `git` are absent when empty or
unavailable; the paths of the global directory are not cut (the code uses a buffer of 1024 bytes). -/
def searchDirs (cwd base git xdg home : Option Bytes) : List Bytes :=
  (match cwd with | some d => [join d b!".apex/plugins"] | none => []) ++
  (match base with | some d => [join d b!".apex/plugins"] | none => []) ++
  (match git, cwd with
    | some g, some d =>
      if g.isPrefixOf d ∧ (d.drop g.length = [] ∨ (d.drop g.length).head? = some c!"/") then
        if base = some g then [] else [join g b!".apex/plugins"]
      else []
    | _, _ => []) ++
  (match xdg with
    | some x => [x ++ b!"/apex/plugins"]
    | none => match home with
      | some h => [h ++ b!"/.config/apex/plugins"]
      | none => [])

/-- plugins.c:565-638, `apex_plugins_load`: the list of a phase; `scan` gives the valid plugins of a
directory in the order of `readdir`. -/
def load (scan : Bytes → List Plugin) (dirs : List Bytes) (ph : Phase) : List Plugin :=
  found ph (dirs.map scan).flatten

/-! ### Regular expressions -/

/-- plugins.c:662-670 and its copies: the capacity after the test for `need` bytes. -/
def ensure (cap need : Nat) : Nat := if need > cap then need * 2 else cap

/-- Append `s` behind the test for `len + |s| + 1` bytes (670-672, 687-698; with `s` one byte 700-710). -/
def appendGrow (st : Nat × Bytes) (s : Bytes) : C (Nat × Bytes) :=
  let cap := ensure st.1 (st.2.length + s.length + 1)
  puts cap st.2 s >>= fun o => .val (cap, o)

/-- plugins.c:674-713: the replacement text. -/
def template (g : Nat → Option (Nat × Nat)) (cursor : Bytes) : Nat × Bytes → Bytes → C (Nat × Bytes)
  | st, [] => .val st
  | st, [c] => appendGrow st [c]
  | st, c :: d :: t =>
    if c = c!"$" ∧ isDigit d then
      match g (d.toNat - 48) with
      | some (a, e) =>
        if e ≥ a then
          if e ≤ cursor.length then
            appendGrow st ((cursor.drop a).take (e - a)) >>= fun st => template g cursor st t
          else .ub
        else template g cursor st t
      | none => template g cursor st t
    else appendGrow st [c] >>= fun st => template g cursor st (d :: t)

/-- plugins.c:656-737: the loop; the result is the state and the cursor, and whether there was a match.
Offsets beyond the end of the string are out of bounds. -/
def regexLoop (rx : Rx) (rep : Bytes) (st : Nat × Bytes) (any : Bool) (cursor : Bytes) :
    C (Nat × Bytes × Bytes × Bool) :=
  match rx cursor with
  | none => .val (st.1, st.2, cursor, any)
  | some g =>
    match g 0 with
    | none => .val (st.1, st.2, cursor, any)
    | some (a, e) =>
      if _hb : a > cursor.length ∨ e > cursor.length then .ub
      else
        appendGrow st (cursor.take a) >>= fun st =>
        template g cursor st rep >>= fun st =>
        if _h : e = 0 then
          match _hc : cursor with
          | [] => .val (st.1, st.2, [], true)
          | c :: t => appendGrow st [c] >>= fun st => regexLoop rx rep st true t
        else regexLoop rx rep st true (cursor.drop e)
  termination_by cursor.length
  decreasing_by
    · subst _hc; simp
    · simp; omega

/-- plugins.c:643-755, `apply_regex_replacement`; `none` is NULL. -/
def applyRegex (rx : Rx) (rep input : Bytes) : C (Option Bytes) :=
  regexLoop rx rep (input.length + 1, []) false input >>= fun r =>
  if r.2.2.2 then
    let cap := if r.2.1.length + r.2.2.1.length + 1 > r.1 then r.2.1.length + r.2.2.1.length + 1 else r.1
    puts cap r.2.1 r.2.2.1 >>= fun o => finish cap o >>= fun o => .val (some o)
  else .val none

/-! ### External commands -/

/-- An environment. -/
abbrev Env := Bytes → Option Bytes

def setenv (env : Env) (k v : Bytes) : Env := fun x => if x = k then some v else env x
def unsetenv (env : Env) (k : Bytes) : Env := fun x => if x = k then none else env x

/-- What a command run with an environment does with its input: `none` when no process could be started,
otherwise its exit status and its output. -/
abbrev Proc := Env → Bytes → Bytes → Option (Nat × Bytes)

def phaseName : Phase → Bytes
  | .pre => b!"pre_parse"
  | .post => b!"post_render"

/-- src/plugins_env.c:68-84: the request; `escaped` is the escaped text. -/
def request (id phase escaped : Bytes) : Bytes :=
  b!"{ \"version\": 1, \"plugin_id\": \"" ++ id ++ b!"\", \"phase\": \"" ++ phase ++
    b!"\", \"text\": \"" ++ escaped ++ b!"\" }\n"

/-- src/plugins_env.c:55-166, `apex_run_external_plugin_command`: the output as a C string, whatever the
exit status. -/
def runExternal (proc : Proc) (env : Env) (cmd phase id text : Bytes) : C (Option Bytes) :=
  if cmd = [] then .val none
  else
    Escape.jsonEscape text >>= fun r =>
    match r with
    | none => .val none
    | some e => .val ((proc env cmd (request id phase e)).map fun o => Escape.cstr o.2)

def pluginDir : Bytes := b!"APEX_PLUGIN_DIR"
def supportDir : Bytes := b!"APEX_SUPPORT_DIR"
def filePath : Bytes := b!"APEX_FILE_PATH"

/-- plugins.c:798-817: the environment the command sees. -/
def enter (env : Env) (p : Plugin) (file : Bytes) : Env :=
  let env := setenv env pluginDir p.dir
  let env := match p.support with
    | some s => setenv env supportDir s
    | none => env
  setenv env filePath file

/-- `if (old) setenv(k, old) else unsetenv(k)`. -/
def restore (env : Env) (k : Bytes) (old : Option Bytes) : Env :=
  match old with
  | some v => setenv env k v
  | none => unsetenv env k

/-- plugins.c:830-861: the variables are restored from the values saved before each was set. -/
def leave (env saved : Env) (p : Plugin) : Env :=
  let env := restore env pluginDir (saved pluginDir)
  let env := match p.support with
    | some _ => restore env supportDir (saved supportDir)
    | none => env
  restore env filePath (saved filePath)

/-- plugins.c:780-864: one plugin; the environment afterwards and `next`. -/
def runPlugin (proc : Proc) (file : Bytes) (phase : Phase) (env : Env) (p : Plugin) (text : Bytes) :
    C (Env × Option Bytes) :=
  match p.command with
  | some cmd =>
    runExternal proc (enter env p file) cmd (phaseName phase) p.id text >>= fun next =>
    .val (leave (enter env p file) env p, next)
  | none =>
    match p.regex with
    | some (rx, rep) => applyRegex rx rep text >>= fun next => .val (env, next)
    | none => .val (env, none)

/-- plugins.c:780-879: the loop over the list. -/
def runLoop (proc : Proc) (file : Bytes) (phase : Phase) : List Plugin → Env → Bytes → C (Env × Bytes)
  | [], env, current => .val (env, current)
  | p :: ps, env, current =>
    if p.phase = phase then
      runPlugin proc file phase env p current >>= fun r =>
      runLoop proc file phase ps r.1 (r.2.getD current)
    else runLoop proc file phase ps env current

/-- plugins.c:757-893, `apex_plugins_run_text_phase`: the environment afterwards and the result, NULL when
the text is the same. -/
def runPhase (proc : Proc) (file : Bytes) (phase : Phase) (ps : List Plugin) (env : Env) (text : Bytes) :
    C (Env × Option Bytes) :=
  runLoop proc file phase ps env text >>= fun r =>
  .val (r.1, if r.2 = text then none else some r.2)

end Verif.Plugins
