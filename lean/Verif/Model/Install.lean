/- cli/main.c:828-926, 2146-2181, 2375-2525, 2726-2890: installing and removing plugins and filters: the commands given to `system`.  Whether commands succeed, and what the
manifest of a plugin says, are parameters, and so is the directory of plugins; the questions are answered with `y`; allocations succeed; no text has a zero byte. -/
import Verif.Model.Embed

namespace Verif.Install
open Embed (find)

/-- `snprintf` into a block of `n` bytes. -/
def clip (n : Nat) (s : Bytes) : Bytes := s.take (n - 1)

/-- A name after a directory. -/
def at' (dir name : Bytes) : Bytes := dir ++ b!"/" ++ name

/-- Text in double quotes. -/
def quote (s : Bytes) : Bytes := b!"\"" ++ s ++ b!"\""

/-- The last four bytes are `.git`. -/
def endsGit (s : Bytes) : Bool := decide (b!".git" <:+ s)

/-- cli/main.c:837-871 `normalize_plugin_repo_url`, for an argument that is not empty (it returns nothing for an empty one). -/
def repoUrl (arg : Bytes) : Option Bytes :=
  if arg = [] then none
  else if (find b!"://" arg).isSome ∨ (find b!"@" arg).isSome then
    if (b!"https://github.com/" <+: arg ∨ b!"http://github.com/" <+: arg ∨ b!"git@github.com:" <+: arg) ∧ ¬ endsGit arg then some (clip (arg.length + 5) (arg ++ b!".git")) else some arg
  else
    match arg.dropWhile (· != c!"/") with
    | _ :: _ :: _ => if arg.head? = some c!"/" then none else some (clip (19 + arg.length + 5) (b!"https://github.com/" ++ arg ++ b!".git"))
    | _ => none

/-- cli/main.c:2148, 2406, 2454, 2745, 2813, 2857: a target in the directory. -/
def target (root name : Bytes) : Bytes := clip 1200 (at' root name)

/-- What follows the last `/`. -/
def base (s : Bytes) : Bytes := (s.reverse.takeWhile (· != c!"/")).reverse

/-- cli/main.c:2392-2396, 2799-2803: the name of a repository. -/
def repoName (repo : Bytes) : Bytes :=
  match find b!".git" (base repo) with
  | some (a, _) => a
  | none => base repo

/-- cli/main.c:2389-2404, 2795-2811: the directory a repository is cloned into first. -/
def temp (root repo : Bytes) : Bytes :=
  if repoName repo ≠ [] ∧ (repoName repo).length < 200 then clip 1200 (root ++ b!"/.apex_install_" ++ repoName repo) else clip 1200 (root ++ b!"/.apex_install_temp")

/-- cli/main.c:906-923: the last part of the path of a repository. -/
def fallback (path : Bytes) : Option Bytes :=
  if c!"/" ∈ path ∧ base path ≠ [] then
    if (base path).length > 4 ∧ endsGit (base path) then some ((base path).take ((base path).length - 4)) else some (base path)
  else none

/-- What the commands find: whether a command succeeds after others, and the `id` and `post_install` of a manifest in a directory. -/
structure World where
  ok : List Bytes → Bytes → Bool
  id : Bytes → Option Bytes
  hook : Bytes → Option Bytes

/-- cli/main.c:879-926 `extract_plugin_id_from_repo`. -/
def pluginId (w : World) (path : Bytes) : Option Bytes :=
  match w.id path with
  | some (c :: t) => some (c :: t)
  | _ => fallback path

/-- cli/main.c:2377, 2728. -/
def mkdirC (root : Bytes) : Bytes := clip 1200 (b!"mkdir -p " ++ quote root)
/-- cli/main.c:2412-2415, 2458, 2819, 2862. -/
def dirC (d : Bytes) : Bytes := clip 1300 (b!"[ -d " ++ quote d ++ b!" ]")
/-- cli/main.c:2746. -/
def fileC (f : Bytes) : Bytes := clip 1300 (b!"[ -e " ++ quote f ++ b!" ]")
/-- cli/main.c:2428, 2833. -/
def cloneC (repo d : Bytes) : Bytes := clip 2048 (b!"git clone " ++ quote repo ++ b!" " ++ quote d)
/-- cli/main.c:2758. -/
def shallowC (repo d : Bytes) : Bytes := clip 2048 (b!"git clone --depth 1 " ++ quote repo ++ b!" " ++ quote d)
/-- cli/main.c:2172, 2445, 2463, 2478, 2774, 2785, 2867, 2882: in blocks of 1300, 1400 or 3000 bytes. -/
def rmC (n : Nat) (d : Bytes) : Bytes := clip n (b!"rm -rf " ++ quote d)
/-- cli/main.c:2473, 2877. -/
def mvC (a b : Bytes) : Bytes := clip 2500 (b!"mv " ++ quote a ++ b!" " ++ quote b)
/-- cli/main.c:2771. -/
def cpC (a b : Bytes) : Bytes := clip 3000 (b!"cp " ++ quote a ++ b!" " ++ quote b)
/-- cli/main.c:2783. -/
def chmodC (f : Bytes) : Bytes := clip 1300 (b!"chmod +x " ++ quote f)
/-- cli/main.c:2511. -/
def hookC (d h : Bytes) : Bytes := clip 2048 (b!"cd " ++ quote d ++ b!" && " ++ h)

/-- cli/main.c:2489-2519: the command a manifest asks for. -/
def hooks (w : World) (d : Bytes) : List Bytes :=
  match w.hook d with
  | some (c :: t) => [hookC d (c :: t)]
  | _ => []

/-- cli/main.c:2146-2181: removing a plugin whose directory exists. -/
def uninstall (root id : Bytes) : List Bytes := [rmC 1400 (target root id)]

/-- cli/main.c:2375-2525: installing a plugin from a repository; `known` is the name of a plugin from the list of plugins. -/
def install (w : World) (root repo : Bytes) (known : Option Bytes) : List Bytes :=
  let t1 := [mkdirC root]
  if ¬ w.ok [] (mkdirC root) then t1
  else
    let d := match known with | some id => target root id | none => temp root repo
    let t2 := t1 ++ [dirC d]
    if w.ok t1 (dirC d) ∧ known.isSome then t2
    else
      let t3 := t2 ++ [cloneC repo d]
      if ¬ w.ok t2 (cloneC repo d) then t3
      else
        match known with
        | some _ => t3 ++ hooks w d
        | none =>
          match pluginId w d with
          | none => t3 ++ [rmC 1300 d]
          | some id =>
            let f := target root id
            let t4 := t3 ++ [dirC f]
            if w.ok t3 (dirC f) then t4 ++ [rmC 1300 d]
            else
              let t5 := t4 ++ [mvC d f]
              if ¬ w.ok t4 (mvC d f) then t5 ++ [rmC 1300 d] else t5 ++ hooks w f

/-- cli/main.c:2726-2792: installing one file of a repository as a filter. -/
def installFile (w : World) (root repo id path : Bytes) : List Bytes :=
  let t1 := [mkdirC root]
  if ¬ w.ok [] (mkdirC root) then t1
  else
    let f := target root (base path)
    let t2 := t1 ++ [fileC f]
    if w.ok t1 (fileC f) then t2
    else
      let d := clip 1200 (root ++ b!"/.apex_install_" ++ id)
      let t3 := t2 ++ [shallowC repo d]
      if ¬ w.ok t2 (shallowC repo d) then t3
      else
        let s := clip 1800 (at' d path)
        let t4 := t3 ++ [cpC s f]
        if ¬ w.ok t3 (cpC s f) then t4 ++ [rmC 3000 d] else t4 ++ [chmodC f, rmC 3000 d]

/-- cli/main.c:2726-2737, 2795-2890: installing a repository as a filter; `arg` is the argument, `known` whether it is the name of a filter from the list of filters. -/
def installFilter (w : World) (root repo arg : Bytes) (known : Bool) : List Bytes :=
  let t1 := [mkdirC root]
  if ¬ w.ok [] (mkdirC root) then t1
  else
    let f := target root arg
    let d := if known then f else temp root repo
    let t2 := if known then t1 ++ [dirC d] else t1
    if known ∧ w.ok t1 (dirC d) then t2
    else
      let t3 := t2 ++ [cloneC repo d]
      if ¬ w.ok t2 (cloneC repo d) then t3
      else if d = f then t3
      else
        let t4 := t3 ++ [dirC f]
        if w.ok t3 (dirC f) then t4 ++ [rmC 1300 d]
        else
          let t5 := t4 ++ [mvC d f]
          if ¬ w.ok t4 (mvC d f) then t5 ++ [rmC 1300 d] else t5

end Verif.Install
