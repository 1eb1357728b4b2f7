/- src/extensions/syntax_highlight.c: code blocks of a page are given to an external tool (`apex_apply_syntax_highlighting`).  The page has no zero byte; allocations succeed.  What the tool answers is a
function of the command line and of its input; how it is run is modelled separately below. -/
import Verif.Model.Embed

namespace Verif.CodeColor
open Embed (find)

/-! ### The command -/

/-- syntax_highlight.c:23-32 `get_tool_binary`. -/
def binary (tool : Bytes) : Option Bytes :=
  if tool = b!"pygments" then some b!"pygmentize" else if tool = b!"skylighting" then some b!"skylighting" else if tool = b!"shiki" then some b!"shiki" else none

/-- syntax_highlight.c:193-243: the line given to the shell, in an array of 512 bytes. -/
def command (tool lang : Bytes) (numbers ansi : Bool) : Option Bytes :=
  match binary tool with
  | none => none
  | some bin =>
    (if tool = b!"pygments" then
      if lang ≠ [] then some (if numbers then bin ++ b!" -l " ++ lang ++ b!" -f html -O linenos=1" else bin ++ b!" -l " ++ lang ++ b!" -f html")
      else some (if numbers then bin ++ b!" -g -f html -O linenos=1" else bin ++ b!" -g -f html")
    else if tool = b!"skylighting" then
      if lang ≠ [] then some (if numbers then bin ++ b!" --syntax " ++ lang ++ b!" -f html -r -n" else bin ++ b!" --syntax " ++ lang ++ b!" -f html -r")
      else some (if numbers then bin ++ b!" -f html -r -n" else bin ++ b!" -f html -r")
    else if tool = b!"shiki" then
      if lang ≠ [] then some (bin ++ b!" --lang " ++ lang ++ b!" --format " ++ (if ansi then b!"ansi" else b!"html"))
      else some (bin ++ b!" --format " ++ (if ansi then b!"ansi" else b!"html"))
    else none).map (·.take 511)

/-! ### The code of a block -/

/-- syntax_highlight.c:51-84 `unescape_html`; `n` bounds the number of turns.  The comparisons of the code see the bytes behind the content too, but these are `</code></pre>` and begin with a byte of no entity. -/
def unescape : Nat → Bytes → Bytes
  | 0, _ => []
  | _ + 1, [] => []
  | n + 1, c :: t =>
    if b!"&lt;" <+: c :: t then c!"<" :: unescape n ((c :: t).drop 4)
    else if b!"&gt;" <+: c :: t then c!">" :: unescape n ((c :: t).drop 4)
    else if b!"&amp;" <+: c :: t then c!"&" :: unescape n ((c :: t).drop 5)
    else if b!"&quot;" <+: c :: t then c!"\"" :: unescape n ((c :: t).drop 6)
    else if b!"&#39;" <+: c :: t then c!"'" :: unescape n ((c :: t).drop 5)
    else if b!"&apos;" <+: c :: t then c!"'" :: unescape n ((c :: t).drop 6)
    else c :: unescape n t

/-! ### Blocks -/

/-- syntax_highlight.c:282: a block may begin here. -/
def opens (s : Bytes) : Bool := b!"<pre>".isPrefixOf s || b!"<pre ".isPrefixOf s

/-- syntax_highlight.c:301: a blank between the tags. -/
def blank (c : Byte) : Bool := c == c!" " || c == c!"\t" || c == c!"\n" || c == c!"\r"

/-- A language of less than 64 bytes, else none. -/
def short (v : Bytes) : Bytes := if v.length < 64 then v else []

/-- syntax_highlight.c:334-346: the language in the text of the tag `<pre`. -/
def preLang (tag : Bytes) : Bytes :=
  match find b!"lang=\"" tag with
  | none => []
  | some (_, r) => if c!"\"" ∈ r then short (r.takeWhile (· != c!"\"")) else []

/-- syntax_highlight.c:348-367: the language in the text of the tag `<code`. -/
def codeLang (tag : Bytes) : Bytes :=
  match find b!"class=\"" tag with
  | none => []
  | some (_, r) =>
    match find b!"language-" r with
    | none => []
    | some (_, v) => short (v.takeWhile fun c => c != c!"\"" && c != c!" ")

/-- syntax_highlight.c:285-367: the language of the block that begins here, and what follows its two tags. -/
def heads (s : Bytes) : Option (Bytes × Bytes) :=
  match s.dropWhile (· != c!">") with
  | [] => none
  | _ :: after =>
    let code := after.dropWhile blank
    if b!"<code" <+: code then
      match code.dropWhile (· != c!">") with
      | [] => none
      | _ :: tail =>
        let lang := preLang (s.takeWhile (· != c!">"))
        some (if lang = [] then codeLang (code.takeWhile (· != c!">")) else lang, tail)
    else none

/-! ### The page -/

/-- What is left of a page: the text and the commands run, each with its input. -/
structure Done where
  page : Bytes
  calls : List (Bytes × Bytes)
deriving DecidableEq, Repr

/-- syntax_highlight.c:271-480: the loop.  `run` is what a command answers for its input, if it does; `cmd` the line for a language; `cap` the size of the block, `out` what is in it.  `remaining` of the code is
always the size less what is written. -/
def go (run : Bytes → Bytes → Option Bytes) (cmd : Bytes → Option Bytes) (only : Bool) : Nat → Nat → Bytes → List (Bytes × Bytes) → Bytes → C Done
  | _, cap, out, log, [] => if out.length < cap then .val ⟨out, log⟩ else .ub
  | 0, _, _, _, _ :: _ => .ub
  | n + 1, cap, out, log, c :: t =>
    let odd : C Done := if out.length < cap then go run cmd only n cap (out ++ [c]) log t else go run cmd only n cap out log t
    if opens (c :: t) then
      match heads (c :: t) with
      | none => odd
      | some (lang, tail) =>
        match find b!"</code></pre>" tail with
        | none => odd
        | some (content, rest) =>
          let block := (c :: t).take ((c :: t).length - rest.length)
          let kept := fun log' => if block.length ≤ cap - out.length then go run cmd only n cap (out ++ block) log' rest else go run cmd only n cap out log' rest
          if only && lang == [] then kept log
          else
            match cmd lang with
            | none => kept log
            | some line =>
              let code := unescape content.length content
              let answer := ((run line code).getD []).takeWhile (· != 0)
              let log' := log ++ [(line, code)]
              if answer = [] then kept log'
              else if cap - out.length ≤ answer.length then
                if out.length + answer.length ≤ (out.length + answer.length + 1) * 2 then go run cmd only n ((out.length + answer.length + 1) * 2) (out ++ answer) log' rest else .ub
              else go run cmd only n cap (out ++ answer) log' rest
    else if 1 < cap - out.length then go run cmd only n cap (out ++ [c]) log t
    else if out.length < cap * 2 then go run cmd only n (cap * 2) (out ++ [c]) log t
    else .ub

/-- syntax_highlight.c:256-482 `apex_apply_syntax_highlighting`; `there` tells whether the tool is found. -/
def convert (run : Bytes → Bytes → Option Bytes) (there : Bool) (tool : Bytes) (numbers only ansi : Bool) (html : Bytes) : C Done :=
  if binary tool = none ∨ there = false then .val ⟨html, []⟩
  else go run (fun lang => command tool lang numbers ansi) only html.length (html.length * 3 + 1024) [] [] html

/-! ### The answer of the tool -/

/-- syntax_highlight.c:139-186: the answer is read in chunks of at most 4096 bytes into a block that is doubled; `cap` its size, `got` what was read. -/
def collect : Nat → Bytes → List Bytes → C Bytes
  | cap, got, chunks =>
    let cap := if cap < got.length + 4096 then cap * 2 else cap
    match chunks with
    | [] => if got.length < cap then .val got else .ub
    | x :: xs => if got.length + 4096 ≤ cap then collect cap (got ++ x) xs else .ub
termination_by _ _ chunks => chunks

/-! ### How the tool is run -/

/-- What a program does next: read a byte, or learn that there is no more; write a byte; end. -/
inductive Act (σ : Type) where
  | read (next : Option Byte → σ)
  | write (b : Byte) (next : σ)
  | exit (ok : Bool)

/-- Where apex is: writing, with what is left to write; reading, with what it has; back, with the answer; or killed by a signal. -/
inductive Phase where
  | writing (todo : Bytes)
  | reading (got : Bytes)
  | back (answer : Option Bytes)
  | killed
deriving DecidableEq

/-- apex, the tool and the two pipes between them. -/
structure Sys (σ : Type) where
  phase : Phase
  tool : σ ⊕ Bool
  inp : Bytes
  out : Bytes

/-- syntax_highlight.c:91-189 `run_command`: one step of apex or of the tool.  `room` is the size of a pipe.  A write into a pipe nobody reads ends apex, as it does not ignore the signal.  Bytes go one by one;
failing system calls, signals from elsewhere and processes started by the tool are not modelled. -/
inductive Step {σ : Type} (act : σ → Act σ) (room : Nat) : Sys σ → Sys σ → Prop
  | put {b t s i o} : i.length < room → Step act room ⟨.writing (b :: t), .inl s, i, o⟩ ⟨.writing t, .inl s, i ++ [b], o⟩
  | pipe {b t ok i o} : Step act room ⟨.writing (b :: t), .inr ok, i, o⟩ ⟨.killed, .inr ok, i, o⟩
  | close {s i o} : Step act room ⟨.writing [], s, i, o⟩ ⟨.reading [], s, i, o⟩
  | get {g s i b o} : Step act room ⟨.reading g, s, i, b :: o⟩ ⟨.reading (g ++ [b]), s, i, o⟩
  | wait {g ok i} : Step act room ⟨.reading g, .inr ok, i, []⟩ ⟨.back (if ok then some g else none), .inr ok, i, []⟩
  | read {p s k b i o} : act s = .read k → Step act room ⟨p, .inl s, b :: i, o⟩ ⟨p, .inl (k (some b)), i, o⟩
  | eof {g s k o} : act s = .read k → Step act room ⟨.reading g, .inl s, [], o⟩ ⟨.reading g, .inl (k none), [], o⟩
  | write {p s b s' i o} : act s = .write b s' → o.length < room → Step act room ⟨p, .inl s, i, o⟩ ⟨p, .inl s', i, o ++ [b]⟩
  | exit {p s ok i o} : act s = .exit ok → Step act room ⟨p, .inl s, i, o⟩ ⟨p, .inr ok, i, o⟩

/-- The state behind the fork. -/
def start {σ : Type} (s : σ) (input : Bytes) : Sys σ := ⟨.writing input, .inl s, [], []⟩

/-- What can be reached. -/
inductive Reach {σ : Type} (act : σ → Act σ) (room : Nat) (a : Sys σ) : Sys σ → Prop
  | refl : Reach act room a a
  | step {b c} : Reach act room a b → Step act room b c → Reach act room a c

end Verif.CodeColor
