/- The parser and the renderer behind `apex_parse`, `apex_node_free` and `apex_render_html` (src/parser.c, src/renderer.c). -/
import Verif.Basic

namespace Verif.Simple

/-- include/apex/parser.h:18-111: the nodes that `apex_render_html` knows, with their strings; a string ends at its first zero.  The others are `other`. -/
inductive Node
  | doc (kids : List Node)
  | heading (level : Nat) (lit : Option Bytes)
  | para (lit : Option Bytes)
  | code (info lit : Option Bytes)
  | hr
  | quote (kids : List Node)
  | list (kids : List Node)
  | item (kids : List Node)
  | text (lit : Option Bytes)
  | emph (kids : List Node)
  | strong (kids : List Node)
  | span (lit : Option Bytes)
  | link (url title : Option Bytes) (kids : List Node)
  | image (url lit title : Option Bytes)
  | br
  | soft
  | other (kids : List Node)

/-! ### Parsing -/

/-- `strndup`: up to the first zero. -/
def cstr (s : Bytes) : Bytes := s.takeWhile (· ≠ 0)

/-- parser.c:170-186: the text up to the closing fence and what is behind the fence. -/
def fence : Bytes → Option (Bytes × Bytes)
  | [] => none
  | c :: s =>
    if b!"```".isPrefixOf (c :: s) then some ([], (c :: s).drop 3)
    else (fence s).map fun p => (c :: p.1, p.2)

/-- parser.c:189-201: a paragraph goes up to a line end that is followed by another one. -/
def para : Bytes → Bytes × Bytes
  | [] => ([], [])
  | c :: s => if c = c!"\n" && s.head? = some c!"\n" then ([], c :: s) else (c :: (para s).1, (para s).2)

/-- parser.c:124-153: a heading: its level, its text and what is behind it. -/
def heading (s : Bytes) : Option (Nat × Bytes × Bytes) :=
  let n := min 6 (s.takeWhile (· = c!"#")).length
  if n = 0 then none
  else
    match s.drop n with
    | [] => none
    | c :: r => if c = c!" " then some (n, r.takeWhile (· ≠ c!"\n"), r.dropWhile (· ≠ c!"\n")) else none

/-- parser.c:110-211 `parse_simple`: the children of the document, or `none` if there is no end after `n` turns of the loop.  A fence without an end takes all but two bytes. -/
def parse : Nat → Bytes → Option (List Node)
  | 0, _ => none
  | n + 1, s =>
    let s := s.dropWhile fun c => c = c!"\n" || c = c!"\r"
    if s = [] then some []
    else
      match heading s with
      | some h => (parse n h.2.2).map fun l => .heading h.1 (some (cstr h.2.1)) :: l
      | none =>
        if b!"```".isPrefixOf s then
          let r := s.drop 3
          let info := r.takeWhile (· ≠ c!"\n")
          let body := (r.dropWhile (· ≠ c!"\n")).drop 1
          match fence body with
          | some p => (parse n (p.2.dropWhile (· ≠ c!"\n"))).map fun l => .code (if info = [] then none else some (cstr info)) (some (cstr p.1)) :: l
          | none => parse n (body.drop (body.length - 2))
        else
          let p := para s
          (parse n p.2).map fun l => if p.1 = [] then l else .para (some (cstr p.1)) :: l

/-! ### Rendering -/

/-- renderer.c:11-31 `escape_html`. -/
def esc (s : Bytes) : Bytes := s.flatMap fun c =>
  if c = c!"<" then b!"&lt;" else if c = c!">" then b!"&gt;" else if c = c!"&" then b!"&amp;" else if c = c!"\"" then b!"&quot;" else [c]

/-- A string that may be missing. -/
def escOpt (s : Option Bytes) : Bytes := (s.map esc).getD []

/-- Without the given bytes at the end. -/
def trimEnd (p : Byte → Bool) (s : Bytes) : Bytes := (s.reverse.dropWhile p).reverse

/-- ` title="..."`, renderer.c:169-173, 193-197. -/
def titleAttr (t : Option Bytes) : Bytes := (t.map fun t => b!" title=\"" ++ esc t ++ b!"\"").getD []

mutual

/-- renderer.c:33-220 `render_node_html`. -/
def render (hard nobreaks : Bool) : Node → Bytes
  | .doc ks => renderAll hard nobreaks ks
  | .heading n lit => b!"<h" ++ [c!"0" + UInt8.ofNat n] ++ b!">" ++ (lit.map fun s => esc (trimEnd (fun c => c = c!" " || c = c!"\n" || c = c!"\r") s)).getD [] ++ b!"</h" ++ [c!"0" + UInt8.ofNat n] ++ b!">\n"
  | .para lit => b!"<p>" ++ (lit.map fun s => esc (trimEnd (fun c => c = c!"\n" || c = c!"\r") s)).getD [] ++ b!"</p>\n"
  | .code info lit => b!"<pre><code" ++ (info.map fun i => b!" class=\"language-" ++ esc (i.takeWhile (· ≠ c!" ")) ++ b!"\"").getD [] ++ b!">" ++ escOpt lit ++ b!"</code></pre>\n"
  | .hr => b!"<hr />\n"
  | .quote ks => b!"<blockquote>\n" ++ renderAll hard nobreaks ks ++ b!"</blockquote>\n"
  | .list ks => b!"<ul>\n" ++ renderAll hard nobreaks ks ++ b!"</ul>\n"
  | .item ks => b!"<li>" ++ renderAll hard nobreaks ks ++ b!"</li>\n"
  | .text lit => escOpt lit
  | .emph ks => b!"<em>" ++ renderAll hard nobreaks ks ++ b!"</em>"
  | .strong ks => b!"<strong>" ++ renderAll hard nobreaks ks ++ b!"</strong>"
  | .span lit => b!"<code>" ++ escOpt lit ++ b!"</code>"
  | .link url title ks => b!"<a href=\"" ++ escOpt url ++ b!"\"" ++ titleAttr title ++ b!">" ++ renderAll hard nobreaks ks ++ b!"</a>"
  | .image url lit title => b!"<img src=\"" ++ escOpt url ++ b!"\" alt=\"" ++ escOpt lit ++ b!"\"" ++ titleAttr title ++ b!" />"
  | .br => b!"<br />\n"
  | .soft => if hard then b!"<br />\n" else if nobreaks then b!" " else b!"\n"
  | .other _ => []

/-- renderer.c:39-41: the children in order. -/
def renderAll (hard nobreaks : Bool) : List Node → Bytes
  | [] => []
  | k :: ks => render hard nobreaks k ++ renderAll hard nobreaks ks

end

/-! ### Nodes in memory -/

/-- include/apex/parser.h:66-71: the links of a node. -/
structure Links where
  parent : Option Nat := none
  first : Option Nat := none
  last : Option Nat := none
  prev : Option Nat := none
  next : Option Nat := none

/-- The nodes that are allocated. -/
abbrev Heap := Nat → Option Links

/-- Write the links of a node. -/
def set (h : Heap) (n : Nat) (x : Links) : Heap := fun m => if m = n then some x else h m

/-- parser.c:37-43 `apex_node_new`: all links are zero. -/
def new (h : Heap) (n : Nat) : Heap := set h n {}

/-- parser.c:45-60 `apex_node_append_child`; a node that is not allocated must not be used. -/
def appendChild (h : Heap) (p c : Nat) : C Heap :=
  match h c with
  | none => .ub
  | some x =>
    let h := set h c { x with parent := some p, next := none }
    match h p with
    | none => .ub
    | some y =>
      match y.last with
      | some l =>
        match h l with
        | none => .ub
        | some z =>
          let h := set h l { z with next := some c }
          match h c, h p with
          | some x, some y => let h := set h c { x with prev := some l }; .val (set h p { y with last := some c })
          | _, _ => .ub
      | none =>
        let h := set h p { y with first := some c, last := some c }
        match h c with
        | some x => .val (set h c { x with prev := none })
        | none => .ub

/-- parser.c:144-147, 173-177, 204-206: the children of the document, each made and appended. -/
def grow (h : Heap) (p : Nat) : List Nat → C Heap
  | [] => .val h
  | c :: l => do
    let h ← appendChild (new h c) p c
    grow h p l

mutual

/-- parser.c:62-107 `apex_node_free`, only the nodes themselves: the heap afterwards.  To free a node that is not allocated, or to read it, is undefined. -/
def free : Nat → Heap → Nat → C Heap
  | 0, _, _ => .ub
  | n + 1, h, a =>
    match h a with
    | none => .ub
    | some x => do
      let h ← freeAll n h x.first
      match h a with
      | none => .ub
      | some _ => .val fun m => if m = a then none else h m

/-- parser.c:66-71: the children, each read before it is freed. -/
def freeAll : Nat → Heap → Option Nat → C Heap
  | 0, _, _ => .ub
  | _, h, none => .val h
  | n + 1, h, some c =>
    match h c with
    | none => .ub
    | some x => do
      let h ← free n h c
      freeAll n h x.next

end

end Verif.Simple
