/-
Wiki links: src/extensions/wiki_links.c.
Allocation does not fail. Lengths stay below `INT_MAX` (wiki_links.c:530 casts a length to `int`).
`base_path` is not NULL; a NULL `extension` behaves as an empty one.
-/
import Verif.Model.Transforms

namespace Verif.Wiki

open Transforms (strstr)

/-- wiki_links.h:21-26, `wikilink_space_mode_t`. -/
inductive SpaceMode where
  | dash | none | underscore | space
  deriving DecidableEq, Repr

/-- wiki_links.h:29-34, `wiki_link_config`. -/
structure Config where
  base : Bytes
  ext : Bytes
  mode : SpaceMode
  sanitize : Bool

/-- wiki_links.c:89-112, `latin1_to_ascii`. -/
def latin1 (low : Byte) : Byte :=
  if 0x80 ≤ low ∧ low ≤ 0xBF then
    (b!"aaaaaa" ++ [0] ++ b!"ceeeeiiiidnooooo" ++ [0] ++ b!"ouuuuy" ++ [0, 0] ++
      b!"aaaaaa" ++ [0] ++ b!"ceeeeiiiidnooooo" ++ [0] ++ b!"ouuuuy" ++ [0] ++ b!"y").getD (low.toNat - 0x80) 0
  else 0

/-- wiki_links.c:149-156. -/
def spaceChar : SpaceMode → Byte
  | .dash => c!"-"
  | .none => 0
  | .underscore => c!"_"
  | .space => c!" "

/-- wiki_links.c:162-192: the number of bytes of a character that is removed at the start of the text. A
test of `s[1]` against NUL is implied by the comparison that follows it. -/
def goneLen : Bytes → Option Nat
  | [] => none
  | c :: t =>
    if c = c!"'" ∨ c = 34 ∨ c = c!"`" then some 1
    else if c = 0xC2 ∧ t.head? = some 0xB4 then some 2
    else if c = 0xE2 ∧ t.head? = some 0x80 ∧
      (t[1]? = some 0x98 ∨ t[1]? = some 0x99 ∨ t[1]? = some 0x9C ∨ t[1]? = some 0x9D) then some 3
    else if c = 0xCC ∧ 0x80 ≤ t.headD 0 ∧ t.headD 0 ≤ 0xBF then some 2
    else if c = 0xCD ∧ 0x80 ≤ t.headD 0 ∧ t.headD 0 ≤ 0xAF then some 2
    else none

/-- wiki_links.c:227-230: a separator, unless there is none or one stands there already. -/
def sepByte (cap : Nat) (sp : Byte) (last : Bool) (out : Bytes) : C (Bytes × Bool) :=
  if sp ≠ 0 ∧ last = false then put cap out sp >>= fun o => .val (o, true) else .val (out, last)

/-- wiki_links.c:236-260: one byte, an ASCII letter in lower case. -/
def oneByte (cap : Nat) (sp : Byte) (last : Bool) (out : Bytes) (c : Byte) : C (Bytes × Bool) :=
  let c := if 65 ≤ c ∧ c ≤ 90 then c + 32 else c
  if !isAlnum c && c != c!"/" && c != c!"." then
    if sp = 0 then .val (out, last)
    else if last then .val (out, last) else put cap out sp >>= fun o => .val (o, true)
  else if sp ≠ 0 ∧ c = sp then
    if last then .val (out, last) else put cap out c >>= fun o => .val (o, true)
  else put cap out c >>= fun o => .val (o, false)

/-- wiki_links.c:159-261, the loop over the page name. -/
def sanLoop (cap : Nat) (sp : Byte) (last : Bool) (out s : Bytes) : C Bytes :=
  match s with
  | [] => .val out
  | c :: t =>
    match goneLen (c :: t) with
    | some k => sanLoop cap sp last out (t.drop (k - 1))
    | none =>
      if c = 0xC3 then
        match t with
        | d :: t =>
          if d = 0x86 ∨ d = 0xA6 then puts cap out b!"ae" >>= fun o => sanLoop cap sp false o t
          else if d = 0x9F then puts cap out b!"ss" >>= fun o => sanLoop cap sp false o t
          else if latin1 d ≠ 0 then oneByte cap sp last out (latin1 d) >>= fun r => sanLoop cap sp r.2 r.1 t
          else sepByte cap sp last out >>= fun r => sanLoop cap sp r.2 r.1 t
        | [] => oneByte cap sp last out c >>= fun r => .val r.1
      else oneByte cap sp last out c >>= fun r => sanLoop cap sp r.2 r.1 t
  termination_by s.length
  decreasing_by all_goals simp; try omega

/-- wiki_links.c:263-266: a trailing separator goes; `start` is where the page name starts. -/
def trimSep (sp : Byte) (start : Nat) (out : Bytes) : Bytes :=
  if sp ≠ 0 ∧ start < out.length ∧ out.getLast? = some sp then out.dropLast else out

/-- wiki_links.c:268-288: only spaces are looked at. -/
def basicLoop (cap : Nat) (mode : SpaceMode) (out : Bytes) : Bytes → C Bytes
  | [] => .val out
  | c :: t =>
    if c = 32 then
      if mode = .none then basicLoop cap mode out t
      else put cap out (spaceChar mode) >>= fun o => basicLoop cap mode o t
    else put cap out c >>= fun o => basicLoop cap mode o t

/-- wiki_links.c:291-299. -/
def addExt (cap : Nat) (ext out : Bytes) : C Bytes :=
  match ext with
  | [] => .val out
  | e :: _ => if e = c!"." then puts cap out ext else puts cap out (c!"." :: ext)

/-- wiki_links.c:301-307. -/
def addSection (cap : Nat) (sec : Option Bytes) (out : Bytes) : C Bytes :=
  match sec with
  | some s => puts cap out (c!"#" :: s) >>= fun o => finish cap o
  | none => finish cap out

/-- wiki_links.c:133: the room for the section. -/
def secLen : Option Bytes → Nat
  | some s => s.length + 1
  | none => 0

/-- wiki_links.c:124-310, `page_to_url`. -/
def pageToUrl (cfg : Config) (page : Bytes) (sec : Option Bytes) : C Bytes :=
  let cap := cfg.base.length + page.length + secLen sec +
    cfg.ext.length + 10
  puts cap [] cfg.base >>= fun out =>
  (if cfg.sanitize then
    sanLoop cap (spaceChar cfg.mode) true out page >>= fun o => .val (trimSep (spaceChar cfg.mode) out.length o)
  else basicLoop cap cfg.mode out page) >>= fun out =>
  addExt cap cfg.ext out >>= fun out => addSection cap sec out

/-- `strchr` as a split: the text before the first `c` and, if there is one, the text behind it. -/
def cut (c : Byte) (s : Bytes) : Bytes × Option Bytes :=
  (s.takeWhile (· != c), match s.dropWhile (· != c) with | [] => none | _ :: t => some t)

/-- wiki_links.c:52-82, `parse_wiki_link`: page, display text, section. -/
def parse (content : Bytes) : Bytes × Option Bytes × Option Bytes :=
  let p := cut c!"|" content
  let q := cut c!"#" p.1
  (q.1, p.2, q.2)

/-- The nodes a text node is replaced by: text, or a link with its URL and its label. -/
inductive Node where
  | text (s : Bytes)
  | link (url label : Bytes)
  deriving DecidableEq, Repr

/-- A text node, unless it would be empty (wiki_links.c:441, 464). -/
def textIf (s : Bytes) : List Node := if s.length > 0 then [.text s] else []

/-- wiki_links.c:533-553: the node for a link. -/
def linkNode (cfg : Config) (content : Bytes) : C Node :=
  let p := parse content
  pageToUrl cfg p.1 p.2.2 >>= fun url => .val (.link url (p.2.1.getD p.1))

/-- wiki_links.c:435-597, the loop over the text. -/
def scan (cfg : Config) (s : Bytes) : C (List Node) :=
  match _h : strstr s b!"[[" with
  | none => .val (textIf s)
  | some i =>
    match strstr (s.drop (i + 2)) b!"]]" with
    | none => .val (textIf (s.take i) ++ [.text (s.drop i)])
    | some j =>
      if j = 0 then
        scan cfg (s.drop (i + 2 + j + 2)) >>= fun ns => .val (textIf (s.take i) ++ .text ((s.drop i).take (j + 4)) :: ns)
      else
        linkNode cfg ((s.drop (i + 2)).take j) >>= fun l =>
        scan cfg (s.drop (i + 2 + j + 2)) >>= fun ns => .val (textIf (s.take i) ++ l :: ns)
  termination_by s.length
  decreasing_by all_goals (have h1 := Transforms.strstr_le _h; simp at h1 ⊢; omega)

/-- A kind of node: a link with its URL, or another kind. -/
inductive Tag where
  | link (url : Bytes)
  | other (n : Nat)
  deriving DecidableEq, Repr

/-- A tree of nodes: text, or anything else with its children. -/
inductive Tree where
  | text (s : Bytes)
  | node (tag : Tag) (kids : List Tree)

/-- A new node in the tree. -/
def Node.tree : Node → Tree
  | .text s => .text s
  | .link u l => .node (.link u) [.text l]

mutual
/-- wiki_links.c:408-612, `apex_process_wiki_links_in_tree`: what a node is replaced by. A text node with no
marker is left alone (wiki_links.c:423-424). -/
def processTree (cfg : Config) : Tree → C (List Tree)
  | .text s =>
    match strstr s b!"[[" with
    | none => .val [.text s]
    | some _ => scan cfg s >>= fun ns => .val (ns.map Node.tree)
  | .node k kids => processKids cfg kids >>= fun ts => .val [.node k ts]
/-- wiki_links.c:607-611: the children from left to right; new nodes are not looked at again. -/
def processKids (cfg : Config) : List Tree → C (List Tree)
  | [] => .val []
  | t :: ts => processTree cfg t >>= fun a => processKids cfg ts >>= fun b => .val (a ++ b)
end

end Verif.Wiki
