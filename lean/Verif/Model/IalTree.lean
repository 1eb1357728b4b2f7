/-
src/extensions/ial.c:795-1518: attribute lists `{: ...}` in the tree of a document, for blocks and for inline elements.
What is below a node is kept as a list.  Allocations succeed.  A literal is a C string.
-/
import Verif.Model.Ial

namespace Verif.IalTree

/-- Inline elements that can have attributes. -/
inductive Kind
  | link | image | emph | strong | code
  deriving DecidableEq

/-- Inline nodes; `d` is the `user_data` of a node.  `brk` is a soft break or a line break. -/
inductive Inl
  | text (s : Bytes)
  | elem (k : Kind) (d : Option Bytes) (sub : List Inl)
  | brk
  | other

/-- Blocks.  `html` stands for blocks of HTML and custom blocks; `leaf` for code blocks, tables (`takes`) and blocks without attributes;
`box` for block quotes, lists, items (`takes`) and other blocks with blocks in them. -/
inductive Blk
  | para (d : Option Bytes) (l : List Inl)
  | heading (d : Option Bytes) (l : List Inl)
  | html
  | leaf (takes : Bool) (d : Option Bytes)
  | box (takes : Bool) (d : Option Bytes) (l : List Blk)

/-- ial.c:829, 900, 1261, 1347. -/
def opener (c : Byte) : Bool := c = c!":" || c = c!"#" || c = c!"."

/-- ial.c:833-834, 935-948, 1264: behind a `{`, the content of an attribute list and what follows its `}`. -/
def listAt : Bytes → Option (Bytes × Bytes)
  | [] => none
  | c :: u =>
    if opener c ∧ c!"}" ∈ c :: u then
      some ((if c = c!":" then u else c :: u).takeWhile (· ≠ c!"}"), ((c :: u).dropWhile (· ≠ c!"}")).drop 1)
    else none

/-- ial.c:908-928: an attribute list at the end of a text: what is in front of it, its content, and white space. -/
def atEnd (s : Bytes) : Option (Bytes × Bytes × Bytes) :=
  match Ial.afterLast c!"{" s with
  | none => none
  | some t =>
    match listAt t with
    | none => none
    | some (c, r) => if r.all isSpace then some (s.take (s.length - t.length - 1), c, r) else none

/-- Does an attribute list begin here? -/
def opens : Bytes → Bool
  | a :: c :: _ => a = c!"{" && opener c
  | _ => false

/-- ial.c:885-939: the attribute list of a text, at its start or at its end. -/
def locate (s : Bytes) : Option (Bytes × Bytes × Bytes) :=
  if opens (s.dropWhile isSpace) then
    (listAt ((s.dropWhile isSpace).drop 1)).map fun x => (s.takeWhile isSpace, x.1, x.2)
  else atEnd s

/-- ial.c:1043-1067: the element in front of a text, with attributes; `prev` begins with the nearest node. -/
def target (a : Bytes) : List Inl → Option (List Inl)
  | [] => none
  | .text s :: l => (target a l).map (.text s :: ·)
  | .elem k _ sub :: l => some (.elem k (some a) sub :: l)
  | .brk :: _ => none
  | .other :: _ => none

/-- What the loop over the children of a container changes: the children so far, from last to first, the attributes of the container. -/
structure St where
  prev : List Inl
  data : Option Bytes
  found : Bool

/-- ial.c:1081-1112 and 1153-1210: a text without its attribute list. -/
def remove (p r : Bytes) (st : St) : St :=
  let new := if r = [] then Ial.trimEnd p else p ++ r
  if new = [] then st else { st with prev := .text new :: st.prev }

/-- ial.c:880-1214: one child.  `A` gives the attributes, as they are written, for the content of a list (ial.c:950-1041, 1077, 1144).
`para`: the container is a paragraph. -/
def step (A : Bytes → C (Option Bytes)) (para : Bool) (st : St) (x : Inl) : C St :=
  match x with
  | .text s =>
    match locate s with
    | none => .val { st with prev := x :: st.prev }
    | some (p, c, r) =>
      if c = [] then .val { st with prev := x :: st.prev }
      else do
        match ← A c with
        | none => .val { st with prev := x :: st.prev }
        | some a =>
          match target a st.prev with
          | some l => .val (remove p r { st with prev := l, found := true })
          | none =>
            if para && (!st.prev.isEmpty || !p.isEmpty) then .val (remove p r { st with data := some a, found := true })
            else .val { st with prev := x :: st.prev }
  | x => .val { st with prev := x :: st.prev }

/-- ial.c:877-1215: the loop over the children. -/
def spans (A : Bytes → C (Option Bytes)) (para : Bool) : St → List Inl → C St
  | st, [] => .val st
  | st, x :: l => do
    let st ← step A para st x
    spans A para st l

mutual
/-- ial.c:1217-1229, for one child: the containers in a container.  They are done first here; the order makes no difference, for the
loop above changes texts and attributes of children, and this one what is below them. -/
def inner (A : Bytes → C (Option Bytes)) : Inl → C (Inl × Bool)
  | .elem k d sub =>
    if k = .strong ∨ k = .emph ∨ k = .link then do
      let (l, f) ← inners A sub
      let st ← spans A false ⟨[], none, false⟩ l
      .val (.elem k d st.prev.reverse, f || st.found)
    else .val (.elem k d sub, false)
  | x => .val (x, false)
/-- ial.c:1217-1229. -/
def inners (A : Bytes → C (Option Bytes)) : List Inl → C (List Inl × Bool)
  | [] => .val ([], false)
  | x :: l => do
    let (y, f) ← inner A x
    let (m, g) ← inners A l
    .val (y :: m, f || g)
end

/-- ial.c:863-1240 for a paragraph.  The iterator of apex_process_ial_in_tree (1482-1485) already points to the first child
of the paragraph: if this node is released, it is used after that. -/
def paragraph (A : Bytes → C (Option Bytes)) (d : Option Bytes) (l : List Inl) : C (Blk × Bool) := do
  let (l, f) ← inners A l
  match l with
  | [] => .val (.para d [], f)
  | x :: l => do
    let st ← step A true ⟨[], d, false⟩ x
    if st.prev.isEmpty then .ub
    else do
      let st ← spans A true st l
      .val (.para st.data st.prev.reverse, f || st.found)

/-- ial.c:472-586 `extract_ial_from_text`, with the attributes as they are written. -/
def extract (A : Bytes → C (Option Bytes)) (text : Bytes) : C (Option Bytes) :=
  match atEnd text with
  | none => .val none
  | some (_, c, _) => if c = [] then .val none else A c

/-- ial.c:1304-1364 `is_pure_ial_paragraph` and 808-848: the text of a paragraph that is an attribute list for the block in front of it,
up to its `}` when more follows. -/
def listText : Blk → Option Bytes
  | .para _ (.text s :: l) =>
    match l with
    | [] | [.brk] =>
      let t := s.dropWhile isSpace
      if opens t then
        (listAt (t.drop 1)).map fun x => if x.2.all isSpace then t else t.take (t.length - x.2.length)
      else none
    | _ => none
  | _ => none

/-- ial.c:1433-1466: the attributes from the siblings behind a block. -/
def next (A : Bytes → C (Option Bytes)) : List Blk → C (Option Bytes)
  | [] => .val none
  | .html :: l => next A l
  | b :: _ =>
    match listText b with
    | none => .val none
    | some t => extract A t

/-- ial.c:1245-1298 `extract_ial_from_heading` and 1384-1404: attributes at the end of a heading. -/
def heading (A : Bytes → C (Option Bytes)) (d : Option Bytes) : List Inl → C (Option Blk)
  | .text s :: l =>
    match atEnd s with
    | none => .val none
    | some (p, c, _) =>
      if c = [] then .val none
      else do
        match ← A c with
        | none => .val none
        | some a => .val (some (.heading (some (d.getD [] ++ a)) (.text (Ial.trimEnd p) :: l)))
  | _ => .val none

/-- `cmark_node_set_user_data` for a block that can have attributes. -/
def setData (a : Bytes) : Blk → Blk
  | .para _ l => .para (some a) l
  | .heading _ l => .heading (some a) l
  | .leaf t _ => .leaf t (some a)
  | .box t _ l => .box t (some a) l
  | .html => .html

/-- ial.c:1433-1466: the paragraph behind a block. -/
def claim (A : Bytes → C (Option Bytes)) (b : Blk) (l : List Blk) : C (Blk × Bool) := do
  match ← next A l with
  | some a => .val (setData a b, true)
  | none => .val (b, false)

/-- ial.c:1376-1467 `process_node_ial`, without what is below a box: the block, and is the paragraph behind it to be removed? -/
def here (A : Bytes → C (Option Bytes)) (b : Blk) (l : List Blk) : C (Blk × Bool) :=
  match b with
  | .para d s => do
    let (b, f) ← paragraph A d s
    if f then .val (b, false) else claim A b l
  | .heading d s => do
    match ← heading A d s with
    | some b => .val (b, false)
    | none => claim A b l
  | .leaf true _ => claim A b l
  | .box true _ _ => claim A b l
  | b => .val (b, false)

/-- A block of HTML or a custom block. -/
def isHtml : Blk → Bool
  | .html => true
  | _ => false

mutual
/-- What is below a block. -/
def down (A : Bytes → C (Option Bytes)) : Blk → C Blk
  | .box t d l => do
    let l ← blocks A false l
    .val (.box t d l)
  | b => .val b
/-- ial.c:1472-1518 `apex_process_ial_in_tree` for siblings; `claimed`: the next one that is not HTML is to be removed. -/
def blocks (A : Bytes → C (Option Bytes)) (claimed : Bool) : List Blk → C (List Blk)
  | [] => .val []
  | b :: l => do
    let b' ← down A b
    let (b', claim) ← here A b' l
    let m ← blocks A (if isHtml b then claimed else claim) l
    .val (if claimed && !isHtml b then m else b' :: m)
end

/-- ial.c:504-585, 592-800: the attributes for the content of a list, as they are written. -/
def attributes (alds : List (Bytes × Ial.Attrs)) (after content : Bytes) : C (Option Bytes) := do
  match ← Ial.resolve alds after content with
  | none => .val none
  | some a => do
    let s ← Ial.toHtml a
    .val (some s)

/-- ial.c:1472-1518 `apex_process_ial_in_tree`. -/
def process (alds : List (Bytes × Ial.Attrs)) (after : Bytes) (doc : Blk) : C Blk := down (attributes alds after) doc

end Verif.IalTree
