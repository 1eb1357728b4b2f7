/-
Model of the man page (roff) serialiser, src/ast_man.c. The output buffer is the list of bytes appended
so far (Props/GrowBuf.lean proves that the real buffer holds exactly that).
-/
import Verif.Basic

namespace Verif.Man

/-- src/ast_man.c:73 and 78, the test `i + 2 <= len && str[i+1] == 0x80 && str[i+2] == last` after
byte 0xE2; `t` is the text after that byte, `after` the byte behind the end of the text. -/
def dash (after : Byte) (last : Byte) : Bytes → Bool
  | [] => false
  | [a] => a == 0x80 && after == last
  | a :: b :: _ => a == 0x80 && b == last

/-- src/ast_man.c:55-90, the loop of `man_buf_append_roff_safe`: what it appends. -/
def roffLoop (after : Byte) (lineStart : Bool) (str : Bytes) : Bytes :=
  match str with
  | [] => []
  | c :: t =>
    if c = c!"\\" then b!"\\e" ++ roffLoop after false t
    else if c = 10 then 10 :: roffLoop after true t
    else if lineStart && (c == c!"." || c == c!"'") then b!"\\&" ++ (c :: roffLoop after false t)
    else if c = c!"-" then b!"\\-" ++ roffLoop after false t
    else if c == 0xE2 && dash after 0x93 t then b!"\\-\\-" ++ roffLoop after false (t.drop 2)
    else if c == 0xE2 && dash after 0x94 t then b!"\\[em]" ++ roffLoop after false (t.drop 2)
    else c :: roffLoop after false t
termination_by str.length
decreasing_by all_goals simp; try omega

/-- src/ast_man.c:54, `b->len == 0 || b->buf[b->len - 1] == '\n'`. -/
def atLineStart (out : Bytes) : Bool :=
  match out.getLast? with
  | none => true
  | some c => c == 10

/-- src/ast_man.c:51-91 `man_buf_append_roff_safe` with output `out` so far. -/
def roffSafe (after : Byte) (out str : Bytes) : Bytes := out ++ roffLoop after (atLineStart out) str

/-! ### Definition list fragments -/

/-- src/ast_man.c:103-127 `decode_entity`: the text appended and the rest of the fragment. Reads past
the fragment never match, because a fragment is followed by `</dt>` or `</dd>`. -/
def decodeEntity : Bytes → Option (Bytes × Bytes)
  | 38 :: 108 :: 116 :: 59 :: t => some (b!"<", t)
  | 38 :: 103 :: 116 :: 59 :: t => some (b!">", t)
  | 38 :: 97 :: 109 :: 112 :: 59 :: t => some (b!"&", t)
  | 38 :: 113 :: 117 :: 111 :: 116 :: 59 :: t => some (b!"\"", t)
  | 38 :: 35 :: 51 :: 57 :: 59 :: t => some (b!"'", t)
  | _ => none

/-- src/ast_man.c:138-149: what is appended for a tag (given with its angle brackets). `<em>` is tested
with length 5 and never matches, `</em>` with length 6 and never matches. -/
def tagRoff (tag : Bytes) : Bytes :=
  if tag = b!"<strong>" then b!"\\f[B]"
  else if tag = b!"</strong>" then b!"\\f[]"
  else if tag = b!"<code>" then b!"\\fR"
  else if tag = b!"</code>" then b!"\\f[]"
  else []

/-- State of the loop of `append_html_fragment_roff`: output and remaining fragment. -/
structure Frag where
  out : Bytes
  rest : Bytes
  deriving DecidableEq, Repr

/-- The bytes of a plain text run. -/
def isPlain (c : Byte) : Bool := c != c!"<" && c != c!"&"

/-- src/ast_man.c:131-165, one turn of the loop of `append_html_fragment_roff` on a non-empty rest. -/
def fragStep (s : Frag) : Frag :=
  match s.rest with
  | [] => s
  | c :: t =>
    if c = c!"<" ∧ c!">" ∈ t then
      ⟨s.out ++ tagRoff (c :: t.takeWhile (· != c!">") ++ [c!">"]), (t.dropWhile (· != c!">")).drop 1⟩
    else
      match decodeEntity (c :: t) with
      | some (txt, r) => ⟨s.out ++ txt, r⟩
      | none =>
        let run := (c :: t).takeWhile isPlain
        let rest := (c :: t).dropWhile isPlain
        if run = [] then s
        else ⟨roffSafe (rest.headD c!"<") s.out run, rest⟩

theorem dropWhile_length {α : Type} (p : α → Bool) (l : List α) : (l.dropWhile p).length ≤ l.length := by
  induction l with
  | nil => simp
  | cons a t ih => rw [List.dropWhile_cons]; split <;> simp <;> omega

theorem decodeEntity_length (s txt r : Bytes) (h : decodeEntity s = some (txt, r)) :
    r.length < s.length := by
  unfold decodeEntity at h
  split at h <;> simp at h
  all_goals (rw [← h.2]; simp; omega)

theorem fragStep_length (s : Frag) (h : fragStep s ≠ s) : (fragStep s).rest.length < s.rest.length := by
  obtain ⟨out, rest⟩ := s
  cases rest with
  | nil => simp [fragStep] at h
  | cons c t =>
    simp only [fragStep] at h ⊢
    split
    · have := dropWhile_length (· != c!">") t
      simp; omega
    · rename_i hc
      rw [if_neg hc] at h
      split
      · rename_i hd; simpa using decodeEntity_length _ _ _ hd
      · rename_i hd
        rw [hd] at h
        simp only at h ⊢
        split
        · rename_i hrun; rw [if_pos hrun] at h; exact absurd rfl h
        · rename_i hrun
          simp only [List.dropWhile_cons]
          simp only [List.takeWhile_cons] at hrun
          split
          · have := dropWhile_length isPlain t; simp; omega
          · rename_i hp; simp [hp] at hrun

/-- The result of the whole loop; `none` when it never ends (a turn that changes nothing). -/
def fragLoop (s : Frag) : Option Bytes :=
  if s.rest = [] then some s.out
  else if _h : fragStep s = s then none
  else fragLoop (fragStep s)
termination_by s.rest.length
decreasing_by exact fragStep_length s _h

/-- src/ast_man.c:129-166 `append_html_fragment_roff`. -/
def appendFragment (out str : Bytes) : Option Bytes := fragLoop ⟨out, str⟩

/-- src/ast_man.c:169-172 `is_dl_block`. -/
def isDlBlock (str : Bytes) : Bool :=
  let s := str.dropWhile fun c => c == 32 || c == 10 || c == 9
  s.length ≥ 4 && s.take 3 == b!"<dl" && (s[3]? == some c!">" || (s.length > 4 && s[3]? == some 32))

/-- src/ast_man.c:188-195, searching the closing tag: the text before it. -/
def findClose (close : Bytes) : Bytes → Bytes → Option Bytes
  | _, [] => none
  | inner, c :: t =>
    if t.length + 1 ≥ 6 then
      if (c :: t).take 5 = close then some inner else findClose close (inner ++ [c]) t
    else none

/-- src/ast_man.c:178-180, searching the opening tag: the text after its three first bytes. -/
def findOpen (openTag : Bytes) : Bytes → Option Bytes
  | [] => none
  | c :: t =>
    if t.length + 1 ≥ 4 then
      if (c :: t).take 3 = openTag then some ((c :: t).drop 3) else findOpen openTag t
    else none

/-- src/ast_man.c:175-198 `find_dt` and 200-223 `find_dd`: the text between the tags. -/
def findElem (openTag close str : Bytes) : Option Bytes :=
  match findOpen openTag str with
  | none => none
  | some t =>
    match t.dropWhile (· != c!">") with
    | [] => none
    | _ :: t => findClose close [] (t.dropWhile fun c => c == 32 || c == 10)

/-- Result of `render_dl_html_block_as_roff`. -/
inductive DlResult
  | notDl
  | done (out : Bytes)
  | hangs
  deriving DecidableEq, Repr

/-- src/ast_man.c:226-237 `render_dl_html_block_as_roff`. -/
def renderDl (out lit : Bytes) : DlResult :=
  if !isDlBlock lit then .notDl
  else
    match findElem b!"<dt" b!"</dt>" lit with
    | none => .notDl
    | some dt =>
      match findElem b!"<dd" b!"</dd>" lit with
      | none => .notDl
      | some dd =>
        match appendFragment (out ++ b!"\n.TP\n") dt with
        | none => .hangs
        | some out1 =>
          match appendFragment (out1 ++ b!"\n") dd with
          | none => .hangs
          | some out2 => .done (out2 ++ b!"\n")

/-! ### The document tree -/

/-- The node types told apart by the serialiser, with the attributes it reads. A NULL literal or URL is
the empty string. -/
inductive Kind
  | document | heading (level : Nat) | paragraph | list (bullet : Bool) | item (index : Nat)
  | codeBlock (lit : Bytes) | blockQuote | thematicBreak | htmlBlock (lit : Bytes)
  | defList | defTerm | defData
  | text (lit : Bytes) | code (lit : Bytes) | lineBreak | softBreak | strong | emph
  | link (url : Bytes) | htmlInline
  | other
  deriving DecidableEq, Repr

/-- A cmark node: its type and its children. -/
inductive Node
  | mk (kind : Kind) (children : List Node)

mutual
/-- src/ast_man.c:334-393 `render_inline_roff`. -/
def renderInline (out : Bytes) : Node → Bytes
  | .mk k kids =>
    match k with
    | .text lit => roffSafe 0 out lit
    | .code lit => roffSafe 0 (out ++ b!"\\fR") lit ++ b!"\\f[]"
    | .lineBreak => out ++ b!"\n.br\n"
    | .softBreak => out ++ b!" "
    | .strong => renderInlines (out ++ b!"\\f[B]") kids ++ b!"\\f[]"
    | .emph => renderInlines (out ++ b!"\\f[I]") kids ++ b!"\\f[]"
    | .link url =>
      let o := renderInlines out kids
      if url ≠ [] then roffSafe 0 (o ++ b!" (") url ++ b!")" else o
    | .htmlInline => out
    | _ => renderInlines out kids
/-- The loops over the children. -/
def renderInlines (out : Bytes) : List Node → Bytes
  | [] => out
  | n :: ns => renderInlines (renderInline out n) ns
end

/-- Decimal digits of a number, as printed by `%d` for a non-negative `int`. -/
def decimal (n : Nat) : Bytes :=
  if n < 10 then [.ofNat (48 + n)] else decimal (n / 10) ++ [.ofNat (48 + n % 10)]

/-- src/ast_man.c:446-454, the request written for a list item. -/
def itemRequest (parent : Option Kind) (idx : Nat) : Bytes :=
  match parent with
  | some (.list true) => b!"\n.IP \\(bu 2\n"
  | _ => b!"\n.IP \"" ++ decimal idx ++ b!".\" 4\n"

/-- src/ast_man.c:481-497, the literal of a code block: runs of newlines become one. -/
def codeLoop (out lit : Bytes) : Bytes :=
  match lit with
  | [] => out
  | c :: t =>
    if c = 10 then codeLoop (out ++ b!"\n") (t.dropWhile (· == 10))
    else
      let run := c :: t.takeWhile (· != 10)
      let rest := t.dropWhile (· != 10)
      codeLoop (roffSafe (rest.headD 0) out run) rest
termination_by lit.length
decreasing_by
  · simp; have := dropWhile_length (· == 10) t; omega
  · simp; have := dropWhile_length (· != 10) t; omega

/-- Output so far and the static flag `roff_last_was_dl_dd` (src/ast_man.c:402). -/
structure St where
  out : Bytes
  dd : Bool
  deriving DecidableEq, Repr

/-- Append a literal. -/
def St.add (s : St) (b : Bytes) : St := { s with out := s.out ++ b }

mutual
/-- src/ast_man.c:404-540 `render_block_roff`. `parent` is the type of the parent node, `first` says
that the node has no previous sibling; `none` means that the call never returns. -/
def renderBlock (parent : Option Kind) (first : Bool) (s : St) : Node → Option St
  | .mk k kids =>
    match k with
    | .document => renderBlocks k true s kids
    | .heading level =>
      let s := { s with dd := false }.add (if level = 1 then b!"\n.SH " else b!"\n.SS ")
      some ({ s with out := renderInlines s.out kids }.add b!"\n")
    | .paragraph =>
      let inItem := match parent with | some (.item _) => true | _ => false
      let inDefDataFirst := decide (parent = some .defData) && first
      let inDefTerm := decide (parent = some .defTerm)
      let cont := s.dd
      let hasContent := !kids.isEmpty
      let s := if cont && hasContent then { s with dd := false } else s
      let s := if !inItem && !inDefDataFirst && !inDefTerm && !cont then s.add b!"\n.PP\n" else s
      let s := if cont && hasContent && s.out.length > 0 && !atLineStart s.out then s.add b!" " else s
      let s := { s with out := renderInlines s.out kids }
      some (if hasContent then s.add b!"\n" else s)
    | .list _ => renderBlocks k true { s with dd := false } kids
    | .item idx =>
      renderBlocks k true (s.add (itemRequest parent idx)) kids
    | .codeBlock lit =>
      let inItem := match parent with | some (.item _) => true | _ => false
      if s.dd || inItem then
        let s := { s with dd := false }
        let s := if s.out.length > 0 && !atLineStart s.out then s.add b!" " else s
        some ({ s with out := roffSafe 0 s.out lit }.add b!"\n")
      else
        let s := s.add b!"\n.PP\n.nf\n\\fR\n"
        some ({ s with out := codeLoop s.out lit }.add b!"\n\\f[]\n.fi\n")
    | .blockQuote =>
      match renderBlocks k true ({ s with dd := false }.add b!"\n.RS\n") kids with
      | none => none
      | some s => some (s.add b!"\n.RE\n")
    | .thematicBreak => some ({ s with dd := false }.add b!"\n.PP\n  *  *  *  *  *\n")
    | .htmlBlock lit =>
      if lit = [] then some s
      else
        match renderDl s.out lit with
        | .notDl => some s
        | .done out => some ⟨out, true⟩
        | .hangs => none
    | .defTerm => renderBlocks k true ({ s with dd := false }.add b!"\n.TP\n") kids
    | _ => renderBlocks k true { s with dd := false } kids
/-- The loops over the children of a block of type `parent`. -/
def renderBlocks (parent : Kind) (first : Bool) (s : St) : List Node → Option St
  | [] => some s
  | n :: ns =>
    match renderBlock (some parent) first s n with
    | none => none
    | some s => renderBlocks parent false s ns
end

mutual
/-- src/ast_man.c:243-254 `collect_plain_text`: the text collected. -/
def plainText : Node → Bytes
  | .mk k kids =>
    match k with
    | .text lit => lit
    | .code lit => lit
    | _ => plainTexts kids
def plainTexts : List Node → Bytes
  | [] => []
  | n :: ns => plainText n ++ plainTexts ns
end

/-- src/ast_man.c:257-274 `get_first_h1_text`, on the children of the document (an empty heading gives
NULL, which the caller treats like an empty title). -/
def firstH1 : List Node → Bytes
  | [] => []
  | .mk k kids :: ns =>
    match k with
    | .heading 1 => plainTexts kids
    | _ => firstH1 ns

/-- src/ast_man.c:563-576: the `.TH` line. -/
def header (title : Bytes) : Bytes :=
  roffSafe 0 b!".TH \"" title ++ b!"\" \"1\" \"1 January 1970\" \"\"\n"

/-- src/ast_man.c:546-585 `apex_cmark_to_man_roff`, for a document node with the given children; `dd` is
the value of the static flag when the call starts. `none` means that the call never returns. -/
def manRoff (dd : Bool) (kids : List Node) : Option St :=
  let h1 := firstH1 kids
  let title := if h1 = [] then b!"Document" else h1
  renderBlock none true ⟨header title, dd⟩ (.mk .document kids)

end Verif.Man
