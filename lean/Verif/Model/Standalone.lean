/- The standalone page: src/apex.c:3146-3199 `apex_extract_first_h1_text`, 5711-5737 (the scripts), 5747-5941 (title,
   stylesheets, footer, wrapping, embedding of stylesheets, snippets) and 5998-6464 `apex_wrap_html_document`.
   The allocations succeed.  `snprintf` fails when the text is longer than `INT_MAX`; sizes do not wrap around.  The file
   system is a function from paths to the content of files that can be read. -/
import Verif.Model.Embed

namespace Verif.Standalone

/-- src/apex.c:6130-6135 (and 6150-6155). -/
def syntaxOpen : Bytes := List.flatten [
  b!"  <style>\n",
  b!"    /* GitHub-style syntax highlighting for Pygments and Skylighting */\n",
  b!"    /* Don't apply background to wrapper when code highlighting is enabled - let default styles handle it */\n",
  b!"    .code-highlighted .highlight, .code-highlighted .sourceCode { background: inherit; border-radius: 6px; padding: 16px; overflow-x: auto; }\n",
  b!"    .highlight pre, .sourceCode pre { margin: 0; padding: 0; background: transparent; }\n",
  b!"    .highlight code, .sourceCode code { font-family: 'SFMono-Regular', Consolas, 'Liberation Mono', Menlo, monospace; font-size: 12px; line-height: 1.45; }\n"]

/-- src/apex.c:6174-6220. -/
def syntaxPygments : Bytes := List.flatten [
  b!"    .highlight .k { color: #d73a49; font-weight: 600; } /* Keyword */\n",
  b!"    .highlight .kt { color: #d73a49; } /* Keyword.Type */\n",
  b!"    .highlight .kd { color: #d73a49; font-weight: 600; } /* Keyword.Declaration */\n",
  b!"    .highlight .kn { color: #d73a49; } /* Keyword.Namespace */\n",
  b!"    .highlight .kp { color: #d73a49; } /* Keyword.Pseudo */\n",
  b!"    .highlight .kr { color: #d73a49; font-weight: 600; } /* Keyword.Reserved */\n",
  b!"    .highlight .n { color: #6f42c1; } /* Name */\n",
  b!"    .highlight .na { color: #6f42c1; } /* Name.Attribute */\n",
  b!"    .highlight .nc { color: #6f42c1; font-weight: 600; } /* Name.Class */\n",
  b!"    .highlight .no { color: #005cc5; } /* Name.Constant */\n",
  b!"    .highlight .nd { color: #6f42c1; font-weight: 600; } /* Name.Decorator */\n",
  b!"    .highlight .ni { color: #800080; } /* Name.Entity */\n",
  b!"    .highlight .ne { color: #990000; font-weight: 600; } /* Name.Exception */\n",
  b!"    .highlight .nf { color: #6f42c1; font-weight: 600; } /* Name.Function */\n",
  b!"    .highlight .nl { color: #6f42c1; } /* Name.Label */\n",
  b!"    .highlight .nn { color: #555; } /* Name.Namespace */\n",
  b!"    .highlight .nt { color: #22863a; } /* Name.Tag */\n",
  b!"    .highlight .nv { color: #e36209; } /* Name.Variable */\n",
  b!"    .highlight .s { color: #032f62; } /* String */\n",
  b!"    .highlight .sb { color: #032f62; } /* String.Backtick */\n",
  b!"    .highlight .sc { color: #032f62; } /* String.Char */\n",
  b!"    .highlight .sd { color: #032f62; } /* String.Doc */\n",
  b!"    .highlight .s2 { color: #032f62; } /* String.Double */\n",
  b!"    .highlight .se { color: #032f62; } /* String.Escape */\n",
  b!"    .highlight .sh { color: #032f62; } /* String.Heredoc */\n",
  b!"    .highlight .si { color: #032f62; } /* String.Interpol */\n",
  b!"    .highlight .sx { color: #032f62; } /* String.Other */\n",
  b!"    .highlight .sr { color: #032f62; } /* String.Regex */\n",
  b!"    .highlight .s1 { color: #032f62; } /* String.Single */\n",
  b!"    .highlight .ss { color: #032f62; } /* String.Symbol */\n",
  b!"    .highlight .c { color: #6a737d; font-style: italic; } /* Comment */\n",
  b!"    .highlight .c1 { color: #6a737d; font-style: italic; } /* Comment.Single */\n",
  b!"    .highlight .cm { color: #6a737d; font-style: italic; } /* Comment.Multiline */\n",
  b!"    .highlight .cp { color: #6a737d; font-weight: 600; } /* Comment.Preproc */\n",
  b!"    .highlight .cs { color: #6a737d; font-weight: 600; font-style: italic; } /* Comment.Special */\n",
  b!"    .highlight .m { color: #005cc5; } /* Literal.Number */\n",
  b!"    .highlight .mb { color: #005cc5; } /* Literal.Number.Bin */\n",
  b!"    .highlight .mf { color: #005cc5; } /* Literal.Number.Float */\n",
  b!"    .highlight .mh { color: #005cc5; } /* Literal.Number.Hex */\n",
  b!"    .highlight .mi { color: #005cc5; } /* Literal.Number.Integer */\n",
  b!"    .highlight .il { color: #005cc5; } /* Literal.Number.Integer.Long */\n",
  b!"    .highlight .mo { color: #005cc5; } /* Literal.Number.Oct */\n",
  b!"    .highlight .o { color: #d73a49; } /* Operator */\n",
  b!"    .highlight .ow { color: #d73a49; } /* Operator.Word */\n",
  b!"    .highlight .p { color: #24292e; } /* Punctuation */\n",
  b!"    .highlight .w { color: #e1e4e8; } /* Text.Whitespace */\n"]

/-- src/apex.c:6248-6278. -/
def syntaxSkylighting : Bytes := List.flatten [
  b!"    .sourceCode .kw { color: #d73a49; font-weight: 600; } /* Keyword */\n",
  b!"    .sourceCode .dt { color: #6f42c1; } /* DataType */\n",
  b!"    .sourceCode .dv { color: #005cc5; } /* DecVal */\n",
  b!"    .sourceCode .bn { color: #005cc5; } /* BaseN */\n",
  b!"    .sourceCode .fl { color: #005cc5; } /* Float */\n",
  b!"    .sourceCode .ch { color: #032f62; } /* Char */\n",
  b!"    .sourceCode .st { color: #032f62; } /* String */\n",
  b!"    .sourceCode .co { color: #6a737d; font-style: italic; } /* Comment */\n",
  b!"    .sourceCode .ot { color: #22863a; } /* Other */\n",
  b!"    .sourceCode .al { color: #e36209; font-weight: 600; } /* Alert */\n",
  b!"    .sourceCode .fu { color: #6f42c1; font-weight: 600; } /* Function */\n",
  b!"    .sourceCode .re { color: #032f62; } /* RegionMarker */\n",
  b!"    .sourceCode .er { color: #d73a49; font-weight: 600; } /* Error */\n",
  b!"    .sourceCode .cf { color: #d73a49; font-weight: 600; } /* ControlFlow */\n",
  b!"    .sourceCode .op { color: #d73a49; } /* Operator */\n",
  b!"    .sourceCode .pp { color: #6a737d; } /* Preprocessor */\n",
  b!"    .sourceCode .at { color: #005cc5; } /* Attribute */\n",
  b!"    .sourceCode .do { color: #6a737d; font-style: italic; } /* Documentation */\n",
  b!"    .sourceCode .an { color: #6a737d; font-weight: 600; } /* Annotation */\n",
  b!"    .sourceCode .cv { color: #6a737d; font-weight: 600; font-style: italic; } /* CommentVar */\n",
  b!"    .sourceCode .in { color: #6a737d; } /* Information */\n",
  b!"    .sourceCode .wa { color: #e36209; font-weight: 600; } /* Warning */\n",
  b!"    .sourceCode .im { color: #d73a49; } /* Import */\n",
  b!"    .sourceCode .bu { color: #005cc5; } /* BuiltIn */\n",
  b!"    .sourceCode .ex { color: #6f42c1; } /* Extension */\n",
  b!"    .sourceCode .va { color: #e36209; } /* Variable */\n",
  b!"    .sourceCode .ss { color: #032f62; } /* SpecialString */\n",
  b!"    .sourceCode .sc { color: #032f62; } /* SpecialChar */\n",
  b!"    .sourceCode .vs { color: #032f62; } /* VerbatimString */\n",
  b!"    .sourceCode .il { color: #005cc5; } /* Special */\n"]

/-- src/apex.c:6298-6303 (and 6317-6322). -/
def syntaxClose : Bytes := List.flatten [
  b!"    /* Line numbers (Skylighting) */\n",
  b!"    .sourceCode.numberSource .sourceCode { counter-reset: line; }\n",
  b!"    .sourceCode.numberSource .sourceCode > span { position: relative; left: -4em; counter-increment: line; }\n",
  b!"    .sourceCode.numberSource .sourceCode > span > a:first-child::before { content: counter(line); position: relative; left: -1em; text-align: right; vertical-align: baseline; border: none; display: inline-block; min-width: 1em; padding-right: 0.5em; color: #aaa; }\n",
  b!"  </style>\n"]

/-- src/apex.c:6361-6401.  The string is copied by `memcpy`, so the two percent signs stay. -/
def styles : Bytes := List.flatten [
  b!"  <style>\n",
  b!"    body {\n",
  b!"      font-family: -apple-system, BlinkMacSystemFont, 'Segoe UI', Helvetica, Arial, sans-serif;\n",
  b!"      line-height: 1.6;\n",
  b!"      max-width: 800px;\n",
  b!"      margin: 2rem auto;\n",
  b!"      padding: 0 1rem;\n",
  b!"      color: #333;\n",
  b!"    }\n",
  b!"    pre { background: #f5f5f5; padding: 1rem; overflow-x: auto; }\n",
  b!"    code { background: #f0f0f0; padding: 0.2em 0.4em; border-radius: 3px; }\n",
  b!"    blockquote { border-left: 4px solid #ddd; margin: 0; padding-left: 1rem; color: #666; }\n",
  b!"    table { border-collapse: collapse; width: 100%%; }\n",
  b!"    th, td { border: 1px solid #ddd; padding: 0.5rem; }\n",
  b!"    th { background: #f5f5f5; }\n",
  b!"    tfoot td { background: #e8e8e8; }\n",
  b!"    figure.table-figure { width: fit-content; margin: 1em 0; }\n",
  b!"    figure.table-figure table { width: auto; }\n",
  b!"    figcaption { text-align: center; font-weight: bold; font-size: 0.8em; }\n",
  b!"    .page-break { page-break-after: always; }\n",
  b!"    .callout { padding: 1rem; margin: 1rem 0; border-left: 4px solid; }\n",
  b!"    .callout-note { border-color: #3b82f6; background: #eff6ff; }\n",
  b!"    .callout-warning { border-color: #f59e0b; background: #fffbeb; }\n",
  b!"    .callout-tip { border-color: #10b981; background: #f0fdf4; }\n",
  b!"    .callout-danger { border-color: #ef4444; background: #fef2f2; }\n",
  b!"    ins { background: #d4fcbc; text-decoration: none; }\n",
  b!"    del { background: #fbb6c2; text-decoration: line-through; }\n",
  b!"    mark { background: #fff3cd; }\n",
  b!"    .critic.comment { background: #e7e7e7; color: #666; font-style: italic; }\n",
  b!"    .mkhashtag { color: #666; }\n",
  b!"    .mkstyledtag {\n",
  b!"      display: inline-block;\n",
  b!"      background: #e0e0e0;\n",
  b!"      padding: 3px 9px;\n",
  b!"      border-radius: 20px;\n",
  b!"      font-size: 0.9em;\n",
  b!"      line-height: 1.4;\n",
  b!"      color: #333;\n",
  b!"      margin: 0 2px;\n",
  b!"    }\n",
  b!"  </style>\n"]

/-- The output buffer: its size, and what is written. -/
structure Buf where
  cap : Nat
  out : Bytes

/-- `snprintf(write, remaining, …)` and the check behind it: `none` if the text does not fit. -/
def emit (s : Bytes) (b : Buf) : Option Buf :=
  if s.length > 2147483647 ∨ s.length ≥ b.cap - b.out.length then none else some { b with out := b.out ++ s }

/-- src/apex.c:6130-6162, 6298-6329 and 6335-6358: the same with a larger buffer, if it does not fit. -/
def emitGrow (extra : Nat) (s : Bytes) (b : Buf) : Option Buf :=
  match emit s b with
  | some b => some b
  | none => emit s { b with cap := (b.out.length + extra) * 2 }

/-- src/apex.c:6221-6237 and 6279-6294: `memcpy` into a buffer that grows. -/
def chunk (s : Bytes) (b : Buf) : Option Buf :=
  if s.length ≥ b.cap - b.out.length then some { cap := (b.out.length + s.length + 1) * 2, out := b.out ++ s }
  else some { b with out := b.out ++ s }

/-- src/apex.c:6402-6409 and 6433-6439: `memcpy` if there is room. -/
def copy (s : Bytes) (b : Buf) : Option Buf :=
  if s.length ≥ b.cap - b.out.length then none else some { b with out := b.out ++ s }

/-- src/apex.c:6335. -/
def link (path : Bytes) : Bytes := b!"  <link rel=\"stylesheet\" href=\"" ++ path ++ b!"\">\n"

/-- src/apex.c:6057 and 6334: the paths up to `count` or to the first null pointer.  `mem` is the whole array. -/
def paths : Nat → List (Option Bytes) → C (List Bytes)
  | 0, _ => .val []
  | _ + 1, [] => .ub
  | _ + 1, none :: _ => .val []
  | n + 1, some p :: mem => (paths n mem).bind fun r => .val (p :: r)

/-- src/apex.c:6009-6017: the text in front of the last `w`. -/
def lastOf (w : Bytes) : Bytes → Option Bytes
  | [] => none
  | c :: t =>
    match lastOf w t with
    | some f => some (c :: f)
    | none => if w <+: c :: t then some [] else none

/-- src/apex.c:6021-6032: the text in front of `</body>`.  The first argument is the text before `search`, backwards; the
second is the text from `search` on. -/
def bodyEnd : Bytes → Bytes → Option Bytes
  | [], _ => none
  | c :: r, behind =>
    if b!"</body>" <+: c :: behind then some r.reverse
    else if !isSpace c && c != c!">" then none
    else bodyEnd r (c :: behind)

/-- src/apex.c:6004-6052: the content that is written. -/
def kept (content : Bytes) : Bytes :=
  match lastOf b!"</html>" content with
  | none => content
  | some front =>
    match bodyEnd front.reverse (content.drop front.length) with
    | none => content
    | some f => if (front.drop (f.length + 7)).all isSpace then f else content

/-- src/apex.c:6126-6330. -/
def syntaxCss (on : Bool) (b : Buf) : Option Buf :=
  if on then
    emitGrow 6000 syntaxOpen b >>= emit b!"    /* Pygments classes */\n" >>= chunk syntaxPygments >>=
      emit b!"    /* Skylighting classes */\n" >>= chunk syntaxSkylighting >>= emitGrow 500 syntaxClose
  else some b

/-- src/apex.c:6334-6358. -/
def links : List Bytes → Buf → Option Buf
  | [], b => some b
  | p :: ps, b => emitGrow (p.length + 100) (link p) b >>= links ps

/-- What `apex_wrap_html_document` is given besides the content. -/
structure Parts where
  title : Option Bytes
  sheets : Option (List (Option Bytes))
  count : Nat
  highlighter : Bool
  header : Option Bytes
  footer : Option Bytes
  language : Option Bytes

/-- src/apex.c:6056 and 6333: the stylesheets, if there are any to look at. -/
def Parts.list (p : Parts) : C (Option (List Bytes)) :=
  match p.sheets with
  | none => .val none
  | some mem => if p.count > 0 then (paths p.count mem).bind fun l => .val (some l) else .val none

/-- src/apex.c:6055-6060: the space for the links. -/
def linkSpace : Option (List Bytes) → Nat
  | some l => (l.map fun q => q.length + 50).sum
  | none => 0

/-- src/apex.c:6333-6410: the links, or the styles that are always there. -/
def look : Option (List Bytes) → Buf → Option Buf
  | some l, b => links l b
  | none, b => copy styles b

/-- src/apex.c:6413-6421: the header. -/
def headerOut : Option Bytes → Buf → Option Buf
  | some h, b => emit (b!"  " ++ h ++ b!"\n") b
  | none, b => some b

/-- src/apex.c:6442-6450: the footer. -/
def footerOut : Option Bytes → Buf → Option Buf
  | some f, b => emit (b!"\n" ++ f) b
  | none, b => some b

/-- src/apex.c:6053-6072: the size that is allocated, with the terminator. -/
def capacity (p : Parts) (list : Option (List Bytes)) (content : Bytes) : Nat :=
  (kept content).length + (p.title.getD b!"Document").length
    + linkSpace list
    + (if p.highlighter then 8000 else 0) + (p.header.getD []).length + (p.footer.getD []).length
    + (p.language.getD b!"en").length + 4096 + 1

/-- src/apex.c:6085-6457: everything that is written. -/
def body (p : Parts) (list : Option (List Bytes)) (content : Bytes) (b : Buf) : Option Buf := do
  let b ← emit (b!"<!DOCTYPE html>\n<html lang=\"" ++ p.language.getD b!"en" ++ b!"\">\n<head>\n") b
  let b ← emit b!"  <meta charset=\"UTF-8\">\n" b
  let b ← emit b!"  <meta name=\"viewport\" content=\"width=device-width, initial-scale=1.0\">\n" b
  let b ← emit b!"  <meta name=\"generator\" content=\"Apex 0.1.85\">\n" b
  let b ← emit (b!"  <title>" ++ p.title.getD b!"Document" ++ b!"</title>\n") b
  let b ← syntaxCss p.highlighter b
  let b ← look list b
  let b ← headerOut p.header b
  let b ← emit (b!"</head>\n<body" ++ (if p.highlighter then b!" class=\"code-highlighted\"" else []) ++ b!">\n\n") b
  let b ← copy (kept content) b
  let b ← footerOut p.footer b
  let b ← emit b!"\n</body>\n</html>\n" b
  if b.cap - b.out.length > 0 then some b else none

/-- src/apex.c:5998-6464 `apex_wrap_html_document`.  When something does not fit a copy of the content is returned. -/
def wrap (p : Parts) (content : Bytes) : C Bytes :=
  p.list.bind fun list =>
    match body p list content { cap := capacity p list content, out := [] } with
    | some b => .val b.out
    | none => .val content

/-- src/apex.c:3166-3180: the text without tags. -/
def strip : Bool → Bytes → Bytes
  | _, [] => []
  | tag, c :: t =>
    if c = c!"<" then strip true t
    else if c = c!">" then strip false t
    else if tag then strip tag t
    else c :: strip tag t

/-- The blanks of src/apex.c:3183-3189. -/
def blank (c : Byte) : Bool := c == c!" " || c == c!"\t" || c == c!"\n" || c == c!"\r"

/-- src/apex.c:3146-3199 `apex_extract_first_h1_text`.  The count of bytes written never reaches the limit in front of the
closing tag. -/
def firstH1 (html : Bytes) : Option Bytes :=
  match Embed.find b!"<h1" html with
  | none => none
  | some (_, rest) =>
    if c!">" ∈ rest then
      match Embed.find b!"</h1>" (rest.dropWhile (· != c!">")).tail with
      | none => none
      | some (inner, _) =>
        let text := (((strip false inner).reverse.dropWhile blank).reverse).dropWhile blank
        if text = [] then none else some text
    else none

/-- src/apex.c:5711-5737: the scripts, each in a line of its own. -/
def scripts (tags : Option (List Bytes)) : Option Bytes :=
  match tags with
  | none => none
  | some l =>
    let l := l.filter (· ≠ [])
    if l = [] then none else some (l.flatMap (· ++ b!"\n"))

/-- The options that the last steps of a conversion look at. -/
structure Options where
  standalone : Bool
  titleFromH1 : Bool
  title : Option Bytes
  sheets : Option (List (Option Bytes))
  count : Nat
  highlighter : Bool
  embed : Bool
  base : Option Bytes
  scripts : Option (List Bytes)

/-- src/apex.c:5304-5329: the values that the document gives. -/
structure Meta where
  css : Option Bytes
  header : Option Bytes
  footer : Option Bytes
  language : Option Bytes

/-- src/apex.c:5747-5755: the title. -/
def title (o : Options) (html : Bytes) : Option Bytes :=
  if o.titleFromH1 && o.standalone && (o.title = none || o.title = some []) then
    match firstH1 html with
    | some t => some t
    | none => o.title
  else o.title

/-- src/apex.c:5777-5801: the footer, with the scripts. -/
def footer (m : Meta) (scripts : Option Bytes) : Option Bytes :=
  match m.footer, scripts with
  | none, none => none
  | f, s =>
    let f := f.getD []
    let s := s.getD []
    some (f ++ (if f ≠ [] ∧ s ≠ [] then b!"\n" else []) ++ s)

/-- The array of stylesheets that is used: is it the one allocated here, its content, its length. -/
structure Sheets where
  ours : Bool
  mem : List (Option Bytes)
  count : Nat

/-- src/apex.c:5760-5774. -/
def sheets (o : Options) (m : Meta) : Option Sheets :=
  match m.css with
  | some css =>
    if o.sheets = none ∨ o.count = 0 then some { ours := true, mem := [some css, none], count := 1 }
    else o.sheets.map fun mem => { ours := false, mem := mem, count := o.count }
  | none => o.sheets.map fun mem => { ours := false, mem := mem, count := o.count }

/-- src/apex.c:5810: is the first path the string of the metadata?  That string is a copy made here, so a path of the
caller is never the same pointer; but two null pointers are the same. -/
def freed (s : Sheets) (m : Meta) : C Bool :=
  match s.mem with
  | [] => .ub
  | p :: _ => .val (s.ours || (p = none && m.css = none))

/-- A C string in memory. -/
def cstr (mem : Bytes) : Bytes := mem.takeWhile (· != 0)

/-- src/apex.c:5829-5857: the content of a stylesheet, if it can be read and is smaller than 10 MB. -/
def load (files : Bytes → Option Bytes) (base : Option Bytes) (path : Bytes) : Option Bytes :=
  let found :=
    match files path with
    | some c => some c
    | none =>
      match base with
      | none => none
      | some d => if d = [] then none else files (d ++ b!"/" ++ path)
  match found with
  | none => none
  | some c => if c.length < 10485760 ∧ 0 < c.length then some c else none

/-- src/apex.c:5826-5909: one stylesheet. -/
def embedOne (files : Bytes → Option Bytes) (base : Option Bytes) (path html : Bytes) : Bytes :=
  match load files base path with
  | none => html
  | some css =>
    if (link path).length < 2048 then
      match Embed.find (link path) html with
      | none => html
      | some (a, b) => cstr (a ++ b!"  <style>\n" ++ css ++ b!"\n  </style>\n" ++ b)
    else html

/-- src/apex.c:5825-5910: the loop, from the last entry to the first. -/
def embedAll (files : Bytes → Option Bytes) (base : Option Bytes) (mem : List (Option Bytes)) : Nat → Bytes → C Bytes
  | 0, html => .val html
  | n + 1, html =>
    match mem[n]? with
    | none => .ub
    | some none => embedAll files base mem n html
    | some (some p) => embedAll files base mem n (embedOne files base p html)

/-- What comes out: the page, and whether the array of the caller was freed. -/
structure Outcome where
  page : Bytes
  freed : Bool
deriving DecidableEq

/-- src/apex.c:5747-5941.  After `free` the array cannot be read any more. -/
def finish (files : Bytes → Option Bytes) (o : Options) (m : Meta) (html : Bytes) : C Outcome :=
  if o.standalone then
    let s := sheets o m
    (wrap { title := title o html, sheets := s.map (·.mem), count := (s.map (·.count)).getD 0, highlighter := o.highlighter,
            header := m.header, footer := footer m (scripts o.scripts), language := m.language } html).bind fun page =>
    match s with
    | none => .val { page := page, freed := false }
    | some s =>
      (freed s m).bind fun gone =>
      if s.count > 0 && o.embed then
        if gone then .ub
        else (embedAll files o.base s.mem s.count page).bind fun page => .val { page := page, freed := false }
      else .val { page := page, freed := gone && !s.ours }
  else
    match scripts o.scripts with
    | none => .val { page := html, freed := false }
    | some s =>
      .val { page := html ++ (if html ≠ [] ∧ html.getLast? ≠ some c!"\n" then b!"\n" else []) ++ s, freed := false }

end Verif.Standalone
