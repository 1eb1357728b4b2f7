/- src/apex.c:3958-5708: the conversion as a whole — which functions get the text, the tree and the page, in what order and
   under which options.  The functions themselves are parameters here (`Code`); other files model them one by one.  Left out:
   the printing of debugging and profiling messages, the progress reports and the releasing of memory at the end.  The
   allocations succeed. -/
import Verif.Model.Options
import Verif.Model.Embed

namespace Verif.Pipeline
open Options (Options Mode Flag)
open Metadata (Meta)

/-- The functions that get the text before it is parsed, in the order of src/apex.c:3999-4938. -/
inductive Pre
  | plugins | variables | citations | index | autolinks | images | ial | spans | includes | markers | inlineTables | alpha
  | emoji | notes | highlights | inserts | supSub | relaxed | headerless | colspans | captions | definitions | divs | inHtml
  | hashtags | proofread | critic | liquid
  deriving DecidableEq

/-- The functions that get the tree, src/apex.c:5062-5118. -/
inductive Tree
  | wiki | callouts | ids | ial | images | lists
  deriving DecidableEq

/-- The functions that get the page, in the order of src/apex.c:5194-5708. -/
inductive Post
  | liquid | divs | tables | hr | widont | poetry | footIds | footBreak | levels | quotes | autoMedia | imgCaptions | figureP
  | blockP | headerIds | obfuscate | embed | variables | toc | aria | colour | abbrs | emoji | cites | bibliography | indexMarks
  | index | tagSpacing | collapse | relaxedHeads | alpha | emptyP | plugins
  deriving DecidableEq

/-- What the functions on the text leave behind for later.  The entries of attribute lists, abbreviations, images, citations
and the index are not looked at here. -/
structure Notes where
  plugins : Bool := false
  md : Meta := []
  alds : List Bytes := []
  abbrs : List Bytes := []
  bib : Bool := false
  images : List Bytes := []
  cites : List Bytes := []
  index : List Bytes := []
  tags : List Bytes := []

/-- What a function on the text gives: the new text, or `none` for NULL, and what it has found. -/
structure Ret where
  text : Option Bytes
  found : List Bytes := []

/-- The options of cmark-gfm that are set. -/
inductive Opt
  | validate | raw | liberal | hardbreaks | nobreaks | preLang | footnotes | smart
  deriving DecidableEq

/-- The extensions of cmark-gfm and of apex that are attached to the parser. -/
inductive Ext
  | table | tasklist | strikethrough | autolink | tagfilter | math | definitions | footnotes | tables (perCell : Bool)
  deriving DecidableEq

/-- How the parser is set up. -/
structure Setup where
  opts : List Opt
  exts : List Ext
  deriving DecidableEq

/-- src/apex.c:2803-2843, `apex_to_cmark_options`. -/
def cmarkOptions (o : Options) : List Opt :=
  (if o.flag .validateUtf8 then [.validate] else []) ++ (if o.flag .rawHtml then [.raw, .liberal] else []) ++
  (if o.flag .hardbreaks then [.hardbreaks] else []) ++ (if o.flag .nobreaks then [.nobreaks] else []) ++
  (if o.flag .githubPreLang then [.preLang] else []) ++ (if o.flag .footnotes then [.footnotes] else []) ++
  (if o.flag .smart then [.smart] else [])

/-- src/apex.c:2848-2927, `apex_register_extensions`.  The extensions of cmark-gfm are found. -/
def extensions (o : Options) : List Ext :=
  (if o.flag .tables then [.table] else []) ++ (if o.flag .taskLists then [.tasklist] else []) ++
  (if o.flag .strikethrough then [.strikethrough] else []) ++
  (if o.flag .autolink && (o.mode = .gfm || o.mode = .unified) then [.autolink] else []) ++
  (if o.mode = .gfm then [.tagfilter] else []) ++ (if o.flag .math then [.math] else []) ++
  (if o.flag .definitionLists then [.definitions] else []) ++ (if o.flag .footnotes then [.footnotes] else []) ++
  (if o.flag .tables then [.tables (o.flag .perCellAlignment)] else [])

/-- src/apex.c:4981-4996. -/
def setup (o : Options) : Setup := ⟨cmarkOptions o, extensions o⟩

/-- The functions that are called, the parser and the writers of the output formats.  `T` are the trees. -/
structure Code (T : Type) where
  /-- `apex_plugins_load`: is there a plugin? -/
  load : Options → Bool
  /-- `apex_extract_metadata`; the empty list is NULL -/
  metadata : Bytes → C (Meta × Bytes)
  /-- `apex_extract_alds` -/
  alds : Bytes → C (List Bytes × Bytes)
  /-- `apex_extract_abbreviations` -/
  abbrs : Bytes → C (List Bytes × Bytes)
  /-- `apex_load_bibliography`: is there an entry? -/
  loadFiles : List Bytes → Option Bytes → Bool
  /-- `apex_load_bibliography_file` -/
  loadFile : Bytes → Bool
  pre : Pre → Options → Notes → Bytes → C Ret
  /-- `cmark_parser_feed` and `cmark_parser_finish` -/
  parse : Setup → Bytes → T
  /-- `apex_run_ast_filters`, if there are filters -/
  filters : Option (T → Option T)
  tree : Tree → Options → List Bytes → T → C T
  /-- the writers of JSON, Markdown, terminal text and manual pages -/
  write : Options → T → Bytes
  /-- `apex_render_html_with_attributes` or `cmark_render_html` -/
  render : Bool → List Opt → T → Bytes
  post : Post → Options → Notes → T → Bytes → C (Option Bytes)
  /-- src/apex.c:5710-5960: scripts, the page around the fragment, indentation -/
  wrap : Options → Meta → Bytes → C Bytes

/-- The modes with metadata and attributes, src/apex.c:4033-4035 and 4216-4218. -/
def rich (o : Options) : Bool := o.mode = .multimarkdown || o.mode = .kramdown || o.mode = .unified

/-- The modes with inline attribute lists, src/apex.c:4047, 4234 and 4250. -/
def lists (o : Options) : Bool := o.mode = .kramdown || o.mode = .unified

/-- src/apex.c:4159-4173 and 5531-5545. -/
def cited (o : Options) (n : Notes) : Bool :=
  n.bib || o.bibliography.isSome || o.csl.isSome || (Metadata.get n.md b!"bibliography").isSome || (Metadata.get n.md b!"csl").isSome

/-- The conditions in front of the calls, src/apex.c:4002-4938. -/
def wanted (p : Pre) (o : Options) (n : Notes) : Bool :=
  match p with
  | .plugins => n.plugins
  | .variables => !n.md.isEmpty && o.flag .metadataVariables
  | .citations => o.flag .citations && cited o n
  | .index => o.flag .indices
  | .autolinks => o.flag .autolink
  | .images => rich o
  | .ial => lists o
  | .spans => o.flag .spans && lists o
  | .includes => o.flag .fileIncludes
  | .markers => o.flag .marked
  | .inlineTables => true
  | .alpha => o.flag .alphaLists
  | .emoji => o.flag .emoji && (o.mode = .unified || o.mode = .gfm)
  | .notes => o.flag .footnotes
  | .highlights => !o.flag .proofreader
  | .inserts => true
  | .supSub => o.flag .supSub
  | .relaxed => o.flag .relaxedTables && o.flag .tables
  | .headerless => o.flag .tables
  | .colspans => o.flag .tables
  | .captions => o.flag .tables
  | .definitions => o.flag .definitionLists
  | .divs => o.flag .divs && o.mode = .unified
  | .inHtml => o.flag .markdownInHtml
  | .hashtags => o.flag .hashtags
  | .proofread => o.flag .proofreader
  | .critic => o.flag .critic
  | .liquid => true

/-- Everything between the metadata and the parser, src/apex.c:4072-4938. -/
def order : List Pre :=
  [.variables, .citations, .index, .autolinks, .images, .ial, .spans, .includes, .markers, .inlineTables, .alpha, .emoji, .notes,
   .highlights, .inserts, .supSub, .relaxed, .headerless, .colspans, .captions, .definitions, .divs, .inHtml, .hashtags,
   .proofread, .critic, .liquid]

/-- src/apex.c:4360-4372, 4404-4416, 4444-4456, 4486-4498 and 4963-4978: a newline behind a text that does not end in one. -/
def ended (t : Bytes) : Bytes :=
  match t.getLast? with
  | none => t
  | some c => if c = c!"\n" ∨ c = c!"\r" then t else t ++ b!"\n"

/-- What a function on the text is given: those for tables get a text with a newline at its end. -/
def given (p : Pre) (t : Bytes) : Bytes :=
  match p with
  | .relaxed | .headerless | .colspans | .captions => ended t
  | _ => t

/-- The registries that the functions fill. -/
def Notes.take (n : Notes) (p : Pre) (found : List Bytes) : Notes :=
  match p with
  | .citations => { n with cites := found }
  | .index => { n with index := found }
  | .images => { n with images := found }
  | .liquid => { n with tags := found }
  | _ => n

/-- One call of a function on the text: NULL leaves the text as it is. -/
def step {T : Type} (c : Code T) (o : Options) (p : Pre) (s : Notes × Bytes) : C (Notes × Bytes) :=
  if wanted p o s.1 then c.pre p o s.1 (given p s.2) >>= fun r => .val (s.1.take p r.found, r.text.getD s.2)
  else .val s

/-- The calls one after the other. -/
def steps {T : Type} (c : Code T) (o : Options) : List Pre → Notes × Bytes → C (Notes × Bytes)
  | [], s => .val s
  | p :: ps, s => step c o p s >>= steps c o ps

/-- src/apex.c:4033-4058. -/
def extract {T : Type} (c : Code T) (o : Options) (s : Notes × Bytes) : C (Notes × Bytes) :=
  if rich o then
    c.metadata s.2 >>= fun m =>
    (if lists o then c.alds m.2 else .val ([], m.2)) >>= fun a =>
    c.abbrs a.2 >>= fun b =>
    .val ({ s.1 with md := m.1, alds := a.1, abbrs := b.1 }, b.2)
  else .val s

/-- src/apex.c:4060-4070: a document with a bibliography or a style turns citations on. -/
def citing (o : Options) (m : Meta) : Options :=
  if (Metadata.get m b!"bibliography").isSome || (Metadata.get m b!"csl").isSome then o.set .citations true else o

/-- src/apex.c:4103-4120: the path of the bibliography that the document names.  `resolved_path[base_len - 1]` is in front of
the block if the directory is the empty string. -/
def bibPath (o : Options) (bib : Bytes) : C Bytes :=
  match o.baseDirectory with
  | none => .val bib
  | some d =>
    match d.getLast? with
    | none => .ub
    | some c => .val (if c = c!"/" then d ++ bib else d ++ b!"/" ++ bib)

/-- src/apex.c:4084-4149: is a bibliography loaded?  The variables of the metadata are replaced in front of this (4072-4082); the
two do not touch each other. -/
def library {T : Type} (c : Code T) (o : Options) (m : Meta) : C Bool :=
  let files := match o.bibliography with
    | some l => c.loadFiles l o.baseDirectory
    | none => false
  match Metadata.get m b!"bibliography" with
  | none => .val files
  | some b => bibPath o b >>= fun p => .val (files || c.loadFile p)

/-- src/apex.c:3985-4938: everything up to the parser, on a copy of the text. -/
def prepare {T : Type} (c : Code T) (o : Options) (text : Bytes) : C (Options × Notes × Bytes) :=
  step c o .plugins ({ plugins := o.flag .plugins && c.load o }, text) >>= fun s =>
  extract c o s >>= fun s =>
  library c (citing o s.1.md) s.1.md >>= fun b =>
  steps c (citing o s.1.md) order ({ s.1 with bib := b }, s.2) >>= fun r =>
  .val (citing o s.1.md, r.1, r.2)

/-- src/apex.c:4940-4979: what the parser gets. -/
def fed (t : Bytes) : Bytes := if t = [] then b!"\n" else ended t

/-- src/apex.c:4940-4979 and 5006-5009: is it a block of its own, which is released behind the parser? -/
def released (t : Bytes) : Bool := fed t != t

/-- `strstr` on `text_ptr`, src/apex.c:5065 and 5099-5101. -/
def looked (t w : Bytes) : C Bool := if released t then .ub else .val (Embed.find w (fed t)).isSome

/-- src/apex.c:5062-5076. -/
def wiki {T : Type} (c : Code T) (o : Options) (t : Bytes) (d : T) : C T :=
  if o.flag .wikiLinks then looked t b!"[[" >>= fun b => if b then c.tree .wiki o [] d else .val d else .val d

/-- src/apex.c:5095-5106. -/
def attributes {T : Type} (c : Code T) (o : Options) (n : Notes) (t : Bytes) (d : T) : C T :=
  if !n.alds.isEmpty || lists o then
    looked t b!"{:" >>= fun x => looked t b!"{#" >>= fun y => looked t b!"{." >>= fun z =>
    if x || y || z then c.tree .ial o n.alds d else .val d
  else .val d

/-- src/apex.c:5030-5060: the filters; `none` is NULL. -/
def filtered {T : Type} (c : Code T) (o : Options) (d : T) : Option T :=
  match c.filters with
  | none => some d
  | some f =>
    match f d with
    | some d' => some d'
    | none => if o.flag .filterStrict then none else some d

/-- src/apex.c:5062-5118, the changes to the tree. -/
def grow {T : Type} (c : Code T) (o : Options) (n : Notes) (t : Bytes) (d : T) : C T :=
  wiki c o t d >>= fun d =>
  (if o.flag .callouts then c.tree .callouts o [] d else .val d) >>= fun d =>
  (if o.flag .headerIds then c.tree .ids o [] d else .val d) >>= fun d =>
  attributes c o n t d >>= fun d =>
  (if !n.images.isEmpty then c.tree .images o n.images d else .val d) >>= fun d =>
  if o.flag .mixedLists then c.tree .lists o [] d else .val d

/-- The conditions in front of the calls, src/apex.c:5194-5708.  The test of the level of the headers (5353, 5361), that of the
language of the quotes (5371) and the search for automatic media (5385) are counted to the functions. -/
def wantedPost (p : Post) (o : Options) (n : Notes) : Bool :=
  match p with
  | .liquid => !n.tags.isEmpty
  | .divs => o.flag .divs && o.mode = .unified
  | .tables => o.flag .tables
  | .hr => o.flag .hrPageBreak
  | .widont => o.flag .widont
  | .poetry => o.flag .poetry
  | .footIds => o.flag .randomFootnotes
  | .footBreak => o.flag .footnotePageBreak
  | .levels => !n.md.isEmpty
  | .quotes => !n.md.isEmpty
  | .autoMedia => true
  | .imgCaptions => true
  | .figureP => true
  | .blockP => true
  | .headerIds => o.flag .headerIds
  | .obfuscate => o.flag .obfuscateEmails
  | .embed => o.flag .embedImages
  | .variables => !n.md.isEmpty && o.flag .metadataVariables
  | .toc => o.flag .marked
  | .aria => o.flag .aria
  | .colour => o.highlighter.isSome
  | .abbrs => !n.abbrs.isEmpty
  | .emoji => o.mode = .gfm || o.mode = .unified
  | .cites => o.flag .citations && cited o n && !n.cites.isEmpty
  | .bibliography => o.flag .citations && cited o n && !o.flag .suppressBibliography && n.bib
  | .indexMarks => o.flag .indices && !n.index.isEmpty
  | .index => o.flag .indices && !n.index.isEmpty
  | .tagSpacing => true
  | .collapse => !o.flag .pretty
  | .relaxedHeads => o.flag .tables && o.flag .relaxedTables
  | .alpha => o.flag .alphaLists
  | .emptyP => o.flag .marked
  | .plugins => n.plugins

/-- The order of the calls, src/apex.c:5194-5708. -/
def orderPost : List Post :=
  [.liquid, .divs, .tables, .hr, .widont, .poetry, .footIds, .footBreak, .levels, .quotes, .autoMedia, .imgCaptions, .figureP,
   .blockP, .headerIds, .obfuscate, .embed, .variables, .toc, .aria, .colour, .abbrs, .emoji, .cites, .bibliography, .indexMarks,
   .index, .tagSpacing, .collapse, .relaxedHeads, .alpha, .emptyP, .plugins]

/-- The calls one after the other: NULL leaves the page as it is. -/
def stepsPost {T : Type} (c : Code T) (o : Options) (n : Notes) (d : T) : List Post → Bytes → C Bytes
  | [], h => .val h
  | p :: ps, h =>
    (if wantedPost p o n then c.post p o n d h >>= fun r => .val (r.getD h) else .val h) >>= stepsPost c o n d ps

/-- src/apex.c:5172-5708: the page. -/
def page {T : Type} (c : Code T) (o : Options) (n : Notes) (d : T) : C Bytes :=
  stepsPost c o n d orderPost (c.render (!n.images.isEmpty || !n.alds.isEmpty || lists o) (cmarkOptions o) d) >>= c.wrap o n.md

/-- src/apex.c:4981-5708: from the parser on.  The formats (apex.h:40-53) are 0 for HTML, 1 for the tree as it was parsed, 2
for the tree behind the filters, others for other formats. -/
def output {T : Type} (c : Code T) (o : Options) (n : Notes) (t : Bytes) : C (Option Bytes) :=
  if o.outputFormat = 1 then .val (some (c.write o (c.parse (setup o) (fed t))))
  else
    match filtered c o (c.parse (setup o) (fed t)) with
    | none => .val none
    | some d =>
      grow c o n t d >>= fun d =>
      if o.outputFormat = 0 then page c o n d >>= fun h => .val (some h) else .val (some (c.write o d))

/-- src/apex.c:3958-3988 (`apex_markdown_to_html`): `mem` is the memory from the pointer to the end of its object, `len` the
length given.  `strlen` (3981) is called on it, whatever `len` is. -/
def convert {T : Type} (c : Code T) (o : Options) (mem : Option Bytes) (len : Nat) : C (Option Bytes) :=
  match mem with
  | none => .val (some [])
  | some m =>
    if len = 0 then .val (some [])
    else if 0 ∈ m then prepare c o ((m.takeWhile (· != 0)).take len) >>= fun r => output c r.1 r.2.1 r.2.2
    else .ub

end Verif.Pipeline
