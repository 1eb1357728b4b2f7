/- What is said about the conversion as a whole: include/apex/apex.h:59-214 for the options, README for the modes. -/
import Verif.Model.Pipeline
import Verif.Model.Highlight
import Verif.Model.InlineTables
import Verif.Model.Liquid

namespace Verif.Pipeline.Spec
open Options (Options Mode Flag)
open Metadata (Meta)

/-- The options that have to be on for a function on the text, include/apex/apex.h.  Functions without an entry belong to a
mode or to no option at all. -/
def needs : Pre → List Flag
  | .plugins => [.plugins]
  | .variables => [.metadataVariables]
  | .citations => [.citations]
  | .index => [.indices]
  | .autolinks => [.autolink]
  | .spans => [.spans]
  | .includes => [.fileIncludes]
  | .markers => [.marked]
  | .alpha => [.alphaLists]
  | .emoji => [.emoji]
  | .notes => [.footnotes]
  | .supSub => [.supSub]
  | .relaxed => [.tables, .relaxedTables]
  | .headerless | .colspans | .captions => [.tables]
  | .definitions => [.definitionLists]
  | .divs => [.divs]
  | .inHtml => [.markdownInHtml]
  | .hashtags => [.hashtags]
  | .proofread => [.proofreader]
  | .critic => [.critic]
  | .images | .ial | .inlineTables | .highlights | .inserts | .liquid => []

/-- Likewise for the functions on the tree. -/
def needsTree : Tree → List Flag
  | .wiki => [.wikiLinks]
  | .callouts => [.callouts]
  | .ids => [.headerIds]
  | .lists => [.mixedLists]
  | .ial | .images => []

/-- Likewise for the functions on the page. -/
def needsPost : Post → List Flag
  | .divs => [.divs]
  | .tables => [.tables]
  | .hr => [.hrPageBreak]
  | .widont => [.widont]
  | .poetry => [.poetry]
  | .footIds => [.randomFootnotes]
  | .footBreak => [.footnotePageBreak]
  | .headerIds => [.headerIds]
  | .obfuscate => [.obfuscateEmails]
  | .embed => [.embedImages]
  | .variables => [.metadataVariables]
  | .toc | .emptyP => [.marked]
  | .aria => [.aria]
  | .cites | .bibliography => [.citations]
  | .indexMarks | .index => [.indices]
  | .relaxedHeads => [.tables, .relaxedTables]
  | .alpha => [.alphaLists]
  | .plugins => [.plugins]
  | .liquid | .levels | .quotes | .autoMedia | .imgCaptions | .figureP | .blockP | .colour | .abbrs | .emoji | .tagSpacing
  | .collapse => []

/-- All of the options are on. -/
def On (o : Options) (l : List Flag) : Prop := ∀ f ∈ l, o.flag f = true

/-- Two versions of the program that differ in nothing but the functions of options that are off. -/
structure Same {T : Type} (o : Options) (c c' : Code T) : Prop where
  load : c.load = c'.load
  metadata : c.metadata = c'.metadata
  alds : c.alds = c'.alds
  abbrs : c.abbrs = c'.abbrs
  loadFiles : c.loadFiles = c'.loadFiles
  loadFile : c.loadFile = c'.loadFile
  parse : c.parse = c'.parse
  filters : c.filters = c'.filters
  write : c.write = c'.write
  render : c.render = c'.render
  wrap : c.wrap = c'.wrap
  pre : ∀ p, On o (needs p) → c.pre p = c'.pre p
  tree : ∀ p, On o (needsTree p) → c.tree p = c'.tree p
  post : ∀ p, On o (needsPost p) → c.post p = c'.post p

/-- The metadata of no document names a bibliography or a style. -/
def Unnamed {T : Type} (c : Code T) : Prop :=
  ∀ t r, c.metadata t = .val r → Metadata.get r.1 b!"bibliography" = none ∧ Metadata.get r.1 b!"csl" = none

/-- A text that ends in a line ending. -/
def EndsLine (t : Bytes) : Prop := t.getLast? = some c!"\n" ∨ t.getLast? = some c!"\r"

/-- A text with a line ending added if there is none. -/
inductive Line : Bytes → Bytes → Prop
  | same {t : Bytes} : EndsLine t → Line t t
  | added {t : Bytes} : ¬ EndsLine t → Line t (t ++ b!"\n")

/-- The functions without a condition are those of the program: src/extensions/inline_tables.c, highlight.c, insert.c and
src/apex.c:1021-1208.  `mem` is the memory behind the text, `attrs` turns attribute lists into HTML. -/
structure Real {T : Type} (c : Code T) (mem : Bytes) (attrs : Bytes → Option Bytes) : Prop where
  readable : mem ≠ []
  inlineTables : ∀ o n t, c.pre .inlineTables o n t = InlineTables.process t >>= fun r => .val ⟨some r, []⟩
  highlights : ∀ o n t, c.pre .highlights o n t = Highlight.process Highlight.highlightRule mem t >>= fun r => .val ⟨some r, []⟩
  inserts : ∀ o n t, c.pre .inserts o n t = Highlight.process (Highlight.insertRule attrs) mem t >>= fun r => .val ⟨some r, []⟩
  liquid : ∀ o n t, c.pre .liquid o n t = Liquid.protect t >>= fun r =>
    .val (match r with
      | none => ⟨none, []⟩
      | some (t, tags) => ⟨some t, tags⟩)

/-- No function of the program leaves its memory. -/
structure Safe {T : Type} (c : Code T) : Prop where
  metadata : ∀ t, c.metadata t ≠ .ub
  alds : ∀ t, c.alds t ≠ .ub
  abbrs : ∀ t, c.abbrs t ≠ .ub
  pre : ∀ p o n t, c.pre p o n t ≠ .ub
  tree : ∀ p o l d, c.tree p o l d ≠ .ub
  post : ∀ p o n d h, c.post p o n d h ≠ .ub
  wrap : ∀ o m h, c.wrap o m h ≠ .ub

/-- The options of CommonMark mode; the format of the output, directories and the like may be any. -/
def CommonMark (o : Options) : Prop := o.mode = .commonmark ∧ o.flag = (Options.forMode .commonmark).flag

/-- A parser without any extension, which leaves out raw HTML. -/
def plain : Setup := ⟨[.validate, .preLang], []⟩

/-- The options that have to be on for an extension of the parser. -/
def needsExt : Ext → List Flag
  | .table => [.tables]
  | .tasklist => [.taskLists]
  | .strikethrough => [.strikethrough]
  | .autolink => [.autolink]
  | .tagfilter => []
  | .math => [.math]
  | .definitions => [.definitionLists]
  | .footnotes => [.footnotes]
  | .tables false => [.tables]
  | .tables true => [.tables, .perCellAlignment]

/-- Functions on a page, one after the other. -/
def through {T : Type} (c : Code T) (o : Options) (n : Notes) (d : T) (ps : List Post) (h : Bytes) : C Bytes :=
  ps.foldl (fun h p => h >>= fun h => c.post p o n d h >>= fun r => .val (r.getD h)) (.val h)

end Verif.Pipeline.Spec
