/-
Options: the defaults, the processor modes, what metadata does to them, and the command line.
src/apex.c:2474-2800, src/extensions/metadata.c:2408-2858, cli/main.c:1380-2110 and 2990-3262, include/apex/apex.h:55-220.
-/
import Verif.Model.Metadata
import Verif.Model.Plugins

namespace Verif.Options
open Metadata (Item Meta ciEq merge cliMerge)

/-- apex.h:23-38, `apex_mode_t`. -/
inductive Mode
  | commonmark | gfm | multimarkdown | kramdown | unified
  deriving DecidableEq

/-- apex.h:59-214: the options that are switched on or off. -/
inductive Flag
  | plugins | tables | footnotes | definitionLists | smart | math | critic | wikiLinks | taskLists
  | attributes | callouts | marked | divs | spans | stripMetadata | metadataVariables | metadataTransforms | fileIncludes
  | rawHtml | validateUtf8 | githubPreLang | standalone | pretty | hardbreaks | nobreaks | headerIds | headerAnchors
  | relaxedTables | perCellAlignment | mixedLists | alphaLists | supSub | strikethrough | autolink | obfuscateEmails | embedImages
  | imageCaptions | titleCaptionsOnly | citations | suppressBibliography | linkCitations | showTooltips | indices | mmarkIndex | textIndex
  | leanpubIndex | suppressIndex | groupIndex | wikilinkSanitize | embedStylesheet | aria | emoji | codeLineNumbers | languageOnly
  | widont | poetry | markdownInHtml | randomFootnotes | hashtags | styleHashtags | proofreader | hrPageBreak | titleFromH1
  | footnotePageBreak | filterStrict
  deriving DecidableEq

/-- apex.h:59-214, `apex_options`. Left out: script tags, filters, the progress callback and `nocite`, which neither modes
nor metadata change after the beginning. -/
structure Options where
  mode : Mode
  flag : Flag → Bool
  criticMode : Int
  maxIncludeDepth : Int
  idFormat : Int
  captionPosition : Int
  wikilinkSpace : Int
  terminalWidth : Int
  outputFormat : Nat
  baseDirectory : Option Bytes
  title : Option Bytes
  csl : Option Bytes
  theme : Option Bytes
  highlighter : Option Bytes
  wikilinkExtension : Option Bytes
  inputPath : Option Bytes
  stylesheets : Option (List Bytes)
  bibliography : Option (List Bytes)

/-- Assignment to one flag. -/
def Options.set (o : Options) (f : Flag) (b : Bool) : Options :=
  { o with flag := fun g => if g = f then b else o.flag g }

/-- Assignment to several flags. -/
def Options.sets (o : Options) (fs : List Flag) (b : Bool) : Options := fs.foldl (fun o f => o.set f b) o

/-- apex.c:2475-2621: the flags that are on. -/
def onByDefault : List Flag :=
    [.tables, .footnotes, .definitionLists, .smart, .math, .critic, .taskLists, .attributes, .callouts,
     .marked, .divs, .spans, .stripMetadata, .metadataVariables, .metadataTransforms, .fileIncludes, .rawHtml,
     .validateUtf8, .githubPreLang, .headerIds, .relaxedTables, .perCellAlignment, .mixedLists, .alphaLists,
     .supSub, .strikethrough, .autolink, .imageCaptions, .groupIndex, .emoji, .markdownInHtml, .filterStrict]

/-- apex.c:2475-2621 (`apex_options_default`). -/
def default : Options where
  mode := .unified
  flag := fun f => decide (f ∈ onByDefault)
  criticMode := 2
  maxIncludeDepth := 10
  idFormat := 0
  captionPosition := 1
  wikilinkSpace := 0
  terminalWidth := 0
  outputFormat := 0
  baseDirectory := none
  title := none
  csl := none
  theme := none
  highlighter := none
  wikilinkExtension := none
  inputPath := none
  stylesheets := none
  bibliography := none

/-- apex.c:2626-2799 (`apex_options_for_mode`). The order of the assignments does not matter, they are to different
fields; those that switch on come first here. -/
def forMode (m : Mode) : Options :=
  let o := { default with mode := m }
  match m with
  | .commonmark =>
    { o.sets
     [.tables, .footnotes, .definitionLists, .smart, .math, .critic, .wikiLinks, .taskLists, .attributes,
     .callouts, .marked, .divs, .spans, .fileIncludes, .metadataVariables, .metadataTransforms, .rawHtml,
     .hardbreaks, .relaxedTables, .perCellAlignment, .mixedLists, .alphaLists, .supSub, .strikethrough,
     .autolink, .imageCaptions, .citations, .emoji, .markdownInHtml] false with
      idFormat := 0 }
  | .gfm =>
    { (o.sets [.tables, .taskLists, .hardbreaks, .strikethrough, .autolink] true).sets
     [.footnotes, .definitionLists, .smart, .math, .critic, .wikiLinks, .attributes, .callouts, .marked, .divs,
     .spans, .fileIncludes, .metadataVariables, .metadataTransforms, .rawHtml, .relaxedTables,
     .perCellAlignment, .mixedLists, .alphaLists, .supSub, .imageCaptions, .citations, .emoji, .markdownInHtml] false with
      idFormat := 0 }
  | .multimarkdown =>
    { (o.sets
     [.tables, .footnotes, .definitionLists, .smart, .math, .fileIncludes, .metadataVariables, .mixedLists,
     .citations, .supSub, .autolink, .imageCaptions] true).sets
     [.relaxedTables, .perCellAlignment, .critic, .wikiLinks, .taskLists, .attributes, .callouts, .marked,
     .divs, .spans, .metadataTransforms, .hardbreaks, .alphaLists, .strikethrough, .indices, .mmarkIndex,
     .textIndex, .leanpubIndex, .emoji] false with
      idFormat := 1 }
  | .kramdown =>
    { (o.sets
     [.tables, .footnotes, .definitionLists, .smart, .math, .attributes, .marked, .relaxedTables, .autolink] true).sets
     [.critic, .wikiLinks, .taskLists, .callouts, .divs, .spans, .fileIncludes, .metadataVariables,
     .metadataTransforms, .hardbreaks, .perCellAlignment, .mixedLists, .alphaLists, .supSub, .strikethrough,
     .citations, .emoji, .imageCaptions] false with
      idFormat := 2 }
  | .unified =>
    { (o.sets
     [.math, .relaxedTables, .perCellAlignment, .mixedLists, .alphaLists, .supSub, .strikethrough, .rawHtml,
     .citations, .indices, .mmarkIndex, .textIndex, .leanpubIndex, .divs, .spans, .emoji, .imageCaptions] true).sets
     [.wikiLinks] false with
      idFormat := 0 }

/-- metadata.c:2408-2421 (`is_true_value`). -/
def isTrue (v : Bytes) : Bool := v.map toLower == b!"true" || v.map toLower == b!"yes" || v.map toLower == b!"1"

/-- metadata.c:2426-2439 (`is_false_value`). -/
def isFalse (v : Bytes) : Bool := v.map toLower == b!"false" || v.map toLower == b!"no" || v.map toLower == b!"0"

/-- metadata.c:2461-2471: the names of modes; also cli/main.c:1453-1462, without the case. -/
def modeOf (v : Bytes) : Option Mode :=
  if v == b!"commonmark" then some .commonmark
  else if v == b!"gfm" then some .gfm
  else if v == b!"mmd" || v == b!"multimarkdown" then some .multimarkdown
  else if v == b!"kramdown" then some .kramdown
  else if v == b!"unified" then some .unified
  else none

/-- metadata.c:2448-2478: the first pass, only the first item called `mode` counts. -/
def modePass (md : Meta) (o : Options) : Options :=
  match md.find? fun it => ciEq it.1 b!"mode" with
  | some it =>
    match modeOf (it.2.map toLower) with
    | some m => forMode m
    | none => o
  | none => o

/-- metadata.c:2498-2743 and 2841-2853: the keys of boolean options. The keys are different, so the order of the
comparisons does not matter. -/
def boolKeys : List (List Bytes × Flag) :=
  [([b!"indices"], .indices),
   ([b!"wikilinks", b!"wiki-links"], .wikiLinks),
   ([b!"includes", b!"file-includes"], .fileIncludes),
   ([b!"relaxed-tables", b!"relaxed_tables"], .relaxedTables),
   ([b!"alpha-lists", b!"alpha_lists"], .alphaLists),
   ([b!"mixed-lists", b!"mixed_lists"], .mixedLists),
   ([b!"sup-sub", b!"sup_sub"], .supSub),
   ([b!"autolink"], .autolink),
   ([b!"strikethrough", b!"strike-through"], .strikethrough),
   ([b!"transforms", b!"metadata-transforms"], .metadataTransforms),
   ([b!"unsafe"], .rawHtml),
   ([b!"plugins", b!"enable-plugins", b!"enable_plugins"], .plugins),
   ([b!"tables"], .tables),
   ([b!"footnotes"], .footnotes),
   ([b!"smart", b!"smart-typography"], .smart),
   ([b!"math"], .math),
   ([b!"ids", b!"header-ids"], .headerIds),
   ([b!"header-anchors", b!"header_anchors"], .headerAnchors),
   ([b!"embed-images", b!"embed_images"], .embedImages),
   ([b!"image-captions", b!"image_captions"], .imageCaptions),
   ([b!"title-captions-only", b!"title_captions_only"], .titleCaptionsOnly),
   ([b!"link-citations", b!"link_citations"], .linkCitations),
   ([b!"show-tooltips", b!"show_tooltips"], .showTooltips),
   ([b!"suppress-bibliography", b!"suppress_bibliography"], .suppressBibliography),
   ([b!"suppress-index", b!"suppress_index"], .suppressIndex),
   ([b!"group-index-by-letter", b!"group_index_by_letter"], .groupIndex),
   ([b!"obfuscate-emails", b!"obfuscate_emails"], .obfuscateEmails),
   ([b!"pretty"], .pretty),
   ([b!"standalone"], .standalone),
   ([b!"hardbreaks", b!"hard-breaks"], .hardbreaks),
   ([b!"widont"], .widont),
   ([b!"code-is-poetry", b!"code_is_poetry"], .poetry),
   ([b!"markdown-in-html", b!"markdown_in_html"], .markdownInHtml),
   ([b!"random-footnote-ids", b!"random_footnote_ids"], .randomFootnotes),
   ([b!"hashtags"], .hashtags),
   ([b!"style-hashtags", b!"style_hashtags"], .styleHashtags),
   ([b!"proofreader"], .proofreader),
   ([b!"hr-page-break", b!"hr_page_break"], .hrPageBreak),
   ([b!"title-from-h1", b!"title_from_h1"], .titleFromH1),
   ([b!"page-break-before-footnotes", b!"page_break_before_footnotes"], .footnotePageBreak),
   ([b!"code-line-numbers", b!"code_line_numbers"], .codeLineNumbers),
   ([b!"highlight-language-only", b!"highlight_language_only"], .languageOnly)]

/-- metadata.c:2500-2503, 2617-2618, 2683-2684, 2716-2718: what else is switched on with an option. -/
def implied (f : Flag) (o : Options) : Options :=
  match f with
  | .indices => (o.set .mmarkIndex true).set .textIndex true
  | .titleCaptionsOnly => o.set .imageCaptions true
  | .poetry => o.set .languageOnly true
  | .proofreader => { o.set .critic true with criticMode := 2 }
  | _ => o

/-- e.g. metadata.c:2499-2506. -/
def setBool (o : Options) (f : Flag) (v : Bytes) : Options :=
  if isTrue v then implied f (o.set f true) else if isFalse v then o.set f false else o

/-- metadata.c:2765-2780. -/
def setIdFormat (o : Options) (v : Bytes) : Options :=
  if v.map toLower == b!"gfm" then { o with idFormat := 0 }
  else if v.map toLower == b!"mmd" then { o with idFormat := 1 }
  else if v.map toLower == b!"kramdown" then { o with idFormat := 2 }
  else o

/-- metadata.c:2783-2800. -/
def setSpace (o : Options) (v : Bytes) : Options :=
  if v.map toLower == b!"dash" then { o with wikilinkSpace := 0 }
  else if v.map toLower == b!"none" then { o with wikilinkSpace := 1 }
  else if v.map toLower == b!"underscore" then { o with wikilinkSpace := 2 }
  else if v.map toLower == b!"space" then { o with wikilinkSpace := 3 }
  else o

/-- metadata.c:2811-2816. -/
def setTheme (o : Options) (v : Bytes) : Options :=
  if o.theme = none ∨ o.theme = some [] then { o with theme := some v } else o

/-- metadata.c:2817-2823. -/
def setWidth (o : Options) (v : Bytes) : Options :=
  if Plugins.atoi v > 0 then { o with terminalWidth := Plugins.atoi v } else o

/-- metadata.c:2825-2842. -/
def setHighlighter (o : Options) (v : Bytes) : Options :=
  if v.map toLower ∈ [b!"pygments", b!"p", b!"pyg"] then { o with highlighter := some b!"pygments" }
  else if v.map toLower ∈ [b!"skylighting", b!"s", b!"sky"] then { o with highlighter := some b!"skylighting" }
  else if v.map toLower ∈ [b!"shiki", b!"sh"] then { o with highlighter := some b!"shiki" }
  else if isFalse v || v.map toLower == b!"none" then { o with highlighter := none }
  else o

/-- metadata.c:2744-2842: the keys of other options. -/
def setString (o : Options) (k v : Bytes) : Options :=
  if ciEq k b!"bibliography" then o.set .citations true
  else if ciEq k b!"csl" then { o.set .citations true with csl := some v }
  else if ciEq k b!"title" then { o with title := some v }
  else if ciEq k b!"style" || ciEq k b!"css" then { o.set .standalone true with stylesheets := some [v] }
  else if ciEq k b!"id-format" || ciEq k b!"id_format" then setIdFormat o v
  else if ciEq k b!"base-dir" || ciEq k b!"base_dir" then { o with baseDirectory := some v }
  else if ciEq k b!"wikilink-space" || ciEq k b!"wikilink_space" then setSpace o v
  else if ciEq k b!"wikilink-extension" || ciEq k b!"wikilink_extension" then { o with wikilinkExtension := some v }
  else if ciEq k b!"wikilink-sanitize" || ciEq k b!"wikilink_sanitize" then
    o.set .wikilinkSanitize (ciEq v b!"true" || v == b!"1")
  else if ciEq k b!"terminal.theme" || ciEq k b!"terminal_theme" then setTheme o v
  else if ciEq k b!"terminal.width" || ciEq k b!"terminal_width" then setWidth o v
  else if ciEq k b!"code-highlight" || ciEq k b!"code_highlight" then setHighlighter o v
  else o

/-- metadata.c:2480-2857, one turn of the second pass. -/
def applyItem (o : Options) (it : Item) : Options :=
  if ciEq it.1 b!"mode" then o
  else
    match boolKeys.find? fun e => e.1.any (ciEq it.1) with
    | some e => setBool o e.2 it.2
    | none => setString o it.1 it.2

/-- metadata.c:2445-2858 (`apex_apply_metadata_to_options`). -/
def applyMeta (md : Meta) (o : Options) : Options := md.foldl applyItem (modePass md o)

/-! ### The command line -/

/-- cli/main.c:1376-1436: what the argument loop collects. -/
structure Cli where
  options : Options
  plugins : Option Bool := none
  metadata : Meta := []
  metaFile : Option Bytes := none
  css : List Bytes := []
  bibliography : List Bytes := []
  input : Option Bytes := none

/-- cli/main.c:1607-2047: the arguments that only switch options on or off. -/
def cliFlags : List (Bytes × List (Flag × Bool)) :=
  [(b!"--no-tables", [(.tables, false)]),
   (b!"--no-footnotes", [(.footnotes, false)]),
   (b!"--no-smart", [(.smart, false)]),
   (b!"--no-math", [(.math, false)]),
   (b!"--includes", [(.fileIncludes, true)]),
   (b!"--no-includes", [(.fileIncludes, false)]),
   (b!"--hardbreaks", [(.hardbreaks, true)]),
   (b!"-s", [(.standalone, true)]),
   (b!"--standalone", [(.standalone, true)]),
   (b!"--embed-css", [(.embedStylesheet, true)]),
   (b!"--pretty", [(.pretty, true)]),
   (b!"--no-ids", [(.headerIds, false)]),
   (b!"--header-anchors", [(.headerAnchors, true)]),
   (b!"--relaxed-tables", [(.relaxedTables, true)]),
   (b!"--no-relaxed-tables", [(.relaxedTables, false)]),
   (b!"--per-cell-alignment", [(.perCellAlignment, true)]),
   (b!"--no-per-cell-alignment", [(.perCellAlignment, false)]),
   (b!"--code-line-numbers", [(.codeLineNumbers, true)]),
   (b!"--highlight-language-only", [(.languageOnly, true)]),
   (b!"--alpha-lists", [(.alphaLists, true)]),
   (b!"--no-alpha-lists", [(.alphaLists, false)]),
   (b!"--mixed-lists", [(.mixedLists, true)]),
   (b!"--no-mixed-lists", [(.mixedLists, false)]),
   (b!"--unsafe", [(.rawHtml, true)]),
   (b!"--no-unsafe", [(.rawHtml, false)]),
   (b!"--sup-sub", [(.supSub, true)]),
   (b!"--no-sup-sub", [(.supSub, false)]),
   (b!"--divs", [(.divs, true)]),
   (b!"--no-divs", [(.divs, false)]),
   (b!"--spans", [(.spans, true)]),
   (b!"--no-spans", [(.spans, false)]),
   (b!"--autolink", [(.autolink, true)]),
   (b!"--no-autolink", [(.autolink, false)]),
   (b!"--strikethrough", [(.strikethrough, true)]),
   (b!"--no-strikethrough", [(.strikethrough, false)]),
   (b!"--obfuscate-emails", [(.obfuscateEmails, true)]),
   (b!"--aria", [(.aria, true)]),
   (b!"--wikilinks", [(.wikiLinks, true)]),
   (b!"--no-wikilinks", [(.wikiLinks, false)]),
   (b!"--emoji-autocorrect", [(.emoji, true)]),
   (b!"--no-emoji-autocorrect", [(.emoji, false)]),
   (b!"--widont", [(.widont, true)]),
   (b!"--code-is-poetry", [(.poetry, true), (.languageOnly, true)]),
   (b!"--markdown-in-html", [(.markdownInHtml, true)]),
   (b!"--no-markdown-in-html", [(.markdownInHtml, false)]),
   (b!"--random-footnote-ids", [(.randomFootnotes, true)]),
   (b!"--hashtags", [(.hashtags, true)]),
   (b!"--style-hashtags", [(.styleHashtags, true)]),
   (b!"--hr-page-break", [(.hrPageBreak, true)]),
   (b!"--title-from-h1", [(.titleFromH1, true)]),
   (b!"--page-break-before-footnotes", [(.footnotePageBreak, true)]),
   (b!"--wikilink-sanitize", [(.wikilinkSanitize, true)]),
   (b!"--no-wikilink-sanitize", [(.wikilinkSanitize, false)]),
   (b!"--transforms", [(.metadataTransforms, true)]),
   (b!"--no-transforms", [(.metadataTransforms, false)]),
   (b!"--embed-images", [(.embedImages, true)]),
   (b!"--image-captions", [(.imageCaptions, true)]),
   (b!"--no-image-captions", [(.imageCaptions, false)]),
   (b!"--title-captions-only", [(.titleCaptionsOnly, true), (.imageCaptions, true)]),
   (b!"--no-title-captions-only", [(.titleCaptionsOnly, false)]),
   (b!"--no-bibliography", [(.suppressBibliography, true)]),
   (b!"--link-citations", [(.linkCitations, true)]),
   (b!"--show-tooltips", [(.showTooltips, true)]),
   (b!"--indices", [(.indices, true), (.mmarkIndex, true), (.textIndex, true), (.leanpubIndex, true)]),
   (b!"--no-indices", [(.indices, false)]),
   (b!"--no-index", [(.suppressIndex, true)])]

/-- Assignments in order. -/
def Options.assign (o : Options) (l : List (Flag × Bool)) : Options := l.foldl (fun o p => o.set p.1 p.2) o

/-- Arguments without effect on options or metadata (cli/main.c:1531, 1540, 1578, 1580, 1895, 1897, 2070, 2072). -/
def silentFlags : List Bytes :=
  [b!"--list-plugins", b!"--list-filters", b!"--filters", b!"--no-strict-filters", b!"--progress", b!"--no-progress",
   b!"--combine", b!"--mmd-merge"]

/-- Arguments with a value that does not concern options or metadata (cli/main.c:1507, 1515, 1533, 1542, 1548, 1554, 1582,
1602, 1691). `--width` is kept apart from the options in the code, too. -/
def silentArgs : List Bytes :=
  [b!"--width", b!"-o", b!"--output", b!"--install-plugin", b!"--install-filter", b!"--uninstall-filter", b!"--filter",
   b!"--lua-filter", b!"--uninstall-plugin", b!"--script"]

/-- cli/main.c:1629-1687: the paths of `--css`, separated by commas; blanks and tabs around them are dropped. -/
def cssPaths (v : Bytes) : List Bytes :=
  let trim := fun s : Bytes => ((s.dropWhile fun c => c == 32 || c == 9).reverse.dropWhile fun c => c == 32 || c == 9).reverse
  ((v.splitOn c!",").map trim).filter fun s => s != []

/-- cli/main.c:1472-1498: the names of the output formats. -/
def formats : List (List Bytes) :=
  [[b!"html"], [b!"json"], [b!"json-filtered", b!"ast-json", b!"ast"], [b!"markdown", b!"md"], [b!"mmd"],
   [b!"commonmark", b!"cmark"], [b!"kramdown"], [b!"gfm"], [b!"terminal", b!"cli"], [b!"terminal256"], [b!"man"], [b!"man-html"]]

/-- cli/main.c:1448-2054, an argument `a` with the value `v`; `none`: an error, the program ends. The outer `none`: `a`
takes no value. -/
def withValue (c : Cli) (a v : Bytes) : Option (Option Cli) :=
  let o := c.options
  if a == b!"-m" || a == b!"--mode" then some ((modeOf v).map fun m => { c with options := forMode m })
  else if a == b!"-t" || a == b!"--to" then
    some ((formats.findIdx? fun l => decide (v ∈ l)).map fun i => { c with options := { o with outputFormat := i } })
  else if a == b!"--theme" then some (some { c with options := { o with theme := some v } })
  else if a == b!"--css" || a == b!"--style" then
    some (some { c with options := o.set .standalone true, css := c.css ++ cssPaths v })
  else if a == b!"--title" then some (some { c with options := { o with title := some v } })
  else if a == b!"--id-format" then
    if v == b!"gfm" then some (some { c with options := { o with idFormat := 0 } })
    else if v == b!"mmd" then some (some { c with options := { o with idFormat := 1 } })
    else if v == b!"kramdown" then some (some { c with options := { o with idFormat := 2 } })
    else some none
  else if a == b!"--captions" then
    if v == b!"above" then some (some { c with options := { o with captionPosition := 0 } })
    else if v == b!"below" then some (some { c with options := { o with captionPosition := 1 } })
    else some none
  else if a == b!"--code-highlight" then
    if v ∈ [b!"pygments", b!"p", b!"pyg"] then some (some { c with options := { o with highlighter := some b!"pygments" } })
    else if v ∈ [b!"skylighting", b!"s", b!"sky"] then
      some (some { c with options := { o with highlighter := some b!"skylighting" } })
    else if v ∈ [b!"shiki", b!"sh"] then some (some { c with options := { o with highlighter := some b!"shiki" } })
    else some none
  else if a == b!"--wikilink-space" then
    if v == b!"dash" then some (some { c with options := { o with wikilinkSpace := 0 } })
    else if v == b!"none" then some (some { c with options := { o with wikilinkSpace := 1 } })
    else if v == b!"underscore" then some (some { c with options := { o with wikilinkSpace := 2 } })
    else if v == b!"space" then some (some { c with options := { o with wikilinkSpace := 3 } })
    else some none
  else if a == b!"--wikilink-extension" then some (some { c with options := { o with wikilinkExtension := some v } })
  else if a == b!"--base-dir" then some (some { c with options := { o with baseDirectory := some v } })
  else if a == b!"--bibliography" then
    some (some { c with options := o.set .citations true, bibliography := c.bibliography ++ [v] })
  else if a == b!"--csl" then some (some { c with options := { o.set .citations true with csl := some v } })
  else if a == b!"--meta-file" then some (some { c with metaFile := some v })
  else if a ∈ silentArgs then some (some c)
  else none

/-- cli/main.c:1439-2110, an argument without a value. -/
def withoutValue (c : Cli) (a : Bytes) : Option Cli :=
  if a == b!"--plugins" then some { c with options := c.options.set .plugins true, plugins := some true }
  else if a == b!"--no-plugins" then some { c with options := c.options.set .plugins false, plugins := some false }
  else if a == b!"--accept" then some { c with options := { c.options.set .critic true with criticMode := 0 } }
  else if a == b!"--reject" then some { c with options := { c.options.set .critic true with criticMode := 1 } }
  else if a == b!"--proofreader" then
    some { c with options := { (c.options.set .proofreader true).set .critic true with criticMode := 2 } }
  else if a ∈ silentFlags then some c
  else match cliFlags.find? fun e => e.1 == a with
    | some e => some { c with options := c.options.assign e.2 }
    | none => if a.head? = some c!"-" then none else some { c with input := some a }

/-- cli/main.c:2058-2068: a value of `--meta`, parsed by `parse` (metadata.c:2260). -/
def addMeta (parse : Bytes → Meta) (c : Cli) (v : Bytes) : Cli :=
  if parse v = [] then c
  else if c.metadata = [] then { c with metadata := parse v }
  else { c with metadata := merge c.metadata [parse v] }

/-- cli/main.c:1439-2110: the loop over the arguments. `none`: the program ends (help, version, error). `--list-plugins` and
the like, which end it later, are not distinguished. -/
def parseArgs (parse : Bytes → Meta) (c : Cli) : List Bytes → Option Cli
  | [] => some c
  | a :: rest =>
    if a ∈ [b!"-h", b!"--help", b!"-v", b!"--version"] then none
    else if (withValue c a []).isSome then
      match rest with
      | [] => none
      | v :: rest' =>
        match (withValue c a v).join with
        | none => none
        | some c' => parseArgs parse c' rest'
    else if b!"--meta" <+: a then
      if 6 < a.length ∧ (a.drop 6).head? = some c!"=" then parseArgs parse (addMeta parse c (a.drop 7)) rest
      else
        match rest with
        | [] => none
        | v :: rest' => parseArgs parse (addMeta parse c v) rest'
    else
      match withoutValue c a with
      | none => none
      | some c' => parseArgs parse c' rest

/-- cli/main.c:2990-3000: the directory of the input file, when no other base directory is set. -/
def baseFromInput (dir : Bytes → Option Bytes) (c : Cli) : Options :=
  match c.input, c.options.baseDirectory with
  | some f, none => { c.options with baseDirectory := dir f, inputPath := some f }
  | some f, some _ => { c.options with inputPath := some f }
  | none, some b => { c.options with inputPath := if b = [] then none else some b }
  | none, none => { c.options with inputPath := none }

/-- cli/main.c:3097: the metadata of the document, which is read in three of the modes only. -/
def docMeta (m : Mode) (doc : Meta) : Meta :=
  if m = .multimarkdown ∨ m = .kramdown ∨ m = .unified then doc else []

/-- cli/main.c:3219-3243: the lists of bibliographies and style sheets. -/
def addLists (c : Cli) (o : Options) : Options :=
  let o := if c.bibliography ≠ [] then { o with bibliography := some c.bibliography } else o
  if c.css ≠ [] then { o with stylesheets := some c.css } else o

/-- cli/main.c:3244-3257: the lists once more, where the metadata has left none. -/
def keepLists (c : Cli) (o : Options) : Options :=
  let o := if c.bibliography ≠ [] ∧ o.bibliography = none then { o with bibliography := some c.bibliography } else o
  if c.css ≠ [] ∧ o.stylesheets = none then { o with stylesheets := some c.css } else o

/-- cli/main.c:3258-3262: the flags about plugins. -/
def keepPlugins (c : Cli) (o : Options) : Options :=
  match c.plugins with
  | some b => o.set .plugins b
  | none => o

/-- cli/main.c:2988-3262: the options a document is rendered with. `file` is the metadata of the configuration files,
`doc` that of the document. -/
def finalOptions (dir : Bytes → Option Bytes) (c : Cli) (file doc : Meta) : Options :=
  let o := baseFromInput dir c
  let merged := cliMerge file (docMeta o.mode doc) c.metadata
  let o := addLists c o
  keepPlugins c (if merged ≠ [] then keepLists c (applyMeta merged o) else o)

end Verif.Options
