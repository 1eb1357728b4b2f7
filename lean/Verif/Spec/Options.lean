/-
Specification for options: what the manual pages say (man/apex.1.md:571-617, man/apex-config.5.md:130-235).
-/
import Verif.Model.Options

namespace Verif.Options.Spec
open Metadata (Item Meta)

/-- Options that make Markdown mean something that CommonMark does not say, or that change the text. -/
def extensions : List Flag :=
  [.plugins, .tables, .footnotes, .definitionLists, .smart, .math, .critic, .wikiLinks, .taskLists, .attributes, .callouts,
   .marked, .divs, .spans, .metadataVariables, .metadataTransforms, .fileIncludes, .relaxedTables, .perCellAlignment,
   .mixedLists, .alphaLists, .supSub, .strikethrough, .autolink, .obfuscateEmails, .embedImages, .imageCaptions,
   .titleCaptionsOnly, .citations, .indices, .mmarkIndex, .textIndex, .leanpubIndex, .emoji, .widont, .poetry,
   .markdownInHtml, .randomFootnotes, .hashtags, .styleHashtags, .proofreader, .hrPageBreak, .footnotePageBreak]

/-- A word up to case. -/
def Word (w v : Bytes) : Prop := v.map toLower = w

instance (w v : Bytes) : Decidable (Word w v) := by unfold Word; infer_instance

/-- apex.1.md:579-581: what a value of a boolean option says. -/
inductive Says : Bool → Bytes → Prop
  | yes {v w} : w ∈ [b!"true", b!"yes", b!"1"] → Word w v → Says true v
  | no {v w} : w ∈ [b!"false", b!"no", b!"0"] → Word w v → Says false v

/-- apex.1.md:583-584: the boolean options of the manual. -/
def documented : List (Bytes × Flag) :=
  [(b!"indices", .indices), (b!"wikilinks", .wikiLinks), (b!"wikilink-sanitize", .wikilinkSanitize), (b!"includes", .fileIncludes),
   (b!"relaxed-tables", .relaxedTables), (b!"per-cell-alignment", .perCellAlignment), (b!"alpha-lists", .alphaLists),
   (b!"mixed-lists", .mixedLists), (b!"sup-sub", .supSub), (b!"strikethrough", .strikethrough), (b!"autolink", .autolink),
   (b!"transforms", .metadataTransforms), (b!"unsafe", .rawHtml), (b!"tables", .tables), (b!"footnotes", .footnotes),
   (b!"smart", .smart), (b!"math", .math), (b!"ids", .headerIds), (b!"header-anchors", .headerAnchors),
   (b!"embed-images", .embedImages), (b!"image-captions", .imageCaptions), (b!"link-citations", .linkCitations),
   (b!"show-tooltips", .showTooltips), (b!"suppress-bibliography", .suppressBibliography), (b!"suppress-index", .suppressIndex),
   (b!"group-index-by-letter", .groupIndex), (b!"obfuscate-emails", .obfuscateEmails), (b!"pretty", .pretty),
   (b!"standalone", .standalone), (b!"hardbreaks", .hardbreaks), (b!"plugins", .plugins), (b!"emoji-autocorrect", .emoji),
   (b!"code-line-numbers", .codeLineNumbers), (b!"highlight-language-only", .languageOnly), (b!"markdown-in-html", .markdownInHtml)]

/-- The keys that concern a flag, with the other spellings and with the keys that switch it on in passing. -/
def keys : Flag → List Bytes
  | .plugins => [b!"plugins", b!"enable-plugins", b!"enable_plugins"]
  | .tables => [b!"tables"]
  | .footnotes => [b!"footnotes"]
  | .smart => [b!"smart", b!"smart-typography"]
  | .math => [b!"math"]
  | .critic => [b!"proofreader"]
  | .wikiLinks => [b!"wikilinks", b!"wiki-links"]
  | .metadataTransforms => [b!"transforms", b!"metadata-transforms"]
  | .fileIncludes => [b!"includes", b!"file-includes"]
  | .rawHtml => [b!"unsafe"]
  | .standalone => [b!"standalone", b!"style", b!"css"]
  | .pretty => [b!"pretty"]
  | .hardbreaks => [b!"hardbreaks", b!"hard-breaks"]
  | .headerIds => [b!"ids", b!"header-ids"]
  | .headerAnchors => [b!"header-anchors", b!"header_anchors"]
  | .relaxedTables => [b!"relaxed-tables", b!"relaxed_tables"]
  | .mixedLists => [b!"mixed-lists", b!"mixed_lists"]
  | .alphaLists => [b!"alpha-lists", b!"alpha_lists"]
  | .supSub => [b!"sup-sub", b!"sup_sub"]
  | .strikethrough => [b!"strikethrough", b!"strike-through"]
  | .autolink => [b!"autolink"]
  | .obfuscateEmails => [b!"obfuscate-emails", b!"obfuscate_emails"]
  | .embedImages => [b!"embed-images", b!"embed_images"]
  | .imageCaptions => [b!"image-captions", b!"image_captions", b!"title-captions-only", b!"title_captions_only"]
  | .titleCaptionsOnly => [b!"title-captions-only", b!"title_captions_only"]
  | .citations => [b!"bibliography", b!"csl"]
  | .suppressBibliography => [b!"suppress-bibliography", b!"suppress_bibliography"]
  | .linkCitations => [b!"link-citations", b!"link_citations"]
  | .showTooltips => [b!"show-tooltips", b!"show_tooltips"]
  | .indices => [b!"indices"]
  | .mmarkIndex => [b!"indices"]
  | .textIndex => [b!"indices"]
  | .suppressIndex => [b!"suppress-index", b!"suppress_index"]
  | .groupIndex => [b!"group-index-by-letter", b!"group_index_by_letter"]
  | .wikilinkSanitize => [b!"wikilink-sanitize", b!"wikilink_sanitize"]
  | .codeLineNumbers => [b!"code-line-numbers", b!"code_line_numbers"]
  | .languageOnly => [b!"highlight-language-only", b!"highlight_language_only", b!"code-is-poetry", b!"code_is_poetry"]
  | .widont => [b!"widont"]
  | .poetry => [b!"code-is-poetry", b!"code_is_poetry"]
  | .markdownInHtml => [b!"markdown-in-html", b!"markdown_in_html"]
  | .randomFootnotes => [b!"random-footnote-ids", b!"random_footnote_ids"]
  | .hashtags => [b!"hashtags"]
  | .styleHashtags => [b!"style-hashtags", b!"style_hashtags"]
  | .proofreader => [b!"proofreader"]
  | .hrPageBreak => [b!"hr-page-break", b!"hr_page_break"]
  | .titleFromH1 => [b!"title-from-h1", b!"title_from_h1"]
  | .footnotePageBreak => [b!"page-break-before-footnotes", b!"page_break_before_footnotes"]
  | _ => []

/-- A key that has nothing to do with `f`. -/
def Unrelated (f : Flag) (k : Bytes) : Prop := ¬ Word b!"mode" k ∧ ∀ w ∈ keys f, ¬ Word w k

/-- The name of a mode in metadata. -/
inductive Named : Mode → Bytes → Prop
  | commonmark {v} : Word b!"commonmark" v → Named .commonmark v
  | gfm {v} : Word b!"gfm" v → Named .gfm v
  | mmd {v} : Word b!"mmd" v → Named .multimarkdown v
  | multimarkdown {v} : Word b!"multimarkdown" v → Named .multimarkdown v
  | kramdown {v} : Word b!"kramdown" v → Named .kramdown v
  | unified {v} : Word b!"unified" v → Named .unified v

/-- What the command line says about a flag: the last of the assignments. -/
def lastSaid (f : Flag) : List (Flag × Bool) → Option Bool
  | [] => none
  | p :: l => (lastSaid f l).or (if p.1 = f then some p.2 else none)

/-- The flags without a value that the help text lists (cli/main.c:472-567), and what it says they do. -/
def help : List (Bytes × List (Flag × Bool)) :=
  [(b!"--alpha-lists", [(.alphaLists, true)]), (b!"--no-alpha-lists", [(.alphaLists, false)]),
   (b!"--autolink", [(.autolink, true)]), (b!"--no-autolink", [(.autolink, false)]),
   (b!"--code-line-numbers", [(.codeLineNumbers, true)]), (b!"--highlight-language-only", [(.languageOnly, true)]),
   (b!"--embed-css", [(.embedStylesheet, true)]), (b!"--embed-images", [(.embedImages, true)]),
   (b!"--image-captions", [(.imageCaptions, true)]), (b!"--no-image-captions", [(.imageCaptions, false)]),
   (b!"--no-title-captions-only", [(.titleCaptionsOnly, false)]),
   (b!"--title-captions-only", [(.imageCaptions, true), (.titleCaptionsOnly, true)]),
   (b!"--hardbreaks", [(.hardbreaks, true)]), (b!"--header-anchors", [(.headerAnchors, true)]),
   (b!"--includes", [(.fileIncludes, true)]), (b!"--no-includes", [(.fileIncludes, false)]),
   (b!"--indices", [(.leanpubIndex, true), (.textIndex, true), (.mmarkIndex, true), (.indices, true)]),
   (b!"--link-citations", [(.linkCitations, true)]),
   (b!"--mixed-lists", [(.mixedLists, true)]), (b!"--no-mixed-lists", [(.mixedLists, false)]),
   (b!"--no-bibliography", [(.suppressBibliography, true)]), (b!"--no-footnotes", [(.footnotes, false)]),
   (b!"--no-ids", [(.headerIds, false)]), (b!"--no-indices", [(.indices, false)]), (b!"--no-index", [(.suppressIndex, true)]),
   (b!"--no-math", [(.math, false)]), (b!"--aria", [(.aria, true)]), (b!"--no-smart", [(.smart, false)]),
   (b!"--divs", [(.divs, true)]), (b!"--no-divs", [(.divs, false)]), (b!"--spans", [(.spans, true)]),
   (b!"--no-spans", [(.spans, false)]), (b!"--no-tables", [(.tables, false)]),
   (b!"--emoji-autocorrect", [(.emoji, true)]), (b!"--no-emoji-autocorrect", [(.emoji, false)]),
   (b!"--obfuscate-emails", [(.obfuscateEmails, true)]), (b!"--pretty", [(.pretty, true)]),
   (b!"--relaxed-tables", [(.relaxedTables, true)]), (b!"--no-relaxed-tables", [(.relaxedTables, false)]),
   (b!"--per-cell-alignment", [(.perCellAlignment, true)]), (b!"--no-per-cell-alignment", [(.perCellAlignment, false)]),
   (b!"--show-tooltips", [(.showTooltips, true)]), (b!"-s", [(.standalone, true)]), (b!"--standalone", [(.standalone, true)]),
   (b!"--sup-sub", [(.supSub, true)]), (b!"--no-sup-sub", [(.supSub, false)]),
   (b!"--strikethrough", [(.strikethrough, true)]), (b!"--no-strikethrough", [(.strikethrough, false)]),
   (b!"--transforms", [(.metadataTransforms, true)]), (b!"--no-transforms", [(.metadataTransforms, false)]),
   (b!"--unsafe", [(.rawHtml, true)]), (b!"--no-unsafe", [(.rawHtml, false)]), (b!"--widont", [(.widont, true)]),
   (b!"--code-is-poetry", [(.languageOnly, true), (.poetry, true)]),
   (b!"--markdown-in-html", [(.markdownInHtml, true)]), (b!"--no-markdown-in-html", [(.markdownInHtml, false)]),
   (b!"--random-footnote-ids", [(.randomFootnotes, true)]), (b!"--hashtags", [(.hashtags, true)]),
   (b!"--style-hashtags", [(.styleHashtags, true)]), (b!"--hr-page-break", [(.hrPageBreak, true)]),
   (b!"--title-from-h1", [(.titleFromH1, true)]), (b!"--page-break-before-footnotes", [(.footnotePageBreak, true)]),
   (b!"--wikilinks", [(.wikiLinks, true)]), (b!"--no-wikilinks", [(.wikiLinks, false)]),
   (b!"--wikilink-sanitize", [(.wikilinkSanitize, true)]), (b!"--no-wikilink-sanitize", [(.wikilinkSanitize, false)])]

/-- The output formats of `-t` in the help text (cli/main.c:515), numbered as in `apex_output_format_t` (apex.h). -/
def formatNames : List (Bytes × Nat) :=
  [(b!"html", 0), (b!"json", 1), (b!"json-filtered", 2), (b!"ast-json", 2), (b!"ast", 2), (b!"markdown", 3), (b!"md", 3),
   (b!"mmd", 4), (b!"commonmark", 5), (b!"cmark", 5), (b!"kramdown", 6), (b!"gfm", 7), (b!"terminal", 8), (b!"cli", 8),
   (b!"terminal256", 9), (b!"man", 10), (b!"man-html", 11)]

/-- The other flags with a value from a list (cli/main.c:477-478, 494, 563) and the options behind them. -/
inductive Chooses : Bytes → Bytes → Options → Options → Prop
  | captions {v n o} : (v, n) ∈ [(b!"above", 0), (b!"below", 1)] → Chooses b!"--captions" v o { o with captionPosition := n }
  | idFormat {v n o} : (v, n) ∈ [(b!"gfm", 0), (b!"mmd", 1), (b!"kramdown", 2)] →
      Chooses b!"--id-format" v o { o with idFormat := n }
  | space {v n o} : (v, n) ∈ [(b!"dash", 0), (b!"none", 1), (b!"underscore", 2), (b!"space", 3)] →
      Chooses b!"--wikilink-space" v o { o with wikilinkSpace := n }
  | highlighter {v t o} : (v, t) ∈ [(b!"pygments", b!"pygments"), (b!"p", b!"pygments"), (b!"skylighting", b!"skylighting"),
        (b!"s", b!"skylighting"), (b!"shiki", b!"shiki"), (b!"sh", b!"shiki")] →
      Chooses b!"--code-highlight" v o { o with highlighter := some t }
  | format {a v n o} : a ∈ [b!"-t", b!"--to"] → (v, n) ∈ formatNames → Chooses a v o { o with outputFormat := n }

/-- Everything that begins with a dash in the help text. -/
def helpArgs : List Bytes :=
  help.map Prod.fst ++
  [b!"--accept", b!"--reject", b!"--proofreader", b!"--plugins", b!"--no-plugins", b!"--combine", b!"--mmd-merge",
   b!"--list-filters", b!"--filters", b!"--no-strict-filters", b!"--list-plugins", b!"--progress", b!"--no-progress",
   b!"-h", b!"--help", b!"-v", b!"--version"] ++
  [b!"--base-dir", b!"--bibliography", b!"--captions", b!"--code-highlight", b!"--csl", b!"--css", b!"--style", b!"--id-format",
   b!"--install-plugin", b!"--install-filter", b!"--uninstall-filter", b!"--filter", b!"--lua-filter", b!"--uninstall-plugin",
   b!"--meta", b!"--meta-file", b!"-m", b!"--mode", b!"-t", b!"--to", b!"-o", b!"--output", b!"--script", b!"--title",
   b!"--wikilink-space", b!"--wikilink-extension", b!"--theme", b!"--width"]

end Verif.Options.Spec
