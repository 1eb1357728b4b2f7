import Verif.Basic
import Verif.Props.Utf8
import Verif.Props.Buffer
import Verif.Props.GrowBuf
import Verif.Props.Escape
import Verif.Props.Man
import Verif.Props.Base64
import Verif.Props.Transforms
import Verif.Props.Metadata
import Verif.Props.MetaParse
import Verif.Props.Emoji
import Verif.Props.Plugins
import Verif.Props.Filters
import Verif.Props.ManFonts
import Verif.Props.HtmlPass
import Verif.Props.Wiki
import Verif.Props.HeaderIds
import Verif.Props.Critic
import Verif.Props.Highlight
import Verif.Props.Markers
import Verif.Props.SupSub
import Verif.Props.Csv
import Verif.Props.Address
import Verif.Props.Includes
import Verif.Props.Ial
import Verif.Props.Abbr
import Verif.Props.FootHash
import Verif.Props.Pretty
import Verif.Props.Options
import Verif.Props.FrontMatter
import Verif.Props.Toc
import Verif.Props.InjectIds
import Verif.Props.Obfuscate
import Verif.Props.HrBreak
import Verif.Props.SepRows
import Verif.Props.Fences
import Verif.Props.OptionValues
import Verif.Props.PrettyTree
import Verif.Props.AstJson
import Verif.Props.InlineNotes
import Verif.Props.InlineTables
import Verif.Props.Callouts
import Verif.Props.Math
import Verif.Props.Embed
import Verif.Props.Widont
import Verif.Props.ToMarkdown
import Verif.Props.FencedDivs
import Verif.Props.Liquid
import Verif.Props.AlphaLists
import Verif.Props.Colspans
import Verif.Props.Autolinks
import Verif.Props.EmojiHtml
import Verif.Props.TableCaptions
import Verif.Props.Standalone
import Verif.Props.Poetry
import Verif.Props.RelaxedTables
import Verif.Props.RelaxedHeads
import Verif.Props.QuoteLang
import Verif.Props.StripWrap
import Verif.Props.Aria
import Verif.Props.Index
import Verif.Props.InHtml
import Verif.Props.Citations
import Verif.Props.Bibliography
import Verif.Props.IalLines
import Verif.Props.Spans
import Verif.Props.DefLists
import Verif.Props.Wrap
import Verif.Props.Merge
import Verif.Props.Install
import Verif.Props.Media
import Verif.Props.AutoMedia
import Verif.Props.ElemAttrs
import Verif.Props.ImgCaptions
import Verif.Props.CodeColor
import Verif.Props.TableSpans
import Verif.Props.Remote
import Verif.Props.TermStyle
import Verif.Props.Term
import Verif.Props.TermTable
import Verif.Props.ThemeFile
import Verif.Props.ManHtml
import Verif.Props.Hashtags
import Verif.Props.Pipeline
import Verif.Props.Yaml
import Verif.Props.IalTree
import Verif.Props.Images
import Verif.Props.TableHtml
import Verif.Props.CslYaml
import Verif.Props.TableCaps
import Verif.Props.DefTree
import Verif.Props.Simple
import Verif.Props.Bundles
import Verif.Props.Dates
import Verif.Props.ImageRefs
import Verif.Props.PluginDirs
import Verif.Props.LatexMath
import Verif.Props.SplitSimple
import Verif.Props.TermCallouts
import Verif.Props.FilterRun
import Verif.Props.FilterTools
import Verif.Props.ListPlugins
import Verif.Props.TermRowspan
import Verif.Props.CombineFiles
import Verif.Props.Progress
import Verif.Props.Finish
import Verif.Props.TermDefs
import Verif.Props.TermHtml
import Verif.Props.TermClass
import Verif.Props.TermBlocks
import Verif.Props.TermInline
import Verif.Props.ManCode
import Verif.Props.ManLists
import Verif.Props.ManHtmlLevels
import Verif.Props.TermLists
import Verif.Props.TermHeads
import Verif.Axioms
