/- Axioms used by every property theorem; the build log shows the list. -/
import Verif.Props.Utf8
import Verif.Props.Buffer
import Verif.Props.GrowBuf
import Verif.Props.Escape
import Verif.Props.Man
import Verif.Props.Base64
import Verif.Props.Transforms
import Verif.Props.Metadata
import Verif.Props.MetaParse
import Verif.Props.Emoji
import Verif.Props.Plugins
import Verif.Props.Filters
import Verif.Props.ManFonts
import Verif.Props.HtmlPass
import Verif.Props.Wiki
import Verif.Props.HeaderIds
import Verif.Props.Critic
import Verif.Props.Highlight
import Verif.Props.Markers
import Verif.Props.SupSub
import Verif.Props.Csv
import Verif.Props.Address
import Verif.Props.Includes
import Verif.Props.Ial
import Verif.Props.Abbr
import Verif.Props.FootHash
import Verif.Props.Pretty
import Verif.Props.Options
import Verif.Props.FrontMatter
import Verif.Props.Toc
import Verif.Props.InjectIds
import Verif.Props.Obfuscate
import Verif.Props.HrBreak
import Verif.Props.SepRows
import Verif.Props.Fences
import Verif.Props.OptionValues
import Verif.Props.PrettyTree
import Verif.Props.AstJson
import Verif.Props.InlineNotes
import Verif.Props.InlineTables
import Verif.Props.Callouts
import Verif.Props.Math
import Verif.Props.Embed
import Verif.Props.Widont
import Verif.Props.ToMarkdown
import Verif.Props.FencedDivs
import Verif.Props.Liquid
import Verif.Props.AlphaLists
import Verif.Props.Colspans
import Verif.Props.Autolinks
import Verif.Props.EmojiHtml
import Verif.Props.TableCaptions
import Verif.Props.Standalone
import Verif.Props.Poetry
import Verif.Props.RelaxedTables
import Verif.Props.RelaxedHeads
import Verif.Props.QuoteLang
import Verif.Props.StripWrap
import Verif.Props.Aria
import Verif.Props.Index
import Verif.Props.InHtml
import Verif.Props.Citations
import Verif.Props.Bibliography
import Verif.Props.IalLines
import Verif.Props.Spans
import Verif.Props.DefLists
import Verif.Props.Wrap
import Verif.Props.Merge
import Verif.Props.Install
import Verif.Props.Media
import Verif.Props.AutoMedia
import Verif.Props.ElemAttrs
import Verif.Props.ImgCaptions
import Verif.Props.CodeColor
import Verif.Props.TableSpans
import Verif.Props.Remote
import Verif.Props.TermStyle
import Verif.Props.Term
import Verif.Props.TermTable
import Verif.Props.ThemeFile
import Verif.Props.ManHtml
import Verif.Props.Hashtags
import Verif.Props.Pipeline
import Verif.Props.Yaml
import Verif.Props.IalTree
import Verif.Props.Images
import Verif.Props.TableHtml
import Verif.Props.CslYaml
import Verif.Props.TableCaps
import Verif.Props.DefTree
import Verif.Props.Simple
import Verif.Props.Bundles
import Verif.Props.Dates
import Verif.Props.ImageRefs
import Verif.Props.PluginDirs
import Verif.Props.LatexMath
import Verif.Props.SplitSimple
import Verif.Props.TermCallouts
import Verif.Props.FilterRun
import Verif.Props.FilterTools
import Verif.Props.ListPlugins
import Verif.Props.TermRowspan
import Verif.Props.CombineFiles
import Verif.Props.Progress
import Verif.Props.Finish
import Verif.Props.TermDefs
import Verif.Props.TermHtml
import Verif.Props.TermClass
import Verif.Props.TermBlocks
import Verif.Props.TermInline
import Verif.Props.ManCode
import Verif.Props.ManLists
import Verif.Props.ManHtmlLevels
import Verif.Props.TermLists
import Verif.Props.TermHeads

#print axioms Verif.Utf8.C01_validate_exact
#print axioms Verif.Utf8.C01_valid_start
#print axioms Verif.Utf8.C02_validate_append
#print axioms Verif.Utf8.C03_wellformed_accepted_partial
#print axioms Verif.Utf8.C03_overlong_accepted
#print axioms Verif.Buffer.C04_history
#print axioms Verif.Buffer.C05_detach_partial
#print axioms Verif.Buffer.C05_append_after_detach_hangs
#print axioms Verif.Buffer.C05_append_after_free_hangs
#print axioms Verif.Escape.C06_escape_html
#print axioms Verif.Escape.C07_man_html_escape
#print axioms Verif.Escape.C07_man_html_injective
#print axioms Verif.Escape.C08_json_escape
#print axioms Verif.Escape.C09_json_write_read
#print axioms Verif.Escape.C09_json_round_trip_partial
#print axioms Verif.Escape.C09_fails
#print axioms Verif.Man.C10_text_starts_no_request
#print axioms Verif.FrontMatter.C100_safe
#print axioms Verif.FrontMatter.C100_partial
#print axioms Verif.FrontMatter.C100_lookup
#print axioms Verif.FrontMatter.C100_gfm
#print axioms Verif.FrontMatter.C100_mode
#print axioms Verif.FrontMatter.C100_values
#print axioms Verif.Toc.C101_entries_partial
#print axioms Verif.Toc.C101_safe
#print axioms Verif.Toc.C101_headings
#print axioms Verif.Toc.C101_long_table
#print axioms Verif.Toc.C101_long_entry
#print axioms Verif.Toc.C101_unescaped
#print axioms Verif.Toc.C102_outline_partial
#print axioms Verif.Toc.C102_strict_partial
#print axioms Verif.Toc.C102_skipped
#print axioms Verif.Toc.C103_range
#print axioms Verif.Toc.C103_words_partial
#print axioms Verif.Toc.C103_bare_partial
#print axioms Verif.Toc.C103_rest_of_page
#print axioms Verif.Toc.C104_only_marker
#print axioms Verif.Toc.C104_code
#print axioms Verif.Toc.C104_replaced_partial
#print axioms Verif.Toc.C104_places
#print axioms Verif.Toc.C105_links_partial
#print axioms Verif.Toc.C105_other_ids
#print axioms Verif.InjectIds.C106_named_partial
#print axioms Verif.InjectIds.C106_safe
#print axioms Verif.InjectIds.C106_unique
#print axioms Verif.InjectIds.C106_double
#print axioms Verif.InjectIds.C106_raw
#print axioms Verif.InjectIds.C106_other_attribute
#print axioms Verif.InjectIds.C106_long
#print axioms Verif.InjectIds.C107_anchors_partial
#print axioms Verif.InjectIds.C106_safe
#print axioms Verif.InjectIds.C107_lost
#print axioms Verif.Options.C108_flags
#print axioms Verif.Options.C108_choices
#print axioms Verif.Options.C108_bibliography
#print axioms Verif.Options.C108_css_partial
#print axioms Verif.Options.C97_css
#print axioms Verif.Options.C109_partial
#print axioms Verif.Options.C109_meta
#print axioms Verif.Options.C109_swallow
#print axioms Verif.Man.C11_finishes_iff
#print axioms Verif.Man.C11_never_returns
#print axioms Verif.Man.C11_ampersand_hangs
#print axioms Verif.Man.C11_fragment_partial
#print axioms Verif.Man.C11_apostrophe_starts_request
#print axioms Verif.Pretty.C110_partial
#print axioms Verif.Pretty.C110_image
#print axioms Verif.Pretty.C110_strong
#print axioms Verif.Obfuscate.C111_safe
#print axioms Verif.Obfuscate.C111_ub
#print axioms Verif.Obfuscate.C111_decode_partial
#print axioms Verif.Obfuscate.C111_links
#print axioms Verif.Obfuscate.C111_other
#print axioms Verif.Obfuscate.C111_accent
#print axioms Verif.Obfuscate.C111_reference
#print axioms Verif.Obfuscate.C112_partial
#print axioms Verif.Obfuscate.C112_title
#print axioms Verif.Obfuscate.C112_quotes
#print axioms Verif.HrBreak.C113_cut
#print axioms Verif.HrBreak.C113_rules
#print axioms Verif.HrBreak.C113_gone
#print axioms Verif.HrBreak.C113_twice
#print axioms Verif.HrBreak.C113_lookalike
#print axioms Verif.SepRows.C114_rows
#print axioms Verif.SepRows.C114_outside
#print axioms Verif.SepRows.C114_partial
#print axioms Verif.SepRows.C114_dashy
#print axioms Verif.SepRows.C114_unclosed
#print axioms Verif.SepRows.C114_data
#print axioms Verif.Fences.C115_every
#print axioms Verif.Fences.C115_lines
#print axioms Verif.Fences.C115_one
#print axioms Verif.Fences.C115_partial
#print axioms Verif.Fences.C115_early
#print axioms Verif.Fences.C115_tildes
#print axioms Verif.Options.C116_texts
#print axioms Verif.Options.C116_words
#print axioms Verif.Options.C116_meta
#print axioms Verif.Pretty.C117_partial
#print axioms Verif.Pretty.C117_small_partial
#print axioms Verif.Pretty.C117_form
#print axioms Verif.Pretty.C117_element
#print axioms Verif.AstJson.C118_exact
#print axioms Verif.AstJson.C118_partial
#print axioms Verif.AstJson.C118_cat
#print axioms Verif.AstJson.C118_inlines_fails
#print axioms Verif.AstJson.C118_link_fails
#print axioms Verif.AstJson.C118_code_fails
#print axioms Verif.AstJson.C118_list_fails
#print axioms Verif.AstJson.C119_exact
#print axioms Verif.AstJson.C119_partial
#print axioms Verif.AstJson.C119_code_fails
#print axioms Verif.AstJson.C119_ordered_fails
#print axioms Verif.Escape.C12_markdown_escape
#print axioms Verif.AstJson.C120_skip
#print axioms Verif.AstJson.C120_members_partial
#print axioms Verif.AstJson.C120_escape_fails
#print axioms Verif.AstJson.C120_space_fails
#print axioms Verif.AstJson.C120_emph_fails
#print axioms Verif.AstJson.C120_div_fails
#print axioms Verif.AstJson.C120_rule_fails
#print axioms Verif.InlineNotes.C121_partial
#print axioms Verif.InlineNotes.C121_long_partial
#print axioms Verif.InlineNotes.C121_labels
#print axioms Verif.InlineNotes.C121_lost_fails
#print axioms Verif.InlineNotes.C121_overflow
#print axioms Verif.InlineNotes.C121_empty
#print axioms Verif.InlineNotes.C121_clash_fails
#print axioms Verif.InlineNotes.C122_partial
#print axioms Verif.InlineNotes.C122_double_fails
#print axioms Verif.InlineNotes.C122_tildes_fails
#print axioms Verif.InlineNotes.C122_indented_fails
#print axioms Verif.InlineNotes.C122_tick_fails
#print axioms Verif.InlineTables.C123_result
#print axioms Verif.InlineTables.C123_either
#print axioms Verif.InlineTables.C123_partial
#print axioms Verif.InlineTables.C123_marked_partial
#print axioms Verif.InlineTables.C123_untouched
#print axioms Verif.InlineTables.C123_overflow
#print axioms Verif.InlineTables.C123_overflow_not
#print axioms Verif.InlineTables.C123_tildes_fails
#print axioms Verif.InlineTables.C123_span_fails
#print axioms Verif.InlineTables.C123_tail_fails
#print axioms Verif.Callouts.C124_partial
#print axioms Verif.Callouts.C124_short
#print axioms Verif.Callouts.C124_others
#print axioms Verif.Callouts.C124_title_fails
#print axioms Verif.Callouts.C124_long_fails
#print axioms Verif.Callouts.C124_nested_fails
#print axioms Verif.Math.C125_partial
#print axioms Verif.Math.C125_unique
#print axioms Verif.Math.C125_money
#print axioms Verif.Math.C125_alone
#print axioms Verif.Math.C125_money_fails
#print axioms Verif.Math.C125_markup_fails
#print axioms Verif.Math.C125_backslash_fails
#print axioms Verif.Embed.C126_pages
#print axioms Verif.Embed.C126_partial
#print axioms Verif.Embed.C126_untouched
#print axioms Verif.Embed.C126_none
#print axioms Verif.Embed.C126_one
#print axioms Verif.Embed.C126_overflow
#print axioms Verif.Embed.C126_lost_fails
#print axioms Verif.Embed.C126_blank_fails
#print axioms Verif.Embed.C126_other_fails
#print axioms Verif.Embed.C126_alt_fails
#print axioms Verif.Embed.C127_partial
#print axioms Verif.Embed.C127_known
#print axioms Verif.Embed.C127_fails
#print axioms Verif.Widont.C128_pages
#print axioms Verif.Widont.C128_partial
#print axioms Verif.Widont.C128_none
#print axioms Verif.Widont.C128_shown
#print axioms Verif.Widont.C128_markup_fails
#print axioms Verif.Widont.C128_line_fails
#print axioms Verif.Widont.C128_overflow
#print axioms Verif.ToMarkdown.C129_partial
#print axioms Verif.ToMarkdown.C129_image_fails
#print axioms Verif.ToMarkdown.C129_lost
#print axioms Verif.ToMarkdown.C129_escape_fails
#print axioms Verif.ToMarkdown.C129_code_fails
#print axioms Verif.ToMarkdown.C129_target_fails
#print axioms Verif.ToMarkdown.C129_strong_fails
#print axioms Verif.ToMarkdown.C129_toc_fails
#print axioms Verif.Escape.C13_hex_entities_partial
#print axioms Verif.Escape.C13_non_ascii
#print axioms Verif.ToMarkdown.C130_partial
#print axioms Verif.ToMarkdown.C130_no_code
#print axioms Verif.ToMarkdown.C130_code_fails
#print axioms Verif.ToMarkdown.C130_fence_fails
#print axioms Verif.ToMarkdown.C130_table_fails
#print axioms Verif.ToMarkdown.C130_quote_fails
#print axioms Verif.ToMarkdown.C130_list_fails
#print axioms Verif.ToMarkdown.C130_start_fails
#print axioms Verif.ToMarkdown.C130_heading_fails
#print axioms Verif.FencedDivs.C131_partial
#print axioms Verif.FencedDivs.C131_nested
#print axioms Verif.FencedDivs.C131_fences
#print axioms Verif.FencedDivs.C131_cut_fails
#print axioms Verif.FencedDivs.C131_end_fails
#print axioms Verif.FencedDivs.C131_element_fails
#print axioms Verif.FencedDivs.C131_return_fails
#print axioms Verif.FencedDivs.C131_empty_fails
#print axioms Verif.FencedDivs.C131_brace_fails
#print axioms Verif.FencedDivs.C131_code_fails
#print axioms Verif.FencedDivs.C131_line_fails
#print axioms Verif.FencedDivs.C131_quote_fails
#print axioms Verif.FencedDivs.C131_dot_fails
#print axioms Verif.FencedDivs.C131_id_fails
#print axioms Verif.FencedDivs.C132_partial
#print axioms Verif.FencedDivs.C132_same
#print axioms Verif.FencedDivs.C132_inner_fails
#print axioms Verif.FencedDivs.C132_twice_fails
#print axioms Verif.FencedDivs.C132_open_fails
#print axioms Verif.FencedDivs.C132_comment_fails
#print axioms Verif.FencedDivs.C132_name_fails
#print axioms Verif.Liquid.C133_partial
#print axioms Verif.Liquid.C133_protect
#print axioms Verif.Liquid.C133_restore_total
#print axioms Verif.Liquid.C133_page
#print axioms Verif.Liquid.C133_digit_fails
#print axioms Verif.Liquid.C133_other_fails
#print axioms Verif.Liquid.C133_literal_fails
#print axioms Verif.Liquid.C133_wrap_fails
#print axioms Verif.Liquid.C133_id_fails
#print axioms Verif.Liquid.C133_code_fails
#print axioms Verif.AlphaLists.C134_partial
#print axioms Verif.AlphaLists.C134_text
#print axioms Verif.AlphaLists.C134_plain
#print axioms Verif.AlphaLists.C134_full_fails
#print axioms Verif.AlphaLists.C134_empty_fails
#print axioms Verif.AlphaLists.C134_mark_fails
#print axioms Verif.AlphaLists.C134_cut_fails
#print axioms Verif.AlphaLists.C134_number_fails
#print axioms Verif.AlphaLists.C134_paragraph_fails
#print axioms Verif.AlphaLists.C134_code_fails
#print axioms Verif.AlphaLists.C134_return_fails
#print axioms Verif.AlphaLists.C135_partial
#print axioms Verif.AlphaLists.C135_pages
#print axioms Verif.AlphaLists.C135_lists
#print axioms Verif.AlphaLists.C135_end_fails
#print axioms Verif.AlphaLists.C135_full_fails
#print axioms Verif.AlphaLists.C135_long_fails
#print axioms Verif.AlphaLists.C135_second_fails
#print axioms Verif.AlphaLists.C135_close_fails
#print axioms Verif.Colspans.C136_partial
#print axioms Verif.Colspans.C136_lines
#print axioms Verif.Colspans.C136_total
#print axioms Verif.Colspans.C136_same
#print axioms Verif.Colspans.C136_prose_fails
#print axioms Verif.Colspans.C136_span_fails
#print axioms Verif.Colspans.C136_fence_fails
#print axioms Verif.Colspans.C136_indented_fails
#print axioms Verif.Colspans.C136_end_fails
#print axioms Verif.Autolinks.C137_pieces
#print axioms Verif.Autolinks.C137_plain
#print axioms Verif.Autolinks.C138_documents_partial
#print axioms Verif.Autolinks.sample_ok
#print axioms Verif.Autolinks.C138_link_refuted
#print axioms Verif.Autolinks.C138_text_refuted
#print axioms Verif.Autolinks.C138_attribute_refuted
#print axioms Verif.Autolinks.C138_code_refuted
#print axioms Verif.Autolinks.C138_word_refuted
#print axioms Verif.EmojiHtml.C139_page_partial
#print axioms Verif.EmojiHtml.C139_fits_partial
#print axioms Verif.EmojiHtml.sample_ok
#print axioms Verif.EmojiHtml.C139_empty_refuted
#print axioms Verif.EmojiHtml.C139_image_refuted
#print axioms Verif.EmojiHtml.C139_colon_refuted
#print axioms Verif.EmojiHtml.C139_code_refuted
#print axioms Verif.EmojiHtml.C139_second_refuted
#print axioms Verif.EmojiHtml.C139_heading_refuted
#print axioms Verif.Base64.C14_decodes
#print axioms Verif.Base64.C14_base64_partial
#print axioms Verif.Base64.C14_fails
#print axioms Verif.EmojiHtml.C140_name
#print axioms Verif.EmojiHtml.C140_back
#print axioms Verif.TableCaptions.C141_lines
#print axioms Verif.TableCaptions.C141_visible
#print axioms Verif.TableCaptions.C142_documents_partial
#print axioms Verif.TableCaptions.sample_ok
#print axioms Verif.TableCaptions.C142_sentence_refuted
#print axioms Verif.TableCaptions.C142_cell_refuted
#print axioms Verif.TableCaptions.C142_code_refuted
#print axioms Verif.TableCaptions.C142_merge_refuted
#print axioms Verif.TableCaptions.C142_link_refuted
#print axioms Verif.Standalone.C143_links
#print axioms Verif.Standalone.C143_default
#print axioms Verif.Standalone.sample
#print axioms Verif.Standalone.C144_title_partial
#print axioms Verif.Standalone.C144_language_partial
#print axioms Verif.Standalone.C144_title_refuted
#print axioms Verif.Standalone.C144_reference_refuted
#print axioms Verif.Standalone.C144_closing_refuted
#print axioms Verif.Standalone.C144_width_refuted
#print axioms Verif.Standalone.C145_callers
#print axioms Verif.Standalone.C145_documents
#print axioms Verif.Standalone.C145_default
#print axioms Verif.Standalone.C145_embedded_partial
#print axioms Verif.Standalone.embedded_sample
#print axioms Verif.Standalone.C145_metadata_refuted
#print axioms Verif.Standalone.C145_freed_refuted
#print axioms Verif.Standalone.C145_nul_refuted
#print axioms Verif.Standalone.C146_heading
#print axioms Verif.Standalone.C146_text_unique
#print axioms Verif.Standalone.heading_sample
#print axioms Verif.Standalone.C146_attribute_refuted
#print axioms Verif.Standalone.C146_comment_refuted
#print axioms Verif.Standalone.C147_snippet
#print axioms Verif.Standalone.C147_page
#print axioms Verif.Standalone.scripts_sample
#print axioms Verif.Poetry.C148_exact
#print axioms Verif.Poetry.C148_of_page
#print axioms Verif.Poetry.C148_plain_partial
#print axioms Verif.Poetry.C148_languages_partial
#print axioms Verif.Poetry.sample
#print axioms Verif.Poetry.C148_later_refuted
#print axioms Verif.Poetry.C148_class_refuted
#print axioms Verif.RelaxedTables.C149_safe
#print axioms Verif.RelaxedTables.C149_page_partial
#print axioms Verif.RelaxedTables.C149_tables_partial
#print axioms Verif.RelaxedTables.C149_kept_partial
#print axioms Verif.RelaxedTables.C149_every
#print axioms Verif.RelaxedTables.C149_order_refuted
#print axioms Verif.RelaxedTables.C149_blank_line_refuted
#print axioms Verif.RelaxedTables.C149_code_refuted
#print axioms Verif.RelaxedTables.C149_regular_refuted
#print axioms Verif.RelaxedTables.C149_crlf_refuted
#print axioms Verif.RelaxedTables.C149_glued_refuted
#print axioms Verif.RelaxedTables.C149_example
#print axioms Verif.RelaxedTables.C149_example_tidy
#print axioms Verif.Escape.C15_urlencode_urldecode
#print axioms Verif.Escape.C15_urldecode_total
#print axioms Verif.RelaxedTables.C150_safe
#print axioms Verif.RelaxedTables.C150_heads_partial
#print axioms Verif.RelaxedTables.C150_short_partial
#print axioms Verif.RelaxedTables.C150_full_refuted
#print axioms Verif.RelaxedTables.C150_example
#print axioms Verif.RelaxedHeads.C151_edited
#print axioms Verif.RelaxedHeads.C151_plain
#print axioms Verif.RelaxedHeads.C151_partial
#print axioms Verif.RelaxedHeads.C151_sample_ok
#print axioms Verif.RelaxedHeads.C151_sample
#print axioms Verif.RelaxedHeads.C151_regular_refuted
#print axioms Verif.RelaxedHeads.C151_unclosed_refuted
#print axioms Verif.RelaxedHeads.C151_empty_page_refuted
#print axioms Verif.QuoteLang.C152_same
#print axioms Verif.QuoteLang.C152_unique
#print axioms Verif.QuoteLang.C152_replaced_partial
#print axioms Verif.QuoteLang.C152_entities_partial
#print axioms Verif.QuoteLang.C152_partly
#print axioms Verif.QuoteLang.C152_example
#print axioms Verif.QuoteLang.C152_other_example
#print axioms Verif.QuoteLang.C152_closing_refuted
#print axioms Verif.QuoteLang.C152_overflow_refuted
#print axioms Verif.QuoteLang.C152_empty_refuted
#print axioms Verif.StripWrap.C153_freed_partial
#print axioms Verif.StripWrap.C153_unique
#print axioms Verif.StripWrap.C153_every_page
#print axioms Verif.StripWrap.C153_example
#print axioms Verif.StripWrap.C153_page_example
#print axioms Verif.StripWrap.C153_not_freed
#print axioms Verif.StripWrap.C153_text_lost
#print axioms Verif.StripWrap.C154_unwrapped_partial
#print axioms Verif.StripWrap.C154_unique
#print axioms Verif.StripWrap.C154_every_page
#print axioms Verif.StripWrap.C154_example
#print axioms Verif.StripWrap.C154_page_example
#print axioms Verif.StripWrap.C154_not_unwrapped
#print axioms Verif.Aria.C155_labelled_partial
#print axioms Verif.Aria.C155_one_result
#print axioms Verif.Aria.C155_bounded
#print axioms Verif.Aria.C155_many_figures_refuted
#print axioms Verif.Aria.C155_caption_below_refuted
#print axioms Verif.Aria.C155_single_quotes_refuted
#print axioms Verif.Index.C156_marked_partial
#print axioms Verif.Index.C156_numbers
#print axioms Verif.Index.C156_other_text
#print axioms Verif.Index.C156_example
#print axioms Verif.Index.C156_code_refuted
#print axioms Verif.Index.C156_word_refuted
#print axioms Verif.Index.C156_accent_refuted
#print axioms Verif.Index.C157_index_partial
#print axioms Verif.Index.C157_order
#print axioms Verif.Index.C157_sorted
#print axioms Verif.Index.C157_example
#print axioms Verif.Index.C157_letter_refuted
#print axioms Verif.Index.C157_escape_refuted
#print axioms Verif.Index.C157_long_refuted
#print axioms Verif.Index.C158_linked_partial
#print axioms Verif.Index.C158_safe_partial
#print axioms Verif.Index.C158_placed
#print axioms Verif.Index.C158_overread_refuted
#print axioms Verif.Index.C158_lost_refuted
#print axioms Verif.InHtml.C159_converted_partial
#print axioms Verif.InHtml.C159_other_text
#print axioms Verif.InHtml.C159_example
#print axioms Verif.InHtml.C159_overflow_refuted
#print axioms Verif.InHtml.C159_lost_refuted
#print axioms Verif.InHtml.C159_code_refuted
#print axioms Verif.InHtml.C159_span_refuted
#print axioms Verif.InHtml.C159_empty_refuted
#print axioms Verif.Escape.C16_url_encode
#print axioms Verif.InHtml.C160_opening_partial
#print axioms Verif.InHtml.C160_plain
#print axioms Verif.InHtml.C160_lines_refuted
#print axioms Verif.InHtml.C160_mention_refuted
#print axioms Verif.InHtml.C160_overflow_refuted
#print axioms Verif.Citations.C161_read
#print axioms Verif.Citations.C161_cited_partial
#print axioms Verif.Citations.C161_undetected
#print axioms Verif.Citations.C161_other_text
#print axioms Verif.Citations.C161_multimarkdown
#print axioms Verif.Citations.C161_comments
#print axioms Verif.Citations.C161_example
#print axioms Verif.Citations.C161_example_hypotheses
#print axioms Verif.Citations.C161_blank_refuted
#print axioms Verif.Citations.C161_short_refuted
#print axioms Verif.Citations.C161_overflow_refuted
#print axioms Verif.Citations.C161_email_refuted
#print axioms Verif.Citations.C161_two_refuted
#print axioms Verif.Citations.C161_open_refuted
#print axioms Verif.Citations.C161_suppressed_refuted
#print axioms Verif.Citations.C161_code_refuted
#print axioms Verif.Citations.C161_backtick_refuted
#print axioms Verif.Citations.C162_shown
#print axioms Verif.Citations.C162_rendered_partial
#print axioms Verif.Citations.C162_text
#print axioms Verif.Citations.C162_shows
#print axioms Verif.Citations.C162_safe
#print axioms Verif.Citations.C162_example
#print axioms Verif.Citations.C162_lost_refuted
#print axioms Verif.Citations.C162_last_refuted
#print axioms Verif.Citations.C162_locator_refuted
#print axioms Verif.Citations.C162_escape_refuted
#print axioms Verif.Bibliography.C163_file_partial
#print axioms Verif.Bibliography.C163_merge
#print axioms Verif.Bibliography.C163_merge_once
#print axioms Verif.Bibliography.C163_example
#print axioms Verif.Bibliography.C163_example_hypotheses
#print axioms Verif.Bibliography.C163_blank_refuted
#print axioms Verif.Bibliography.C163_open_refuted
#print axioms Verif.Bibliography.C163_quotes_refuted
#print axioms Verif.Bibliography.C163_space_refuted
#print axioms Verif.Bibliography.C163_crossref_refuted
#print axioms Verif.Bibliography.C163_string_refuted
#print axioms Verif.Bibliography.C163_at_refuted
#print axioms Verif.Bibliography.C164_listed
#print axioms Verif.Bibliography.C164_bibliography_partial
#print axioms Verif.Bibliography.C164_entry
#print axioms Verif.Bibliography.C164_placed
#print axioms Verif.Bibliography.C164_none
#print axioms Verif.Bibliography.C164_example
#print axioms Verif.Bibliography.C164_example_hypotheses
#print axioms Verif.Bibliography.C164_long_refuted
#print axioms Verif.Bibliography.C164_closing_refuted
#print axioms Verif.Bibliography.C164_escape_refuted
#print axioms Verif.Bibliography.C164_code_refuted
#print axioms Verif.IalLines.C165_lines_partial
#print axioms Verif.IalLines.C165_other
#print axioms Verif.IalLines.C165_example
#print axioms Verif.IalLines.C165_code_refuted
#print axioms Verif.IalLines.C165_brace_refuted
#print axioms Verif.Spans.C166_spans_partial
#print axioms Verif.Spans.C166_case
#print axioms Verif.Spans.C166_example
#print axioms Verif.Spans.C166_room_refuted
#print axioms Verif.Spans.C166_code_refuted
#print axioms Verif.Spans.C166_tick_refuted
#print axioms Verif.Spans.C166_math_refuted
#print axioms Verif.Spans.C166_words_refuted
#print axioms Verif.DefLists.C167_safe
#print axioms Verif.DefLists.C167_lists_partial
#print axioms Verif.DefLists.C167_none
#print axioms Verif.DefLists.C167_case
#print axioms Verif.DefLists.C167_example
#print axioms Verif.DefLists.C167_before_code_refuted
#print axioms Verif.DefLists.C167_attributes_refuted
#print axioms Verif.DefLists.C167_caption_refuted
#print axioms Verif.DefLists.C167_tilde_refuted
#print axioms Verif.DefLists.C167_fence_refuted
#print axioms Verif.DefLists.C167_continued_refuted
#print axioms Verif.DefLists.C167_blank_refuted
#print axioms Verif.DefLists.C168_content
#print axioms Verif.DefLists.C168_unique
#print axioms Verif.DefLists.C168_plain
#print axioms Verif.DefLists.C168_case
#print axioms Verif.DefLists.C168_refs_refuted
#print axioms Verif.Wrap.C169_wrap_partial
#print axioms Verif.Wrap.C169_tokens
#print axioms Verif.Wrap.C169_example
#print axioms Verif.Wrap.C169_utf8_refuted
#print axioms Verif.Wrap.C169_columns_refuted
#print axioms Verif.Wrap.C169_words_refuted
#print axioms Verif.Escape.C17_html_escape
#print axioms Verif.Escape.C17_non_ascii
#print axioms Verif.Wrap.C170_stdin
#print axioms Verif.Wrap.C170_example
#print axioms Verif.Merge.C171_merge_partial
#print axioms Verif.Merge.C171_entry_unique
#print axioms Verif.Merge.C171_twice_refuted
#print axioms Verif.Merge.C171_twice_case
#print axioms Verif.Merge.C171_case
#print axioms Verif.Merge.C171_example
#print axioms Verif.Merge.C171_long_refuted
#print axioms Verif.Merge.C172_summary_partial
#print axioms Verif.Merge.C172_name_unique
#print axioms Verif.Merge.C172_case
#print axioms Verif.Merge.C172_example
#print axioms Verif.Merge.C172_first_refuted
#print axioms Verif.Merge.C172_section_refuted
#print axioms Verif.Install.C173_words_unique
#print axioms Verif.Install.C173_install_partial
#print axioms Verif.Install.C173_removed
#print axioms Verif.Install.C173_uninstall_partial
#print axioms Verif.Install.C173_filter_partial
#print axioms Verif.Install.C173_file_partial
#print axioms Verif.Install.C173_case
#print axioms Verif.Install.C173_path_refuted
#print axioms Verif.Install.C173_manifest_refuted
#print axioms Verif.Install.C173_quote_refuted
#print axioms Verif.Install.C174_repo
#print axioms Verif.Install.C174_again
#print axioms Verif.Install.C174_example
#print axioms Verif.Install.C174_short_refuted
#print axioms Verif.Install.C175_plugin_partial
#print axioms Verif.Install.C175_fallback_refuted
#print axioms Verif.Install.C175_filter_refuted
#print axioms Verif.Install.C175_filter_case
#print axioms Verif.Media.C176_dense
#print axioms Verif.Media.C176_format
#print axioms Verif.Media.C176_parts
#print axioms Verif.Media.C176_host_partial
#print axioms Verif.Media.C176_domain
#print axioms Verif.Media.C176_directory
#print axioms Verif.Media.C176_query
#print axioms Verif.Media.C177_video_partial
#print axioms Verif.Media.C177_section
#print axioms Verif.Media.C178_auto
#print axioms Verif.Media.C178_video_partial
#print axioms Verif.Media.C178_overflow
#print axioms Verif.Media.C178_five
#print axioms Verif.Media.C178_picture
#print axioms Verif.Media.C178_srcset
#print axioms Verif.Media.C178_plain
#print axioms Verif.Media.C178_memory_partial
#print axioms Verif.Media.C178_quote
#print axioms Verif.Media.C179_meaning_partial
#print axioms Verif.Media.C179_case
#print axioms Verif.Media.C179_exact
#print axioms Verif.Media.C179_stray
#print axioms Verif.Media.C179_escape
#print axioms Verif.Media.C179_long
#print axioms Verif.Transforms.C18_slug_partial
#print axioms Verif.Transforms.C18_slug_twice
#print axioms Verif.Transforms.C18_not_idempotent
#print axioms Verif.AutoMedia.C180_rest
#print axioms Verif.AutoMedia.C180_unmarked
#print axioms Verif.AutoMedia.C180_page_partial
#print axioms Verif.AutoMedia.C180_earlier
#print axioms Verif.AutoMedia.C180_backslash
#print axioms Verif.AutoMedia.C181_image_partial
#print axioms Verif.AutoMedia.C181_attribute
#print axioms Verif.AutoMedia.C181_long_video
#print axioms Verif.AutoMedia.C181_long_picture
#print axioms Verif.AutoMedia.C181_long_address
#print axioms Verif.AutoMedia.C181_class
#print axioms Verif.AutoMedia.C181_mark
#print axioms Verif.AutoMedia.C181_only_dense
#print axioms Verif.AutoMedia.C181_encoded
#print axioms Verif.AutoMedia.C181_title
#print axioms Verif.ElemAttrs.C182_document_partial
#print axioms Verif.ElemAttrs.C182_alike
#print axioms Verif.ElemAttrs.C182_tables
#print axioms Verif.ElemAttrs.C182_code
#print axioms Verif.ElemAttrs.C182_heading
#print axioms Verif.ElemAttrs.C182_tight
#print axioms Verif.ElemAttrs.C182_ampersand
#print axioms Verif.ElemAttrs.C182_document_partial
#print axioms Verif.ElemAttrs.C183_none
#print axioms Verif.ElemAttrs.C183_room
#print axioms Verif.ElemAttrs.C183_removed
#print axioms Verif.ElemAttrs.C183_not_removed
#print axioms Verif.ElemAttrs.C183_glued
#print axioms Verif.ElemAttrs.C184_caption_partial
#print axioms Verif.ElemAttrs.C184_kept_partial
#print axioms Verif.ElemAttrs.C184_passed_on
#print axioms Verif.ElemAttrs.C184_heading
#print axioms Verif.ElemAttrs.C185_video_partial
#print axioms Verif.ElemAttrs.C185_picture_partial
#print axioms Verif.ElemAttrs.C185_long
#print axioms Verif.ElemAttrs.C185_formats
#print axioms Verif.ElemAttrs.C185_lost
#print axioms Verif.ImgCaptions.C186_page_partial
#print axioms Verif.ImgCaptions.C186_titles
#print axioms Verif.ImgCaptions.C186_hidden
#print axioms Verif.ImgCaptions.C186_ignored
#print axioms Verif.ImgCaptions.C186_blank
#print axioms Verif.ImgCaptions.C186_twice
#print axioms Verif.ImgCaptions.C186_inside
#print axioms Verif.ImgCaptions.C186_comment
#print axioms Verif.ImgCaptions.C187_turned
#print axioms Verif.ImgCaptions.C187_off
#print axioms Verif.ImgCaptions.C187_text
#print axioms Verif.CodeColor.C188_missing
#print axioms Verif.CodeColor.C188_failing
#print axioms Verif.CodeColor.C188_page_partial
#print axioms Verif.CodeColor.C188_answered_partial
#print axioms Verif.CodeColor.C188_lost
#print axioms Verif.CodeColor.C188_overrun
#print axioms Verif.CodeColor.C189_calls_partial
#print axioms Verif.CodeColor.C189_code
#print axioms Verif.CodeColor.C189_long
#print axioms Verif.Transforms.C19_lengths
#print axioms Verif.Transforms.C19_upper_lower
#print axioms Verif.Transforms.C19_only_case
#print axioms Verif.Transforms.C19_trim
#print axioms Verif.Transforms.C19_reverse
#print axioms Verif.Transforms.C19_title
#print axioms Verif.CodeColor.C190_lines_partial
#print axioms Verif.CodeColor.C190_simple_partial
#print axioms Verif.CodeColor.C190_injected
#print axioms Verif.CodeColor.C191_collected
#print axioms Verif.CodeColor.C191_whole_partial
#print axioms Verif.CodeColor.C191_stuck
#print axioms Verif.CodeColor.C191_killed
#print axioms Verif.TableSpans.C192_marks_partial
#print axioms Verif.TableSpans.C192_tiles_partial
#print axioms Verif.TableSpans.C192_block
#print axioms Verif.TableSpans.C192_past
#print axioms Verif.TableSpans.C192_shown
#print axioms Verif.TableSpans.C192_injected
#print axioms Verif.TableSpans.C193_safe_partial
#print axioms Verif.TableSpans.C193_columns
#print axioms Verif.TableSpans.C193_freed
#print axioms Verif.TableSpans.C194_foot
#print axioms Verif.TableSpans.C194_rows
#print axioms Verif.TableSpans.C194_hidden
#print axioms Verif.TableSpans.C194_content
#print axioms Verif.TableSpans.C195_text
#print axioms Verif.TableSpans.C195_colons
#print axioms Verif.TableSpans.C195_table_partial
#print axioms Verif.TableSpans.C195_lost
#print axioms Verif.Remote.C196_directory_partial
#print axioms Verif.Remote.C196_value_partial
#print axioms Verif.Remote.C196_taken
#print axioms Verif.Remote.C196_brace
#print axioms Verif.Remote.C196_line
#print axioms Verif.Remote.C197_last_partial
#print axioms Verif.Remote.C197_later
#print axioms Verif.Remote.C197_spoofed
#print axioms Verif.Remote.C198_filter_partial
#print axioms Verif.Remote.C198_next
#print axioms Verif.Remote.C198_path
#print axioms Verif.Remote.C199_fetch
#print axioms Verif.Transforms.C20_replace
#print axioms Verif.Transforms.C20_replace_noop
#print axioms Verif.TermStyle.C200_style_partial
#print axioms Verif.TermStyle.C200_hex
#print axioms Verif.TermStyle.C200_nearest
#print axioms Verif.TermStyle.C200_background
#print axioms Verif.TermStyle.C200_bgName
#print axioms Verif.TermStyle.C200_silent_partial
#print axioms Verif.TermStyle.C200_shows
#print axioms Verif.Term.C201_theme_partial
#print axioms Verif.Term.C201_prose
#print axioms Verif.Term.C201_reads
#print axioms Verif.Term.C201_gap
#print axioms Verif.Term.C202_ends_partial
#print axioms Verif.Term.C202_emphasis_partial
#print axioms Verif.Term.C202_open
#print axioms Verif.Term.C202_lost
#print axioms Verif.Term.C202_nested
#print axioms Verif.Term.C203_calm_partial
#print axioms Verif.Term.C203_verbatim
#print axioms Verif.Term.C204_closed_partial
#print axioms Verif.Term.C204_crash
#print axioms Verif.Term.C205_tool_partial
#print axioms Verif.Term.C205_failed
#print axioms Verif.Term.C205_injected
#print axioms Verif.Term.C206_width_partial
#print axioms Verif.Term.C206_uneven
#print axioms Verif.Term.C207_cells_partial
#print axioms Verif.Term.C207_kept_partial
#print axioms Verif.Term.C207_tall
#print axioms Verif.Term.C207_shifted
#print axioms Verif.Term.C207_over
#print axioms Verif.Term.C207_align
#print axioms Verif.ThemeFile.C208_same_partial
#print axioms Verif.ThemeFile.C208_marker
#print axioms Verif.ThemeFile.C208_deep
#print axioms Verif.ThemeFile.C208_comment
#print axioms Verif.ThemeFile.C209_style_partial
#print axioms Verif.ThemeFile.C209_plain
#print axioms Verif.ThemeFile.C209_found
#print axioms Verif.ThemeFile.C209_order
#print axioms Verif.Transforms.C21_truncate_partial
#print axioms Verif.Transforms.C21_truncate_too_long
#print axioms Verif.Transforms.C21_truncate_ub
#print axioms Verif.Transforms.C21_pad_partial
#print axioms Verif.Transforms.C21_pad_ub
#print axioms Verif.ManHtml.C210_wellformed
#print axioms Verif.ManHtml.C210_page
#print axioms Verif.ManHtml.C210_reads_partial
#print axioms Verif.ManHtml.C210_table
#print axioms Verif.ManHtml.C210_raw
#print axioms Verif.ManHtml.C211_nav_partial
#print axioms Verif.ManHtml.C211_long
#print axioms Verif.ManHtml.C211_same
#print axioms Verif.ManHtml.C211_many
#print axioms Verif.ManHtml.C211_foreign
#print axioms Verif.ManHtml.C212_headline_partial
#print axioms Verif.ManHtml.C212_default
#print axioms Verif.ManHtml.C212_lines
#print axioms Verif.Hashtags.C213_tags_partial
#print axioms Verif.Hashtags.C213_fence
#print axioms Verif.Hashtags.C213_reference
#print axioms Verif.Hashtags.C213_attribute
#print axioms Verif.Hashtags.C214_tidy
#print axioms Verif.Hashtags.C214_marks_partial
#print axioms Verif.Hashtags.C214_heading
#print axioms Verif.Hashtags.C214_tildes
#print axioms Verif.Hashtags.C214_across
#print axioms Verif.Hashtags.C214_four
#print axioms Verif.Hashtags.C215_tags
#print axioms Verif.Hashtags.C215_proofread
#print axioms Verif.Hashtags.C215_short
#print axioms Verif.Pipeline.C216_partial
#print axioms Verif.Pipeline.C216_parser
#print axioms Verif.Pipeline.C216_citations_fails
#print axioms Verif.Pipeline.C217_partial
#print axioms Verif.Pipeline.C217_fails
#print axioms Verif.Pipeline.C218_partial
#print axioms Verif.Pipeline.C218_unterminated
#print axioms Verif.Pipeline.C218_empty
#print axioms Verif.Pipeline.C218_line
#print axioms Verif.Pipeline.C219_iff_partial
#print axioms Verif.Pipeline.C219_partial
#print axioms Verif.Pipeline.C219_wiki
#print axioms Verif.Pipeline.C219_kramdown
#print axioms Verif.Transforms.C22_split_partial
#print axioms Verif.Transforms.C22_split_hangs_iff
#print axioms Verif.Transforms.C22_split_returns
#print axioms Verif.Transforms.C22_split_hangs
#print axioms Verif.Transforms.C22_comma_returns
#print axioms Verif.Pipeline.C220_partial
#print axioms Verif.Pipeline.C220_empty_directory
#print axioms Verif.Pipeline.C221_html_partial
#print axioms Verif.Pipeline.C221_formats
#print axioms Verif.Pipeline.C221_early
#print axioms Verif.Pipeline.C222_off
#print axioms Verif.Pipeline.C222_on
#print axioms Verif.Pipeline.C222_filter
#print axioms Verif.Yaml.C223_partial
#print axioms Verif.Yaml.C223_get
#print axioms Verif.Yaml.C223_long_fails
#print axioms Verif.Yaml.C224_iff
#print axioms Verif.Yaml.C224_fails
#print axioms Verif.Yaml.C225_bundle
#print axioms Verif.Yaml.C225_none
#print axioms Verif.Yaml.C226_written
#print axioms Verif.Yaml.C226_value
#print axioms Verif.Yaml.C226_open
#print axioms Verif.Yaml.C226_nested_fails
#print axioms Verif.IalTree.C227_partial
#print axioms Verif.IalTree.C227_case
#print axioms Verif.IalTree.C227_two_fails
#print axioms Verif.IalTree.C228_partial
#print axioms Verif.IalTree.C228_case
#print axioms Verif.IalTree.C228_gap_fails
#print axioms Verif.IalTree.C229_paragraph
#print axioms Verif.IalTree.C229_heading
#print axioms Verif.IalTree.C229_case
#print axioms Verif.IalTree.C229_heading_fails
#print axioms Verif.Metadata.C23_lookup
#print axioms Verif.Metadata.C23_empty_key
#print axioms Verif.IalTree.C230_partial
#print axioms Verif.IalTree.C230_case
#print axioms Verif.IalTree.C230_fails
#print axioms Verif.IalTree.C230_fails_case
#print axioms Verif.IalTree.C231_partial
#print axioms Verif.IalTree.C231_case
#print axioms Verif.IalTree.C231_fails
#print axioms Verif.Images.C232_partial
#print axioms Verif.Images.C232_case
#print axioms Verif.ImageRefs.C232_modes
#print axioms Verif.ImageRefs.C232_protocol
#print axioms Verif.ImageRefs.C232_protocol_case
#print axioms Verif.Images.C233_partial
#print axioms Verif.Images.C233_case
#print axioms Verif.Images.C233_fails
#print axioms Verif.Images.C233_fails_case
#print axioms Verif.Images.C234_text
#print axioms Verif.Images.C234_room
#print axioms Verif.Images.C234_case
#print axioms Verif.Images.C234_open_fails
#print axioms Verif.ImageRefs.C234_line_fails
#print axioms Verif.Images.C234_fails
#print axioms Verif.ImageRefs.C235_document_partial
#print axioms Verif.ImageRefs.C235_document_case
#print axioms Verif.Images.C235_partial
#print axioms Verif.Images.C235_case
#print axioms Verif.Images.C235_fails
#print axioms Verif.Images.C235_fails_case
#print axioms Verif.ImageRefs.C235_first_fails
#print axioms Verif.TableHtml.C236_partial
#print axioms Verif.TableHtml.C236_case
#print axioms Verif.TableHtml.C236_fails
#print axioms Verif.TableHtml.C237_partial
#print axioms Verif.TableHtml.C237_case
#print axioms Verif.TableHtml.C237_fails
#print axioms Verif.TableHtml.C238_fails
#print axioms Verif.TableHtml.C239_partial
#print axioms Verif.TableHtml.C239_case
#print axioms Verif.TableHtml.C239_fails
#print axioms Verif.Metadata.C24_merge_partial
#print axioms Verif.Metadata.C24_empty_list_stops
#print axioms Verif.Metadata.C24_cli_drops_command_line
#print axioms Verif.Metadata.C24_spacing_keeps_old
#print axioms Verif.Metadata.C24_duplicates
#print axioms Verif.TableHtml.C236_partial
#print axioms Verif.TableHtml.C237_partial
#print axioms Verif.TableHtml.C240_fails
#print axioms Verif.CslYaml.C241_partial
#print axioms Verif.CslYaml.C241_partial_case
#print axioms Verif.CslYaml.C241_fails
#print axioms Verif.CslYaml.C241_fails_case
#print axioms Verif.CslYaml.C242_partial
#print axioms Verif.CslYaml.C242_partial_case
#print axioms Verif.CslYaml.C242_fails
#print axioms Verif.CslYaml.C242_parts_fails
#print axioms Verif.CslYaml.C242_year_case
#print axioms Verif.CslYaml.C243_partial
#print axioms Verif.CslYaml.C243_partial_case
#print axioms Verif.CslYaml.C243_fails
#print axioms Verif.CslYaml.C243_fails_case
#print axioms Verif.CslYaml.C244_partial
#print axioms Verif.CslYaml.C244_partial_case
#print axioms Verif.CslYaml.C244_fails
#print axioms Verif.CslYaml.C244_fails_case
#print axioms Verif.TableCaps.C245_partial
#print axioms Verif.TableCaps.C245_case
#print axioms Verif.TableCaps.C245_fails
#print axioms Verif.TableCaps.C245_fails_case
#print axioms Verif.TableCaps.C246_partial
#print axioms Verif.TableCaps.C246_fails
#print axioms Verif.TableCaps.C246_second_fails
#print axioms Verif.TableCaps.C246_boxes_fails
#print axioms Verif.TableCaps.C246_emphasis_fails
#print axioms Verif.TableCaps.C246_case
#print axioms Verif.TableCaps.C247_partial
#print axioms Verif.TableCaps.C247_case
#print axioms Verif.TableCaps.C247_fails
#print axioms Verif.TableCaps.C247_quotes_fails
#print axioms Verif.TableCaps.C247_fails_case
#print axioms Verif.TableCaps.C248_partial
#print axioms Verif.TableCaps.C248_case
#print axioms Verif.TableCaps.C248_fails
#print axioms Verif.TableCaps.C248_fails_case
#print axioms Verif.DefTree.C249_partial
#print axioms Verif.DefTree.C249_html_partial
#print axioms Verif.DefTree.C249_case
#print axioms Verif.DefTree.C249_fails
#print axioms Verif.DefTree.C249_tab_fails
#print axioms Verif.DefTree.C249_fails_case
#print axioms Verif.Metadata.C25_variables
#print axioms Verif.Metadata.C25_unchanged
#print axioms Verif.Metadata.C25_single
#print axioms Verif.DefTree.C250_kept
#print axioms Verif.DefTree.C250_lines
#print axioms Verif.DefTree.C250_case
#print axioms Verif.DefTree.C251_partial
#print axioms Verif.DefTree.C251_lines_partial
#print axioms Verif.DefTree.C251_case
#print axioms Verif.DefTree.C251_fails
#print axioms Verif.DefTree.C251_fails_case
#print axioms Verif.Simple.C252_ends
#print axioms Verif.Simple.C252_partial
#print axioms Verif.Simple.C252_case
#print axioms Verif.Simple.C252_fails_open
#print axioms Verif.Simple.C252_fails_para
#print axioms Verif.Simple.C252_case_open
#print axioms Verif.Simple.C252_case_para
#print axioms Verif.Simple.C253_partial
#print axioms Verif.Simple.C253_case
#print axioms Verif.Simple.C253_fails
#print axioms Verif.Simple.C253_case_other
#print axioms Verif.Simple.C254_links
#print axioms Verif.Simple.C254_frees
#print axioms Verif.Simple.C254_document
#print axioms Verif.Simple.C254_case
#print axioms Verif.Bundles.C255_partial
#print axioms Verif.Bundles.C255_loaded
#print axioms Verif.Bundles.C255_pattern
#print axioms Verif.Bundles.C255_pattern_case
#print axioms Verif.Bundles.C255_all
#print axioms Verif.Bundles.C255_fails
#print axioms Verif.Bundles.C255_case
#print axioms Verif.Bundles.C255_run
#print axioms Verif.Bundles.C256_xdg_partial
#print axioms Verif.Bundles.C256_home_partial
#print axioms Verif.Bundles.C256_xdg_fails
#print axioms Verif.Bundles.C256_own_partial
#print axioms Verif.Bundles.C256_own_fails
#print axioms Verif.Bundles.C256_case
#print axioms Verif.Dates.C257_partial
#print axioms Verif.Dates.C257_case
#print axioms Verif.Dates.C257_weekday_fails
#print axioms Verif.Dates.C257_weekday_case
#print axioms Verif.Dates.C257_time_fails
#print axioms Verif.Dates.C258_partial
#print axioms Verif.Dates.C258_case
#print axioms Verif.Dates.C258_fails
#print axioms Verif.Dates.C258_fails_case
#print axioms Verif.Dates.C258_large_fails
#print axioms Verif.PluginDirs.C259_partial
#print axioms Verif.PluginDirs.C259_order
#print axioms Verif.PluginDirs.C259_case
#print axioms Verif.PluginDirs.C259_long_fails
#print axioms Verif.PluginDirs.C259_long_case
#print axioms Verif.MetaParse.C26_suffix_partial
#print axioms Verif.MetaParse.C26_removed_partial
#print axioms Verif.MetaParse.C26_header
#print axioms Verif.MetaParse.C26_pandoc
#print axioms Verif.MetaParse.C26_list
#print axioms Verif.MetaParse.C26_yaml_removed_partial
#print axioms Verif.MetaParse.C26_yaml_header
#print axioms Verif.MetaParse.C26_heading_lost
#print axioms Verif.MetaParse.C26_last_line_lost
#print axioms Verif.MetaParse.C26_long_line_cut
#print axioms Verif.PluginDirs.C260_partial
#print axioms Verif.PluginDirs.C260_case
#print axioms Verif.PluginDirs.C260_outside
#print axioms Verif.PluginDirs.C260_long_fails
#print axioms Verif.PluginDirs.C260_line_fails
#print axioms Verif.LatexMath.C261_partial
#print axioms Verif.LatexMath.C261_case
#print axioms Verif.LatexMath.C261_dollar
#print axioms Verif.LatexMath.C261_fails
#print axioms Verif.LatexMath.C261_written_fails
#print axioms Verif.SplitSimple.C262_partial
#print axioms Verif.SplitSimple.C262_case
#print axioms Verif.SplitSimple.C262_fails
#print axioms Verif.SplitSimple.C262_fails_case
#print axioms Verif.SplitSimple.C262_none_fails
#print axioms Verif.SplitSimple.C262_blank_fails
#print axioms Verif.TermCallouts.C263_partial
#print axioms Verif.TermCallouts.C263_case
#print axioms Verif.TermCallouts.C263_long_fails
#print axioms Verif.TermCallouts.C263_fails
#print axioms Verif.FilterRun.C264_partial
#print axioms Verif.FilterRun.C264_missing
#print axioms Verif.FilterRun.C264_case
#print axioms Verif.FilterRun.C264_blank_fails
#print axioms Verif.FilterRun.C265_partial
#print axioms Verif.FilterRun.C265_missing
#print axioms Verif.FilterRun.C265_case
#print axioms Verif.FilterRun.C265_lua_fails
#print axioms Verif.FilterRun.C266_partial
#print axioms Verif.FilterRun.C266_case
#print axioms Verif.FilterRun.C266_home_fails
#print axioms Verif.FilterRun.C266_injected_fails
#print axioms Verif.FilterRun.C266_order_fails
#print axioms Verif.FilterTools.C267_partial
#print axioms Verif.FilterTools.C267_kept
#print axioms Verif.FilterTools.C267_case
#print axioms Verif.FilterTools.C267_fails
#print axioms Verif.FilterTools.C268_partial
#print axioms Verif.FilterTools.C268_lines
#print axioms Verif.FilterTools.C268_entry
#print axioms Verif.FilterTools.C268_case
#print axioms Verif.FilterTools.C268_many_fails
#print axioms Verif.FilterTools.C268_extension_fails
#print axioms Verif.ListPlugins.C269_partial
#print axioms Verif.ListPlugins.C269_places
#print axioms Verif.ListPlugins.C269_shown
#print axioms Verif.ListPlugins.C269_text
#print axioms Verif.ListPlugins.C269_case
#print axioms Verif.Emoji.C27_edit_distance
#print axioms Verif.ListPlugins.C270_partial
#print axioms Verif.ListPlugins.C270_file_fails
#print axioms Verif.ListPlugins.C270_front_fails
#print axioms Verif.ListPlugins.C270_phase_fails
#print axioms Verif.ListPlugins.C270_case
#print axioms Verif.CombineFiles.C271_partial
#print axioms Verif.CombineFiles.C271_front_partial
#print axioms Verif.CombineFiles.C271_names
#print axioms Verif.CombineFiles.C271_joined_fails
#print axioms Verif.CombineFiles.C271_empty_fails
#print axioms Verif.CombineFiles.C271_stop_fails
#print axioms Verif.CombineFiles.C271_before_fails
#print axioms Verif.CombineFiles.C271_case
#print axioms Verif.CombineFiles.C272_partial
#print axioms Verif.CombineFiles.C272_missing
#print axioms Verif.CombineFiles.C272_both
#print axioms Verif.CombineFiles.C272_names
#print axioms Verif.CombineFiles.C272_case
#print axioms Verif.Progress.C273_clear
#print axioms Verif.Progress.C273_off
#print axioms Verif.Progress.C273_soon
#print axioms Verif.Progress.C273_shown
#print axioms Verif.Progress.C273_blank
#print axioms Verif.Progress.C273_stages
#print axioms Verif.Progress.C273_stale_fails
#print axioms Verif.Progress.C273_stale_case
#print axioms Verif.Progress.C273_long_fails
#print axioms Verif.Progress.C273_case
#print axioms Verif.Finish.C274_partial
#print axioms Verif.Finish.C274_width_partial
#print axioms Verif.Finish.C274_width
#print axioms Verif.Finish.C274_error
#print axioms Verif.Finish.C274_full_fails
#print axioms Verif.Finish.C274_case
#print axioms Verif.Term.C275_partial
#print axioms Verif.Term.C275_tags_fails
#print axioms Verif.Term.C275_entity_fails
#print axioms Verif.Term.C275_case
#print axioms Verif.Term.C276_partial
#print axioms Verif.Term.C276_joined_fails
#print axioms Verif.Term.C276_case
#print axioms Verif.Term.C277_partial
#print axioms Verif.Term.C277_node_partial
#print axioms Verif.Term.C277_clear
#print axioms Verif.Term.C277_data_fails
#print axioms Verif.Term.C277_bare_partial
#print axioms Verif.Term.C277_bare_case
#print axioms Verif.Term.C277_heading_fails
#print axioms Verif.Term.C277_case
#print axioms Verif.Term.C278_partial
#print axioms Verif.Term.C278_zero_fails
#print axioms Verif.Term.C278_case
#print axioms Verif.Term.C279_partial
#print axioms Verif.Term.C279_code_fails
#print axioms Verif.Term.C279_break_fails
#print axioms Verif.Term.C279_nested_fails
#print axioms Verif.Term.C279_nested_case
#print axioms Verif.Term.C279_case
#print axioms Verif.Emoji.C28_best
#print axioms Verif.Man.C280_partial
#print axioms Verif.Man.C280_empty_line_fails
#print axioms Verif.Man.C280_item_fails
#print axioms Verif.Man.C280_case
#print axioms Verif.Term.C281_partial
#print axioms Verif.Term.C281_greater_fails
#print axioms Verif.Term.C281_case
#print axioms Verif.Man.C282_partial
#print axioms Verif.Man.C282_item_fails
#print axioms Verif.Man.C282_case
#print axioms Verif.Man.C283_partial
#print axioms Verif.Man.C283_nested_fails
#print axioms Verif.Man.C283_case
#print axioms Verif.Man.C284_partial
#print axioms Verif.Man.C284_level_fails
#print axioms Verif.Man.C284_quote_fails
#print axioms Verif.Man.C284_case
#print axioms Verif.ManHtml.C285_heading_partial
#print axioms Verif.ManHtml.C285_list_partial
#print axioms Verif.ManHtml.C285_level_fails
#print axioms Verif.ManHtml.C285_number_fails
#print axioms Verif.ManHtml.C285_case
#print axioms Verif.Term.C286_partial
#print axioms Verif.Term.C286_indent_fails
#print axioms Verif.Term.C286_case
#print axioms Verif.Term.C287_partial
#print axioms Verif.Term.C287_line_fails
#print axioms Verif.Term.C287_case
#print axioms Verif.Term.C288_partial
#print axioms Verif.Term.C288_default_partial
#print axioms Verif.Term.C288_level_fails
#print axioms Verif.Term.C288_case
#print axioms Verif.Plugins.C29_sorted
#print axioms Verif.Plugins.C29_smaller_first
#print axioms Verif.Plugins.C30_first_wins
#print axioms Verif.Plugins.C30_not_displaced
#print axioms Verif.Plugins.C30_project_first
#print axioms Verif.Plugins.C30_user_last
#print axioms Verif.Plugins.C30_dirs
#print axioms Verif.Plugins.C30_dirs_outside
#print axioms Verif.Plugins.C31_fold_partial
#print axioms Verif.Plugins.C31_changes_partial
#print axioms Verif.Plugins.C31_failure_erases_text
#print axioms Verif.Filters.C32_strict
#print axioms Verif.Filters.C32_lenient_partial
#print axioms Verif.Filters.C32_taken
#print axioms Verif.Filters.C32_empty_answer_ignored
#print axioms Verif.Wiki.C33_sanitised
#print axioms Verif.Wiki.C33_basic
#print axioms Verif.Wiki.C34_split
#print axioms Verif.Wiki.C34_one_line
#print axioms Verif.Wiki.C34_content
#print axioms Verif.Wiki.C34_tree
#print axioms Verif.HeaderIds.C35_gfm_partial
#print axioms Verif.HeaderIds.C35_gfm_words_partial
#print axioms Verif.HeaderIds.C35_gfm_safe_partial
#print axioms Verif.HeaderIds.C35_overflow
#print axioms Verif.HeaderIds.C35_mmd_partial
#print axioms Verif.HeaderIds.C35_kramdown_partial
#print axioms Verif.HeaderIds.C35_read_past_end
#print axioms Verif.HtmlPass.C36_levels_partial
#print axioms Verif.HtmlPass.C36_other_levels
#print axioms Verif.HtmlPass.C36_closing
#print axioms Verif.HtmlPass.C36_above
#print axioms Verif.HtmlPass.C37_shift_partial
#print axioms Verif.HtmlPass.C37_two_levels
#print axioms Verif.HtmlPass.C38_gaps_partial
#print axioms Verif.HtmlPass.C38_reads_past
#print axioms Verif.HtmlPass.C39_clean
#print axioms Verif.HtmlPass.C40_blank_lines
#print axioms Verif.HtmlPass.C41_paragraphs
#print axioms Verif.HtmlPass.C41_nothing
#print axioms Verif.Critic.C42_read
#print axioms Verif.Critic.C42_accept_partial
#print axioms Verif.Critic.C42_reject_partial
#print axioms Verif.Critic.C42_empty
#print axioms Verif.Highlight.C43_read
#print axioms Verif.Highlight.C43_highlight_partial
#print axioms Verif.Highlight.C43_insert_partial
#print axioms Verif.Highlight.C43_unmarked_partial
#print axioms Verif.Highlight.C43_unbalanced
#print axioms Verif.Highlight.C43_overflow
#print axioms Verif.Highlight.C43_empty
#print axioms Verif.Highlight.C43_read_past_end
#print axioms Verif.Markers.C44_read
#print axioms Verif.Markers.C44_exact_partial
#print axioms Verif.Markers.C44_no_page_break_partial
#print axioms Verif.Markers.C44_unmarked_partial
#print axioms Verif.Markers.C44_page_break_overflow
#print axioms Verif.Markers.C44_lost_text
#print axioms Verif.Markers.C44_index_leak
#print axioms Verif.Markers.C44_empty
#print axioms Verif.Address.C45_range_partial
#print axioms Verif.Address.C45_open_partial
#print axioms Verif.Address.C45_no_prefix
#print axioms Verif.Address.C45_single
#print axioms Verif.Address.C45_safe
#print axioms Verif.Address.C45_file
#print axioms Verif.Address.C45_lost_last
#print axioms Verif.Address.C45_backwards
#print axioms Verif.Address.C45_lost_line
#print axioms Verif.Csv.C46_read
#print axioms Verif.Csv.C46_exact
#print axioms Verif.Csv.C46_rectangular_partial
#print axioms Verif.Csv.C46_overflow
#print axioms Verif.Csv.C46_blank_lines
#print axioms Verif.Csv.C46_pipe
#print axioms Verif.Csv.C46_quotes
#print axioms Verif.Includes.C47_terminates_partial
#print axioms Verif.Includes.C47_deterministic
#print axioms Verif.Includes.C47_depth
#print axioms Verif.Includes.C47_loops
#print axioms Verif.Ial.C48_merge
#print axioms Verif.Ial.C49_partial
#print axioms Verif.Ial.C49_exact
#print axioms Verif.Ial.C49_stray
#print axioms Verif.Ial.C50_alds_partial
#print axioms Verif.Abbr.C50_abbr_partial
#print axioms Verif.Ial.C50_alds_cut
#print axioms Verif.Ial.C50_colon
#print axioms Verif.Ial.C50_behind
#print axioms Verif.Ial.C50_code
#print axioms Verif.Abbr.C50_abbr_cut
#print axioms Verif.Abbr.C50_abbr_code
#print axioms Verif.FootHash.C51_hash
#print axioms Verif.FootHash.C51_insert_partial
#print axioms Verif.FootHash.C51_insert_exists
#print axioms Verif.FootHash.C51_overrun
#print axioms Verif.Pretty.C52_no_gap
#print axioms Verif.Pretty.C52_only_newlines
#print axioms Verif.Pretty.C52_keeps
#print axioms Verif.Pretty.C52_idempotent
#print axioms Verif.Options.C53_commonmark
#print axioms Verif.Options.C53_gfm
#print axioms Verif.Options.C53_raw_html
#print axioms Verif.Options.C53_commonmark_all
#print axioms Verif.Options.C53_metadata
#print axioms Verif.Options.C53_first
#print axioms Verif.GrowBuf.C54_serializer_buffer
#print axioms Verif.GrowBuf.C54_json_buffer
#print axioms Verif.Man.C55_requests
#print axioms Verif.Man.C56_history_partial
#print axioms Verif.Man.C56_history_leaks
#print axioms Verif.Man.C57_printed_text
#print axioms Verif.Man.C57_injective
#print axioms Verif.Man.C58_title_partial
#print axioms Verif.Man.C58_first_heading
#print axioms Verif.Man.C58_no_heading
#print axioms Verif.Man.C58_quote_splits_title
#print axioms Verif.Transforms.C59_prefix_suffix
#print axioms Verif.Transforms.C59_remove
#print axioms Verif.Transforms.C59_substring
#print axioms Verif.Transforms.C59_repeat_partial
#print axioms Verif.Transforms.C59_repeat_ub
#print axioms Verif.Transforms.C59_join
#print axioms Verif.Transforms.C59_slice_partial
#print axioms Verif.Transforms.C60_regex_replace_partial
#print axioms Verif.Transforms.C60_regex_hangs
#print axioms Verif.Transforms.C60_regex_ub
#print axioms Verif.Transforms.C61_chain_partial
#print axioms Verif.Transforms.C61_split_join_chain
#print axioms Verif.Transforms.C61_failure
#print axioms Verif.Transforms.C61_first_last
#print axioms Verif.Transforms.C61_not_composition
#print axioms Verif.MetaParse.C62_round_trip_partial
#print axioms Verif.MetaParse.C62_fails
#print axioms Verif.Emoji.C63_autocorrect_partial
#print axioms Verif.Emoji.C63_autocorrect
#print axioms Verif.Emoji.C63_fixed
#print axioms Verif.Emoji.C63_fails
#print axioms Verif.Emoji.C64_replace_partial
#print axioms Verif.Emoji.C64_replaced_exists
#print axioms Verif.Emoji.C64_safe
#print axioms Verif.Emoji.C64_text_lost
#print axioms Verif.Plugins.C65_regex_partial
#print axioms Verif.Plugins.C65_unique
#print axioms Verif.Plugins.C65_anchors_repeat
#print axioms Verif.Filters.C66_buffer
#print axioms Verif.Filters.C66_stops
#print axioms Verif.Filters.C66_exchange_partial
#print axioms Verif.Filters.C66_hangs
#print axioms Verif.Plugins.C67_request_partial
#print axioms Verif.Plugins.C67_id_injection
#print axioms Verif.Plugins.C67_id_control
#print axioms Verif.Plugins.C68_manifest
#print axioms Verif.Plugins.C68_unknown_phase
#print axioms Verif.Man.C69_fragment_fonts_partial
#print axioms Verif.Man.C69_em_ignored
#print axioms Verif.Man.C69_nested_strong
#print axioms Verif.Man.C70_fonts_partial
#print axioms Verif.Man.C70_nested_wrong
#print axioms Verif.HeaderIds.C71_case_partial
#print axioms Verif.HeaderIds.C71_accents
#print axioms Verif.HeaderIds.C72_manual
#print axioms Verif.HeaderIds.C72_unique
#print axioms Verif.HeaderIds.C73_used_partial
#print axioms Verif.HeaderIds.C73_generated
#print axioms Verif.HeaderIds.C73_quote
#print axioms Verif.HeaderIds.C73_other_attribute
#print axioms Verif.HeaderIds.C74_heading_text_partial
#print axioms Verif.HeaderIds.C74_long_headings
#print axioms Verif.Critic.C75_shown_partial
#print axioms Verif.Critic.C75_lost
#print axioms Verif.Critic.C75_lost_long
#print axioms Verif.Markers.C76_index_kept
#print axioms Verif.Markers.C76_index_end_partial
#print axioms Verif.SupSub.C77_keeps
#print axioms Verif.SupSub.C77_plain
#print axioms Verif.SupSub.C77_sup
#print axioms Verif.SupSub.C77_sub
#print axioms Verif.SupSub.C77_under
#print axioms Verif.SupSub.C77_code
#print axioms Verif.SupSub.C77_math
#print axioms Verif.SupSub.C77_liquid
#print axioms Verif.SupSub.C77_dollar
#print axioms Verif.Address.C78_between_partial
#print axioms Verif.Address.C78_open_partial
#print axioms Verif.Address.C78_one_partial
#print axioms Verif.Address.C78_absent
#print axioms Verif.Address.C78_same
#print axioms Verif.Address.C79_prefix
#print axioms Verif.Includes.C80_quiet_partial
#print axioms Verif.Includes.C80_fence
#print axioms Verif.Includes.C81_code_partial
#print axioms Verif.Includes.C81_double
#print axioms Verif.Includes.C82_braces_partial
#print axioms Verif.Includes.C82_marked_partial
#print axioms Verif.Includes.C82_slash_partial
#print axioms Verif.Includes.C82_slash_block_partial
#print axioms Verif.Includes.C82_types
#print axioms Verif.Includes.C82_language
#print axioms Verif.Includes.C82_code_partial
#print axioms Verif.Includes.C82_dropped
#print axioms Verif.Includes.C82_overflow
#print axioms Verif.Includes.C82_overflow_case
#print axioms Verif.Includes.C83_braces_partial
#print axioms Verif.Includes.C83_marked
#print axioms Verif.Includes.C84_raw
#print axioms Verif.Includes.C85_wildcard
#print axioms Verif.Includes.C85_preference
#print axioms Verif.Includes.C86_top_partial
#print axioms Verif.Includes.C86_twice
#print axioms Verif.Includes.C86_not_found
#print axioms Verif.Ial.C87_meaning_partial
#print axioms Verif.Ial.C87_case
#print axioms Verif.Ial.C87_escape
#print axioms Verif.Ial.C87_long
#print axioms Verif.Ial.C88_name_partial
#print axioms Verif.Ial.C88_lost
#print axioms Verif.Ial.C88_case
#print axioms Verif.Ial.C89_html_partial
#print axioms Verif.Ial.C89_sizes
#print axioms Verif.Ial.C89_quote
#print axioms Verif.Ial.C89_cut
#print axioms Verif.Ial.C89_digits
#print axioms Verif.Ial.C89_style
#print axioms Verif.Abbr.C90_extract_partial
#print axioms Verif.Abbr.C90_reads
#print axioms Verif.Abbr.C90_lost
#print axioms Verif.Abbr.C90_empty
#print axioms Verif.Abbr.C91_marks_partial
#print axioms Verif.Abbr.C91_marks_exist
#print axioms Verif.Abbr.C91_none
#print axioms Verif.Abbr.C91_lost
#print axioms Verif.Abbr.C91_overrun
#print axioms Verif.Abbr.C91_attribute
#print axioms Verif.Abbr.C91_array
#print axioms Verif.Abbr.C92_terminates_partial
#print axioms Verif.Abbr.C92_loops
#print axioms Verif.Abbr.C92_loops_text
#print axioms Verif.FootHash.C93_short_partial
#print axioms Verif.FootHash.C93_collide
#print axioms Verif.FootHash.C93_case
#print axioms Verif.Pretty.C94_partial
#print axioms Verif.Pretty.C94_small_partial
#print axioms Verif.Pretty.C94_lost_tag
#print axioms Verif.Pretty.C94_empty
#print axioms Verif.Pretty.C94_not_idempotent
#print axioms Verif.Pretty.C95_partial
#print axioms Verif.Pretty.C95_blank_lines
#print axioms Verif.Pretty.C95_indented
#print axioms Verif.Options.C96_partial
#print axioms Verif.Options.C96_cells
#print axioms Verif.Options.C96_emoji
#print axioms Verif.Options.C96_sanitize
#print axioms Verif.Options.C97_plugins
#print axioms Verif.Options.C97_partial
#print axioms Verif.Options.C97_raw_html
#print axioms Verif.Options.C97_format
#print axioms Verif.Options.C97_css
#print axioms Verif.Options.C97_directory
#print axioms Verif.Options.C98_partial
#print axioms Verif.Options.C98_behind
#print axioms Verif.Options.C98_before
#print axioms Verif.Options.C98_pretty
#print axioms Verif.Options.C99_partial
#print axioms Verif.Options.C99_differs
