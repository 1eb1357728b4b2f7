{"claims": [
{"property": "C01", "status": "proved", "theorems": ["Verif.Utf8.C01_validate_exact", "Verif.Utf8.C01_valid_start"], "note": ""},
{"property": "C02", "status": "proved", "theorems": ["Verif.Utf8.C02_validate_append"], "note": ""},
{"property": "C03", "status": "partial", "theorems": ["Verif.Utf8.C03_wellformed_accepted_partial", "Verif.Utf8.C03_overlong_accepted"], "note": "false as stated: overlong forms are accepted; the other direction is proved"},
{"property": "C04", "status": "proved", "theorems": ["Verif.Buffer.C04_history"], "note": ""},
{"property": "C05", "status": "partial", "theorems": ["Verif.Buffer.C05_detach_partial", "Verif.Buffer.C05_append_after_detach_hangs", "Verif.Buffer.C05_append_after_free_hangs"], "note": "false as stated: any append to a detached or freed buffer loops for ever"},
{"property": "C06", "status": "proved", "theorems": ["Verif.Escape.C06_escape_html"], "note": ""},
{"property": "C07", "status": "proved", "theorems": ["Verif.Escape.C07_man_html_escape", "Verif.Escape.C07_man_html_injective"], "note": ""},
{"property": "C08", "status": "proved", "theorems": ["Verif.Escape.C08_json_escape"], "note": ""},
{"property": "C09", "status": "partial", "theorems": ["Verif.Escape.C09_json_write_read", "Verif.Escape.C09_json_round_trip_partial", "Verif.Escape.C09_fails"], "note": "false for control characters other than newline, return, tab: the reader turns \\uXXXX into '?'"},
{"property": "C10", "status": "proved", "theorems": ["Verif.Man.C10_text_starts_no_request"], "note": ""},
{"property": "C100", "status": "partial", "theorems": ["Verif.FrontMatter.C100_safe", "Verif.FrontMatter.C100_partial", "Verif.FrontMatter.C100_lookup", "Verif.FrontMatter.C100_gfm", "Verif.FrontMatter.C100_mode", "Verif.FrontMatter.C100_values"], "note": "Proved for entries that fit a line, read without libyaml, in the modes with metadata. False as stated: in GFM and CommonMark mode the written front matter is rendered as text, also when the document itself asks for the mode; values in single quotes or of several lines change."},
{"property": "C101", "status": "partial", "theorems": ["Verif.Toc.C101_entries_partial", "Verif.Toc.C101_safe", "Verif.Toc.C101_headings", "Verif.Toc.C101_long_table", "Verif.Toc.C101_long_entry", "Verif.Toc.C101_unescaped"], "note": "Proved for tables of up to 4096 bytes with entries of up to 1000. False as stated: entries of larger tables are left out, long ones are cut, text is not escaped, and any attribute that contains no_toc hides a heading."},
{"property": "C102", "status": "partial", "theorems": ["Verif.Toc.C102_outline_partial", "Verif.Toc.C102_strict_partial", "Verif.Toc.C102_skipped"], "note": "Proved for levels that start at one and go down in steps of one. False as stated: documents that start at level two or skip a level are nested wrongly, and going up leaves items open."},
{"property": "C103", "status": "partial", "theorems": ["Verif.Toc.C103_range", "Verif.Toc.C103_words_partial", "Verif.Toc.C103_bare_partial", "Verif.Toc.C103_rest_of_page"], "note": "Proved for ranges, and for other markers when the rest of the page has no colon, max or min. False as stated: the rest of the page is read too."},
{"property": "C104", "status": "partial", "theorems": ["Verif.Toc.C104_only_marker", "Verif.Toc.C104_code", "Verif.Toc.C104_replaced_partial", "Verif.Toc.C104_places"], "note": "Proved: nothing else changes, markers in code stay, the first marker is replaced when no code precedes it. False as stated: later markers stay, markers in attributes are replaced, comments that mention code hide them."},
{"property": "C105", "status": "partial", "theorems": ["Verif.Toc.C105_links_partial", "Verif.Toc.C105_other_ids"], "note": "Proved for headings without a stored id. False as stated: ids of their own are ignored, and headings with the same text share an id."},
{"property": "C106", "status": "partial", "theorems": ["Verif.InjectIds.C106_named_partial", "Verif.InjectIds.C106_safe", "Verif.InjectIds.C106_unique", "Verif.InjectIds.C106_double", "Verif.InjectIds.C106_raw", "Verif.InjectIds.C106_other_attribute", "Verif.InjectIds.C106_long"], "note": "Proved for pages whose headings have no id yet and ids of up to 94 bytes. False as stated: a heading that has an id counts twice, so that the next one gets a wrong id or none; headings in raw HTML take ids; attributes ending in id are overwritten; long ids are cut."},
{"property": "C107", "status": "partial", "theorems": ["Verif.InjectIds.C107_anchors_partial", "Verif.InjectIds.C106_safe", "Verif.InjectIds.C107_lost"], "note": "Proved for ids of up to 22 bytes. False as stated: with longer ids the end of the page is lost."},
{"property": "C108", "status": "partial", "theorems": ["Verif.Options.C108_flags", "Verif.Options.C108_choices", "Verif.Options.C108_bibliography", "Verif.Options.C108_css_partial", "Verif.Options.C97_css"], "note": "Proved for the flags without a value, the listed values and --bibliography, in every state. --css is proved for metadata without css and style; with it the statement is false (C97_css). Not covered: --script, --filter and other flags that do not concern the options."},
{"property": "C109", "status": "partial", "theorems": ["Verif.Options.C109_partial", "Verif.Options.C109_meta", "Verif.Options.C109_swallow"], "note": "Proved for all arguments that do not begin with --meta. False for those: --metadat is taken for --meta. The program ends is the outcome none of parseArgs."},
{"property": "C11", "status": "partial", "theorems": ["Verif.Man.C11_finishes_iff", "Verif.Man.C11_never_returns", "Verif.Man.C11_ampersand_hangs", "Verif.Man.C11_fragment_partial", "Verif.Man.C11_apostrophe_starts_request"], "note": "false as stated: exact condition for finishing proved, both halves refuted by witnesses"},
{"property": "C110", "status": "partial", "theorems": ["Verif.Pretty.C110_partial", "Verif.Pretty.C110_image", "Verif.Pretty.C110_strong"], "note": "Proved for lines of text that begin with a character, with any elements of text behind it, as long as no turn writes a hundred bytes. False for lines that begin with an element or an image."},
{"property": "C111", "status": "partial", "theorems": ["Verif.Obfuscate.C111_safe", "Verif.Obfuscate.C111_ub", "Verif.Obfuscate.C111_decode_partial", "Verif.Obfuscate.C111_links", "Verif.Obfuscate.C111_other", "Verif.Obfuscate.C111_accent", "Verif.Obfuscate.C111_reference"], "note": "Holds for pages of ASCII text without references and, exactly, for pages made of any number of links as the renderer writes them. False: non-ASCII bytes become characters of their own, references in a link are shown literally, and a page that ends in the `>` of a mail link is read behind its end."},
{"property": "C112", "status": "partial", "theorems": ["Verif.Obfuscate.C112_partial", "Verif.Obfuscate.C112_title", "Verif.Obfuscate.C112_quotes"], "note": "Holds for links as the renderer writes them without a title; false for titles, single quotes and capital letters."},
{"property": "C113", "status": "partial", "theorems": ["Verif.HrBreak.C113_cut", "Verif.HrBreak.C113_rules", "Verif.HrBreak.C113_gone", "Verif.HrBreak.C113_twice", "Verif.HrBreak.C113_lookalike"], "note": "Proved for every page, with a rule taken to be `<hr` up to the next `>`. Such a text need not be a rule: other element names, comments and a `>` in an attribute are the refuting cases of C113_lookalike."},
{"property": "C114", "status": "partial", "theorems": ["Verif.SepRows.C114_rows", "Verif.SepRows.C114_outside", "Verif.SepRows.C114_partial", "Verif.SepRows.C114_dashy", "Verif.SepRows.C114_unclosed", "Verif.SepRows.C114_data"], "note": "Exact for pages of well-formed tables; for every page only whole rows are removed. False for rows with unclosed cells and for data rows made of dashes."},
{"property": "C115", "status": "partial", "theorems": ["Verif.Fences.C115_every", "Verif.Fences.C115_lines", "Verif.Fences.C115_one", "Verif.Fences.C115_partial", "Verif.Fences.C115_early", "Verif.Fences.C115_tildes"], "note": "Exact for every sequence of lines. Blocks keep matching unless a block fenced with an even number of backticks holds a line one longer; lines of backticks in blocks fenced with tildes are changed. Both failures are proved."},
{"property": "C116", "status": "proved", "theorems": ["Verif.Options.C116_texts", "Verif.Options.C116_words", "Verif.Options.C116_meta"], "note": "For the last metadata item of a document, whatever precedes it and whatever the case of key and word."},
{"property": "C117", "status": "partial", "theorems": ["Verif.Pretty.C117_partial", "Verif.Pretty.C117_small_partial", "Verif.Pretty.C117_form", "Verif.Pretty.C117_element"], "note": "Exact for pages of block elements, texts and line ends whose texts begin with a character, as long as no turn writes a hundred bytes; preformatted text is the subject of C95. False for texts that begin with an element and for elements that are not in the list of blocks."},
{"property": "C118", "status": "partial", "theorems": ["Verif.AstJson.C118_exact", "Verif.AstJson.C118_partial", "Verif.AstJson.C118_cat", "Verif.AstJson.C118_inlines_fails", "Verif.AstJson.C118_link_fails", "Verif.AstJson.C118_code_fails", "Verif.AstJson.C118_list_fails"], "note": "Exact for every document: what comes back is computed by a specification, and the documents that come back unchanged are characterised. False in general: only the first inline of a paragraph comes back, links are lost, a code block cuts the rest, a list in front of another block makes the conversion fail."},
{"property": "C119", "status": "partial", "theorems": ["Verif.AstJson.C119_exact", "Verif.AstJson.C119_partial", "Verif.AstJson.C119_code_fails", "Verif.AstJson.C119_ordered_fails"], "note": "Exact: the output is JSON if and only if the document has neither numbered lists nor code blocks (other than in the language inc)."},
{"property": "C12", "status": "proved", "theorems": ["Verif.Escape.C12_markdown_escape"], "note": ""},
{"property": "C120", "status": "partial", "theorems": ["Verif.AstJson.C120_skip", "Verif.AstJson.C120_members_partial", "Verif.AstJson.C120_escape_fails", "Verif.AstJson.C120_space_fails", "Verif.AstJson.C120_emph_fails", "Verif.AstJson.C120_div_fails", "Verif.AstJson.C120_rule_fails"], "note": "Proved for additional members with any values around blocks in the form apex writes. False for escapes, and for spaces, emphasis, Div and rules in Pandoc's form."},
{"property": "C121", "status": "partial", "theorems": ["Verif.InlineNotes.C121_partial", "Verif.InlineNotes.C121_long_partial", "Verif.InlineNotes.C121_labels", "Verif.InlineNotes.C121_lost_fails", "Verif.InlineNotes.C121_overflow", "Verif.InlineNotes.C121_empty", "Verif.InlineNotes.C121_clash_fails"], "note": "For documents of pieces whose result is less than three times as long, in particular when no footnote is very short. False otherwise: texts of short footnotes are lost, an empty footnote writes behind the buffer, labels of the document are defined twice."},
{"property": "C122", "status": "partial", "theorems": ["Verif.InlineNotes.C122_partial", "Verif.InlineNotes.C122_double_fails", "Verif.InlineNotes.C122_tildes_fails", "Verif.InlineNotes.C122_indented_fails", "Verif.InlineNotes.C122_tick_fails"], "note": "For code between single backticks and blocks fenced with three bytes. False for double backticks, four tildes, indented code, and text behind an unmatched backtick."},
{"property": "C123", "status": "partial", "theorems": ["Verif.InlineTables.C123_result", "Verif.InlineTables.C123_either", "Verif.InlineTables.C123_partial", "Verif.InlineTables.C123_marked_partial", "Verif.InlineTables.C123_untouched", "Verif.InlineTables.C123_overflow", "Verif.InlineTables.C123_overflow_not", "Verif.InlineTables.C123_tildes_fails", "Verif.InlineTables.C123_span_fails", "Verif.InlineTables.C123_tail_fails"], "note": "Exact up to the overflow of the buffer, which happens for tables of just the wrong size; excluded by a bound on the result, and without table blocks. False for table blocks in code fenced with tildes and for markers in code."},
{"property": "C124", "status": "partial", "theorems": ["Verif.Callouts.C124_partial", "Verif.Callouts.C124_short", "Verif.Callouts.C124_others", "Verif.Callouts.C124_title_fails", "Verif.Callouts.C124_long_fails", "Verif.Callouts.C124_nested_fails"], "note": "For titles whose HTML fits into the buffer of 1024 bytes. False for longer ones, for titles with markup characters, and for callouts in callouts."},
{"property": "C125", "status": "partial", "theorems": ["Verif.Math.C125_partial", "Verif.Math.C125_unique", "Verif.Math.C125_money", "Verif.Math.C125_alone", "Verif.Math.C125_money_fails", "Verif.Math.C125_markup_fails", "Verif.Math.C125_backslash_fails"], "note": "Exact description of what is read as math. False: the body is not escaped, two amounts without a blank in front of the second are math, an escaped backslash in front of the closing dollar sign hides it."},
{"property": "C126", "status": "partial", "theorems": ["Verif.Embed.C126_pages", "Verif.Embed.C126_partial", "Verif.Embed.C126_untouched", "Verif.Embed.C126_none", "Verif.Embed.C126_one", "Verif.Embed.C126_overflow", "Verif.Embed.C126_lost_fails", "Verif.Embed.C126_blank_fails", "Verif.Embed.C126_other_fails", "Verif.Embed.C126_alt_fails"], "note": "For results below three times the page plus 1024 bytes; for one image the exact condition. Otherwise text is lost or one byte is written behind the buffer. False also for names with blanks, attributes ending in src, and > in attributes."},
{"property": "C127", "status": "partial", "theorems": ["Verif.Embed.C127_partial", "Verif.Embed.C127_known", "Verif.Embed.C127_fails"], "note": "Exact description for every path. Files with other extensions are called PNG."},
{"property": "C128", "status": "partial", "theorems": ["Verif.Widont.C128_pages", "Verif.Widont.C128_partial", "Verif.Widont.C128_none", "Verif.Widont.C128_shown", "Verif.Widont.C128_markup_fails", "Verif.Widont.C128_line_fails", "Verif.Widont.C128_overflow"], "note": "For headings of words without markup; in every page only blanks of headings change. False with markup in front of the last words and with line ends; in some pages one byte is written behind the buffer."},
{"property": "C129", "status": "partial", "theorems": ["Verif.ToMarkdown.C129_partial", "Verif.ToMarkdown.C129_image_fails", "Verif.ToMarkdown.C129_lost", "Verif.ToMarkdown.C129_escape_fails", "Verif.ToMarkdown.C129_code_fails", "Verif.ToMarkdown.C129_target_fails", "Verif.ToMarkdown.C129_strong_fails", "Verif.ToMarkdown.C129_toc_fails"], "note": "For texts, breaks, code, emphasis, links and images without a description, nested to any depth, where no mark runs into the next. Descriptions of images, inline HTML, footnote references and strikethrough are lost; < and & are not escaped."},
{"property": "C13", "status": "partial", "theorems": ["Verif.Escape.C13_hex_entities_partial", "Verif.Escape.C13_non_ascii"], "note": "decoding gives the original for ASCII; refuted for non-ASCII addresses"},
{"property": "C130", "status": "partial", "theorems": ["Verif.ToMarkdown.C130_partial", "Verif.ToMarkdown.C130_no_code", "Verif.ToMarkdown.C130_code_fails", "Verif.ToMarkdown.C130_fence_fails", "Verif.ToMarkdown.C130_table_fails", "Verif.ToMarkdown.C130_quote_fails", "Verif.ToMarkdown.C130_list_fails", "Verif.ToMarkdown.C130_start_fails", "Verif.ToMarkdown.C130_heading_fails"], "note": "For documents of paragraphs, headings, rules, HTML, code, quotes of one paragraph and lists of single paragraphs, with an empty line more in each block of code. Tables are lost, nested lists are flattened, paragraphs of a quote run together."},
{"property": "C131", "status": "partial", "theorems": ["Verif.FencedDivs.C131_partial", "Verif.FencedDivs.C131_nested", "Verif.FencedDivs.C131_fences", "Verif.FencedDivs.C131_cut_fails", "Verif.FencedDivs.C131_end_fails", "Verif.FencedDivs.C131_element_fails", "Verif.FencedDivs.C131_return_fails", "Verif.FencedDivs.C131_empty_fails", "Verif.FencedDivs.C131_brace_fails", "Verif.FencedDivs.C131_code_fails", "Verif.FencedDivs.C131_line_fails", "Verif.FencedDivs.C131_quote_fails", "Verif.FencedDivs.C131_dot_fails", "Verif.FencedDivs.C131_id_fails"], "note": "For pages less than twice as long as the text. In general the result is the properly nested page, or that page cut off in front of the end of a tag, or bytes are written behind the block. Fences in code are converted too, and the end of the line of a closing fence is lost."},
{"property": "C132", "status": "partial", "theorems": ["Verif.FencedDivs.C132_partial", "Verif.FencedDivs.C132_same", "Verif.FencedDivs.C132_inner_fails", "Verif.FencedDivs.C132_twice_fails", "Verif.FencedDivs.C132_open_fails", "Verif.FencedDivs.C132_comment_fails", "Verif.FencedDivs.C132_name_fails"], "note": "For names of up to 33 bytes and elements that hold no other wrapped element. Inner custom elements stay divs; with 13 elements with names of 127 bytes a tag is written behind the block."},
{"property": "C133", "status": "partial", "theorems": ["Verif.Liquid.C133_partial", "Verif.Liquid.C133_protect", "Verif.Liquid.C133_restore_total", "Verif.Liquid.C133_page", "Verif.Liquid.C133_digit_fails", "Verif.Liquid.C133_other_fails", "Verif.Liquid.C133_literal_fails", "Verif.Liquid.C133_wrap_fails", "Verif.Liquid.C133_id_fails", "Verif.Liquid.C133_code_fails"], "note": "Proved for every text without the beginning of a placeholder and without a digit directly behind a %}; refuted for both, for identifiers of headings and for code (tags come back without escapes)."},
{"property": "C134", "status": "partial", "theorems": ["Verif.AlphaLists.C134_partial", "Verif.AlphaLists.C134_text", "Verif.AlphaLists.C134_plain", "Verif.AlphaLists.C134_full_fails", "Verif.AlphaLists.C134_empty_fails", "Verif.AlphaLists.C134_mark_fails", "Verif.AlphaLists.C134_cut_fails", "Verif.AlphaLists.C134_number_fails", "Verif.AlphaLists.C134_paragraph_fails", "Verif.AlphaLists.C134_code_fails", "Verif.AlphaLists.C134_return_fails"], "note": "Proved for every text whose result is shorter than three times the text and has no long number directly behind a list; refuted for short lists (write behind the block, lost text, lost mark), the empty text, long numbers, lists directly behind a paragraph, code and carriage returns."},
{"property": "C135", "status": "partial", "theorems": ["Verif.AlphaLists.C135_partial", "Verif.AlphaLists.C135_pages", "Verif.AlphaLists.C135_lists", "Verif.AlphaLists.C135_end_fails", "Verif.AlphaLists.C135_full_fails", "Verif.AlphaLists.C135_long_fails", "Verif.AlphaLists.C135_second_fails", "Verif.AlphaLists.C135_close_fails"], "note": "Exact result for every page: the marks become styles unless the page ends with a mark (read behind the page) or grows by exactly 1024 bytes (write behind the block); the byte behind a mark is not looked at."},
{"property": "C136", "status": "partial", "theorems": ["Verif.Colspans.C136_partial", "Verif.Colspans.C136_lines", "Verif.Colspans.C136_total", "Verif.Colspans.C136_same", "Verif.Colspans.C136_prose_fails", "Verif.Colspans.C136_span_fails", "Verif.Colspans.C136_fence_fails", "Verif.Colspans.C136_indented_fails", "Verif.Colspans.C136_end_fails"], "note": "Exact result for every text, and no write behind the block; refuted for sentences, code in a line, code by indentation and code with a fence of the other kind inside."},
{"property": "C137", "status": "proved", "theorems": ["Verif.Autolinks.C137_pieces", "Verif.Autolinks.C137_plain"], "note": "For every text, no writes behind the block, termination, and the exact shape of the result."},
{"property": "C138", "status": "partial", "theorems": ["Verif.Autolinks.C138_documents_partial", "Verif.Autolinks.sample_ok", "Verif.Autolinks.C138_link_refuted", "Verif.Autolinks.C138_text_refuted", "Verif.Autolinks.C138_attribute_refuted", "Verif.Autolinks.C138_code_refuted", "Verif.Autolinks.C138_word_refuted"], "note": "Exact result for documents of words, angle brackets, comments, code, links, Liquid tags and HTML tags; refuted for links to mail addresses, addresses in the text of links, mail addresses and unquoted addresses in attributes, code in double backticks or fenced with tildes, and emphasised addresses."},
{"property": "C139", "status": "partial", "theorems": ["Verif.EmojiHtml.C139_page_partial", "Verif.EmojiHtml.C139_fits_partial", "Verif.EmojiHtml.sample_ok", "Verif.EmojiHtml.C139_empty_refuted", "Verif.EmojiHtml.C139_image_refuted", "Verif.EmojiHtml.C139_colon_refuted", "Verif.EmojiHtml.C139_code_refuted", "Verif.EmojiHtml.C139_second_refuted", "Verif.EmojiHtml.C139_heading_refuted"], "note": "For every page whose colons in images are in attributes, without tags like <1h>, and with a result shorter than three times the page. Refuted in general: the empty page and large images write behind the block, a colon in an image can make it read behind the page, names in code are replaced, and a name right behind an unknown one is not."},
{"property": "C14", "status": "partial", "theorems": ["Verif.Base64.C14_decodes", "Verif.Base64.C14_base64_partial", "Verif.Base64.C14_fails"], "note": "false for every length above 3 that is no multiple of 3"},
{"property": "C140", "status": "proved", "theorems": ["Verif.EmojiHtml.C140_name", "Verif.EmojiHtml.C140_back"], "note": "For all tables and all emoji."},
{"property": "C141", "status": "proved", "theorems": ["Verif.TableCaptions.C141_lines", "Verif.TableCaptions.C141_visible"], "note": "For every text."},
{"property": "C142", "status": "partial", "theorems": ["Verif.TableCaptions.C142_documents_partial", "Verif.TableCaptions.sample_ok", "Verif.TableCaptions.C142_sentence_refuted", "Verif.TableCaptions.C142_cell_refuted", "Verif.TableCaptions.C142_code_refuted", "Verif.TableCaptions.C142_merge_refuted", "Verif.TableCaptions.C142_link_refuted"], "note": "Exact result for documents of paragraphs, code and tables whose first lines do not look like captions; refuted for sentences and cells with the word table:, for code with a fence of the other kind, and for paragraphs that start with a link."},
{"property": "C143", "status": "proved", "theorems": ["Verif.Standalone.C143_links", "Verif.Standalone.C143_default", "Verif.Standalone.sample"], "note": "For all sizes; each text but the content below 2 GB, since snprintf returns an int."},
{"property": "C144", "status": "partial", "theorems": ["Verif.Standalone.C144_title_partial", "Verif.Standalone.C144_language_partial", "Verif.Standalone.C144_title_refuted", "Verif.Standalone.C144_reference_refuted", "Verif.Standalone.C144_closing_refuted", "Verif.Standalone.C144_width_refuted"], "note": "Titles without < and &, languages without quotation marks and &. Titles are not escaped, closing tags of the content are never removed, the default styles have 100%%."},
{"property": "C145", "status": "partial", "theorems": ["Verif.Standalone.C145_callers", "Verif.Standalone.C145_documents", "Verif.Standalone.C145_default", "Verif.Standalone.C145_embedded_partial", "Verif.Standalone.embedded_sample", "Verif.Standalone.C145_metadata_refuted", "Verif.Standalone.C145_freed_refuted", "Verif.Standalone.C145_nul_refuted"], "note": "The choice of stylesheets is proved; embedding for the caller's stylesheets. Embedding the stylesheet of the document always reads freed memory; an empty list of the caller is freed; a NUL in a stylesheet cuts the page."},
{"property": "C146", "status": "partial", "theorems": ["Verif.Standalone.C146_heading", "Verif.Standalone.C146_text_unique", "Verif.Standalone.heading_sample", "Verif.Standalone.C146_attribute_refuted", "Verif.Standalone.C146_comment_refuted"], "note": "For headings of text and tags without > in attributes; false for these and for headings in comments."},
{"property": "C147", "status": "proved", "theorems": ["Verif.Standalone.C147_snippet", "Verif.Standalone.C147_page", "Verif.Standalone.scripts_sample"], "note": "In pages with the default styles; the other pages differ in their stylesheets only (C145)."},
{"property": "C148", "status": "partial", "theorems": ["Verif.Poetry.C148_exact", "Verif.Poetry.C148_of_page", "Verif.Poetry.C148_plain_partial", "Verif.Poetry.C148_languages_partial", "Verif.Poetry.sample", "Verif.Poetry.C148_later_refuted", "Verif.Poetry.C148_class_refuted"], "note": "The exact result for every page; the claim holds for pages without languages and for blocks with one. A block in front of one with a language does not get the class; a block with another class gets a second attribute."},
{"property": "C149", "status": "partial", "theorems": ["Verif.RelaxedTables.C149_safe", "Verif.RelaxedTables.C149_page_partial", "Verif.RelaxedTables.C149_tables_partial", "Verif.RelaxedTables.C149_kept_partial", "Verif.RelaxedTables.C149_every", "Verif.RelaxedTables.C149_order_refuted", "Verif.RelaxedTables.C149_blank_line_refuted", "Verif.RelaxedTables.C149_code_refuted", "Verif.RelaxedTables.C149_regular_refuted", "Verif.RelaxedTables.C149_crlf_refuted", "Verif.RelaxedTables.C149_glued_refuted", "Verif.RelaxedTables.C149_example", "Verif.RelaxedTables.C149_example_tidy"], "note": "Memory safety for every text; the exact result for every document in which no blank line stands where the block is full; the claim itself for tidy documents. Single rows are moved behind blank lines, a blank line can get lost, code and tables with a separator are changed."},
{"property": "C15", "status": "proved", "theorems": ["Verif.Escape.C15_urlencode_urldecode", "Verif.Escape.C15_urldecode_total"], "note": ""},
{"property": "C150", "status": "partial", "theorems": ["Verif.RelaxedTables.C150_safe", "Verif.RelaxedTables.C150_heads_partial", "Verif.RelaxedTables.C150_short_partial", "Verif.RelaxedTables.C150_full_refuted", "Verif.RelaxedTables.C150_example"], "note": "Memory safety for every text; the exact result unless the new text fills the block, in which case the table stays without a header."},
{"property": "C151", "status": "partial", "theorems": ["Verif.RelaxedHeads.C151_edited", "Verif.RelaxedHeads.C151_plain", "Verif.RelaxedHeads.C151_partial", "Verif.RelaxedHeads.C151_sample_ok", "Verif.RelaxedHeads.C151_sample", "Verif.RelaxedHeads.C151_regular_refuted", "Verif.RelaxedHeads.C151_unclosed_refuted", "Verif.RelaxedHeads.C151_empty_page_refuted"], "note": "What can change is proved for every page but the empty one, the exact result for pages of tables as the renderer writes them. The header of a table with one body row is lost; the empty page is written outside its block."},
{"property": "C152", "status": "partial", "theorems": ["Verif.QuoteLang.C152_same", "Verif.QuoteLang.C152_unique", "Verif.QuoteLang.C152_replaced_partial", "Verif.QuoteLang.C152_entities_partial", "Verif.QuoteLang.C152_partly", "Verif.QuoteLang.C152_example", "Verif.QuoteLang.C152_other_example", "Verif.QuoteLang.C152_closing_refuted", "Verif.QuoteLang.C152_overflow_refuted", "Verif.QuoteLang.C152_empty_refuted"], "note": "Proved for pages whose result is shorter than twice the page, which is every page with entities only; a result is always the page with some marks replaced. In short pages with characters marks stay English, or the terminator is written behind the block."},
{"property": "C153", "status": "partial", "theorems": ["Verif.StripWrap.C153_freed_partial", "Verif.StripWrap.C153_unique", "Verif.StripWrap.C153_every_page", "Verif.StripWrap.C153_example", "Verif.StripWrap.C153_page_example", "Verif.StripWrap.C153_not_freed", "Verif.StripWrap.C153_text_lost"], "note": "The exact result for pages of tags without < and > in them whose figures are closed; what can be removed for every page. A stray closing tag, a line end behind img and an unclosed figure keep the paragraph; behind a closing tag without > the rest of the page is lost."},
{"property": "C154", "status": "partial", "theorems": ["Verif.StripWrap.C154_unwrapped_partial", "Verif.StripWrap.C154_unique", "Verif.StripWrap.C154_every_page", "Verif.StripWrap.C154_example", "Verif.StripWrap.C154_page_example", "Verif.StripWrap.C154_not_unwrapped"], "note": "The exact result for pages of tags without < and > in them, with elements of any depth; what can be removed for every page. A > in an attribute keeps the paragraph, and tags in comments are counted."},
{"property": "C155", "status": "partial", "theorems": ["Verif.Aria.C155_labelled_partial", "Verif.Aria.C155_one_result", "Verif.Aria.C155_bounded", "Verif.Aria.C155_many_figures_refuted", "Verif.Aria.C155_caption_below_refuted", "Verif.Aria.C155_single_quotes_refuted"], "note": "The exact result for pages of tags without < and > in them, if the attributes have no more than 2048 bytes; a result within the block for every page. With 147 figures content is lost; captions 200 bytes behind the start of their figure get no ID; IDs in single quotation marks run on."},
{"property": "C156", "status": "partial", "theorems": ["Verif.Index.C156_marked_partial", "Verif.Index.C156_numbers", "Verif.Index.C156_other_text", "Verif.Index.C156_example", "Verif.Index.C156_code_refuted", "Verif.Index.C156_word_refuted", "Verif.Index.C156_accent_refuted"], "note": "For every text, the exact entries and the exact result of a separate grammar, in one way only, with numbers 0, 1, 2 and so on. The grammar is that of the code: entries are found in code, too, a word with {^} takes up to 50 characters in front of it, and letters outside ASCII make no entry of (!item); each is refuted by a text."},
{"property": "C157", "status": "partial", "theorems": ["Verif.Index.C157_index_partial", "Verif.Index.C157_order", "Verif.Index.C157_sorted", "Verif.Index.C157_example", "Verif.Index.C157_letter_refuted", "Verif.Index.C157_escape_refuted", "Verif.Index.C157_long_refuted"], "note": "Every entry once, in order, for whatever order among equals; one group for each letter if the items begin with letters or digits. Items of more than 2042 bytes are cut, other items may give two groups of a letter, and items are not escaped."},
{"property": "C158", "status": "partial", "theorems": ["Verif.Index.C158_linked_partial", "Verif.Index.C158_safe_partial", "Verif.Index.C158_placed", "Verif.Index.C158_overread_refuted", "Verif.Index.C158_lost_refuted"], "note": "The exact page if comments that begin with IDX: are those of entries; a result if a > is behind each of them; the place of the index for every page. An unclosed comment is read over the end of the page."},
{"property": "C159", "status": "partial", "theorems": ["Verif.InHtml.C159_converted_partial", "Verif.InHtml.C159_other_text", "Verif.InHtml.C159_example", "Verif.InHtml.C159_overflow_refuted", "Verif.InHtml.C159_lost_refuted", "Verif.InHtml.C159_code_refuted", "Verif.InHtml.C159_span_refuted", "Verif.InHtml.C159_empty_refuted"], "note": "The exact result for every nesting of elements, if contents and text become less than twice as long and opening tags have less than 2048 bytes; every text without markdown= stays. Otherwise contents are lost or a byte is written behind the block, both with a short list; code is changed, too. Text has no stray <."},
{"property": "C16", "status": "proved", "theorems": ["Verif.Escape.C16_url_encode"], "note": ""},
{"property": "C160", "status": "partial", "theorems": ["Verif.InHtml.C160_opening_partial", "Verif.InHtml.C160_plain", "Verif.InHtml.C160_lines_refuted", "Verif.InHtml.C160_mention_refuted", "Verif.InHtml.C160_overflow_refuted"], "note": "For all tags with blanks before their attributes and less than 2048 bytes. A line end before the first attribute loses attributes, the word in another value counts, and a tag of 2048 bytes overflows the array."},
{"property": "C161", "status": "partial", "theorems": ["Verif.Citations.C161_read", "Verif.Citations.C161_cited_partial", "Verif.Citations.C161_undetected", "Verif.Citations.C161_other_text", "Verif.Citations.C161_multimarkdown", "Verif.Citations.C161_comments", "Verif.Citations.C161_example", "Verif.Citations.C161_example_hypotheses", "Verif.Citations.C161_blank_refuted", "Verif.Citations.C161_short_refuted", "Verif.Citations.C161_overflow_refuted", "Verif.Citations.C161_email_refuted", "Verif.Citations.C161_two_refuted", "Verif.Citations.C161_open_refuted", "Verif.Citations.C161_suppressed_refuted", "Verif.Citations.C161_code_refuted", "Verif.Citations.C161_backtick_refuted"], "note": "Every text has one reading; it is the result if a start of a citation is detected, keys have at most 243 bytes and the result is shorter than twice the text. Otherwise citations are lost or a byte is written behind the block; white space behind citations, addresses of emails, two citations in brackets, open brackets and code with tildes go wrong."},
{"property": "C162", "status": "partial", "theorems": ["Verif.Citations.C162_shown", "Verif.Citations.C162_rendered_partial", "Verif.Citations.C162_text", "Verif.Citations.C162_shows", "Verif.Citations.C162_safe", "Verif.Citations.C162_example", "Verif.Citations.C162_lost_refuted", "Verif.Citations.C162_last_refuted", "Verif.Citations.C162_locator_refuted", "Verif.Citations.C162_escape_refuted"], "note": "The exact page if texts have at most 255 bytes, citations at most 511 and the page becomes at most three times as long; no overflow for every page. Otherwise citations are lost; all citations of a key look like the last one, locators are never shown, names are not escaped."},
{"property": "C163", "status": "partial", "theorems": ["Verif.Bibliography.C163_file_partial", "Verif.Bibliography.C163_merge", "Verif.Bibliography.C163_merge_once", "Verif.Bibliography.C163_example", "Verif.Bibliography.C163_example_hypotheses", "Verif.Bibliography.C163_blank_refuted", "Verif.Bibliography.C163_open_refuted", "Verif.Bibliography.C163_quotes_refuted", "Verif.Bibliography.C163_space_refuted", "Verif.Bibliography.C163_crossref_refuted", "Verif.Bibliography.C163_string_refuted", "Verif.Bibliography.C163_at_refuted"], "note": "For all files with values in braces or bare, braces in pairs and no `@` in entries. White space at the front of a value makes an invalid free, a file that ends in an entry reads a null pointer, quotation marks are not understood."},
{"property": "C164", "status": "partial", "theorems": ["Verif.Bibliography.C164_listed", "Verif.Bibliography.C164_bibliography_partial", "Verif.Bibliography.C164_entry", "Verif.Bibliography.C164_placed", "Verif.Bibliography.C164_none", "Verif.Bibliography.C164_example", "Verif.Bibliography.C164_example_hypotheses", "Verif.Bibliography.C164_long_refuted", "Verif.Bibliography.C164_closing_refuted", "Verif.Bibliography.C164_escape_refuted", "Verif.Bibliography.C164_code_refuted"], "note": "The entries, their order and the place for all bibliographies, citations and pages; the exact text if entries have at most 2047 bytes and the list less than 4096. Otherwise parts of entries or the end of the closing tag are lost; texts are not escaped."},
{"property": "C165", "status": "partial", "theorems": ["Verif.IalLines.C165_lines_partial", "Verif.IalLines.C165_other", "Verif.IalLines.C165_example", "Verif.IalLines.C165_code_refuted", "Verif.IalLines.C165_brace_refuted"], "note": "All texts, with the room that is needed; lists and markers in code are changed too, and a list with `}` in a value is not one."},
{"property": "C166", "status": "partial", "theorems": ["Verif.Spans.C166_spans_partial", "Verif.Spans.C166_case", "Verif.Spans.C166_example", "Verif.Spans.C166_room_refuted", "Verif.Spans.C166_code_refuted", "Verif.Spans.C166_tick_refuted", "Verif.Spans.C166_math_refuted", "Verif.Spans.C166_words_refuted"], "note": "The exact text for all spans with attribute lists that can be read and are not long, if it is shorter than twice the text; else it may fill the block, and the terminator is written behind it. Code between double backticks or tildes and formulas are changed, a single backtick hides all spans behind it."},
{"property": "C167", "status": "partial", "theorems": ["Verif.DefLists.C167_safe", "Verif.DefLists.C167_lists_partial", "Verif.DefLists.C167_none", "Verif.DefLists.C167_case", "Verif.DefLists.C167_example", "Verif.DefLists.C167_before_code_refuted", "Verif.DefLists.C167_attributes_refuted", "Verif.DefLists.C167_caption_refuted", "Verif.DefLists.C167_tilde_refuted", "Verif.DefLists.C167_fence_refuted", "Verif.DefLists.C167_continued_refuted", "Verif.DefLists.C167_blank_refuted"], "note": "Memory for every text; the exact result for all documents of text, headings, tables, lists, code and terms with definitions, in which no text comes right before code and no `{:` is. Text before code is lost, attributes anywhere take the term out of the list, captions change places with text."},
{"property": "C168", "status": "partial", "theorems": ["Verif.DefLists.C168_content", "Verif.DefLists.C168_unique", "Verif.DefLists.C168_plain", "Verif.DefLists.C168_case", "Verif.DefLists.C168_refs_refuted"], "note": "The content for every text and document; references are compared byte by byte, and shortcut references are not looked up."},
{"property": "C169", "status": "partial", "theorems": ["Verif.Wrap.C169_wrap_partial", "Verif.Wrap.C169_tokens", "Verif.Wrap.C169_example", "Verif.Wrap.C169_utf8_refuted", "Verif.Wrap.C169_columns_refuted", "Verif.Wrap.C169_words_refuted"], "note": "All texts and widths: only line ends are added, sequences stay whole, lines are as long in bytes as the width allows, nothing is written outside of the block. Columns are bytes: characters of several bytes are cut and words too."},
{"property": "C17", "status": "proved", "theorems": ["Verif.Escape.C17_html_escape", "Verif.Escape.C17_non_ascii"], "note": ""},
{"property": "C170", "status": "proved", "theorems": ["Verif.Wrap.C170_stdin", "Verif.Wrap.C170_example"], "note": "All sequences of pieces."},
{"property": "C171", "status": "partial", "theorems": ["Verif.Merge.C171_merge_partial", "Verif.Merge.C171_entry_unique", "Verif.Merge.C171_twice_refuted", "Verif.Merge.C171_twice_case", "Verif.Merge.C171_case", "Verif.Merge.C171_example", "Verif.Merge.C171_long_refuted"], "note": "All indexes, with files with headings at most one level down and paths below 4096 bytes; a file with headings at a deeper level writes behind the end of a block, and longer paths are cut off."},
{"property": "C172", "status": "partial", "theorems": ["Verif.Merge.C172_summary_partial", "Verif.Merge.C172_name_unique", "Verif.Merge.C172_case", "Verif.Merge.C172_example", "Verif.Merge.C172_first_refuted", "Verif.Merge.C172_section_refuted"], "note": "All summaries, for the first brackets of every line; further links of a line, links behind a task marker and links with brackets in their text are left out."},
{"property": "C173", "status": "partial", "theorems": ["Verif.Install.C173_words_unique", "Verif.Install.C173_install_partial", "Verif.Install.C173_removed", "Verif.Install.C173_uninstall_partial", "Verif.Install.C173_filter_partial", "Verif.Install.C173_file_partial", "Verif.Install.C173_case", "Verif.Install.C173_path_refuted", "Verif.Install.C173_manifest_refuted", "Verif.Install.C173_quote_refuted"], "note": "All outcomes of all commands, for texts without bytes special to the shell that are not too long. The id of a manifest is read by the shell, and names that are paths leave the directory."},
{"property": "C174", "status": "partial", "theorems": ["Verif.Install.C174_repo", "Verif.Install.C174_again", "Verif.Install.C174_example", "Verif.Install.C174_short_refuted"], "note": "All arguments; `user/name.git` gets a second `.git`, and a local path is taken for GitHub."},
{"property": "C175", "status": "partial", "theorems": ["Verif.Install.C175_plugin_partial", "Verif.Install.C175_fallback_refuted", "Verif.Install.C175_filter_refuted", "Verif.Install.C175_filter_case"], "note": "With an id in the manifest. Without one the plugin is always removed again; a filter is moved to a path made of the argument."},
{"property": "C176", "status": "partial", "theorems": ["Verif.Media.C176_dense", "Verif.Media.C176_format", "Verif.Media.C176_parts", "Verif.Media.C176_host_partial", "Verif.Media.C176_domain", "Verif.Media.C176_directory", "Verif.Media.C176_query"], "note": "Exact for all addresses, and as meant for absolute addresses with a file that has an extension; without a path the host is changed, without an extension a directory, and a slash in a query is taken for the path."},
{"property": "C177", "status": "partial", "theorems": ["Verif.Media.C177_video_partial", "Verif.Media.C177_section"], "note": "All addresses without a section in front of a question mark; `clip.mp4#t=10?x` is no video, and the host `example.mov` is one."},
{"property": "C178", "status": "partial", "theorems": ["Verif.Media.C178_auto", "Verif.Media.C178_video_partial", "Verif.Media.C178_overflow", "Verif.Media.C178_five", "Verif.Media.C178_picture", "Verif.Media.C178_srcset", "Verif.Media.C178_plain", "Verif.Media.C178_memory_partial", "Verif.Media.C178_quote"], "note": "Every case exactly, for all addresses and attributes; a video with all five formats overflows its block, and quotes in addresses are not escaped."},
{"property": "C179", "status": "partial", "theorems": ["Verif.Media.C179_meaning_partial", "Verif.Media.C179_case", "Verif.Media.C179_exact", "Verif.Media.C179_stray", "Verif.Media.C179_escape", "Verif.Media.C179_long"], "note": "All lists of fewer than 2048 bytes of names with values, words with a meaning and titles; a word without a meaning at the end makes the result depend on old memory, backslashes stay."},
{"property": "C18", "status": "partial", "theorems": ["Verif.Transforms.C18_slug_partial", "Verif.Transforms.C18_slug_twice", "Verif.Transforms.C18_not_idempotent"], "note": "idempotence is false: slugging a slug drops its hyphens"},
{"property": "C180", "status": "partial", "theorems": ["Verif.AutoMedia.C180_rest", "Verif.AutoMedia.C180_unmarked", "Verif.AutoMedia.C180_page_partial", "Verif.AutoMedia.C180_earlier", "Verif.AutoMedia.C180_backslash"], "note": "All pages whose image tags have an end; an image in front of a marked one is replaced too, and a backslash before a quote hides the end of a tag."},
{"property": "C181", "status": "partial", "theorems": ["Verif.AutoMedia.C181_image_partial", "Verif.AutoMedia.C181_attribute", "Verif.AutoMedia.C181_long_video", "Verif.AutoMedia.C181_long_picture", "Verif.AutoMedia.C181_long_address", "Verif.AutoMedia.C181_class", "Verif.AutoMedia.C181_mark", "Verif.AutoMedia.C181_only_dense", "Verif.AutoMedia.C181_encoded", "Verif.AutoMedia.C181_title"], "note": "All subsets of files for addresses below the base and texts of bounded length; longer texts or addresses are read or written beyond their blocks, proved for all beyond a bound; other attributes are lost."},
{"property": "C182", "status": "partial", "theorems": ["Verif.ElemAttrs.C182_document_partial", "Verif.ElemAttrs.C182_alike", "Verif.ElemAttrs.C182_tables", "Verif.ElemAttrs.C182_code", "Verif.ElemAttrs.C182_heading", "Verif.ElemAttrs.C182_tight", "Verif.ElemAttrs.C182_ampersand"], "note": "All trees without tables, thematic breaks and footnotes whose text is shown as it is, with up to 511 elements with attributes that start differently; the other theorems show how elements take the attributes of others."},
{"property": "C183", "status": "partial", "theorems": ["Verif.ElemAttrs.C182_document_partial", "Verif.ElemAttrs.C183_none", "Verif.ElemAttrs.C183_room", "Verif.ElemAttrs.C183_removed", "Verif.ElemAttrs.C183_not_removed", "Verif.ElemAttrs.C183_glued"], "note": "Proved with C182 and for documents without attributes; 1024 elements with attributes overrun the block, removal takes away nothing or too much, and attributes are put together without a blank."},
{"property": "C184", "status": "partial", "theorems": ["Verif.ElemAttrs.C184_caption_partial", "Verif.ElemAttrs.C184_kept_partial", "Verif.ElemAttrs.C184_passed_on", "Verif.ElemAttrs.C184_heading"], "note": "All lists of attributes whose values need no escapes; the caption is always passed on, as its length is compared with 11, and attributes of rows land on headings."},
{"property": "C185", "status": "partial", "theorems": ["Verif.ElemAttrs.C185_video_partial", "Verif.ElemAttrs.C185_picture_partial", "Verif.ElemAttrs.C185_long", "Verif.ElemAttrs.C185_formats", "Verif.ElemAttrs.C185_lost"], "note": "All formats and pages for replacements that fit the block; alt texts of 256 bytes and four times the address overrun it, proved for all, and so do all five formats of a short name."},
{"property": "C186", "status": "partial", "theorems": ["Verif.ImgCaptions.C186_page_partial", "Verif.ImgCaptions.C186_titles", "Verif.ImgCaptions.C186_hidden", "Verif.ImgCaptions.C186_ignored", "Verif.ImgCaptions.C186_blank", "Verif.ImgCaptions.C186_twice", "Verif.ImgCaptions.C186_inside", "Verif.ImgCaptions.C186_comment"], "note": "All pages of tags with quoted attributes, figures and pictures with one image; the other theorems show pictures that ignore the option for titles, captions in pictures that are ignored, and attributes not seen."},
{"property": "C187", "status": "proved", "theorems": ["Verif.ImgCaptions.C187_turned", "Verif.ImgCaptions.C187_off", "Verif.ImgCaptions.C187_text"], "note": "All pages: parts stay, or are images and pictures put in a figure with a caption taken from them; memory as in the model of the growing block."},
{"property": "C188", "status": "partial", "theorems": ["Verif.CodeColor.C188_missing", "Verif.CodeColor.C188_failing", "Verif.CodeColor.C188_page_partial", "Verif.CodeColor.C188_answered_partial", "Verif.CodeColor.C188_lost", "Verif.CodeColor.C188_overrun"], "note": "All pages when the tool fails; pages of code blocks and other tags as long as the result is below three times the page and 1024 bytes, or the tool answers for all blocks. Otherwise a block is lost, or a byte is written behind the buffer."},
{"property": "C189", "status": "partial", "theorems": ["Verif.CodeColor.C189_calls_partial", "Verif.CodeColor.C189_code", "Verif.CodeColor.C189_long"], "note": "All code; languages of one word below 64 bytes without escapes; longer ones are dropped."},
{"property": "C19", "status": "proved", "theorems": ["Verif.Transforms.C19_lengths", "Verif.Transforms.C19_upper_lower", "Verif.Transforms.C19_only_case", "Verif.Transforms.C19_trim", "Verif.Transforms.C19_reverse", "Verif.Transforms.C19_title"], "note": ""},
{"property": "C190", "status": "partial", "theorems": ["Verif.CodeColor.C190_lines_partial", "Verif.CodeColor.C190_simple_partial", "Verif.CodeColor.C190_injected"], "note": "All pages: the line is that of the tool with some language; it is one command if the language has only bytes without meaning for the shell. Any other text of up to 60 bytes in a language is run as a command, proved for all such texts."},
{"property": "C191", "status": "partial", "theorems": ["Verif.CodeColor.C191_collected", "Verif.CodeColor.C191_whole_partial", "Verif.CodeColor.C191_stuck", "Verif.CodeColor.C191_killed"], "note": "All interleavings for tools that read all their input first; a tool that writes while it reads hangs apex for any code longer than both pipes, and one that ends without reading can kill it."},
{"property": "C192", "status": "partial", "theorems": ["Verif.TableSpans.C192_marks_partial", "Verif.TableSpans.C192_tiles_partial", "Verif.TableSpans.C192_block", "Verif.TableSpans.C192_past", "Verif.TableSpans.C192_shown", "Verif.TableSpans.C192_injected"], "note": "All tables where each mark has a cell to join next to it; they are tiled if no cell is joined on both sides. A block of cells cannot be written: its width is lost, or a cell further up grows, or the mark is shown."},
{"property": "C193", "status": "partial", "theorems": ["Verif.TableSpans.C193_safe_partial", "Verif.TableSpans.C193_columns", "Verif.TableSpans.C193_freed"], "note": "Safe up to fifty columns unless a cell with colons carries its text as its mark; every table with more than fifty cells in its first row is written behind the array, and every such mark is read after it is freed."},
{"property": "C194", "status": "proved", "theorems": ["Verif.TableSpans.C194_foot", "Verif.TableSpans.C194_rows", "Verif.TableSpans.C194_hidden", "Verif.TableSpans.C194_content"], "note": "For all tables of up to fifty columns without marks from the parser, and for all others whose processing ends."},
{"property": "C195", "status": "partial", "theorems": ["Verif.TableSpans.C195_text", "Verif.TableSpans.C195_colons", "Verif.TableSpans.C195_table_partial", "Verif.TableSpans.C195_lost"], "note": "All texts; tables of cells of one text where none is joined."},
{"property": "C196", "status": "partial", "theorems": ["Verif.Remote.C196_directory_partial", "Verif.Remote.C196_value_partial", "Verif.Remote.C196_taken", "Verif.Remote.C196_brace", "Verif.Remote.C196_line"], "note": "All directories of objects of strings without braces, values on the line of their colons, no value that can be taken for a key; any blanks, any escapes (which are kept). Refuted for all four exceptions."},
{"property": "C197", "status": "partial", "theorems": ["Verif.Remote.C197_last_partial", "Verif.Remote.C197_later", "Verif.Remote.C197_spoofed"], "note": "For the same directories: the last entry with the name counts, not the first. A title can pose as an id."},
{"property": "C198", "status": "partial", "theorems": ["Verif.Remote.C198_filter_partial", "Verif.Remote.C198_next", "Verif.Remote.C198_path"], "note": "Objects with the id in front of the repository and the file. Otherwise the repository or the file of a later filter is used."},
{"property": "C199", "status": "proved", "theorems": ["Verif.Remote.C199_fetch"], "note": "For all outputs and statuses."},
{"property": "C20", "status": "proved", "theorems": ["Verif.Transforms.C20_replace", "Verif.Transforms.C20_replace_noop"], "note": "plain (non-regex) form; the regex form is C60"},
{"property": "C200", "status": "partial", "theorems": ["Verif.TermStyle.C200_style_partial", "Verif.TermStyle.C200_hex", "Verif.TermStyle.C200_nearest", "Verif.TermStyle.C200_background", "Verif.TermStyle.C200_bgName", "Verif.TermStyle.C200_silent_partial", "Verif.TermStyle.C200_shows"], "note": "Proved for flags, names and numbers in any order; a colour in hexadecimal gives one of the palette within 69 steps of each channel, greys within 11. Refuted: nearest colour, backgrounds with 8 colours, `bg` before a name, and that no style shows text."},
{"property": "C201", "status": "partial", "theorems": ["Verif.Term.C201_theme_partial", "Verif.Term.C201_prose", "Verif.Term.C201_reads", "Verif.Term.C201_gap"], "note": "Proved for documents without escapes and without blocks of HTML, code not coloured by the tool. Refuted for blocks of HTML: the empty line in front of them depends on whether a class has a style."},
{"property": "C202", "status": "partial", "theorems": ["Verif.Term.C202_ends_partial", "Verif.Term.C202_emphasis_partial", "Verif.Term.C202_open", "Verif.Term.C202_lost", "Verif.Term.C202_nested"], "note": "Proved for documents without inline HTML and emphasis without marks in it. Refuted: an open span colours what follows; behind a nested mark the outer style is lost."},
{"property": "C203", "status": "partial", "theorems": ["Verif.Term.C203_calm_partial", "Verif.Term.C203_verbatim"], "note": "Proved for documents without the escape byte. Refuted otherwise: text reaches the terminal as it is."},
{"property": "C204", "status": "partial", "theorems": ["Verif.Term.C204_closed_partial", "Verif.Term.C204_crash"], "note": "Proved for blocks with a `>` behind each mark of a callout. Refuted otherwise: the code goes on behind a null pointer."},
{"property": "C205", "status": "partial", "theorems": ["Verif.Term.C205_tool_partial", "Verif.Term.C205_failed", "Verif.Term.C205_injected"], "note": "Proved for languages without bytes of meaning for the shell. Refuted otherwise: the language goes unquoted into a command."},
{"property": "C206", "status": "partial", "theorems": ["Verif.Term.C206_width_partial", "Verif.Term.C206_uneven"], "note": "Proved for text of one byte for each character, with cells joined to the left but not to those above. Refuted for other text and for links."},
{"property": "C207", "status": "partial", "theorems": ["Verif.Term.C207_cells_partial", "Verif.Term.C207_kept_partial", "Verif.Term.C207_tall", "Verif.Term.C207_shifted", "Verif.Term.C207_over", "Verif.Term.C207_align"], "note": "Proved for tables without joined cells, of text of one byte for each character, with no row of equal signs; for cells that take several rows, that later rows take none of their places. Refuted for cells that take several columns: what follows them is a column too far to the right, and they are put over cells that take several rows."},
{"property": "C208", "status": "partial", "theorems": ["Verif.ThemeFile.C208_same_partial", "Verif.ThemeFile.C208_marker", "Verif.ThemeFile.C208_deep", "Verif.ThemeFile.C208_comment"], "note": "Proved for files of sections with keys and values in lines of up to 1021 bytes. Refuted: the style of marks of lists in quotes, the mark of quotes with two levels of keys, comments behind values without quotes."},
{"property": "C209", "status": "partial", "theorems": ["Verif.ThemeFile.C209_style_partial", "Verif.ThemeFile.C209_plain", "Verif.ThemeFile.C209_found", "Verif.ThemeFile.C209_order"], "note": "Proved for the same files if `bold` is behind the colour. Refuted for the other order."},
{"property": "C21", "status": "partial", "theorems": ["Verif.Transforms.C21_truncate_partial", "Verif.Transforms.C21_truncate_too_long", "Verif.Transforms.C21_truncate_ub", "Verif.Transforms.C21_pad_partial", "Verif.Transforms.C21_pad_ub"], "note": "false for suffixes at least as long as the limit, for some negative limits (memory error) and for pad(LONG_MAX)"},
{"property": "C210", "status": "partial", "theorems": ["Verif.ManHtml.C210_wellformed", "Verif.ManHtml.C210_page", "Verif.ManHtml.C210_reads_partial", "Verif.ManHtml.C210_table", "Verif.ManHtml.C210_raw"], "note": "Well-formed for all trees without blocks of HTML; complete for headings, paragraphs, lists, quotes, code and rules. Refuted: the text of tables is lost; blocks of HTML like lists of definitions are passed on as they are."},
{"property": "C211", "status": "partial", "theorems": ["Verif.ManHtml.C211_nav_partial", "Verif.ManHtml.C211_long", "Verif.ManHtml.C211_same", "Verif.ManHtml.C211_many", "Verif.ManHtml.C211_foreign"], "note": "Proved for up to 48 sections with headings of up to 71 bytes which start with a text with a letter or digit. Refuted otherwise, and for sections with the same anchor."},
{"property": "C212", "status": "partial", "theorems": ["Verif.ManHtml.C212_headline_partial", "Verif.ManHtml.C212_default", "Verif.ManHtml.C212_lines"], "note": "Proved for all names, descriptions and white space. Refuted for a paragraph of several lines: words are run together."},
{"property": "C213", "status": "partial", "theorems": ["Verif.Hashtags.C213_tags_partial", "Verif.Hashtags.C213_fence", "Verif.Hashtags.C213_reference", "Verif.Hashtags.C213_attribute"], "note": "Proved which tags are found, for all texts; indented code is kept. Refuted for fenced code, definitions of links and attributes of HTML, which are changed."},
{"property": "C214", "status": "partial", "theorems": ["Verif.Hashtags.C214_tidy", "Verif.Hashtags.C214_marks_partial", "Verif.Hashtags.C214_heading", "Verif.Hashtags.C214_tildes", "Verif.Hashtags.C214_across", "Verif.Hashtags.C214_four"], "note": "Proved for texts as one writes them with code, and for all texts without backticks. Refuted for underlined headings, code between tildes, marks in code and four backticks."},
{"property": "C215", "status": "proved", "theorems": ["Verif.Hashtags.C215_tags", "Verif.Hashtags.C215_proofread", "Verif.Hashtags.C215_short"], "note": "Two bytes too few are asked for in proofreading, which alone would be wrong (C215_short); as a text grows by half at most it does not matter."},
{"property": "C216", "status": "partial", "theorems": ["Verif.Pipeline.C216_partial", "Verif.Pipeline.C216_parser", "Verif.Pipeline.C216_citations_fails"], "note": "Proved for all programs and options, with one exception: citations are turned on by a document that names a bibliography (C216_citations_fails). An extension of the parser is attached only if its option is on (C216_parser). The options left out of the model of options (scripts, filters, progress) are not in it."},
{"property": "C217", "status": "partial", "theorems": ["Verif.Pipeline.C217_partial", "Verif.Pipeline.C217_fails"], "note": "Proved for all texts without five marks; each of them is refuted: `==`, `++`, tables in fences, Liquid tags, `<!--TABLE-->`."},
{"property": "C218", "status": "partial", "theorems": ["Verif.Pipeline.C218_partial", "Verif.Pipeline.C218_unterminated", "Verif.Pipeline.C218_empty", "Verif.Pipeline.C218_line"], "note": "Proved for texts in front of a NUL. Refuted without one: strlen runs past the end of the memory although the length is given."},
{"property": "C219", "status": "partial", "theorems": ["Verif.Pipeline.C219_iff_partial", "Verif.Pipeline.C219_partial", "Verif.Pipeline.C219_wiki", "Verif.Pipeline.C219_kramdown"], "note": "The exact condition is proved, for programs whose other functions stay in their memory, without filters. Refuted: with wiki links or in Kramdown or unified mode, a text that is left without a line ending is searched after it was released."},
{"property": "C22", "status": "partial", "theorems": ["Verif.Transforms.C22_split_partial", "Verif.Transforms.C22_split_hangs_iff", "Verif.Transforms.C22_split_returns", "Verif.Transforms.C22_split_hangs", "Verif.Transforms.C22_comma_returns"], "note": "termination is false for delimiters matching the empty string; exact characterisation proved"},
{"property": "C220", "status": "partial", "theorems": ["Verif.Pipeline.C220_partial", "Verif.Pipeline.C220_empty_directory"], "note": "Proved for all directories but the empty string, for which the byte in front of a block is read."},
{"property": "C221", "status": "partial", "theorems": ["Verif.Pipeline.C221_html_partial", "Verif.Pipeline.C221_formats", "Verif.Pipeline.C221_early"], "note": "Proved for HTML in CommonMark mode that the tags are put back at once. Refuted for all other formats, in which nothing of the tags is left, and for tags with two pairs of `==`."},
{"property": "C222", "status": "proved", "theorems": ["Verif.Pipeline.C222_off", "Verif.Pipeline.C222_on", "Verif.Pipeline.C222_filter"], "note": "For all parsers and writers: others that differ only for calls of the other kind cannot be told apart. Raw HTML that apex itself writes into the text (C217) or plugins write is not in it, nor options changed by metadata through apex_apply_metadata_to_options, which callers run before the conversion."},
{"property": "C223", "status": "partial", "theorems": ["Verif.Yaml.C223_partial", "Verif.Yaml.C223_get", "Verif.Yaml.C223_long_fails"], "note": "Proved for all documents without empty keys and NULs, for names up to 511 bytes; longer ones are cut."},
{"property": "C224", "status": "partial", "theorems": ["Verif.Yaml.C224_iff", "Verif.Yaml.C224_fails"], "note": "The exact condition is proved: no node is below itself. Refuted by an alias inside of its own anchor."},
{"property": "C225", "status": "proved", "theorems": ["Verif.Yaml.C225_bundle", "Verif.Yaml.C225_none"], "note": "For all documents of libyaml without NUL in texts."},
{"property": "C226", "status": "partial", "theorems": ["Verif.Yaml.C226_written", "Verif.Yaml.C226_value", "Verif.Yaml.C226_open", "Verif.Yaml.C226_nested_fails"], "note": "Proved for all options without a closing parenthesis; with one the rest of the chain is dropped."},
{"property": "C227", "status": "partial", "theorems": ["Verif.IalTree.C227_partial", "Verif.IalTree.C227_case", "Verif.IalTree.C227_two_fails"], "note": "Proved for all nested documents in which other texts have no `{`; refuted for two lists behind one block, of which the second one is lost."},
{"property": "C228", "status": "partial", "theorems": ["Verif.IalTree.C228_partial", "Verif.IalTree.C228_case", "Verif.IalTree.C228_gap_fails"], "note": "Proved for all paragraphs in which other texts have no `{`; refuted for lists with text between the element and the list."},
{"property": "C229", "status": "partial", "theorems": ["Verif.IalTree.C229_paragraph", "Verif.IalTree.C229_heading", "Verif.IalTree.C229_case", "Verif.IalTree.C229_heading_fails"], "note": "Proved for paragraphs without an element on the line of the list and for headings whose first node is the text with the list; refuted for headings with elements."},
{"property": "C23", "status": "proved", "theorems": ["Verif.Metadata.C23_lookup", "Verif.Metadata.C23_empty_key"], "note": ""},
{"property": "C230", "status": "partial", "theorems": ["Verif.IalTree.C230_partial", "Verif.IalTree.C230_case", "Verif.IalTree.C230_fails", "Verif.IalTree.C230_fails_case"], "note": "Proved if no paragraph begins with white space; refuted for white space and a list at the start of a paragraph."},
{"property": "C231", "status": "partial", "theorems": ["Verif.IalTree.C231_partial", "Verif.IalTree.C231_case", "Verif.IalTree.C231_fails"], "note": "Proved for documents without `{`; refuted for every paragraph that begins with a list and has text behind it."},
{"property": "C232", "status": "partial", "theorems": ["Verif.Images.C232_partial", "Verif.Images.C232_case", "Verif.ImageRefs.C232_modes", "Verif.ImageRefs.C232_protocol", "Verif.ImageRefs.C232_protocol_case"], "note": "Proved for all documents of texts without `[` and `{`, links and images whose addresses have no white space, in the modes that read attributes; definitions are part of C235."},
{"property": "C233", "status": "partial", "theorems": ["Verif.Images.C233_partial", "Verif.Images.C233_case", "Verif.Images.C233_fails", "Verif.Images.C233_fails_case"], "note": "Proved for documents in which each image has attributes; refuted: if the first image has none, no image gets its attributes."},
{"property": "C234", "status": "partial", "theorems": ["Verif.Images.C234_text", "Verif.Images.C234_room", "Verif.Images.C234_case", "Verif.Images.C234_open_fails", "Verif.ImageRefs.C234_line_fails", "Verif.Images.C234_fails"], "note": "Room is proved for all texts, and that it stays for texts without `[`; refuted for images without `)`, code, and footnotes with line breaks of Windows."},
{"property": "C235", "status": "partial", "theorems": ["Verif.ImageRefs.C235_document_partial", "Verif.ImageRefs.C235_document_case", "Verif.Images.C235_partial", "Verif.Images.C235_case", "Verif.Images.C235_fails", "Verif.Images.C235_fails_case", "Verif.ImageRefs.C235_first_fails"], "note": "Proved from the document to its images, for all documents of texts, references and definitions with attributes in any order, if the result has room; refuted: what has no room behind an image is cut off, and of two definitions for a name the last one is used."},
{"property": "C236", "status": "partial", "theorems": ["Verif.TableHtml.C236_partial", "Verif.TableHtml.C236_case", "Verif.TableHtml.C236_fails"], "note": "Proved for all pages of texts and tables with at most 50000 bytes, without colons at the ends of cells and marks for joined cells, and with first headers of less than 100 bytes; refuted for pages with more than 50000 bytes."},
{"property": "C237", "status": "partial", "theorems": ["Verif.TableHtml.C237_partial", "Verif.TableHtml.C237_case", "Verif.TableHtml.C237_fails"], "note": "Proved for all pages of texts, captions and tables that do not become twice as long, captions above or below; refuted: the paragraph of a caption with an ampersand stays."},
{"property": "C238", "status": "partial", "theorems": ["Verif.TableHtml.C238_fails"], "note": "Refuted: the cell is dropped, and so are headers in front of it. That other cells are kept is part of C236 and C237."},
{"property": "C239", "status": "partial", "theorems": ["Verif.TableHtml.C239_partial", "Verif.TableHtml.C239_case", "Verif.TableHtml.C239_fails"], "note": "Alignment is proved for the step that handles a cell, for all texts without tags; refuted for memory: three rows of four centred cells are written outside of it."},
{"property": "C24", "status": "partial", "theorems": ["Verif.Metadata.C24_merge_partial", "Verif.Metadata.C24_empty_list_stops", "Verif.Metadata.C24_cli_drops_command_line", "Verif.Metadata.C24_spacing_keeps_old", "Verif.Metadata.C24_duplicates"], "note": "False as stated: a list without items ends the merge (the CLI then drops command-line metadata when the document has none), and keys that differ in spacing or are repeated keep older values; the partial theorem gives the exact result."},
{"property": "C240", "status": "partial", "theorems": ["Verif.TableHtml.C236_partial", "Verif.TableHtml.C237_partial", "Verif.TableHtml.C240_fails"], "note": "Proved, as part of C236 and C237, for first headers with less than 96 bytes; refuted for a header of 100 bytes."},
{"property": "C241", "status": "partial", "theorems": ["Verif.CslYaml.C241_partial", "Verif.CslYaml.C241_partial_case", "Verif.CslYaml.C241_fails", "Verif.CslYaml.C241_fails_case"], "note": "Proved for all lists of plain entries whose dash is on a line of its own; refuted for all files in the usual notation `- id: x`, of which nothing is read."},
{"property": "C242", "status": "partial", "theorems": ["Verif.CslYaml.C242_partial", "Verif.CslYaml.C242_partial_case", "Verif.CslYaml.C242_fails", "Verif.CslYaml.C242_parts_fails", "Verif.CslYaml.C242_year_case"], "note": "Proved that of any list of authors the last one is kept; refuted for the others, for names in braces and for the notations of dates; a year below `issued` is part of C241."},
{"property": "C243", "status": "partial", "theorems": ["Verif.CslYaml.C243_partial", "Verif.CslYaml.C243_partial_case", "Verif.CslYaml.C243_fails", "Verif.CslYaml.C243_fails_case"], "note": "Proved for all texts without quotes that end with a line end and not with a dash; refuted for every text without a line end at its end, for a dash at the end and for quoted texts that begin with a space."},
{"property": "C244", "status": "partial", "theorems": ["Verif.CslYaml.C244_partial", "Verif.CslYaml.C244_partial_case", "Verif.CslYaml.C244_fails", "Verif.CslYaml.C244_fails_case"], "note": "Proved for all lists of files that are read without a wrong access to memory; refuted for files in JSON, which give no entries."},
{"property": "C245", "status": "partial", "theorems": ["Verif.TableCaps.C245_partial", "Verif.TableCaps.C245_case", "Verif.TableCaps.C245_fails", "Verif.TableCaps.C245_fails_case"], "note": "Proved for any number of tables between which there is something else; refuted for every sequence of tables with captions above them and nothing between: the second caption is lost and the later ones go to the wrong tables."},
{"property": "C246", "status": "partial", "theorems": ["Verif.TableCaps.C246_partial", "Verif.TableCaps.C246_fails", "Verif.TableCaps.C246_second_fails", "Verif.TableCaps.C246_boxes_fails", "Verif.TableCaps.C246_emphasis_fails", "Verif.TableCaps.C246_case"], "note": "Proved for all documents that only paragraphs and rows beginning with a bracket or a colon are taken out and nothing else is changed; refuted for paragraphs far above a table, for second captions, for rows of boxes and for emphasis."},
{"property": "C247", "status": "partial", "theorems": ["Verif.TableCaps.C247_partial", "Verif.TableCaps.C247_case", "Verif.TableCaps.C247_fails", "Verif.TableCaps.C247_quotes_fails", "Verif.TableCaps.C247_fails_case"], "note": "Proved for all lists with a name or a class; refuted for all lists with neither, in front of which the blank is missing, and for quotes in captions."},
{"property": "C248", "status": "partial", "theorems": ["Verif.TableCaps.C248_partial", "Verif.TableCaps.C248_case", "Verif.TableCaps.C248_fails", "Verif.TableCaps.C248_fails_case"], "note": "Proved for all documents in which each closing brace has a blank in front of it (and, by C247, for all well-formed lists); refuted for every list that ends with a word without a value."},
{"property": "C249", "status": "partial", "theorems": ["Verif.DefTree.C249_partial", "Verif.DefTree.C249_html_partial", "Verif.DefTree.C249_case", "Verif.DefTree.C249_fails", "Verif.DefTree.C249_tab_fails", "Verif.DefTree.C249_fails_case"], "note": "Proved for any number of terms with one definition each and plain paragraphs between them; refuted for every term with more definitions, and for a tab behind the colons."},
{"property": "C25", "status": "proved", "theorems": ["Verif.Metadata.C25_variables", "Verif.Metadata.C25_unchanged", "Verif.Metadata.C25_single"], "note": ""},
{"property": "C250", "status": "proved", "theorems": ["Verif.DefTree.C250_kept", "Verif.DefTree.C250_lines", "Verif.DefTree.C250_case"], "note": "For all documents whose lists are as the parser opens them; for lines of plain text also from the lines on."},
{"property": "C251", "status": "partial", "theorems": ["Verif.DefTree.C251_partial", "Verif.DefTree.C251_lines_partial", "Verif.DefTree.C251_case", "Verif.DefTree.C251_fails", "Verif.DefTree.C251_fails_case"], "note": "Proved for all documents in which no list without a term is in front of another paragraph, and for all lines whose colons have a space behind them; refuted for every document that begins with a definition and a second one with a tab behind its colons."},
{"property": "C252", "status": "partial", "theorems": ["Verif.Simple.C252_ends", "Verif.Simple.C252_partial", "Verif.Simple.C252_case", "Verif.Simple.C252_fails_open", "Verif.Simple.C252_fails_para", "Verif.Simple.C252_case_open", "Verif.Simple.C252_case_para"], "note": "It ends for all texts. Proved for any number of blocks with a blank line behind each; refuted for every code block that is not closed and for every text without two line feeds side by side that has several blocks."},
{"property": "C253", "status": "partial", "theorems": ["Verif.Simple.C253_partial", "Verif.Simple.C253_case", "Verif.Simple.C253_fails", "Verif.Simple.C253_case_other"], "note": "Proved for all trees of the nodes the renderer knows; refuted for every other node, which vanishes with what is in it."},
{"property": "C254", "status": "proved", "theorems": ["Verif.Simple.C254_links", "Verif.Simple.C254_frees", "Verif.Simple.C254_document", "Verif.Simple.C254_case"], "note": "For any number of children and any tree in memory; memory for strings and the depth of the stack are not modelled."},
{"property": "C255", "status": "partial", "theorems": ["Verif.Bundles.C255_partial", "Verif.Bundles.C255_loaded", "Verif.Bundles.C255_pattern", "Verif.Bundles.C255_pattern_case", "Verif.Bundles.C255_all", "Verif.Bundles.C255_fails", "Verif.Bundles.C255_case", "Verif.Bundles.C255_run"], "note": "Proved for any number of items with keys in lower case, each once, and the command under one name; refuted for every entry whose bundle has a command under the other name."},
{"property": "C256", "status": "partial", "theorems": ["Verif.Bundles.C256_xdg_partial", "Verif.Bundles.C256_home_partial", "Verif.Bundles.C256_xdg_fails", "Verif.Bundles.C256_own_partial", "Verif.Bundles.C256_own_fails", "Verif.Bundles.C256_case"], "note": "Proved when the configuration directory of apex, or without XDG_CONFIG_HOME the directory .config of the user, exists and paths are short; refuted for every environment in which it does not exist, and for long paths."},
{"property": "C257", "status": "partial", "theorems": ["Verif.Dates.C257_partial", "Verif.Dates.C257_case", "Verif.Dates.C257_weekday_fails", "Verif.Dates.C257_weekday_case", "Verif.Dates.C257_time_fails"], "note": "Proved for all dates with a time and all formats of plain text, %Y, %m, %d, %H, %M and %S with a result of less than 256 bytes; refuted for the day of the week of every date that is not a Sunday, and for every time behind a T."},
{"property": "C258", "status": "partial", "theorems": ["Verif.Dates.C258_partial", "Verif.Dates.C258_case", "Verif.Dates.C258_fails", "Verif.Dates.C258_fails_case", "Verif.Dates.C258_large_fails"], "note": "Proved for all values that do not begin with a number; refuted for every value that begins with three numbers with dashes between them, and undefined for numbers that do not fit."},
{"property": "C259", "status": "partial", "theorems": ["Verif.PluginDirs.C259_partial", "Verif.PluginDirs.C259_order", "Verif.PluginDirs.C259_case", "Verif.PluginDirs.C259_long_fails", "Verif.PluginDirs.C259_long_case"], "note": "Proved for all directories, names and files with paths of less than 1024 bytes; refuted for every longer path."},
{"property": "C26", "status": "partial", "theorems": ["Verif.MetaParse.C26_suffix_partial", "Verif.MetaParse.C26_removed_partial", "Verif.MetaParse.C26_header", "Verif.MetaParse.C26_pandoc", "Verif.MetaParse.C26_list", "Verif.MetaParse.C26_yaml_removed_partial", "Verif.MetaParse.C26_yaml_header", "Verif.MetaParse.C26_heading_lost", "Verif.MetaParse.C26_last_line_lost", "Verif.MetaParse.C26_long_line_cut"], "note": "The suffix and no-metadata parts hold for every document. 'Removes only metadata lines' is false: headings, comments, abbreviations in front of the first key, an unfinished last line, and the end of long lines are removed too; C26_removed_partial says exactly what can go."},
{"property": "C260", "status": "partial", "theorems": ["Verif.PluginDirs.C260_partial", "Verif.PluginDirs.C260_case", "Verif.PluginDirs.C260_outside", "Verif.PluginDirs.C260_long_fails", "Verif.PluginDirs.C260_line_fails"], "note": "Proved for all paths of less than 1023 bytes without a line break and without a carriage return at their end; refuted for every longer path and every path with a line break."},
{"property": "C261", "status": "partial", "theorems": ["Verif.LatexMath.C261_partial", "Verif.LatexMath.C261_case", "Verif.LatexMath.C261_dollar", "Verif.LatexMath.C261_fails", "Verif.LatexMath.C261_written_fails"], "note": "Refuted for every text: the function that reads a backslash is never called. The partial theorem is about this function."},
{"property": "C262", "status": "partial", "theorems": ["Verif.SplitSimple.C262_partial", "Verif.SplitSimple.C262_case", "Verif.SplitSimple.C262_fails", "Verif.SplitSimple.C262_fails_case", "Verif.SplitSimple.C262_none_fails", "Verif.SplitSimple.C262_blank_fails"], "note": "Proved for all parts without any byte of the text; refuted for every value with one byte of the text alone, which separates too."},
{"property": "C263", "status": "partial", "theorems": ["Verif.TermCallouts.C263_partial", "Verif.TermCallouts.C263_case", "Verif.TermCallouts.C263_long_fails", "Verif.TermCallouts.C263_fails"], "note": "Proved for all callouts with a title of at most 900 bytes without < and without the words callout-content; refuted for every title of 1023 bytes or more, which is not seen at all, and for a title with <."},
{"property": "C264", "status": "partial", "theorems": ["Verif.FilterRun.C264_partial", "Verif.FilterRun.C264_missing", "Verif.FilterRun.C264_case", "Verif.FilterRun.C264_blank_fails"], "note": "Proved for all names and directories without bytes that are special to the shell, up to a length; refuted for every script that is not in Lua whose path has a blank."},
{"property": "C265", "status": "partial", "theorems": ["Verif.FilterRun.C265_partial", "Verif.FilterRun.C265_missing", "Verif.FilterRun.C265_case", "Verif.FilterRun.C265_lua_fails"], "note": "Proved for all directories that exactly the files that are not hidden are run; refuted for every script in Lua, which is run by lua only when it is asked for by its name."},
{"property": "C266", "status": "partial", "theorems": ["Verif.FilterRun.C266_partial", "Verif.FilterRun.C266_case", "Verif.FilterRun.C266_home_fails", "Verif.FilterRun.C266_injected_fails", "Verif.FilterRun.C266_order_fails"], "note": "Proved for scripts without bytes that are special between double quotes; refuted without a home directory, for paths with a command in them, and for the order with other filters, behind which they are always run."},
{"property": "C267", "status": "partial", "theorems": ["Verif.FilterTools.C267_partial", "Verif.FilterTools.C267_kept", "Verif.FilterTools.C267_case", "Verif.FilterTools.C267_fails"], "note": "Proved for all names and paths without bytes that are special between double quotes, up to a length, and for all other answers; refuted for an empty name and for two dots, with which all filters or all of the configuration are removed."},
{"property": "C268", "status": "partial", "theorems": ["Verif.FilterTools.C268_partial", "Verif.FilterTools.C268_lines", "Verif.FilterTools.C268_entry", "Verif.FilterTools.C268_case", "Verif.FilterTools.C268_many_fails", "Verif.FilterTools.C268_extension_fails"], "note": "Proved for directories with at most 128 entries and filters installed under their own name; refuted for each larger directory and for each filter that is installed as a file with an extension."},
{"property": "C269", "status": "partial", "theorems": ["Verif.ListPlugins.C269_partial", "Verif.ListPlugins.C269_places", "Verif.ListPlugins.C269_shown", "Verif.ListPlugins.C269_text", "Verif.ListPlugins.C269_case"], "note": "Proved for all directories with paths shorter than 1200 bytes, and that the directories are those from which plugins are loaded; longer paths are cut."},
{"property": "C27", "status": "proved", "theorems": ["Verif.Emoji.C27_edit_distance"], "note": ""},
{"property": "C270", "status": "partial", "theorems": ["Verif.ListPlugins.C270_partial", "Verif.ListPlugins.C270_file_fails", "Verif.ListPlugins.C270_front_fails", "Verif.ListPlugins.C270_phase_fails", "Verif.ListPlugins.C270_case"], "note": "Proved for plugins whose plugin.yml begins with three hyphens; refuted for each plugin in a single file, which is not listed, for each manifest that does not begin with hyphens, which is listed and not loaded, and for a plugin without a phase, which hides the one that is loaded."},
{"property": "C271", "status": "partial", "theorems": ["Verif.CombineFiles.C271_partial", "Verif.CombineFiles.C271_front_partial", "Verif.CombineFiles.C271_names", "Verif.CombineFiles.C271_joined_fails", "Verif.CombineFiles.C271_empty_fails", "Verif.CombineFiles.C271_stop_fails", "Verif.CombineFiles.C271_before_fails", "Verif.CombineFiles.C271_case"], "note": "Proved for files without a summary and for a summary in front of them; refuted for each summary behind a file, whose text is joined to the last line before it, for each summary without files, for each summary that cannot be read, and for each file that is named in front of the option."},
{"property": "C272", "status": "partial", "theorems": ["Verif.CombineFiles.C272_partial", "Verif.CombineFiles.C272_missing", "Verif.CombineFiles.C272_both", "Verif.CombineFiles.C272_names", "Verif.CombineFiles.C272_case"], "note": "Proved for all indexes for which C171 is proved; what C171 refutes is missing."},
{"property": "C273", "status": "partial", "theorems": ["Verif.Progress.C273_clear", "Verif.Progress.C273_off", "Verif.Progress.C273_soon", "Verif.Progress.C273_shown", "Verif.Progress.C273_blank", "Verif.Progress.C273_stages", "Verif.Progress.C273_stale_fails", "Verif.Progress.C273_stale_case", "Verif.Progress.C273_long_fails", "Verif.Progress.C273_case"], "note": "Proved except that the line shows nothing else than the stage of now, which is refuted for each stage behind a longer one."},
{"property": "C274", "status": "partial", "theorems": ["Verif.Finish.C274_partial", "Verif.Finish.C274_width_partial", "Verif.Finish.C274_width", "Verif.Finish.C274_error", "Verif.Finish.C274_full_fails", "Verif.Finish.C274_case"], "note": "Proved where there is room for the result and where the file cannot be opened; refuted for every result that is larger than the room: the status is 0 all the same."},
{"property": "C275", "status": "partial", "theorems": ["Verif.Term.C275_partial", "Verif.Term.C275_tags_fails", "Verif.Term.C275_entity_fails", "Verif.Term.C275_case"], "note": "Proved for terms and definitions without tags; refuted for every element in a definition, of whose tags only the brackets in front are left out, and for references to characters."},
{"property": "C276", "status": "partial", "theorems": ["Verif.Term.C276_partial", "Verif.Term.C276_joined_fails", "Verif.Term.C276_case"], "note": "Proved up to white space; refuted for each blank behind a tag: the words around it become one."},
{"property": "C277", "status": "partial", "theorems": ["Verif.Term.C277_partial", "Verif.Term.C277_node_partial", "Verif.Term.C277_clear", "Verif.Term.C277_data_fails", "Verif.Term.C277_bare_partial", "Verif.Term.C277_bare_case", "Verif.Term.C277_heading_fails", "Verif.Term.C277_case"], "note": "Proved for values of up to 255 bytes with no other class= in front of them; refuted for each attribute in front whose name ends with class, and for the classes of headings, which do not matter."},
{"property": "C278", "status": "partial", "theorems": ["Verif.Term.C278_partial", "Verif.Term.C278_zero_fails", "Verif.Term.C278_case"], "note": "Proved for lists of items with one paragraph each that start with 1 or more; refuted for all lists that start with 0."},
{"property": "C279", "status": "partial", "theorems": ["Verif.Term.C279_partial", "Verif.Term.C279_code_fails", "Verif.Term.C279_break_fails", "Verif.Term.C279_nested_fails", "Verif.Term.C279_nested_case", "Verif.Term.C279_case"], "note": "Proved for all quotes of paragraphs whose lines do not end within other elements; refuted for all code in quotes, for lines that end within emphasis and for quotes within quotes."},
{"property": "C28", "status": "proved", "theorems": ["Verif.Emoji.C28_best"], "note": ""},
{"property": "C280", "status": "partial", "theorems": ["Verif.Man.C280_partial", "Verif.Man.C280_empty_line_fails", "Verif.Man.C280_item_fails", "Verif.Man.C280_case"], "note": "Proved for code without empty lines outside of list items; refuted for each empty line, which is lost, and for code in list items, whose lines roff joins."},
{"property": "C281", "status": "partial", "theorems": ["Verif.Term.C281_partial", "Verif.Term.C281_greater_fails", "Verif.Term.C281_case"], "note": "Proved for all tags that end with their first >; refuted for all others, of which the rest is shown."},
{"property": "C282", "status": "partial", "theorems": ["Verif.Man.C282_partial", "Verif.Man.C282_item_fails", "Verif.Man.C282_case"], "note": "Proved for paragraphs of text at the top of a document; refuted for every item of a list with several paragraphs."},
{"property": "C283", "status": "partial", "theorems": ["Verif.Man.C283_partial", "Verif.Man.C283_nested_fails", "Verif.Man.C283_case"], "note": "Proved for lists of items with a paragraph each; refuted for every list within an item, which is written as further items of the list around it."},
{"property": "C284", "status": "partial", "theorems": ["Verif.Man.C284_partial", "Verif.Man.C284_level_fails", "Verif.Man.C284_quote_fails", "Verif.Man.C284_case"], "note": "Proved for headings of the first two levels of text without quotation marks; refuted for all further levels, which are as the second, for quotation marks and for line breaks."},
{"property": "C285", "status": "partial", "theorems": ["Verif.ManHtml.C285_heading_partial", "Verif.ManHtml.C285_list_partial", "Verif.ManHtml.C285_level_fails", "Verif.ManHtml.C285_number_fails", "Verif.ManHtml.C285_case"], "note": "Proved for headings of the first three levels and for lists that begin with 1; refuted for all further levels and for all other numbers, which are not written."},
{"property": "C286", "status": "partial", "theorems": ["Verif.Term.C286_partial", "Verif.Term.C286_indent_fails", "Verif.Term.C286_case"], "note": "Proved except for how far in the lines are; refuted for all code in lists whose first line begins with no space: only the first fence is further in. An empty line follows the code."},
{"property": "C287", "status": "partial", "theorems": ["Verif.Term.C287_partial", "Verif.Term.C287_line_fails", "Verif.Term.C287_case"], "note": "Proved for bullets of lists of any depth; refuted for the second line of every item, which begins at the left edge."},
{"property": "C288", "status": "partial", "theorems": ["Verif.Term.C288_partial", "Verif.Term.C288_default_partial", "Verif.Term.C288_level_fails", "Verif.Term.C288_case"], "note": "Proved for headings of words, with a style of the theme or of the first three levels; refuted for the further levels without a style of the theme, which look the same. Marks within headings are C202."},
{"property": "C29", "status": "proved", "theorems": ["Verif.Plugins.C29_sorted", "Verif.Plugins.C29_smaller_first"], "note": ""},
{"property": "C30", "status": "proved", "theorems": ["Verif.Plugins.C30_first_wins", "Verif.Plugins.C30_not_displaced", "Verif.Plugins.C30_project_first", "Verif.Plugins.C30_user_last", "Verif.Plugins.C30_dirs", "Verif.Plugins.C30_dirs_outside"], "note": ""},
{"property": "C31", "status": "partial", "theorems": ["Verif.Plugins.C31_fold_partial", "Verif.Plugins.C31_changes_partial", "Verif.Plugins.C31_failure_erases_text"], "note": "Left fold and exact restoration of the environment are proved; a command that fails (non-zero exit) still replaces the text by its output."},
{"property": "C32", "status": "partial", "theorems": ["Verif.Filters.C32_strict", "Verif.Filters.C32_lenient_partial", "Verif.Filters.C32_taken", "Verif.Filters.C32_empty_answer_ignored"], "note": "The failure policy is proved for both modes; an answer without blocks is ignored even though the filter succeeded."},
{"property": "C33", "status": "proved", "theorems": ["Verif.Wiki.C33_sanitised", "Verif.Wiki.C33_basic"], "note": ""},
{"property": "C34", "status": "proved", "theorems": ["Verif.Wiki.C34_split", "Verif.Wiki.C34_one_line", "Verif.Wiki.C34_content", "Verif.Wiki.C34_tree"], "note": ""},
{"property": "C35", "status": "partial", "theorems": ["Verif.HeaderIds.C35_gfm_partial", "Verif.HeaderIds.C35_gfm_words_partial", "Verif.HeaderIds.C35_gfm_safe_partial", "Verif.HeaderIds.C35_overflow", "Verif.HeaderIds.C35_mmd_partial", "Verif.HeaderIds.C35_kramdown_partial", "Verif.HeaderIds.C35_read_past_end"], "note": "false as stated: emoji names overflow the buffer, truncated UTF-8 is read past its end; exact results proved elsewhere"},
{"property": "C36", "status": "partial", "theorems": ["Verif.HtmlPass.C36_levels_partial", "Verif.HtmlPass.C36_other_levels", "Verif.HtmlPass.C36_closing", "Verif.HtmlPass.C36_above"], "note": "Exact result for base levels 1 to 6; closing tags with white space keep their level."},
{"property": "C37", "status": "partial", "theorems": ["Verif.HtmlPass.C37_shift_partial", "Verif.HtmlPass.C37_two_levels"], "note": "Proved for indents 0 and 1 and for documents without headers; any other document overruns the buffer."},
{"property": "C38", "status": "partial", "theorems": ["Verif.HtmlPass.C38_gaps_partial", "Verif.HtmlPass.C38_reads_past"], "note": "Proved for every text that does not end in an odd number of '>'; every other text is read past its end."},
{"property": "C39", "status": "proved", "theorems": ["Verif.HtmlPass.C39_clean"], "note": ""},
{"property": "C40", "status": "proved", "theorems": ["Verif.HtmlPass.C40_blank_lines"], "note": ""},
{"property": "C41", "status": "proved", "theorems": ["Verif.HtmlPass.C41_paragraphs", "Verif.HtmlPass.C41_nothing"], "note": ""},
{"property": "C42", "status": "partial", "theorems": ["Verif.Critic.C42_read", "Verif.Critic.C42_accept_partial", "Verif.Critic.C42_reject_partial", "Verif.Critic.C42_empty"], "note": "complete except for the empty text, which overflows its buffer of no bytes"},
{"property": "C43", "status": "partial", "theorems": ["Verif.Highlight.C43_read", "Verif.Highlight.C43_highlight_partial", "Verif.Highlight.C43_insert_partial", "Verif.Highlight.C43_unmarked_partial", "Verif.Highlight.C43_unbalanced", "Verif.Highlight.C43_overflow", "Verif.Highlight.C43_empty", "Verif.Highlight.C43_read_past_end"], "note": "false as stated (lost tags, overflow, read past the end); exact when the result fits"},
{"property": "C44", "status": "partial", "theorems": ["Verif.Markers.C44_read", "Verif.Markers.C44_exact_partial", "Verif.Markers.C44_no_page_break_partial", "Verif.Markers.C44_unmarked_partial", "Verif.Markers.C44_page_break_overflow", "Verif.Markers.C44_lost_text", "Verif.Markers.C44_index_leak", "Verif.Markers.C44_empty"], "note": "false as stated: page breaks overflow short texts, {index} at the end reads past the text"},
{"property": "C45", "status": "partial", "theorems": ["Verif.Address.C45_range_partial", "Verif.Address.C45_open_partial", "Verif.Address.C45_no_prefix", "Verif.Address.C45_single", "Verif.Address.C45_safe", "Verif.Address.C45_file", "Verif.Address.C45_lost_last", "Verif.Address.C45_backwards", "Verif.Address.C45_lost_line"], "note": "Exact for the lines that end in a newline when the prefixed result is at most 924 bytes longer than the file. False as stated: the unfinished last line is lost, [N] selects nothing, [N,M] with M < N goes to the end, long prefixes lose lines."},
{"property": "C46", "status": "partial", "theorems": ["Verif.Csv.C46_read", "Verif.Csv.C46_exact", "Verif.Csv.C46_rectangular_partial", "Verif.Csv.C46_overflow", "Verif.Csv.C46_blank_lines", "Verif.Csv.C46_pipe", "Verif.Csv.C46_quotes"], "note": "The table written for a file is characterised exactly, including when it does not fit. False as stated: rows with many empty cells or blank lines overflow the buffer, cells with pipes split, quotes are not read."},
{"property": "C47", "status": "partial", "theorems": ["Verif.Includes.C47_terminates_partial", "Verif.Includes.C47_deterministic", "Verif.Includes.C47_depth", "Verif.Includes.C47_loops"], "note": "Proved for every file system when every pattern is a valid regular expression. False as stated: an invalid pattern together with a prefix recurses for ever (C47_loops holds for every amount of fuel)."},
{"property": "C48", "status": "proved", "theorems": ["Verif.Ial.C48_merge"], "note": "The function merge_attributes; that references with further attributes do not reach it is C88."},
{"property": "C49", "status": "partial", "theorems": ["Verif.Ial.C49_partial", "Verif.Ial.C49_exact", "Verif.Ial.C49_stray"], "note": "Proved for content that ends in a blank, tab or brace; C49_exact says for every content what happens otherwise. False as stated: for every stray word two memories with different results exist."},
{"property": "C50", "status": "partial", "theorems": ["Verif.Ial.C50_alds_partial", "Verif.Abbr.C50_abbr_partial", "Verif.Ial.C50_alds_cut", "Verif.Ial.C50_colon", "Verif.Ial.C50_behind", "Verif.Ial.C50_code", "Verif.Abbr.C50_abbr_cut", "Verif.Abbr.C50_abbr_code"], "note": "Proved for lines shorter than 2048 (attribute-list definitions) and 1024 bytes (abbreviations) and well-formed definitions. False as stated: longer lines are cut, so a paragraph written on one line loses everything after 1023 bytes; attribute lists with a colon in a value are taken for definitions; code is not protected."},
{"property": "C51", "status": "partial", "theorems": ["Verif.FootHash.C51_hash", "Verif.FootHash.C51_insert_partial", "Verif.FootHash.C51_insert_exists", "Verif.FootHash.C51_overrun"], "note": "The prefix half is proved for every document. The insertion is proved for HTML that does not end in the middle of a footnote attribute; without that it is false, the terminator can be written behind the buffer."},
{"property": "C52", "status": "proved", "theorems": ["Verif.Pretty.C52_no_gap", "Verif.Pretty.C52_only_newlines", "Verif.Pretty.C52_keeps", "Verif.Pretty.C52_idempotent"], "note": ""},
{"property": "C53", "status": "proved", "theorems": ["Verif.Options.C53_commonmark", "Verif.Options.C53_gfm", "Verif.Options.C53_raw_html", "Verif.Options.C53_commonmark_all", "Verif.Options.C53_metadata", "Verif.Options.C53_first"], "note": "Header ids, the group headings of an index, the language on pre elements and strict filters are on in CommonMark mode; the documentation does not count them as extensions."},
{"property": "C54", "status": "proved", "theorems": ["Verif.GrowBuf.C54_serializer_buffer", "Verif.GrowBuf.C54_json_buffer"], "note": ""},
{"property": "C55", "status": "proved", "theorems": ["Verif.Man.C55_requests"], "note": ""},
{"property": "C56", "status": "partial", "theorems": ["Verif.Man.C56_history_partial", "Verif.Man.C56_history_leaks"], "note": "false after a document ending in <dl> HTML"},
{"property": "C57", "status": "proved", "theorems": ["Verif.Man.C57_printed_text", "Verif.Man.C57_injective"], "note": ""},
{"property": "C58", "status": "partial", "theorems": ["Verif.Man.C58_title_partial", "Verif.Man.C58_first_heading", "Verif.Man.C58_no_heading", "Verif.Man.C58_quote_splits_title"], "note": "false for titles with a double quote"},
{"property": "C59", "status": "partial", "theorems": ["Verif.Transforms.C59_prefix_suffix", "Verif.Transforms.C59_remove", "Verif.Transforms.C59_substring", "Verif.Transforms.C59_repeat_partial", "Verif.Transforms.C59_repeat_ub", "Verif.Transforms.C59_join", "Verif.Transforms.C59_slice_partial"], "note": "repeat overflows size_t for large counts (memory error); slice excludes long overflow"},
{"property": "C60", "status": "partial", "theorems": ["Verif.Transforms.C60_regex_replace_partial", "Verif.Transforms.C60_regex_hangs", "Verif.Transforms.C60_regex_ub"], "note": "false for patterns that match the empty string (no return, or heap overflow)"},
{"property": "C61", "status": "partial", "theorems": ["Verif.Transforms.C61_chain_partial", "Verif.Transforms.C61_split_join_chain", "Verif.Transforms.C61_failure", "Verif.Transforms.C61_first_last", "Verif.Transforms.C61_not_composition"], "note": "false after first/last/slice and one-item lists"},
{"property": "C62", "status": "partial", "theorems": ["Verif.MetaParse.C62_round_trip_partial", "Verif.MetaParse.C62_fails"], "note": "Proved for every list of pairs whose unquoted values contain no comma; with a comma the rest of the value is lost."},
{"property": "C63", "status": "partial", "theorems": ["Verif.Emoji.C63_autocorrect_partial", "Verif.Emoji.C63_autocorrect", "Verif.Emoji.C63_fixed", "Verif.Emoji.C63_fails"], "note": "Exact result for every non-empty text with the real table; false for known names containing a hyphen and undefined for the empty text."},
{"property": "C64", "status": "partial", "theorems": ["Verif.Emoji.C64_replace_partial", "Verif.Emoji.C64_replaced_exists", "Verif.Emoji.C64_safe", "Verif.Emoji.C64_text_lost"], "note": "Memory safety is proved for every text; the result is exact when it fits into 2n+15 bytes, otherwise the end of the text is lost."},
{"property": "C65", "status": "partial", "theorems": ["Verif.Plugins.C65_regex_partial", "Verif.Plugins.C65_unique", "Verif.Plugins.C65_anchors_repeat"], "note": "Exact result, termination and memory safety for any matcher; anchors match again on the rest of the text."},
{"property": "C66", "status": "partial", "theorems": ["Verif.Filters.C66_buffer", "Verif.Filters.C66_stops", "Verif.Filters.C66_exchange_partial", "Verif.Filters.C66_hangs"], "note": "Exact bound: complete up to two pipes plus the child's buffer, a hang in every execution above it."},
{"property": "C67", "status": "partial", "theorems": ["Verif.Plugins.C67_request_partial", "Verif.Plugins.C67_id_injection", "Verif.Plugins.C67_id_control"], "note": "Proved for every text and every id that needs no escaping; other ids are injected unescaped."},
{"property": "C68", "status": "proved", "theorems": ["Verif.Plugins.C68_manifest", "Verif.Plugins.C68_unknown_phase"], "note": ""},
{"property": "C69", "status": "partial", "theorems": ["Verif.Man.C69_fragment_fonts_partial", "Verif.Man.C69_em_ignored", "Verif.Man.C69_nested_strong"], "note": "Proved for all fragments with strong and code not nested in themselves; em is ignored and nesting breaks the fonts."},
{"property": "C70", "status": "partial", "theorems": ["Verif.Man.C70_fonts_partial", "Verif.Man.C70_nested_wrong"], "note": "Proved for all trees without emphasis inside emphasis; nested emphasis leaks its font."},
{"property": "C71", "status": "partial", "theorems": ["Verif.HeaderIds.C71_case_partial", "Verif.HeaderIds.C71_accents"], "note": "ASCII letters proved, refuted for accented letters"},
{"property": "C72", "status": "proved", "theorems": ["Verif.HeaderIds.C72_manual", "Verif.HeaderIds.C72_unique"], "note": ""},
{"property": "C73", "status": "partial", "theorems": ["Verif.HeaderIds.C73_used_partial", "Verif.HeaderIds.C73_generated", "Verif.HeaderIds.C73_quote", "Verif.HeaderIds.C73_other_attribute"], "note": "false for ids with a double quote and beside attributes whose name ends in id"},
{"property": "C74", "status": "partial", "theorems": ["Verif.HeaderIds.C74_heading_text_partial", "Verif.HeaderIds.C74_long_headings"], "note": "exact: false from 512 bytes of text on (heap overflow)"},
{"property": "C75", "status": "partial", "theorems": ["Verif.Critic.C75_shown_partial", "Verif.Critic.C75_lost", "Verif.Critic.C75_lost_long"], "note": "false as stated: edits that do not fit twice the text are lost"},
{"property": "C76", "status": "partial", "theorems": ["Verif.Markers.C76_index_kept", "Verif.Markers.C76_index_end_partial"], "note": "false as stated: the marker is not recognised inside a text"},
{"property": "C77", "status": "proved", "theorems": ["Verif.SupSub.C77_keeps", "Verif.SupSub.C77_plain", "Verif.SupSub.C77_sup", "Verif.SupSub.C77_sub", "Verif.SupSub.C77_under", "Verif.SupSub.C77_code", "Verif.SupSub.C77_math", "Verif.SupSub.C77_liquid", "Verif.SupSub.C77_dollar"], "note": "Lossless and memory safe for all documents. The meaning of the markers is stated for one marked piece between plain texts."},
{"property": "C78", "status": "partial", "theorems": ["Verif.Address.C78_between_partial", "Verif.Address.C78_open_partial", "Verif.Address.C78_one_partial", "Verif.Address.C78_absent", "Verif.Address.C78_same"], "note": "For an arbitrary regular-expression compiler. False as stated when one line matches both patterns (nothing is selected), for an unfinished last line and for long prefixes."},
{"property": "C79", "status": "proved", "theorems": ["Verif.Address.C79_prefix"], "note": ""},
{"property": "C80", "status": "partial", "theorems": ["Verif.Includes.C80_quiet_partial", "Verif.Includes.C80_fence"], "note": "Proved for texts without fences of an even number of backticks. False as stated: such fences get one more backtick, and an indented end does not."},
{"property": "C81", "status": "partial", "theorems": ["Verif.Includes.C81_code_partial", "Verif.Includes.C81_double"], "note": "Proved between single backticks. False as stated: between double backticks includes are processed."},
{"property": "C82", "status": "partial", "theorems": ["Verif.Includes.C82_braces_partial", "Verif.Includes.C82_marked_partial", "Verif.Includes.C82_slash_partial", "Verif.Includes.C82_slash_block_partial", "Verif.Includes.C82_types", "Verif.Includes.C82_language", "Verif.Includes.C82_code_partial", "Verif.Includes.C82_dropped", "Verif.Includes.C82_overflow", "Verif.Includes.C82_overflow_case"], "note": "Proved for one include in a text that is otherwise quiet, when the result fits. False as stated: a file that does not fit is dropped, and one that fits but leaves no room for the rest makes the terminator be written behind the buffer. Missing: several includes in one text in one theorem."},
{"property": "C83", "status": "partial", "theorems": ["Verif.Includes.C83_braces_partial", "Verif.Includes.C83_marked"], "note": "Holds for {{file}}; false for <<[file], which disappears."},
{"property": "C84", "status": "partial", "theorems": ["Verif.Includes.C84_raw"], "note": "False: for every file a comment with the path is left in its place."},
{"property": "C85", "status": "partial", "theorems": ["Verif.Includes.C85_wildcard", "Verif.Includes.C85_preference"], "note": "False: names with .* always go to glob; the preferred extensions are never tried."},
{"property": "C86", "status": "partial", "theorems": ["Verif.Includes.C86_top_partial", "Verif.Includes.C86_twice", "Verif.Includes.C86_not_found"], "note": "Holds for the document itself. False for included files: the base is applied twice."},
{"property": "C87", "status": "partial", "theorems": ["Verif.Ial.C87_meaning_partial", "Verif.Ial.C87_case", "Verif.Ial.C87_escape", "Verif.Ial.C87_long"], "note": "Proved for lists of fewer than 2048 bytes without backslashes in quoted values. Otherwise false: backslashes stay, longer lists are cut."},
{"property": "C88", "status": "partial", "theorems": ["Verif.Ial.C88_name_partial", "Verif.Ial.C88_lost", "Verif.Ial.C88_case"], "note": "Proved for a reference alone. False for a reference followed by attributes: nothing is inherited."},
{"property": "C89", "status": "partial", "theorems": ["Verif.Ial.C89_html_partial", "Verif.Ial.C89_sizes", "Verif.Ial.C89_quote", "Verif.Ial.C89_cut", "Verif.Ial.C89_digits", "Verif.Ial.C89_style"], "note": "Proved for short attributes. False as stated: quotes are not escaped, long values are cut without closing quote, long widths overflow two stack buffers."},
{"property": "C90", "status": "partial", "theorems": ["Verif.Abbr.C90_extract_partial", "Verif.Abbr.C90_reads", "Verif.Abbr.C90_lost", "Verif.Abbr.C90_empty"], "note": "Proved for texts whose inline abbreviations do not end in white space and whose lines are short. False as stated: white space behind an abbreviation ends the document there; the empty text overruns an allocation."},
{"property": "C91", "status": "partial", "theorems": ["Verif.Abbr.C91_marks_partial", "Verif.Abbr.C91_marks_exist", "Verif.Abbr.C91_none", "Verif.Abbr.C91_lost", "Verif.Abbr.C91_overrun", "Verif.Abbr.C91_attribute", "Verif.Abbr.C91_array"], "note": "Proved when the result is shorter than five times the HTML and the pieces fit their arrays. False as stated: abbreviations that do not fit disappear, the terminator may be written behind the buffer, attributes are damaged, long bracketed abbreviations overrun an array."},
{"property": "C92", "status": "partial", "theorems": ["Verif.Abbr.C92_terminates_partial", "Verif.Abbr.C92_loops", "Verif.Abbr.C92_loops_text"], "note": "Proved when no abbreviation is empty. False as stated: the text [>( )x] makes rendering loop for ever."},
{"property": "C93", "status": "partial", "theorems": ["Verif.FootHash.C93_short_partial", "Verif.FootHash.C93_collide", "Verif.FootHash.C93_case"], "note": "Proved for documents of up to three bytes. False as stated: the prefix keeps the leading digits of a 64-bit number, so the last bytes of the document do not matter."},
{"property": "C94", "status": "partial", "theorems": ["Verif.Pretty.C94_partial", "Verif.Pretty.C94_small_partial", "Verif.Pretty.C94_lost_tag", "Verif.Pretty.C94_empty", "Verif.Pretty.C94_not_idempotent"], "note": "Proved as long as no turn of the loop writes a hundred bytes, e.g. for at most twenty short tags. False as stated: long tags are lost; the empty text is written out of bounds."},
{"property": "C95", "status": "partial", "theorems": ["Verif.Pretty.C95_partial", "Verif.Pretty.C95_blank_lines", "Verif.Pretty.C95_indented"], "note": "Proved for plain code without two blank lines in a row. False as stated: a second blank line is lost; behind a closing code tag the rest of the pre element is indented."},
{"property": "C96", "status": "partial", "theorems": ["Verif.Options.C96_partial", "Verif.Options.C96_cells", "Verif.Options.C96_emoji", "Verif.Options.C96_sanitize"], "note": "Proved for all documented options except three. False for per-cell-alignment and emoji-autocorrect, which nothing reads, and for wikilink-sanitize, which takes yes for no."},
{"property": "C97", "status": "partial", "theorems": ["Verif.Options.C97_plugins", "Verif.Options.C97_partial", "Verif.Options.C97_raw_html", "Verif.Options.C97_format", "Verif.Options.C97_css", "Verif.Options.C97_directory"], "note": "Proved for the plugin flags, and for the other flags when no metadata is about the same option or the mode. False as stated: unsafe: true beats --no-unsafe, a mode in the metadata drops -t json, css metadata replaces --css."},
{"property": "C98", "status": "partial", "theorems": ["Verif.Options.C98_partial", "Verif.Options.C98_behind", "Verif.Options.C98_before", "Verif.Options.C98_pretty"], "note": "Proved for flags behind the mode. False as stated: every option set before --mode is lost."},
{"property": "C99", "status": "partial", "theorems": ["Verif.Options.C99_partial", "Verif.Options.C99_differs"], "note": "Proved for all options but five. False as stated: citations and indices are on in unified mode and off by default."}
]}
