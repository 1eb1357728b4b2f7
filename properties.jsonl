{"id": "C01", "title": "UTF-8 validation is exact", "statement": "apex_utf8_validate(s,len) returns true exactly when s can be cut into consecutive sequences that each consist of a lead byte and precisely the number of continuation bytes the lead byte announces.", "quantifier": "every byte string of every length", "why_tests_cant": "A unit test checks finitely many strings; the claim ranges over an infinite input space.", "anchors": ["src/utf8.c:apex_utf8_validate", "src/utf8.c:apex_utf8_char_length"]}
{"id": "C02", "title": "UTF-8 validation composes", "statement": "If a is accepted by apex_utf8_validate then a followed by b is accepted exactly when b is accepted; joining accepted fragments never makes invalid text and cutting after an accepted fragment never makes the rest invalid.", "quantifier": "every pair of byte strings", "why_tests_cant": "A unit test checks finitely many strings; the claim ranges over an infinite input space.", "anchors": ["src/utf8.c:apex_utf8_validate"]}
{"id": "C03", "title": "Accepted text is Unicode UTF-8", "statement": "apex_utf8_validate accepts every RFC 3629 well-formed string and nothing else (no overlong forms, surrogates or code points above U+10FFFF).", "quantifier": "every byte string of every length", "why_tests_cant": "A unit test checks finitely many strings; the claim ranges over an infinite input space. The code is only a structural check, so the 'nothing else' half fails.", "anchors": ["src/utf8.c:apex_utf8_validate"]}
{"id": "C04", "title": "Buffer appends are concatenation", "statement": "After apex_buffer_init with any capacity and any history of append / append_str / append_char / clear, apex_buffer_cstr returns the concatenation of everything appended since the last clear, followed by a NUL, and no write of the history leaves the allocation.", "quantifier": "every initial capacity and every finite history of operations", "why_tests_cant": "Histories are unbounded and growth steps depend on all previous sizes.", "anchors": ["src/buffer.c:apex_buffer_append", "src/buffer.c:apex_buffer_grow", "src/buffer.c:apex_buffer_clear"]}
{"id": "C05", "title": "A buffer stays usable after detach", "statement": "After apex_buffer_detach the buffer is empty and can be appended to again, and every append returns.", "quantifier": "every history of buffer operations including detach", "why_tests_cant": "Non-termination cannot be observed by a test that must finish, and the history leading to it is arbitrary.", "anchors": ["src/buffer.c:apex_buffer_detach", "src/buffer.c:apex_buffer_append"]}
{"id": "C06", "title": "HTML escaping neutralises markup", "statement": "For every text, the escaping used by the built-in HTML renderer yields a string without '<', '>' or '\"' in which every '&' starts one of the four entities it writes, and decoding these entities gives the text back.", "quantifier": "every byte string of every length", "why_tests_cant": "A unit test checks finitely many strings; the claim ranges over an infinite input space.", "anchors": ["src/renderer.c:escape_html"]}
{"id": "C07", "title": "Man-page HTML escaping is lossless", "statement": "The escaping of the man-html output turns every text into a string with no '<', '>', '\"' or apostrophe, from which the five entities decode back to the text; distinct texts never escape to the same output.", "quantifier": "every byte string of every length", "why_tests_cant": "A unit test checks finitely many strings; the claim ranges over an infinite input space.", "anchors": ["src/ast_man.c:man_buf_append_html_escaped"]}
{"id": "C08", "title": "JSON escaping round-trips", "statement": "For every text, the escaped form sent to plugins and AST filters, put between quotes, is a valid JSON string literal whose decoded value is that text; the escaping never writes outside its 6*len+1 byte allocation and never fails.", "quantifier": "every byte string of every length", "why_tests_cant": "A unit test checks finitely many strings; the claim ranges over an infinite input space.", "anchors": ["src/plugins_env.c:apex_json_escape", "src/ast_json.c:apex_json_escape_local"]}
{"id": "C09", "title": "AST JSON strings survive a write/read cycle", "statement": "A string written by the AST JSON serializer and read back by the AST JSON reader is unchanged, whatever follows it in the document.", "quantifier": "every string and every following text", "why_tests_cant": "A unit test checks finitely many strings; the claim ranges over an infinite input space. Control characters are lost, so the unrestricted claim fails.", "anchors": ["src/ast_json.c:apex_json_escape_local", "src/ast_json.c:json_parse_string"]}
{"id": "C10", "title": "Document text cannot start a roff control line", "statement": "In man-page output, text taken from the document never produces a line beginning with '.' or an apostrophe (a roff request), whatever the text contains and whatever was written before.", "quantifier": "every previous output and every text", "why_tests_cant": "A unit test checks finitely many strings; the claim ranges over an infinite input space.", "anchors": ["src/ast_man.c:man_buf_append_roff_safe"]}
{"id": "C11", "title": "Definition-list fragments reach the man page safely and finitely", "statement": "Converting any <dt>/<dd> fragment to roff finishes, and the converted text cannot begin a roff request line.", "quantifier": "every HTML fragment", "why_tests_cant": "A hanging conversion cannot be established by running it; the fragment is arbitrary.", "anchors": ["src/ast_man.c:append_html_fragment_roff", "src/ast_man.c:decode_entity"]}
{"id": "C12", "title": "Markdown escaping is invertible", "statement": "For every text and dialect, removing the backslashes the Markdown serializer inserts gives the text back, and no special character of the dialect is left unescaped.", "quantifier": "every byte string and every dialect", "why_tests_cant": "A unit test checks finitely many strings; the claim ranges over an infinite input space.", "anchors": ["src/ast_markdown.c:escape_markdown"]}
{"id": "C13", "title": "Hex entity obfuscation is invisible to a browser", "statement": "Encoding an address for e-mail obfuscation yields only '&#xHH;' groups, one per byte, decodes to the original, never fails for non-empty input and fits its allocation.", "quantifier": "every byte string of every length", "why_tests_cant": "A unit test checks finitely many strings; the claim ranges over an infinite input space.", "anchors": ["src/apex.c:apex_encode_hex_entities"]}
{"id": "C14", "title": "Embedded images are base64 of the file", "statement": "The base64 text embedded for an image decodes, by RFC 4648, to exactly the bytes of the file.", "quantifier": "every non-empty byte string", "why_tests_cant": "A unit test checks finitely many strings; the claim ranges over an infinite input space. It fails for most lengths above 3, so a few sample files decide nothing.", "anchors": ["src/apex.c:apex_base64_encode"]}
{"id": "C15", "title": "urlencode and urldecode are inverse", "statement": "For every metadata value, [%k:urlencode:urldecode] gives the value back, and the encoded value contains only unreserved URL characters and %HH groups; neither transform writes outside its allocation.", "quantifier": "every byte string of every length", "why_tests_cant": "A unit test checks finitely many strings; the claim ranges over an infinite input space.", "anchors": ["src/extensions/metadata.c:apply_transform (urlencode, urldecode)"]}
{"id": "C16", "title": "Image URL encoding is idempotent, safe and decodes to the URL", "statement": "Encoding an image URL yields only URL-safe ASCII characters, fits the 3*len+1 allocation, leaves an already encoded URL unchanged, changes nothing when the URL had only safe characters, and percent-decodes to the original URL when that has no percent sign.", "quantifier": "every byte string of every length", "why_tests_cant": "A unit test checks finitely many strings; the claim ranges over an infinite input space.", "anchors": ["src/extensions/ial.c:url_encode"]}
{"id": "C17", "title": "html_escape transform cannot inject markup", "statement": "[%k:html_escape] yields only printable ASCII without '<', '>', quotes or apostrophes and never writes outside its allocation, for every value; for ASCII values decoding the entities gives the value back.", "quantifier": "every byte string of every length", "why_tests_cant": "A unit test checks finitely many strings; the claim ranges over an infinite input space.", "anchors": ["src/extensions/metadata.c:apply_transform (escape)"]}
{"id": "C18", "title": "slug transform yields clean slugs", "statement": "[%k:slug] yields only a-z, 0-9 and '-', never two adjacent hyphens, never a trailing hyphen, fits its allocation, and slugging twice equals slugging once.", "quantifier": "every byte string of every length", "why_tests_cant": "A unit test checks finitely many strings; the claim ranges over an infinite input space. The idempotence part is false.", "anchors": ["src/extensions/metadata.c:apply_transform (slug)"]}
{"id": "C19", "title": "Case, trim and reverse transforms", "statement": "upper, lower, title, capitalize and reverse keep the byte length; upper and lower are idempotent and absorb each other; trim removes exactly the surrounding whitespace and is idempotent; reverse twice is the identity.", "quantifier": "every byte string of every length", "why_tests_cant": "A unit test checks finitely many strings; the claim ranges over an infinite input space.", "anchors": ["src/extensions/metadata.c:apply_transform"]}
{"id": "C20", "title": "replace transform replaces all occurrences", "statement": "[%k:replace(old,new)] equals the value with every leftmost non-overlapping occurrence of old replaced by new, and never writes outside its computed allocation.", "quantifier": "every value, non-empty old and new", "why_tests_cant": "A unit test checks finitely many strings; the claim ranges over an infinite input space.", "anchors": ["src/extensions/metadata.c:apply_transform (replace)"]}
{"id": "C21", "title": "truncate and pad respect their limits", "statement": "[%k:truncate(n,suffix)] never yields more than n bytes for a value longer than n, and truncate and pad never read or write outside their strings, whatever n the document supplies.", "quantifier": "every value, every integer n, every suffix", "why_tests_cant": "A unit test checks finitely many strings; the claim ranges over an infinite input space. Negative n makes the claim false.", "anchors": ["src/extensions/metadata.c:apply_transform (truncate, pad)"]}
{"id": "C22", "title": "split and join transforms terminate", "statement": "The split transform finishes for every delimiter pattern and value, and its tokens are non-empty trimmed pieces of the value in order.", "quantifier": "every value and every matcher behaviour", "why_tests_cant": "Whether a loop finishes for every regular expression cannot be tested.", "anchors": ["src/extensions/metadata.c:split_string"]}
{"id": "C23", "title": "Metadata lookup ignores case and spaces", "statement": "apex_metadata_get returns a value exactly when some entry's key equals the requested key up to case and white space, prefers an entry equal up to case only, and otherwise takes the first entry in list order.", "quantifier": "every metadata list and every key", "why_tests_cant": "Both lists and keys are unbounded.", "anchors": ["src/extensions/metadata.c:apex_metadata_get", "src/extensions/metadata.c:normalize_metadata_key"]}
{"id": "C24", "title": "Later metadata sources win", "statement": "After apex_merge_metadata, looking up any key defined in the last list gives the last list's value, and looking up a key that only an earlier list defines gives that list's value.", "quantifier": "every family of metadata lists and every key", "why_tests_cant": "Precedence must hold for all lists, including duplicate keys and keys spelled with different spacing, where it fails.", "anchors": ["src/extensions/metadata.c:apex_merge_metadata", "src/extensions/metadata.c:add_metadata_item"]}
{"id": "C25", "title": "Metadata variables touch nothing else", "statement": "apex_metadata_replace_variables leaves text without '[%' unchanged, replaces each closed [%key] whose key is known by its value once (values are not expanded again), keeps unknown variables and everything outside variables byte for byte, and never writes outside its buffer.", "quantifier": "every text and every metadata list", "why_tests_cant": "A unit test checks finitely many strings; the claim ranges over an infinite input space.", "anchors": ["src/extensions/metadata.c:apex_metadata_replace_variables"]}
{"id": "C26", "title": "Metadata extraction never rewrites the body", "statement": "apex_extract_metadata leaves the document text a suffix of what it was; when it finds no metadata the text is unchanged; what it removes is only metadata lines.", "quantifier": "every document", "why_tests_cant": "A unit test checks finitely many strings; the claim ranges over an infinite input space. The last part is false: content lines before the first key are removed too.", "anchors": ["src/extensions/metadata.c:apex_extract_metadata", "src/extensions/metadata.c:parse_pandoc_metadata", "src/extensions/metadata.c:parse_mmd_metadata"]}
{"id": "C27", "title": "Emoji correction uses true edit distance", "statement": "The distance used to suggest a correct emoji name equals the minimum number of single character insertions, deletions and substitutions between the two names.", "quantifier": "every pair of strings", "why_tests_cant": "A unit test checks finitely many strings; the claim ranges over an infinite input space.", "anchors": ["src/extensions/emoji.c:levenshtein_distance"]}
{"id": "C28", "title": "Emoji correction picks a best candidate", "statement": "The suggested emoji name is one of the known names, at distance at most the limit, and no other known name is closer; among equally close ones none is shorter. No suggestion is made exactly when no name is within the limit.", "quantifier": "every name table and every misspelling", "why_tests_cant": "The table and misspelling are arbitrary.", "anchors": ["src/extensions/emoji.c:find_best_emoji_match"]}
{"id": "C29", "title": "Plugins run in priority order", "statement": "However plugins are discovered, the list of each phase is ordered by priority and then id, contains each discovered plugin once, and plugins with equal priority and id keep discovery order.", "quantifier": "every sequence of plugin registrations", "why_tests_cant": "Sequences of registrations are unbounded.", "anchors": ["src/plugins.c:append_plugin_sorted"]}
{"id": "C30", "title": "First discovered plugin id wins", "statement": "After scanning any sequence of plugin directories, no phase holds two plugins with the same id and a plugin from an earlier directory is never displaced by one from a later directory.", "quantifier": "every sequence of directories and manifests", "why_tests_cant": "Sequences are unbounded.", "anchors": ["src/plugins.c:load_plugins_from_dir", "src/plugins.c:plugin_id_exists", "src/plugins.c:apex_plugins_load"]}
{"id": "C31", "title": "Text phase is a left fold that ignores failures", "statement": "Running a phase applies the plugins one after another in list order to the previous result; a plugin that fails leaves the text as it was; the plugin environment variables are back to their previous values afterwards.", "quantifier": "every plugin list, text, environment and plugin behaviour", "why_tests_cant": "The plugin behaviour is an arbitrary function and the list is unbounded.", "anchors": ["src/plugins.c:apex_plugins_run_text_phase"]}
{"id": "C32", "title": "AST filter failure policy", "statement": "With strict filters any failing filter makes the whole run fail and later filters are not run; without strict, the result is that of applying the filters that succeed, in order, and the run never fails.", "quantifier": "every list of filters and filter behaviours", "why_tests_cant": "Arbitrary filter behaviours.", "anchors": ["src/filters_ast.c:apex_run_ast_filters"]}
{"id": "C33", "title": "Wiki link URLs are sanitised", "statement": "With sanitising on, a wiki link URL path contains only lower-case ASCII letters, digits, '/', '.' and the chosen space character, with no doubled space character and none at its start or end; buffers are never overrun in any configuration.", "quantifier": "every page name and configuration", "why_tests_cant": "A unit test checks finitely many strings; the claim ranges over an infinite input space.", "anchors": ["src/extensions/wiki_links.c:page_to_url", "src/extensions/wiki_links.c:latin1_to_ascii"]}
{"id": "C34", "title": "Wiki link scanning loses no text", "statement": "Splitting a text at wiki links keeps every byte: concatenating the text pieces and the source of the link pieces gives the text, and every link piece is a closed [[...]] on one line.", "quantifier": "every byte string of every length", "why_tests_cant": "A unit test checks finitely many strings; the claim ranges over an infinite input space.", "anchors": ["src/extensions/wiki_links.c:apex_process_wiki_links_in_tree", "src/extensions/wiki_links.c:scan_wiki_link"]}
{"id": "C35", "title": "Header ids are well formed", "statement": "A generated header id is never empty, and in GFM format contains only lower-case ASCII letters, digits, '-' and '_' bytes with no leading, trailing or doubled dash; generation never reads or writes outside its buffers.", "quantifier": "every heading text", "why_tests_cant": "A unit test checks finitely many strings; the claim ranges over an infinite input space. Memory safety fails on truncated UTF-8.", "anchors": ["src/extensions/header_ids.c:apex_generate_header_id"]}
{"id": "C36", "title": "Base header level shifts every heading", "statement": "apex_adjust_header_levels maps every heading tag of level l to level min(6, l+base-1), opening and closing alike, changes nothing else, keeps the length, and never writes outside its buffer.", "quantifier": "every HTML text and every base level", "why_tests_cant": "A unit test checks finitely many strings; the claim ranges over an infinite input space.", "anchors": ["src/html_renderer.c:apex_adjust_header_levels"]}
{"id": "C37", "title": "Merged documents have their headings shifted", "statement": "Merging an index entry indented n levels adds exactly n '#' to every line that starts with '#', changes nothing else, and stays inside its buffer.", "quantifier": "every document and every indent", "why_tests_cant": "A unit test checks finitely many strings; the claim ranges over an infinite input space. It fails for every indent above 1, on all documents with a heading.", "anchors": ["cli/main.c:apex_cli_shift_headers"]}
{"id": "C38", "title": "Inter-tag whitespace is the only thing collapsed", "statement": "apex_collapse_intertag_newlines changes only white space between a '>' and a '<', never produces a longer text, and never reads or writes outside its strings.", "quantifier": "every HTML text", "why_tests_cant": "A unit test checks finitely many strings; the claim ranges over an infinite input space. Memory safety fails for text ending in '>'.", "anchors": ["src/html_renderer.c:apex_collapse_intertag_newlines"]}
{"id": "C39", "title": "Tag spacing cleanup is confined to tags", "statement": "apex_clean_html_tag_spacing changes only white space inside tags, is idempotent, and never writes outside its len+1 buffer.", "quantifier": "every HTML text", "why_tests_cant": "A unit test checks finitely many strings; the claim ranges over an infinite input space.", "anchors": ["src/html_renderer.c:apex_clean_html_tag_spacing"]}
{"id": "C40", "title": "Blank-line removal is confined to tables", "statement": "apex_remove_table_blank_lines deletes only whole blank lines lying inside a table, keeps every other line byte for byte and in order, and stays inside its buffer.", "quantifier": "every HTML text", "why_tests_cant": "A unit test checks finitely many strings; the claim ranges over an infinite input space.", "anchors": ["src/html_renderer.c:apex_remove_table_blank_lines"]}
{"id": "C41", "title": "Only empty paragraphs are removed", "statement": "apex_remove_empty_paragraphs removes only <p> elements consisting of white space and zero-width spaces; all other bytes are kept in order; the buffer is never overrun.", "quantifier": "every HTML text", "why_tests_cant": "A unit test checks finitely many strings; the claim ranges over an infinite input space.", "anchors": ["src/apex.c:apex_remove_empty_paragraphs"]}
{"id": "C42", "title": "Accepting or rejecting critic markup", "statement": "In accept mode every closed insertion and highlight is replaced by its content, deletions and comments vanish, substitutions give the new text, text outside markup is unchanged; reject mode is the mirror image. No output is lost for lack of buffer space.", "quantifier": "every byte string of every length", "why_tests_cant": "A unit test checks finitely many strings; the claim ranges over an infinite input space.", "anchors": ["src/extensions/critic.c:apex_process_critic_markup_text", "src/extensions/critic.c:critic_to_html"]}
{"id": "C43", "title": "Highlight and insert markers never corrupt text", "statement": "Processing ==text== and ++text++ keeps every byte that is not part of a marker, emits balanced <mark>/<ins> tags, and stays inside its buffer.", "quantifier": "every byte string of every length", "why_tests_cant": "A unit test checks finitely many strings; the claim ranges over an infinite input space. It fails for short inputs because of the buffer size rule.", "anchors": ["src/extensions/highlight.c:apex_process_highlights", "src/extensions/insert.c:apex_process_inserts"]}
{"id": "C44", "title": "Special markers are memory safe", "statement": "apex_process_special_markers never reads beyond the end of the text or writes beyond its buffer, and leaves text without markers unchanged.", "quantifier": "every byte string of every length", "why_tests_cant": "A unit test checks finitely many strings; the claim ranges over an infinite input space. It fails for text ending in {index}.", "anchors": ["src/extensions/special_markers.c:apex_process_special_markers"]}
{"id": "C45", "title": "Line-range includes are half open", "statement": "An include address [N,M] yields exactly lines N to M-1 of the file, [N,] yields line N to the end, each with the prefix; no line is lost or altered.", "quantifier": "every file and every pair of line numbers", "why_tests_cant": "A unit test checks finitely many strings; the claim ranges over an infinite input space.", "anchors": ["src/extensions/includes.c:extract_lines", "src/extensions/includes.c:parse_address_spec"]}
{"id": "C46", "title": "CSV conversion keeps the table", "statement": "Converting CSV to a table yields one table row per input row with the column count of the first row, extra cells dropped and missing cells empty, without writing outside its buffer.", "quantifier": "every CSV text", "why_tests_cant": "A unit test checks finitely many strings; the claim ranges over an infinite input space. The allocation rule is too small for some texts.", "anchors": ["src/extensions/includes.c:apex_csv_to_table"]}
{"id": "C47", "title": "Includes terminate", "statement": "Processing includes finishes for every file system, including files that include themselves or each other; nesting deeper than the limit is left as text.", "quantifier": "every file system and document", "why_tests_cant": "Cyclic includes of every shape cannot be enumerated.", "anchors": ["src/extensions/includes.c:apex_process_includes"]}
{"id": "C48", "title": "Attribute merging overrides by key", "statement": "Merging an attribute list reference with explicit attributes: an explicit id or key=value replaces the inherited one, other inherited values are kept, classes of both appear in order.", "quantifier": "every pair of attribute lists", "why_tests_cant": "Unbounded lists.", "anchors": ["src/extensions/ial.c:merge_attributes", "src/extensions/ial.c:find_attribute_index"]}
{"id": "C49", "title": "Attribute list parsing stays inside the text", "statement": "Parsing the content of an attribute list looks only at that content: the result depends on nothing else in memory.", "quantifier": "every byte string of every length", "why_tests_cant": "A unit test checks finitely many strings; the claim ranges over an infinite input space. It fails for content ending in a bare word.", "anchors": ["src/extensions/ial.c:parse_ial_content"]}
{"id": "C50", "title": "Extraction passes keep ordinary lines", "statement": "Removing attribute-list definitions and abbreviation definitions from a document keeps every other line byte for byte.", "quantifier": "every document", "why_tests_cant": "A unit test checks finitely many strings; the claim ranges over an infinite input space. Lines of 1024 or 2048 bytes and more are cut.", "anchors": ["src/extensions/ial.c:apex_extract_alds", "src/extensions/abbreviations.c:apex_extract_abbreviations"]}
{"id": "C51", "title": "Footnote id prefix", "statement": "The document hash used to prefix footnote ids is always exactly eight lower-case hex digits, and adding it inserts it after every footnote id and reference and changes nothing else.", "quantifier": "every document and every HTML text", "why_tests_cant": "A unit test checks finitely many strings; the claim ranges over an infinite input space.", "anchors": ["src/apex.c:apex_compute_document_hash", "src/apex.c:apex_add_hash_to_footnote_ids"]}
{"id": "C52", "title": "Pretty printing leaves no runs of blank lines", "statement": "The last step of apex_pretty_print_html leaves at most two newlines in a row, keeps every other byte in order, and is idempotent.", "quantifier": "every byte string of every length", "why_tests_cant": "A unit test checks finitely many strings; the claim ranges over an infinite input space.", "anchors": ["src/pretty_html.c:apex_pretty_print_html"]}
{"id": "C53", "title": "Processor modes", "statement": "apex_options_for_mode yields documented feature sets: no extension is on in CommonMark mode, GFM turns on only tables, task lists, strikethrough and autolinks, raw HTML is disabled in both, and metadata can switch the mode only to a known one.", "quantifier": "every mode, every metadata list", "why_tests_cant": "Metadata lists are unbounded.", "anchors": ["src/apex.c:apex_options_for_mode", "src/extensions/metadata.c:apex_apply_metadata_to_options"]}
{"id": "C54", "title": "Serialiser output buffers hold exactly what was appended", "statement": "For every history of appends, the output buffer of the man page, Markdown, terminal and AST JSON serialisers holds the concatenation of the pieces, NUL-terminated inside its allocation, and every append returns.", "quantifier": "every list of byte strings", "why_tests_cant": "buffer growth depends on the whole history of sizes", "anchors": ["src/ast_man.c:man_buf_append", "src/ast_markdown.c:buffer_append", "src/ast_terminal.c:buffer_append", "src/ast_json.c:apex_json_buf_append"]}
{"id": "C55", "title": "A man page has exactly the requests of its document", "statement": "Converting a document without <dl> HTML to a man page finishes, and the roff requests of the page are exactly .TH and those its headings, paragraphs, lists, code blocks, quotes, rules and hard breaks stand for, in document order, whatever the texts, code and URLs contain.", "quantifier": "every document tree of every depth and every text", "why_tests_cant": "trees and texts are unbounded; one missed escape anywhere lets text act as a request", "anchors": ["src/ast_man.c:apex_cmark_to_man_roff", "src/ast_man.c:render_block_roff", "src/ast_man.c:render_inline_roff"]}
{"id": "C56", "title": "Man page conversion does not depend on earlier conversions", "statement": "Converting a document gives the same page whatever documents were converted before in the process.", "quantifier": "every sequence of documents", "why_tests_cant": "depends on the history of calls", "anchors": ["src/ast_man.c:roff_last_was_dl_dd", "src/ast_man.c:apex_cmark_to_man_roff"]}
{"id": "C57", "title": "Man page text is lossless", "statement": "The text roff prints for a text of the document is that text, except that en dashes show as two hyphens; texts without en dashes are never confused.", "quantifier": "every previous output and every text", "why_tests_cant": "every byte string", "anchors": ["src/ast_man.c:man_buf_append_roff_safe"]}
{"id": "C58", "title": "The man page title is one .TH argument", "statement": "The .TH line of a man page has four arguments, the first being the text of the first level-1 heading (or \"Document\"), whatever the heading contains.", "quantifier": "every document and every title", "why_tests_cant": "The claim ranges over all documents and all heading texts.", "anchors": ["src/ast_man.c:apex_cmark_to_man_roff", "src/ast_man.c:get_first_h1_text"]}
{"id": "C59", "title": "Remaining string transforms", "statement": "prefix and suffix concatenate, remove deletes every leftmost non-overlapping occurrence, substring and slice select a contiguous part, repeat gives n copies, join puts the delimiter between the items; none of them reads or writes outside its strings, whatever numbers the document supplies.", "quantifier": "every value, option string and integer option", "why_tests_cant": "Unit tests try a few values; the claim is about every value, option number and pattern, including extreme ones.", "anchors": ["src/extensions/metadata.c: apply_transform (prefix, suffix, remove, substring, slice, repeat, join)"]}
{"id": "C60", "title": "Regex replace terminates in bounds", "statement": "[%k:replace(regex:PAT,NEW)] returns, for every pattern, the value with every match replaced by NEW, and never writes outside its allocation.", "quantifier": "every value, every pattern (any matcher behaviour) and NEW", "why_tests_cant": "Unit tests try a few values; the claim is about every value, option number and pattern, including extreme ones.", "anchors": ["src/extensions/metadata.c: apply_transform (replace, regex branch)"]}
{"id": "C61", "title": "Transform chains compose", "statement": "[%k:t1:t2:...:tn] is tn applied to ... t2 applied to the result of t1; if a transform fails the original value is returned.", "quantifier": "every chain of transforms and every value", "why_tests_cant": "The number and order of transforms is unbounded; tests fix a handful of chains.", "anchors": ["src/extensions/metadata.c: apply_transform_chain, apply_transform"]}
{"id": "C62", "title": "Metadata given on the command line is read back", "statement": "apex_parse_command_metadata returns exactly the pairs of a comma-separated list KEY=VALUE,..., each with its whole value, quoted or not.", "quantifier": "every argument string", "why_tests_cant": "The argument is unbounded and the pair boundaries depend on look-ahead over the rest of the string. False as stated: the text behind a comma inside an unquoted value is lost.", "anchors": ["src/extensions/metadata.c:apex_parse_command_metadata", "src/extensions/metadata.c:parse_key_value_pair"]}
{"id": "C63", "title": "Emoji autocorrection changes only wrong names", "statement": "apex_autocorrect_emoji_names returns the text with every :name: that is not a known emoji replaced by the best known name, leaves known names and all other text alone, and stays inside its buffer.", "quantifier": "every document", "why_tests_cant": "The result depends on a search over the whole emoji table for each name and on a buffer of twice the text; no finite test covers all texts. False as stated for known names with a hyphen (:-1: becomes :+1:) and for the empty text.", "anchors": ["src/extensions/emoji.c:apex_autocorrect_emoji_names", "src/extensions/emoji.c:normalize_emoji_name", "src/extensions/emoji_data.h:complete_emoji_map"]}
{"id": "C64", "title": "Emoji replacement in text output keeps the rest", "statement": "apex_replace_emoji_text replaces every :name: of a known emoji by its Unicode form, keeps every other byte in order and never leaves its buffer.", "quantifier": "every text", "why_tests_cant": "Whether text is lost depends on the ratio of all names in the text; tests use a few names. False as stated: many short names exhaust the buffer and the end of the text is dropped.", "anchors": ["src/extensions/emoji.c:apex_replace_emoji_text"]}
{"id": "C65", "title": "Regex plugins replace every match once", "statement": "A declarative regex plugin terminates, stays inside its buffer and returns the text with every match of the pattern replaced once by the template with $0..$9 expanded; it returns nothing when the pattern does not match.", "quantifier": "every text, template and pattern (any matcher reporting offsets inside the text)", "why_tests_cant": "The pattern is an arbitrary matcher and the buffer growth depends on the sizes of all groups. False as stated for patterns with anchors: $ is replaced twice and ^ before every byte, because each search starts afresh on the rest of the text.", "anchors": ["src/plugins.c:apply_regex_replacement"]}
{"id": "C66", "title": "Input of any size passes through an external command", "statement": "Sending a document to an external plugin or filter that passes its input on returns all of it, for every size of document, and the buffer for the output never overflows.", "quantifier": "every document size, pipe capacity and buffer size of the child, every interleaving of the two processes", "why_tests_cant": "Deadlocks depend on interleavings and sizes beyond what tests send. False as stated: apex writes everything before reading anything, so an input larger than two pipes and the child's buffer hangs in every execution.", "anchors": ["src/filters_ast.c:run_single_ast_filter", "src/plugins_env.c:apex_run_external_plugin_command"]}
{"id": "C67", "title": "Plugin requests are valid JSON carrying id, phase and text", "statement": "The request written to a plugin command is a JSON object whose members version, plugin_id, phase and text have the version 1, the plugin's id, the phase and the text.", "quantifier": "every id, phase and text", "why_tests_cant": "Texts and ids are arbitrary byte strings. False as stated: the id is copied without escaping, so an id with quotes adds members of its own.", "anchors": ["src/plugins_env.c:apex_run_external_plugin_command", "src/plugins_env.c:json_escape"]}
{"id": "C68", "title": "Plugin manifests", "statement": "A manifest with a known phase (and a pattern that compiles, if one is used) gives a plugin with the last id given or the directory entry's name, with the priority written in decimal or 100 when there is none, and with a command or a pattern but never both; a manifest without a known phase gives none.", "quantifier": "every list of manifest items, every regex compiler", "why_tests_cant": "Manifests are arbitrary lists of items and numbers.", "anchors": ["src/plugins.c:load_plugins_from_dir", "src/plugins.c:plugin_phase_mask_from_string"]}
{"id": "C69", "title": "Definition-list fragments keep text and fonts in man pages", "statement": "The text of a definition term or definition is printed by roff with entities decoded, every character in the font its elements ask for (strong bold, code roman, emphasis italic), and the font is roman again at the end.", "quantifier": "every HTML fragment built from text, entities, other tags, strong and code elements", "why_tests_cant": "Fragments nest and repeat without bound; tests check single fragments.", "anchors": ["src/ast_man.c:append_html_fragment_roff"]}
{"id": "C70", "title": "Inline formatting in man pages uses the right fonts", "statement": "In a man page every character of inline text is printed in the font its markup asks for, and formatting never leaks into the text that follows it.", "quantifier": "every tree of inline nodes and every text after it", "why_tests_cant": "The claim ranges over all trees of inline nodes; roff remembers only one previous font, which shows only in nested cases.", "anchors": ["src/ast_man.c:render_inline_roff"]}
{"id": "C71", "title": "Header ids ignore the case of letters", "statement": "Two headings that differ only in the case of letters get the same id, in every id format.", "quantifier": "every pair of heading texts, every id format", "why_tests_cant": "Tests compare a few headings; the claim ranges over all pairs. False as stated: accented capitals are transliterated, accented small letters dropped (GFM).", "anchors": ["src/extensions/header_ids.c:apex_generate_header_id"]}
{"id": "C72", "title": "Explicit heading ids are recognised", "statement": "apex_extract_manual_header_id takes an id from a heading exactly when the heading ends, up to white space, in [id] or in {#id}; what remains of the heading is the text in front without trailing white space.", "quantifier": "every heading text", "why_tests_cant": "Brackets may occur anywhere in the heading and nest; tests try a few headings.", "anchors": ["src/extensions/header_ids.c:apex_extract_manual_header_id"]}
{"id": "C73", "title": "Explicit heading ids are used", "statement": "A heading with an explicit id gets exactly this id; any other heading gets the id generated from its text.", "quantifier": "every heading, explicit id and set of attributes already stored", "why_tests_cant": "Ids and attributes are arbitrary strings. False as stated: a double quote in the id ends it and starts further attributes; an attribute like data-id is taken for the id.", "anchors": ["src/extensions/header_ids.c:apex_process_manual_header_id", "src/html_renderer.c:apex_inject_header_ids"]}
{"id": "C74", "title": "Heading text is collected without memory errors", "statement": "apex_extract_heading_text returns the text and code of a heading, in order, for headings of any length.", "quantifier": "every list of inline nodes in a heading", "why_tests_cant": "Tests use short headings. False as stated: the buffer is only ever grown to 512 bytes, so 512 bytes of text or more are written past its end.", "anchors": ["src/extensions/header_ids.c:apex_extract_heading_text"]}
{"id": "C75", "title": "Critic markup shown in HTML is complete", "statement": "In the default mode every closed insertion, deletion, substitution, highlight and comment appears in the output with its text, inside ins, del, mark or span elements, and all other text is unchanged.", "quantifier": "every document", "why_tests_cant": "Whether an edit is lost depends on the total length of all edits so far. False as stated: the output buffer is twice the text, so short edits are left out altogether.", "anchors": ["src/extensions/critic.c:apex_process_critic_markup_text", "src/extensions/critic.c:critic_to_html"]}
{"id": "C76", "title": "The index marker is replaced", "statement": "A {index} marker anywhere in a document is replaced by the place for the index.", "quantifier": "every document with the marker", "why_tests_cant": "A test with the marker at the end of the text passes by accident. False as stated: the comparison includes the terminator, so the marker is only recognised as the very last thing, and then memory behind the text is read.", "anchors": ["src/extensions/special_markers.c:apex_process_special_markers"]}
{"id": "C77", "title": "Superscript, subscript and underline processing loses nothing", "statement": "Turning `^word`, `~word~` and `~underlined text~` into <sup>, <sub> and <u> elements keeps every other byte of the document in order, is confined to its output buffer for every document, raises a word after `^`, lowers letters and digits between tildes inside a word, underlines text between tildes elsewhere, and leaves text without markers, inline code and inline mathematics as they are.", "quantifier": "all documents (byte strings of any length)", "why_tests_cant": "The output buffer is sized by a multiple of the input length and the code silently falls back or drops bytes when it is full; whether that ever happens needs an argument about all documents.", "anchors": ["src/extensions/sup_sub.c: apex_process_sup_sub"]}
{"id": "C78", "title": "Pattern-range includes", "statement": "An include address /A/,/B/ yields the lines of the file from the first that matches A up to, without, the next line that matches B, or to the end if none does, each with the prefix; nothing if no line matches A.", "quantifier": "every file, every pair of patterns and every matcher", "why_tests_cant": "The claim quantifies over all files and all regular expressions.", "anchors": ["src/extensions/includes.c:extract_lines", "src/extensions/includes.c:parse_address_spec"]}
{"id": "C79", "title": "Prefix-only includes", "statement": "An include address that is only prefix=\"...\" puts the prefix on every non-empty line of the file and keeps every other byte; the buffer always suffices.", "quantifier": "every file and prefix", "why_tests_cant": "A unit test checks finitely many files; buffer sufficiency depends on the line structure.", "anchors": ["src/extensions/includes.c:extract_lines"]}
{"id": "C80", "title": "Documents without includes are untouched", "statement": "Include processing returns a document in which no include begins byte for byte.", "quantifier": "every document, directory and file system", "why_tests_cant": "Every placement of slashes, braces, angle brackets and backticks would have to be tried.", "anchors": ["src/extensions/includes.c:apex_process_includes", "src/extensions/includes.c:normalize_fence_delimiters"]}
{"id": "C81", "title": "Code is protected from includes", "statement": "Include syntax inside code spans and code blocks is left as it is.", "quantifier": "every code text, surrounding text and file system", "why_tests_cant": "The code may be any text.", "anchors": ["src/extensions/includes.c:apex_process_includes"]}
{"id": "C82", "title": "Includes insert the file", "statement": "{{file}}, <<[file], /file and <<(file), with or without an address, are replaced by the selected part of the file after its own includes; the text around is kept, and no write leaves the buffer.", "quantifier": "every document, file and file system", "why_tests_cant": "File contents and surrounding text are unbounded, and the failure shows only near the buffer size.", "anchors": ["src/extensions/includes.c:apex_process_includes"]}
{"id": "C83", "title": "Unreadable includes stay visible", "statement": "An include whose file cannot be read is left in the text.", "quantifier": "every document and file system", "why_tests_cant": "All texts around the include and all ways of failing cannot be enumerated.", "anchors": ["src/extensions/includes.c:apex_process_includes"]}
{"id": "C84", "title": "Raw HTML includes insert the file", "statement": "<<{file} puts the HTML of the file into the result.", "quantifier": "every file", "why_tests_cant": "The claim covers all file contents.", "anchors": ["src/extensions/includes.c:apex_process_includes"]}
{"id": "C85", "title": "Wildcard preference", "statement": "{{name.*}} resolves to name.html, name.md, name.txt or name.tex, in this order, when one of them exists.", "quantifier": "every name and file system", "why_tests_cant": "File systems are unbounded.", "anchors": ["src/extensions/includes.c:apex_resolve_wildcard"]}
{"id": "C86", "title": "Relative transclude base", "statement": "A relative transclude base in the metadata of a file makes its includes be looked up in that folder below the file's own directory.", "quantifier": "every directory and base", "why_tests_cant": "All directory structures cannot be enumerated.", "anchors": ["src/extensions/includes.c:get_transclude_base", "src/extensions/includes.c:apex_process_includes"]}
{"id": "C87", "title": "Attribute lists mean what they say", "statement": "#id, .class, key=\"value\", key='value', key=value and the format words in an attribute list give the last id, all classes in order and all attributes in order.", "quantifier": "every attribute list", "why_tests_cant": "The lists, values and separators are unbounded.", "anchors": ["src/extensions/ial.c:parse_ial_content"]}
{"id": "C88", "title": "References inherit", "statement": "{: name} gives the attributes defined by {:name: ...}; {: name more} gives them merged with those following.", "quantifier": "every set of definitions and every list", "why_tests_cant": "Definitions and lists are unbounded.", "anchors": ["src/extensions/ial.c:extract_ial_from_text", "src/extensions/ial.c:find_ald", "src/extensions/ial.c:merge_attributes"]}
{"id": "C89", "title": "Attributes reach the tag", "statement": "Every id, class and attribute of a list is written into the HTML tag so that a reader of the HTML finds the same values; width and height in pixels become attributes, other sizes style declarations.", "quantifier": "every attribute list", "why_tests_cant": "Values are unbounded; buffers of 64, 512, 1024 and 4096 bytes are involved.", "anchors": ["src/extensions/ial.c:attributes_to_html"]}
{"id": "C90", "title": "Inline abbreviations keep the text", "statement": "Extracting abbreviations replaces every inline abbreviation [>(abbr) expansion] by its short form, records the trimmed pair, and keeps all other text.", "quantifier": "every document", "why_tests_cant": "A unit test checks finitely many strings; the claim ranges over an infinite input space. An abbreviation followed by white space before the parenthesis is needed to see the text end.", "anchors": ["src/extensions/abbreviations.c:apex_extract_abbreviations", "src/extensions/abbreviations.c:process_inline_abbreviations"]}
{"id": "C91", "title": "Abbreviations are marked up", "statement": "In the HTML, every whole-word occurrence of a defined abbreviation and every bracketed abbreviation becomes an abbr element with the expansion as title; everything else is unchanged.", "quantifier": "every HTML text and list of abbreviations", "why_tests_cant": "A unit test checks finitely many strings; the claim ranges over an infinite input space. What fails depends on the ratio of the lengths of the expansions to the length of the page.", "anchors": ["src/extensions/abbreviations.c:apex_replace_abbreviations"]}
{"id": "C92", "title": "Marking abbreviations terminates", "statement": "Marking up abbreviations ends for every page and every list of abbreviations.", "quantifier": "every HTML text and list of abbreviations", "why_tests_cant": "A test that hangs shows one input; that no input makes it hang is a statement about all of them.", "anchors": ["src/extensions/abbreviations.c:apex_replace_abbreviations"]}
{"id": "C93", "title": "Different documents get different footnote prefixes", "statement": "Two documents that differ in their last byte get different footnote id prefixes, so that they can be put on one page.", "quantifier": "every document and every pair of last bytes", "why_tests_cant": "A test compares finitely many pairs of documents; whether the last byte matters depends on the number computed for the whole document.", "anchors": ["src/apex.c:apex_compute_document_hash"]}
{"id": "C94", "title": "Pretty printing changes only white space", "statement": "apex_pretty_print_html adds and removes white space and nothing else, and stays within its buffer.", "quantifier": "every HTML text", "why_tests_cant": "The outcome depends on the ratio between the space left, the nesting depth and the lengths of tags, which are unbounded.", "anchors": ["src/pretty_html.c:apex_pretty_print_html"]}
{"id": "C95", "title": "Pretty printing keeps code blocks", "statement": "The text of a code block is in the pretty-printed page byte for byte.", "quantifier": "every HTML text with a code block, every code", "why_tests_cant": "A unit test checks finitely many strings; the claim ranges over an infinite input space.", "anchors": ["src/pretty_html.c:apex_pretty_print_html"]}
{"id": "C96", "title": "Boolean options in metadata", "statement": "A boolean option the manual lists for the metadata takes the value that the last metadata entry with that key gives it: on for true, yes or 1, off for false, no or 0, in any capitalisation of the key and the value, whatever other entries there are and whatever the mode.", "quantifier": "every documented boolean option, every metadata, every value, every options before", "why_tests_cant": "A unit test checks finitely many option combinations; the claim ranges over every list of entries, every prior option state and every spelling of keys and values.", "anchors": ["src/extensions/metadata.c:apex_apply_metadata_to_options", "man/apex.1.md"]}
{"id": "C97", "title": "Command line over metadata", "statement": "A flag on the command line wins over the metadata of the document and of the configuration files.", "quantifier": "every command line, every metadata of the document, of the configuration files and of the command line", "why_tests_cant": "A unit test checks finitely many option combinations; the claim ranges over every list of entries, every prior option state and every spelling of keys and values.", "anchors": ["cli/main.c:main", "src/extensions/metadata.c:apex_apply_metadata_to_options", "man/apex-config.5.md"]}
{"id": "C98", "title": "Order of flags", "statement": "The order of flags on the command line does not matter unless two of them contradict each other; in particular --mode may come first or last.", "quantifier": "every command line, every permutation of it", "why_tests_cant": "A unit test checks finitely many option combinations; the claim ranges over every list of entries, every prior option state and every spelling of keys and values.", "anchors": ["cli/main.c:main", "src/apex.c:apex_options_for_mode"]}
{"id": "C99", "title": "Default mode", "statement": "Rendering without a mode is rendering with --mode unified.", "quantifier": "every option", "why_tests_cant": "A unit test checks finitely many option combinations; the claim ranges over every list of entries, every prior option state and every spelling of keys and values.", "anchors": ["src/apex.c:apex_options_default", "src/apex.c:apex_options_for_mode"]}
{"id": "C100", "title": "Adding metadata leaves the document alone", "statement": "When configuration files or --meta add metadata, the document is rendered with the merged metadata, and its body is the one it has without them: the front matter the tool writes is read back entry by entry, and never shows up as text.", "quantifier": "every document, every metadata of the configuration files and the command line, every mode", "why_tests_cant": "Keys, values and documents are unbounded and the written text is parsed again by another function; tests sample a few values.", "anchors": ["cli/main.c:main", "src/extensions/metadata.c:apex_extract_metadata", "src/apex.c:apex_markdown_to_html"]}
{"id": "C101", "title": "A table of contents lists every heading", "statement": "The table of contents has one link for every heading of the document between its two levels that is not marked no_toc, in document order, and each link shows the text of its heading.", "quantifier": "every document, every pair of levels", "why_tests_cant": "The table is written through a fixed buffer with pieces that are silently skipped; tests use a handful of short headings.", "anchors": ["src/extensions/toc.c:collect_headers", "src/extensions/toc.c:generate_toc_html"]}
{"id": "C102", "title": "A table of contents has the outline of the document", "statement": "In the table of contents a link is nested as deep as the level of its heading says, headings of one level are siblings, and the lists are well-formed HTML.", "quantifier": "every sequence of heading levels", "why_tests_cant": "Every sequence of levels is another shape of nested lists; tests try a few of them.", "anchors": ["src/extensions/toc.c:generate_toc_html"]}
{"id": "C103", "title": "The marker chooses the levels of the table", "statement": "{{TOC:a-b}} and <!--TOC maxB minA--> choose the levels a to b, and a marker without levels chooses all; the rest of the page has no influence.", "quantifier": "every pair of levels, every text behind the marker", "why_tests_cant": "What follows the marker is unbounded; tests use markers on otherwise empty pages.", "anchors": ["src/extensions/toc.c:parse_toc_marker"]}
{"id": "C104", "title": "The table of contents replaces its marker and nothing else", "statement": "Inserting a table of contents replaces the markers of the page that are not in code by the table and changes nothing else on the page.", "quantifier": "every page, every document", "why_tests_cant": "Pages with markers anywhere, in and out of code, are unbounded in number and size.", "anchors": ["src/extensions/toc.c:apex_process_toc", "src/extensions/toc.c:find_toc_marker_not_in_code", "src/extensions/toc.c:is_inside_code_or_pre"]}
{"id": "C105", "title": "Links of the table of contents lead to their headings", "statement": "Each link of a table of contents leads to the id its heading has on the page.", "quantifier": "every document, every id format", "why_tests_cant": "Two functions have to agree on ids for every heading text and attribute string.", "anchors": ["src/extensions/toc.c:apex_process_toc", "src/html_renderer.c:apex_inject_header_ids"]}
{"id": "C106", "title": "Every heading gets its id", "statement": "With header ids on, each heading of the document carries its id on the page: the one the document gives it, or else the one made from its text; nothing else on the page changes.", "quantifier": "every document, every page made from it, every id format", "why_tests_cant": "Headings of the document and tags of the page are matched by counting; every mixture of headings with and without ids, and of raw HTML, is another case.", "anchors": ["src/html_renderer.c:apex_inject_header_ids"]}
{"id": "C107", "title": "Header anchors leave the page alone", "statement": "With header anchors on, an anchor with the id of the heading is written behind the tag of every heading, and nothing else on the page changes.", "quantifier": "every document, every page", "why_tests_cant": "The page is written through a buffer whose size is estimated; whether it suffices depends on all headings together.", "anchors": ["src/html_renderer.c:apex_inject_header_ids"]}
{"id": "C108", "title": "Flags of the help text do what it says", "statement": "Every flag that `apex --help` lists is accepted, sets the option the help names and no other, and lets the arguments behind it be read as before; every value listed for --captions, --id-format, --wikilink-space, --code-highlight and --to is accepted and chosen; every --bibliography and --css given ends up in the options, in order, whatever the metadata of the document.", "quantifier": "all flags and values of the help text, all states of the options, all further arguments, all metadata", "why_tests_cant": "the effect must not depend on what else is on the command line or in the metadata", "anchors": ["cli/main.c: print_usage, main", "src/extensions/metadata.c: apex_apply_metadata_to_options"]}
{"id": "C109", "title": "Misspelt flags are refused", "statement": "An argument that begins with a dash and is not in the help text ends the program with an error.", "quantifier": "all byte strings that begin with a dash, all arguments around them", "why_tests_cant": "there are infinitely many misspellings", "anchors": ["cli/main.c: main"]}
{"id": "C110", "title": "Pretty printing puts no white space into text", "statement": "Pretty printing adds no white space between a character and an element of text (emphasis, link, image) beside it.", "quantifier": "all paragraphs with any number of elements, in any HTML", "why_tests_cant": "which elements stand where, at which depth, and how the line begins is unbounded", "anchors": ["src/pretty_html.c: apex_pretty_print_html"]}
{"id": "C111", "title": "Hiding e-mail addresses does not change the page", "statement": "With e-mail obfuscation on, a browser shows the same text and follows the same links as without: addresses and texts of mail links are replaced by character references that stand for them, everything else stays, and nothing is read or written out of bounds.", "quantifier": "every HTML page, with any number of mail links of any length", "why_tests_cant": "Tests decode one or two ASCII addresses; the page around the links and every byte value in them cannot be enumerated.", "anchors": ["src/apex.c: apex_obfuscate_email_links, apex_encode_hex_entities"]}
{"id": "C112", "title": "Hidden addresses are not left in the clear", "statement": "With e-mail obfuscation on, no address of a mail link is readable in the page as plain text.", "quantifier": "every HTML page with any number of mail links", "why_tests_cant": "A test looks for the address it put into one link; attributes, quoting styles and numbers of links are unbounded.", "anchors": ["src/apex.c: apex_obfuscate_email_links"]}
{"id": "C113", "title": "Horizontal rules become page breaks and nothing else changes", "statement": "With page breaks for rules on, every `<hr>` of the page is replaced by one page break, no rule is left, all other text stays byte for byte, a second run changes nothing, and nothing is written out of bounds.", "quantifier": "every HTML page with any number of rules", "why_tests_cant": "Tests use one or two rules in short pages; the growth of the output buffer depends on number and distance of the rules.", "anchors": ["src/apex.c: apex_replace_hr_with_pagebreak"]}
{"id": "C114", "title": "Only separator rows are removed from tables", "statement": "Removing rows that stem from separators removes no other row: every row with a cell that is not made of dashes and colons stays, and everything outside rows stays.", "quantifier": "every HTML page with any number of tables, rows and cells", "why_tests_cant": "Tests look at single small tables; cells, attributes and nesting are unbounded.", "anchors": ["src/html_renderer.c: apex_remove_table_separator_rows, cell_contains_only_dashes"]}
{"id": "C115", "title": "Code fences keep matching when includes are processed", "statement": "Processing includes lengthens fences of four or more backticks of even number by one and leaves all other lines alone, so that every code block of the document ends at the same line as before.", "quantifier": "every sequence of lines, fences of any length", "why_tests_cant": "Fence lengths and their combinations are unbounded; tests try three and four backticks.", "anchors": ["src/extensions/includes.c: apex_process_includes (normalisation of even fences)"]}
{"id": "C116", "title": "Metadata with a value sets its option", "statement": "A metadata item for csl, title, css, base-dir, wikilink-extension, id-format, wikilink-space or code-highlight sets that option to its value, in any case of the key and of the words that are values, whatever metadata and options came before; `--meta=VALUE` and `--meta VALUE` add the same metadata.", "quantifier": "every metadata list, every set of options, every value, every rest of the command line", "why_tests_cant": "Tests set single keys in lower case; values, cases and preceding metadata are unbounded.", "anchors": ["src/extensions/metadata.c: apex_apply_metadata_to_options", "cli/main.c: main (argument loop)"]}
{"id": "C117", "title": "Pretty printing shows the nesting of elements", "statement": "In a pretty-printed page every tag of a block element and every line of text stands on a line of its own, indented by two blanks for every block element around it.", "quantifier": "every page of nested block elements, to any depth and of any length", "why_tests_cant": "Nesting depth, the order of elements and where line ends stand are unbounded; tests compare a few small pages.", "anchors": ["src/pretty_html.c: apex_pretty_print_html, is_block_tag, is_inline_tag"]}
{"id": "C118", "title": "A filter that passes the document through unchanged does not change it", "statement": "If the only filter of a conversion prints exactly what it reads, the document that is rendered is the parsed document: same blocks, same inlines, same texts, in the same order.", "quantifier": "every document of paragraphs, headings, rules, raw HTML, code blocks, lists and quotes nested to any depth, with every kind of inline and every text", "why_tests_cant": "The exchange writes and reads a recursive structure; whether everything written is also read again depends on every combination of kinds, positions and characters, while the tests pass one small document through a filter.", "anchors": ["src/ast_json.c: apex_cmark_to_pandoc_json, apex_pandoc_json_to_cmark", "src/filters_ast.c: apex_run_ast_filters"]}
{"id": "C119", "title": "The JSON output format writes JSON", "statement": "For every document the text written with the output format json is one JSON value according to RFC 8259, whatever characters the document holds.", "quantifier": "every document, nested to any depth, with any texts, languages, titles and addresses", "why_tests_cant": "Brackets have to balance and strings have to be escaped for every nesting and every byte; a test that looks for a substring of the output does not see a missing bracket.", "anchors": ["src/ast_json.c: apex_cmark_to_pandoc_json, write_block, apex_json_buf_append_escaped_string", "src/apex.c: apex_markdown_to_html (APEX_OUTPUT_JSON)"]}
{"id": "C120", "title": "What a filter answers is rendered, however the JSON is spelled", "statement": "The answer of a filter may hold further members with any JSON values, in any order, and spell strings with any JSON escapes; the blocks are rendered as Pandoc's format defines them.", "quantifier": "every JSON answer, with members in any number and order and values nested to any depth", "why_tests_cant": "The spellings of a JSON value are unbounded; tests use the answers of one or two filter programs.", "anchors": ["src/ast_json.c: apex_pandoc_json_to_cmark, json_skip_value, json_parse_string, parse_inlines_array, parse_blocks_array"]}
{"id": "C121", "title": "Inline footnotes become references to their text", "statement": "Every inline footnote, `^[text]` or `[^text with spaces]`, is replaced by a reference to a definition with exactly its text; the definitions follow at the end of the document in order, labels are new, and everything else in the document stays as it is.", "quantifier": "every document of text, references, code and inline footnotes with nested brackets, in any number and order", "why_tests_cant": "The size of the output, the numbering and the nesting of brackets depend on the whole document; tests try one or two footnotes in a sentence.", "anchors": ["src/extensions/inline_footnotes.c: apex_process_inline_footnotes"]}
{"id": "C122", "title": "Footnote syntax in code is left alone", "statement": "What stands between backticks or in a fenced code block is not changed by the processing of inline footnotes, and code has no influence on footnotes behind it.", "quantifier": "every piece of code, between any text, code and footnotes", "why_tests_cant": "Which bytes are code depends on everything in front of them; tests look at a single code span.", "anchors": ["src/extensions/inline_footnotes.c: apex_process_inline_footnotes"]}
{"id": "C123", "title": "Inline tables become tables and nothing else changes", "statement": "Fenced blocks of the language table and the lines behind a <!--TABLE--> marker are replaced by the Markdown table of their comma- or tab-separated data; all other text, code blocks included, stays as it is.", "quantifier": "every document of text, code blocks, table blocks and marked data, in any number and order and of any size", "why_tests_cant": "Whether the output fits in its buffer depends on the sizes of all tables and texts; where a block ends depends on every backtick in the document.", "anchors": ["src/extensions/inline_tables.c: apex_process_inline_tables", "src/extensions/includes.c: apex_csv_to_table"]}
{"id": "C124", "title": "A block quote that begins with a type is shown as a callout with its title and content", "statement": "Converting a block quote whose first line is `[!TYPE]`, optionally followed by `+` or `-` and a title, shows a callout of that type with that title (or the type), collapsible if there is a sign, open if it is `+`, around all other content of the quote; block quotes without such a line stay as they are.", "quantifier": "every known type in any case, every title, sign and content of the quote, every document without callouts", "why_tests_cant": "The title and the content are arbitrary; the fixed buffer for the HTML shows only with titles of a thousand bytes.", "anchors": ["src/extensions/callouts.c: apex_process_callouts_in_tree, is_bear_callout, convert_blockquote_to_callout"]}
{"id": "C125", "title": "What is math between dollar signs", "statement": "At a dollar sign, math begins exactly if the text goes on as `$$body$$` with the first two following dollar signs, or as `$body$` where the body neither begins nor ends with a blank and its dollar signs are escaped; the page shows the body unchanged, marked as math, and goes on with the text behind. Amounts of money are not math.", "quantifier": "every text behind a dollar sign, every body", "why_tests_cant": "Tests try some formulas and some amounts; which texts are read as math is a condition on all positions of the next dollar sign.", "anchors": ["src/extensions/math.c: scan_dollar_math, match_math_dollar"]}
{"id": "C126", "title": "Embedding images puts each local image into the page and keeps the rest", "statement": "With embedding of images on, the source of every image tag that names a readable local file becomes a data URL of that file's content and media type; all other text, tags and remote images stay as they are.", "quantifier": "every page with any number of images, every file system, every base directory", "why_tests_cant": "Sizes of the page and of all images together decide whether the output fits; tests embed one small image in a short page.", "anchors": ["src/apex.c: apex_embed_images, apex_resolve_image_path, apex_read_and_encode_image"]}
{"id": "C127", "title": "The media type of an embedded image is that of its file name", "statement": "The media type in the data URL of an embedded image is the one its file name extension stands for, whatever its case and whatever dots and directories the name has.", "quantifier": "every path", "why_tests_cant": "There are unboundedly many names; dots in directories, query parts and unknown extensions are rarely tried.", "anchors": ["src/apex.c: apex_detect_mime_type"]}
{"id": "C128", "title": "The last words of headings are kept together", "statement": "With widont on, the blanks between the last words of every heading become non-breaking ones, for as many words as it takes to get more than ten characters or all of them; nothing else in the page changes.", "quantifier": "every page with any number of headings of any words", "why_tests_cant": "The number of words joined depends on all their lengths, and the size of the output on all headings; tests try three headings.", "anchors": ["src/apex.c: apex_apply_widont_to_headings"]}
{"id": "C129", "title": "Running text written as Markdown says the same", "statement": "When a document is written as Markdown, the running text of its paragraphs reads as before: the same characters, code, breaks, emphasis, links with their addresses and titles, images with their descriptions, inline HTML and footnote references.", "quantifier": "every paragraph, with inline nodes nested to any depth and texts of any bytes, in every dialect", "why_tests_cant": "Whether a mark is read back depends on its neighbours and on every character of the texts; tests look for a word of the output.", "anchors": ["src/ast_markdown.c: serialize_inline, apex_cmark_to_markdown"]}
{"id": "C130", "title": "Blocks written as Markdown stay the same blocks", "statement": "When a document is written as Markdown, its blocks can be read back: paragraphs, headings with their levels, lists with their numbers and nesting, quotes, code, HTML, rules and tables, each with its lines, in order.", "quantifier": "every document, with any number of blocks of any size and nesting, in every dialect", "why_tests_cant": "Blocks may run into each other depending on their contents and order; tests convert short documents and look for one line.", "anchors": ["src/ast_markdown.c: serialize_block, apex_cmark_to_markdown"]}
{"id": "C131", "title": "Fenced divs become the elements they describe", "statement": "A block between ::: fences becomes an HTML element with the id, classes and attributes given on its opening fence, around the text between the fences; fences nest, elements are closed in order, unclosed ones at the end, and all other lines are kept unchanged.", "quantifier": "every document, with any number of fenced blocks at any depth of nesting, any attributes and lines of any length", "why_tests_cant": "The output block is sized from the text's length and grown by estimates; whether a tag fits depends on the exact lengths of everything before it, which tests cannot enumerate.", "anchors": ["src/extensions/fenced_divs.c: apex_process_fenced_divs, is_opening_fence, is_closing_fence, parse_block_type, parse_attributes, is_cmark_block_tag"]}
{"id": "C132", "title": "Custom elements get their names back in the finished page", "statement": "In the finished page every fenced block for a custom element is written with that element's own name, opening and closing tag, keeping its attributes and content, and the rest of the page is unchanged.", "quantifier": "every page, with any number of such elements, with any names, attributes and nested divs inside", "why_tests_cant": "The matching closing tag is found by counting divs, and the output block is grown by estimates that depend on the number of elements and the lengths of their names.", "anchors": ["src/extensions/fenced_divs.c: apex_postprocess_fenced_divs_html"]}
{"id": "C133", "title": "Liquid tags come through the conversion as they were written", "statement": "apex takes Liquid template tags ({% … %}) out of the text before it is converted and puts them back into the page: every text splits into tags (from a {% to the first %} behind it) and the text between them; each tag is replaced by its own placeholder, in order, everything else stays; and whatever the conversion does around the placeholders, each of them is replaced by its tag byte for byte, the rest of the page stays, and no write leaves its block.  Doing one after the other gives back the text.", "quantifier": "all texts, all pages and all lists of tags", "why_tests_cant": "Whether a placeholder is recognised depends on the bytes that happen to follow it and on words of the text; tests with a tag followed by a space or a letter never see a digit becoming part of the number.", "anchors": ["src/apex.c: apex_protect_liquid_tags", "src/apex.c: apex_restore_liquid_tags"]}
{"id": "C134", "title": "Lists with letters become numbered lists and nothing else changes", "statement": "With alphabetic lists switched on, a text is a row of lists whose items carry consecutive letters of one case (blank lines of at most one between items) and of other lines.  A mark with the case is put in front of every such list, its items are numbered from one with their indentation and text kept, a numbered list that follows is set apart, and every other line stays byte for byte; nothing is written outside the output block.", "quantifier": "all texts", "why_tests_cant": "The grouping depends on the letters, blank lines and line ends of any number of lines, and the size of the output block on the whole text; a test with a longer text never sees that a short list overflows it.", "anchors": ["src/apex.c: apex_preprocess_alpha_lists"]}
{"id": "C135", "title": "The marks of lists with letters become styles and leave the page", "statement": "Every mark paragraph that was put in front of a list is removed from the page, the tag of the list that follows it gets the style of its case unless it has a style, white space and all other bytes of the page stay, and the page is read and written inside its memory.", "quantifier": "all pages, all numbers of marks", "why_tests_cant": "The page can have any number of marks, in any place, also at its very end; the block is only full for certain numbers of marks.", "anchors": ["src/apex.c: apex_postprocess_alpha_lists_html"]}
{"id": "C136", "title": "Pipes next to each other span columns, and only in tables", "statement": "With tables enabled, in the rows of a table every pipe directly behind another becomes a cell marked to continue the cell before it; all other text, in particular sentences and code, reaches the page as it was written, and nothing is written outside of the block.", "quantifier": "all texts, all line ends, all numbers of pipes", "why_tests_cant": "Any line may have any number of pipes, and whether a line is in a row, a sentence or code depends on all lines before it; the block grows in five places.", "anchors": ["src/apex.c: apex_preprocess_table_colspans", "src/apex.c: apex_markdown_to_html"]}
{"id": "C137", "title": "Automatic links only put links in", "statement": "With automatic links enabled, converting any text reads and writes only memory of the converter, ends, and changes the text only by putting a link in the place of addresses: each a maximal word without the punctuation at its end that starts with http://, https:// or mailto: or is a mail address, or the text between angle brackets; all other bytes stay in place and in order.", "quantifier": "all texts", "why_tests_cant": "The output block is sized by an estimate and grown in five of fifteen places that write; whether it suffices depends on how many short mail addresses, brackets and code spans there are, for every length.", "anchors": ["src/apex.c: apex_preprocess_autolinks"]}
{"id": "C138", "title": "Addresses in prose become links, others stay", "statement": "Every address in the prose of a document becomes a link to it, and what is already a link, in code, in a comment, in a Liquid tag or in an attribute of an HTML tag stays as it is.", "quantifier": "all documents", "why_tests_cant": "Any number of constructs in any order, and whether a byte is in prose depends on everything before it.", "anchors": ["src/apex.c: apex_preprocess_autolinks"]}
{"id": "C139", "title": "Emoji names in a page become emoji", "statement": "For every HTML page, replacing emoji names gives back the page in which each `:name:` of a known emoji is replaced by its Unicode form or its image, the values of attributes and the marks of the index are kept byte for byte, unknown names and everything else are copied, and memory outside the block and the page is never touched.", "quantifier": "all byte strings as pages, all tables of emoji; the bound on the size of the result for the real table", "why_tests_cant": "a test holds a few names in a few places of a few pages; whether a colon is in an attribute depends on the whole text before it, and whether the result fits on the whole page", "anchors": ["src/extensions/emoji.c:apex_replace_emoji", "src/extensions/emoji.c:is_inside_html_attribute", "src/extensions/emoji.c:is_in_header"]}
{"id": "C140", "title": "The name of an emoji is its longest one", "statement": "For every table and every emoji the name found for it is the longest one in the table, the first one of those, and none is found exactly if the table does not have the emoji; with distinct names the found name stands for the same emoji.", "quantifier": "all tables, all byte strings as emoji", "why_tests_cant": "a test tries a few of the almost two thousand emoji; the choice among several names depends on the whole table", "anchors": ["src/extensions/emoji.c:apex_find_emoji_name"]}
{"id": "C141", "title": "The pass for captions of tables accounts for every line", "statement": "For every text, the pass that rewrites captions of tables stays inside its block and works line by line: lines of code are kept as they are, other lines are kept with at most one blank line before them, or are captions (`Table: …` or `: …` with their attributes) and put in brackets, or are blank and dropped; a text without the markers of captions changes in nothing but white space.", "quantifier": "all byte strings as texts", "why_tests_cant": "the block is only twice as long as the text, and what is written for a line depends on five flags set by the lines before; tests try a few tables", "anchors": ["src/apex.c:apex_preprocess_table_captions"]}
{"id": "C142", "title": "Captions end up below their tables", "statement": "In every document of paragraphs, code and tables, each caption in one of its three forms, however many blank lines below its table, is put in brackets one blank line below it, and everything else is kept.", "quantifier": "all documents of paragraphs, code blocks and tables with any number of lines and blank lines", "why_tests_cant": "documents are unbounded; whether a line counts as a caption depends on all lines before it", "anchors": ["src/apex.c:apex_preprocess_table_captions"]}
{"id": "C143", "title": "A standalone page is complete", "statement": "For every content, title, language, header, footer and list of stylesheets (each of them below 2 GB, the content of any size) the standalone page is the whole page with each of them in its place, in order and unchanged: the estimate of the size always suffices and the bare content is never returned instead.", "quantifier": "all contents, titles, languages, headers, footers and lists of stylesheets of any length", "why_tests_cant": "sizes of content, titles, paths, header and footer are unbounded, and the buffer is allocated from an estimate of them", "anchors": ["src/apex.c:apex_wrap_html_document"]}
{"id": "C144", "title": "Title, language and end of a standalone page are what was given", "statement": "A browser shows the title and takes the language that were given, the page is closed once even if the content is a whole page already, and its default styles are valid.", "quantifier": "all titles, languages and contents", "why_tests_cant": "any text can be a title; whether markup in it breaks the page has to hold for all of them", "anchors": ["src/apex.c:apex_wrap_html_document"]}
{"id": "C145", "title": "The right stylesheets are linked or embedded", "statement": "The stylesheets of the caller are linked in order, without them the one that the document names, without both the page has default styles; with embedding, each stylesheet that can be read is in the page in the place of its link. The caller's list is left alone.", "quantifier": "all lists of stylesheets, file systems, documents and options", "why_tests_cant": "lists and file contents are unbounded; the use of memory after free shows only in a memory checker", "anchors": ["src/apex.c:apex_markdown_to_html", "src/apex.c:apex_wrap_html_document"]}
{"id": "C146", "title": "The first heading gives the title", "statement": "With the option for it, the title of a page that has none is the text of its first top-level heading without tags and the blanks around it; with an empty heading the title stays what it is.", "quantifier": "all pages with a first heading of any text and tags, and anything before and after", "why_tests_cant": "headings and pages are unbounded", "anchors": ["src/apex.c:apex_extract_first_h1_text", "src/apex.c:apex_markdown_to_html"]}
{"id": "C147", "title": "Scripts come last", "statement": "The scripts that are asked for stand in order, one in each line, at the end of the body behind the footer, or behind the content of a snippet, and nothing else is changed.", "quantifier": "all lists of scripts, contents and footers", "why_tests_cant": "lists and contents are unbounded", "anchors": ["src/apex.c:apex_markdown_to_html"]}
{"id": "C148", "title": "Code without a language gets the class poetry", "statement": "With the option for it, every code block whose tag names no language gets the class poetry, code blocks with a language keep their tag, and nothing else in the page is changed.", "quantifier": "all pages with any number of code blocks, and text and tags of any length", "why_tests_cant": "pages are unbounded; whether one block is changed must not depend on all that follows it", "anchors": ["src/apex.c:apex_add_poetry_class_to_code_blocks"]}
{"id": "C149", "title": "Tables without a separator row become tables", "statement": "With relaxed tables, two or more neighbouring lines with the same number of columns that have no separator row get one after the first of them; the lines of the document are otherwise kept, in their order; a document without such lines is not changed; no memory outside the block is written.", "quantifier": "all documents with any number of lines of any length and any number of columns", "why_tests_cant": "documents are unbounded and the block's size depends on the document: what happens at the one position where it is full, or how rows wait across lines, is not met by chosen documents", "anchors": ["src/extensions/relaxed_tables.c:apex_process_relaxed_tables", "src/apex.c:apex_markdown_to_html"]}
{"id": "C150", "title": "Tables that begin with their separator get an empty header", "statement": "A separator row that follows no table row and is followed by one (blank lines between them do not matter) gets a row of empty cells in front of it with as many columns; all other lines are kept; no memory outside the block is written.", "quantifier": "all documents with any number of such tables", "why_tests_cant": "the block grows by doubling, and only a text that fills it exactly shows what happens then", "anchors": ["src/extensions/relaxed_tables.c:apex_process_headerless_tables", "src/apex.c:apex_markdown_to_html"]}
{"id": "C151", "title": "A table keeps its header, and one without a header gets none", "statement": "In the modes with tables without separator rows, a table whose source has a header row and a separator keeps its header in the page; a table written without a separator gets its first row as the first row of its body, with attributes and text; the empty header made up for a table that begins with its separator is removed; nothing else of the page changes and no memory outside the block is touched.", "quantifier": "all pages with any number of tables, headers with any number of cells, bodies with any number of rows", "why_tests_cant": "whether a header stays depends on a row of dashes anywhere in the body, and the block is sized from the page, so that no list of pages settles it", "anchors": ["src/html_renderer.c:apex_convert_relaxed_table_headers", "src/html_renderer.c:cell_contains_only_dashes", "src/apex.c:apex_markdown_to_html"]}
{"id": "C152", "title": "Quotation marks follow the language of the document", "statement": "If the metadata name a language for quotation marks (French, German, German guillemets, Spanish, Dutch or Swedish, in any case and spacing, also by code), every typographic quotation mark of the page, as an entity or as a character, is replaced by the mark of that language and nothing else changes; for other languages the page stays as it is; no memory outside the block is touched.", "quantifier": "all pages, all names of languages", "why_tests_cant": "the block has twice the size of the page and a mark can become more than four times as long, so that the outcome depends on the exact number of bytes before and behind the marks", "anchors": ["src/html_renderer.c:apex_adjust_quote_language", "src/apex.c:apex_markdown_to_html"]}
{"id": "C153", "title": "Images in figures lose the paragraph around them", "statement": "In a figure, a paragraph that holds nothing but an image (maybe with the character `<` in front of it) is replaced by the image; everything else of the page stays as it is, and no memory outside the block is touched.", "quantifier": "all pages", "why_tests_cant": "tags, attributes with quotation marks, nesting of figures and white space combine without bound; samples do not show that nothing else is ever removed", "anchors": ["src/html_renderer.c:apex_strip_figure_paragraph_wrapper", "src/apex.c:apex_markdown_to_html"]}
{"id": "C154", "title": "Figures, videos and pictures lose the paragraph around them", "statement": "A paragraph that holds nothing but one figure, video or picture is replaced by that block, elements of the same name inside it counted; everything else of the page stays as it is, and no memory outside the block is touched.", "quantifier": "all pages", "why_tests_cant": "elements nest without bound, and the end of the block is found by counting; samples do not show that the counted end is the end of the element for every page", "anchors": ["src/html_renderer.c:apex_strip_block_paragraph_wrapper", "src/html_renderer.c:find_block_close", "src/apex.c:apex_markdown_to_html"]}
{"id": "C155", "title": "Tables of contents, figures, tables and captions get attributes for accessibility", "statement": "With ARIA labels, every table of contents gets aria-label, every figure and table its role, every caption of the figure of a table an ID that no caption before it has got, and its table aria-describedby with that ID; what a tag has already is kept, nothing else of the page changes or is lost, and no memory outside the page or the result is touched.", "quantifier": "all pages of HTML", "why_tests_cant": "the number of tables, the distances between figure, table and caption and the room for the result have no bound; samples are short pages, and what goes wrong does so on long ones", "anchors": ["src/html_renderer.c:apex_apply_aria_labels", "src/apex.c:apex_markdown_to_html"]}
{"id": "C156", "title": "Entries of the index become numbered comments", "statement": "With indices turned on, every entry in the text, `(!item)`, `(!item, item below)`, `(!!item)`, `word{^}`, `[term]{^item}`, `{i: item}` or `{i: \"item!item below\"}`, is replaced by a comment with a number of its own, in the order of the text; the index has exactly these entries; code and all other text stay.", "quantifier": "every text and every choice of the three syntaxes", "why_tests_cant": "The three syntaxes are tried at every byte, and the item of an entry may be text in front of it; tests use a few words with one entry each.", "anchors": ["src/extensions/index.c: apex_process_index_entries, parse_mmark_index, parse_textindex, parse_leanpub_index, strip_leanpub_formatting"]}
{"id": "C157", "title": "The index has every entry, in the order of the alphabet", "statement": "The index has every entry once, ordered by item and then by the item below it, without regard to case, with a link to its place in the page; by letter, each first letter has one group; items are text, not HTML.", "quantifier": "every list of entries and every result that sorting may give", "why_tests_cant": "The order among equal entries depends on `qsort`, and groups on neighbours in the whole list; tests have a few lower-case items.", "anchors": ["src/extensions/index.c: apex_generate_index_html, compare_index_entries, get_first_letter"]}
{"id": "C158", "title": "Every entry of the index has its place in the page", "statement": "In the page, each comment of an entry becomes an element with its ID, so that the links of the index lead to it, and all other content stays; the index stands where `<!--INDEX-->` is, else before `</body>`, else at the end; nothing is read outside of the page.", "quantifier": "every page and every list of entries", "why_tests_cant": "The comments pass through the whole conversion, and a page may have comments of its own that begin like them; a test sees one page.", "anchors": ["src/extensions/index.c: apex_render_index_markers, apex_insert_index", "src/apex.c: apex_markdown_to_html"]}
{"id": "C159", "title": "Markdown in HTML elements with a markdown attribute is converted", "statement": "The content of an element with `markdown=\"1\"`, `\"block\"` or `\"span\"`, up to the closing tag that belongs to it, is replaced by what Markdown makes of it, inner elements first; with another value, or without a closing tag, the element stays; all text outside of such elements, and code, stays; nothing is lost and no byte is written outside of the output, however long the content becomes.", "quantifier": "every text, every nesting of elements, and every result of the conversion", "why_tests_cant": "Nested elements of one name have to be counted, and the room depends on how much longer the HTML is than the text; tests have a short paragraph in one `div`.", "anchors": ["src/extensions/html_markdown.c: apex_process_html_markdown, find_markdown_tag, find_closing_tag"]}
{"id": "C160", "title": "The opening tag of a converted element keeps its other attributes", "statement": "A tag is taken for one with a `markdown` attribute exactly if it has this attribute; it is then written with all its other attributes, unchanged and in their order, and without `markdown`.", "quantifier": "every tag, with any number of attributes before and behind `markdown`", "why_tests_cant": "Values may contain blanks, quotation marks and the word itself, and the copy has an array of fixed size; tests have one other attribute.", "anchors": ["src/extensions/html_markdown.c: find_markdown_tag, apex_process_html_markdown"]}
{"id": "C161", "title": "Citations of the text are registered and everything else stays", "statement": "With a bibliography, each citation - `[@key]`, `[@key, p. 7]`, `[-@key]`, `@key`, `@key [p. 7]`, `[#key]`, `[locator][#key]`, `[@RFC2535]`, in MultiMarkdown mode only those with `#` - is registered with its key, locator and suffix, and is replaced by a placeholder; every other byte, and everything in code, stays; no text is lost and no byte is written outside of the output.", "quantifier": "every text, every key and every mode with citations", "why_tests_cant": "Keys may contain nearly all punctuation, brackets may be open, and the room depends on how much longer placeholders are than citations; tests have a few sentences with one citation.", "anchors": ["src/extensions/citations.c: apex_process_citations, parse_pandoc_citation, parse_mmd_citation, parse_mmark_citation, extract_citation_key"]}
{"id": "C162", "title": "Citations are rendered with their author and year", "statement": "In the page, the placeholder of each citation is replaced by the author and the year of the entry with its key - `(author year)`, in the text `author (year)`, without the author `(year)` - or by its key if there is none, as a link to the entry if links are asked for; every citation is rendered in its own style, everything else stays, nothing is lost and no byte is written outside of the output.", "quantifier": "every page, every list of citations and every bibliography", "why_tests_cant": "The room depends on the names of authors and on how dense the citations are; tests have one or two citations in a long page.", "anchors": ["src/extensions/citations.c: apex_render_citations, find_bibliography_entry"]}
{"id": "C163", "title": "Bibliographies in BibTeX are read completely", "statement": "Each entry `@type{key, name = value, ...}` of a BibTeX file - values in braces, in quotation marks, or bare, with comments between entries - becomes an entry with its identifier, title, author, year, journal, publisher, volume and pages, without the braces; of several files the first one that has a key decides; no file makes the program read or free invalid memory.", "quantifier": "every BibTeX file, every list of files and every key", "why_tests_cant": "Values nest braces to any depth, and the errors depend on white space, `@` and commas at particular places; tests have one tidy file.", "anchors": ["src/extensions/citations.c: apex_parse_bibtex, parse_bibtex_field, remove_braces, trim_string, apex_load_bibliography, apex_free_bibliography_registry"]}
{"id": "C164", "title": "The list of references has each cited entry once, at the right place", "statement": "The list of references shows each entry that is cited exactly once, in the order of the citations, with all of its parts separated, in elements that are closed; it takes the place of `<!-- REFERENCES -->`, else of `{backmatter}`, else goes to the end of `<div id=\"refs\">`, else to the end of the page, and every other byte of the page stays.", "quantifier": "every bibliography, every list of citations and every page", "why_tests_cant": "Blocks of 2048 and 4096 bytes fill up with entries of any length; tests have one or two short entries.", "anchors": ["src/extensions/citations.c: format_bibliography_entry, apex_generate_bibliography, apex_insert_bibliography"]}
{"id": "C165", "title": "Attribute lists on lines of their own are set apart, and only these", "statement": "In Kramdown and unified mode an attribute list on a line of its own directly behind text gets an empty line before it, `{:toc ...}` becomes the marker of a table of contents with its options, every other line stays as it is, in particular code, and nothing is written outside of the memory taken.", "quantifier": "every text", "why_tests_cant": "The lines interact with the ones before them, and the text written can be longer than the one read; tests have single lists.", "anchors": ["src/extensions/ial.c: apex_preprocess_ial"]}
{"id": "C166", "title": "Bracketed spans become elements, and nothing else does", "statement": "`[text]{attributes}` becomes an element with the attributes around the text, in which brackets may be nested, unless `[text]` is a reference defined in the document; code and every other byte of the document stay, and nothing is written outside of the memory taken.", "quantifier": "every text, and all that may be in memory behind the attribute lists", "why_tests_cant": "Brackets nest to any depth, definitions can be anywhere, and an overflow by one byte depends on the exact length of the whole text; tests have single spans.", "anchors": ["src/extensions/ial.c: apex_preprocess_bracketed_spans, extract_reference_link_ids, reference_id_matches"]}
{"id": "C167", "title": "Terms and their definitions become definition lists, and all else stays", "statement": "A line of text followed by lines that begin with `: ` becomes a definition list with that line as the term and those lines as definitions, in order and inside the quotation they are in; every other line of the document, and all code, stays where and as it is; a document without definitions is not changed; nothing is written outside of the memory taken.", "quantifier": "every text, and every parser of Markdown for the content", "why_tests_cant": "What a line becomes depends on the lines before and behind it, as far as a hundred lines ahead or as `{:` anywhere later; tests have single short lists.", "anchors": ["src/extensions/definition_list.c: apex_process_definition_lists"]}
{"id": "C168", "title": "Terms and definitions have the content their Markdown stands for", "statement": "The text of a term or definition without Markdown is shown as it is; a text with Markdown is rendered with the reference definitions of the document it refers to, without a paragraph around it.", "quantifier": "every text, every set of lines of a document, and every parser of Markdown", "why_tests_cant": "Any number of references and definitions in any order; tests have one link.", "anchors": ["src/extensions/definition_list.c: apex_process_definition_lists, extract_reference_link_ids, extract_specific_reference_definitions, extract_reference_definitions"]}
{"id": "C169", "title": "Wrapping for a terminal keeps the text and only adds line ends", "statement": "Text written for a terminal with a width is the same text with line ends added: no byte is lost or changed, no escape sequence is cut or counted, and no line has more visible columns than the width; lines that fit stay as they are. The function never writes outside of its block.", "quantifier": "all texts, all widths above 0", "why_tests_cant": "Where a line ends depends on all bytes before it; escape sequences, line ends and long lines combine without bound, and the size of the block follows from the text and the width.", "anchors": ["cli/main.c: wrap_ansi_to_width (713-826)"]}
{"id": "C170", "title": "All of the standard input is read", "statement": "The text converted is exactly what comes on the standard input, however long and in whatever pieces reads return it, and nothing is written outside of the block.", "quantifier": "all sequences of pieces of any length and number", "why_tests_cant": "The block grows while data arrive; the sizes at which it grows depend on the lengths of all pieces.", "anchors": ["cli/main.c: read_stdin (965-1004)"]}
{"id": "C171", "title": "Merging an index gives every file in order, at its level", "statement": "The merged text of an index has the text of every file the index names and that can be read, in order, with headings moved down by the indentation of the line, an empty line behind each; comments and empty lines of the index name nothing, and each name is the file that is read.", "quantifier": "all index files, all directories, all contents of files", "why_tests_cant": "The result depends on all lines of the index and all contents; levels and lengths of paths have no bound.", "anchors": ["cli/main.c: apex_cli_mmd_merge_index (1090-1219)", "cli/main.c: apex_cli_shift_headers"]}
{"id": "C172", "title": "Combining a summary gives every linked file in order", "statement": "The combined text of a summary has the text of every local file the summary links to and that can be read, in order, with empty lines between them; links with a scheme name nothing, and a section behind the name is left out.", "quantifier": "all summaries, all directories, all contents of files", "why_tests_cant": "Links stand anywhere in lines of any form; the text depends on all of them.", "anchors": ["cli/main.c: apex_cli_combine_from_summary (1289-1374)", "cli/main.c: apex_cli_write_combined_chunk (1270-1281)"]}
{"id": "C173", "title": "Installing and removing plugins runs only the commands meant", "statement": "Whatever the address, the name, the manifest and the outcome of each step are: every command run while a plugin or filter is installed or removed makes, tests, clones, moves or removes one directory below the directory of plugins, and directories that existed before the installation are not removed. The only other command is the one the manifest asks for.", "quantifier": "all directories, addresses, names, manifests, and outcomes of all commands", "why_tests_cant": "Commands are texts read by a shell; which words they have depends on every byte of names and addresses, and which are run on the outcome of those before.", "anchors": ["cli/main.c: main (2146-2181, 2375-2525, 2726-2890)", "cli/main.c: extract_plugin_id_from_repo (879-926)"]}
{"id": "C174", "title": "An argument for an installation stands for one repository", "statement": "An address is used as it is, an address at GitHub gets `.git` when it has none, `user/name` is the repository of that user at GitHub, and anything else is a name for the list of plugins; an address that was found stands for itself.", "quantifier": "all arguments", "why_tests_cant": "The form of an argument is decided by searches in a text of any length.", "anchors": ["cli/main.c: normalize_plugin_repo_url (837-871)"]}
{"id": "C175", "title": "A plugin or filter from an address is installed under a name", "statement": "A plugin installed from an address is found in the directory of plugins under the `id` of its manifest, or else the name of its repository; a filter under the name of its repository.", "quantifier": "all addresses, manifests and directories, when all commands succeed", "why_tests_cant": "The name is derived from an address of any form through a temporary directory.", "anchors": ["cli/main.c: extract_plugin_id_from_repo (879-926)", "cli/main.c: main (2387-2482, 2795-2888)"]}
{"id": "C176", "title": "Variants of an image's address differ in the file's name only", "statement": "The address of an image for dense screens is the image's address with `@2x` or `@3x` in front of the extension of the file, and the address in another format has that extension replaced; scheme, host, directories, query and section stay as they are.", "quantifier": "all addresses", "why_tests_cant": "Addresses have no bounded form; dots, slashes, queries and sections come in any order and number.", "anchors": ["src/extensions/ial.c: url_with_2x_suffix (1910-1966)", "src/extensions/ial.c: url_with_3x_suffix (2069-2123)", "src/extensions/ial.c: url_with_extension (1973-2005)"]}
{"id": "C177", "title": "An image whose address is that of a video becomes a video", "statement": "An image is taken for a video exactly when the path of its address ends in one of the extensions mp4, mov, webm, ogg, ogv, m4v in any case of letters.", "quantifier": "all addresses", "why_tests_cant": "The extension is found by searching an address of any length and form.", "anchors": ["src/extensions/ial.c: is_video_url (2011-2033)"]}
{"id": "C178", "title": "The attributes written for an image are those asked for", "statement": "The attributes written for an image are its own, with the list of denser pictures, the marks for other formats of a picture or a video, or the mark for a search for files, each exactly when asked for; addresses in them are whole, nothing else is added, and nothing is written outside the block made for them.", "quantifier": "all addresses and lists of attributes", "why_tests_cant": "Which block sizes suffice depends on the combination of marks and on the length of every address.", "anchors": ["src/extensions/ial.c: attributes_to_html_for_image (2181-2330)", "src/extensions/ial.c: build_picture_srcset (2129-2171)"]}
{"id": "C179", "title": "The attributes behind an image's address are read as written", "statement": "The text behind the address of an image is read as names with values, words for formats and a quoted title, whatever was in memory before.", "quantifier": "all texts and all earlier contents of memory", "why_tests_cant": "The result may depend on memory behind the text, which a test does not control.", "anchors": ["src/extensions/ial.c: parse_image_attributes (1753-1895)"]}
{"id": "C180", "title": "Only the images marked for it are replaced", "statement": "When a page is written, the images with the automatic mark are replaced by what the files beside them allow; every other part of the page, other images included, stays as it is.", "quantifier": "all pages, all directories and all sets of files", "why_tests_cant": "Tags, quotes and images come in any number and order, and a search that looks too far shows only with several images.", "anchors": ["src/html_renderer.c: apex_expand_auto_media (3583-3955)", "src/html_renderer.c: find_tag_end (219-234)"]}
{"id": "C181", "title": "A marked image becomes the video or the picture its files allow", "statement": "An image with the automatic mark whose address is that of a file becomes a video with a source for each format that is there, or a picture with the denser variants and other formats that are there, with its text and title; an address ending in `.*` stands for the first file there is; nothing outside the blocks is read or written.", "quantifier": "all addresses, texts, titles and sets of files", "why_tests_cant": "The variants found are any subset of the files, and the sizes of the blocks matter only for long texts and addresses.", "anchors": ["src/html_renderer.c: apex_expand_auto_media (3622-3890)", "src/html_renderer.c: extract_attr_from_tag (163-191)", "src/html_renderer.c: video_type_from_url (239-255)", "src/html_renderer.c: url_with_extension (196-214)"]}
{"id": "C182", "title": "Every element has its own attributes in the page", "statement": "When a document is rendered, the attributes given to a paragraph, heading, list, item, quote, code, link, image or table are in the tag of that element and of no other.", "quantifier": "all documents with any number of elements, attributes on any of them, and any text", "why_tests_cant": "Elements are found again by counting and by the start of their text, so any mix of kinds, repeated text and missing tags matters.", "anchors": ["src/html_renderer.c: apex_render_html_with_attributes (454-1064)", "src/html_renderer.c: collect_nodes_with_attrs_recursive (385-434)", "src/html_renderer.c: get_node_text_fingerprint (298-381)"]}
{"id": "C183", "title": "Putting in attributes changes nothing else of the page", "statement": "Beside the attributes themselves, the page is the one rendered without them; elements marked for removal are gone with all they contain and nothing more; nothing is written outside the block of the page.", "quantifier": "all documents and any number of attributes", "why_tests_cant": "The block has a fixed reserve, which only pages with very many elements use up, and removal depends on how elements nest.", "anchors": ["src/html_renderer.c: apex_render_html_with_attributes (471-479, 569-632, 1008-1064)"]}
{"id": "C184", "title": "A table with a caption keeps the attributes given by the author, and only those", "statement": "The attributes an author gives to a table with a caption are in its tag, in their order; those apex uses itself (caption, removal, spans) are not.", "quantifier": "all lists of attributes with any names and values", "why_tests_cant": "Lists of attributes are unbounded, and a wrong length of one name shows only for that name.", "anchors": ["src/html_renderer.c: extract_ial_from_table_attrs (52-156)", "src/html_renderer.c: apex_render_html_with_attributes (775-830)"]}
{"id": "C185", "title": "An image of a video or with other formats becomes a video or a picture", "statement": "An image with the mark of a video becomes a video with a source for each format asked for and one for itself; one with the mark of a picture becomes a picture with the formats given and the image; the text, the title and everything else in the page stay; nothing outside the blocks is written or read.", "quantifier": "all addresses, texts, titles and sets of formats, and all pages around the image", "why_tests_cant": "The size of the block is computed from the address alone, so any longer text or enough formats overrun it.", "anchors": ["src/html_renderer.c: apex_render_html_with_attributes (832-948)", "src/html_renderer.c: extract_data_apex_picture_srcset (262-277)"]}
{"id": "C186", "title": "Images with a caption become figures", "statement": "An image with a caption that is not in a figure is put in a figure with that caption, and the attribute for the caption is gone; when captions are asked for, the title or else the text serves as the caption, only the title if so asked; a picture is treated as its image is.", "quantifier": "all pages with any number of tags, images and pictures, any attributes, any nesting of figures", "why_tests_cant": "Whether an image is in a figure or a picture depends on all of the page in front of it, and its attributes come in any number and order.", "anchors": ["src/html_renderer.c: apex_convert_image_captions (2735-3178)", "src/html_renderer.c: apex_trim_attr_value (2718-2727)"]}
{"id": "C187", "title": "Captions change nothing else of a page and stay within the block", "statement": "Beside figures put around images and pictures, with a caption taken from them, and the attribute for the caption, the page stays byte for byte; with captions off and none given it stays as a whole; nothing is written outside of the block.", "quantifier": "all pages, well formed or not", "why_tests_cant": "The block grows while it is written, and tags that do not end, quotes that do not end and any bytes may occur anywhere.", "anchors": ["src/html_renderer.c: apex_convert_image_captions (2735-3178)"]}
{"id": "C188", "title": "Colouring code changes only code blocks", "statement": "With an external tool for code, each code block of a page is replaced by what the tool answers, or stays as it is when the tool fails; everything else stays, no block is lost, and nothing is written outside of the block of memory.", "quantifier": "all pages, tools, languages and answers of any length", "why_tests_cant": "Whether a block is kept depends on the lengths of all answers before it, which come from a program outside of apex.", "anchors": ["src/extensions/syntax_highlight.c: apex_apply_syntax_highlighting (256-482)"]}
{"id": "C189", "title": "The tool gets the code and the language the author wrote", "statement": "The tool is run once for each code block, or each one with a language if so asked, in their order; its input is the code as the author wrote it, without escapes, and its command names the language of the block.", "quantifier": "all code and all languages", "why_tests_cant": "Code may hold any text, also text that looks like an escape or like a tag.", "anchors": ["src/extensions/syntax_highlight.c: unescape_html (51-84)", "src/extensions/syntax_highlight.c: apex_apply_syntax_highlighting (326-415)"]}
{"id": "C190", "title": "A page cannot run commands", "statement": "The only command run for a page is the chosen tool with its options and the language of a block as one word.", "quantifier": "all pages and all languages in them", "why_tests_cant": "The line is read by a shell, so any byte of a language may have a meaning.", "anchors": ["src/extensions/syntax_highlight.c: highlight_code_block (191-246)", "src/extensions/syntax_highlight.c: run_command (91-189)"]}
{"id": "C191", "title": "Colouring ends with what the tool wrote", "statement": "However apex and the tool are scheduled, apex comes back with all the tool wrote when it ends well, and with nothing when it fails.", "quantifier": "all inputs, all tools, all interleavings of apex and the tool, pipes of any size", "why_tests_cant": "Interleavings are unbounded; the cases that hang or kill apex need long code or a tool that ends early at the right time.", "anchors": ["src/extensions/syntax_highlight.c: run_command (91-189)"]}
{"id": "C192", "title": "Joined cells cover the table", "statement": "In a table, `<<` joins a cell to the one on its left and `^^` to the one above: the cell it joins is told to cover as many columns and rows as cells joined it, the joined cells are not shown, and the cells shown cover each place of the table exactly once.", "quantifier": "all tables, of any number of rows, with any cells joined", "why_tests_cant": "Which cell is joined depends on all cells before it in its row and its column.", "anchors": ["src/extensions/advanced_tables.c: process_table_spans (406-798)", "src/extensions/advanced_tables.c: is_colspan_cell (96-180)", "src/extensions/advanced_tables.c: is_rowspan_cell (186-205)"]}
{"id": "C193", "title": "Tables of any width are safe", "statement": "No table makes the processing of joined and aligned cells read or write memory that is not its own.", "quantifier": "all tables, with any number of columns and any text in the cells", "why_tests_cant": "A write behind an array of fifty entries, or a read of freed memory, mostly shows no effect in a test.", "anchors": ["src/extensions/advanced_tables.c: process_table_spans (406-798)"]}
{"id": "C194", "title": "The foot of a table begins at its row of equal signs", "statement": "In a table of at most fifty columns, the first row with a cell of three or more equal signs and all rows after it are in the foot and no other row is; cells of equal signs, and rows of nothing but dashes and empty cells, are not shown; and rows and cells stay in their number.", "quantifier": "all tables of at most fifty columns and any number of rows, with any cells joined or aligned", "why_tests_cant": "That a hidden cell stays hidden depends on all cells that come after it.", "anchors": ["src/extensions/advanced_tables.c: process_table_spans (426-520)", "src/extensions/advanced_tables.c: is_tfoot_row (326-356)"]}
{"id": "C195", "title": "Colons align a cell", "statement": "With alignment of single cells, a colon at the begin, the end, or both ends of a cell aligns it left, right or in the centre and is not shown; the rest of the text, and all other cells, stay.", "quantifier": "all texts of cells, tables of any size", "why_tests_cant": "Texts are unbounded, and colons are looked for behind any blanks.", "anchors": ["src/extensions/advanced_tables.c: process_cell_alignment (212-321)", "src/extensions/advanced_tables.c: process_table_spans (546-569)"]}
{"id": "C196", "title": "A directory of plugins is read as it is written", "statement": "The entries found in a directory of plugins or filters are those of its JSON: each object of the list with an id and a repository is an entry, with the values of its keys, however the JSON is laid out and whatever the values say.", "quantifier": "all directories, with any number of entries, keys, blanks and texts", "why_tests_cant": "The reader looks for keys anywhere in the text of an object, so any value may be taken for a key.", "anchors": ["src/plugins_remote.c: apex_remote_parse_array (118-192)", "src/plugins_remote.c: apex_remote_extract_string (88-115)"]}
{"id": "C197", "title": "The plugin installed is the one named", "statement": "Installing a plugin by its name clones the repository of the entry with this name; other entries have no say in it, and where two have the name the first counts.", "quantifier": "all directories and names", "why_tests_cant": "It depends on all other entries of the directory.", "anchors": ["src/plugins_remote.c: apex_remote_find_plugin (275-283)", "cli/main.c: main (2345-2357)"]}
{"id": "C198", "title": "The filter installed is the one named", "statement": "Installing a filter by its name clones the repository, and uses the file, given in the entry with this name, in whichever order its keys are.", "quantifier": "all directories and names", "why_tests_cant": "It depends on the order of keys and on the entries that follow.", "anchors": ["cli/main.c: main (2678-2724)", "src/plugins_remote.c: apex_remote_extract_string (88-115)"]}
{"id": "C199", "title": "A directory is fetched whole or not at all", "statement": "What the download prints is the text of the directory, of any length and without a write behind its buffer; if the download fails there is no text.", "quantifier": "all outputs of the command, of any length, and all statuses", "why_tests_cant": "Lengths around each doubling of the buffer are unbounded in number.", "anchors": ["src/plugins_remote.c: apex_remote_fetch_json (40-83)"]}
{"id": "C200", "title": "The words of a style do what they say", "statement": "A style of terminal output is words: flags, names of colours, colours in hexadecimal and numbers of the palette, with an `on_` for the background. On a terminal, it shows nothing and gives the text behind it what its words say, one after the other; a colour in hexadecimal gives the nearest one the terminal has.", "quantifier": "all styles, of any words and any white space, all colours, with 8 or with 256 colours", "why_tests_cant": "There are sixteen million colours and any number of words; what counts is the state of the terminal behind them.", "anchors": ["src/ast_terminal.c: apply_style_string (365-390)", "src/ast_terminal.c: apply_style_token (278-363)", "src/ast_terminal.c: rgb_to_256 (258-276)"]}
{"id": "C201", "title": "A theme changes how a document looks, not what it says", "statement": "In terminal output, what one reads of a document does not depend on the colours of the theme or of the terminal, and all that was written in paragraphs, headings, lists, quotes and code can be read in its order.", "quantifier": "all documents as trees of any depth and size, all themes whose styles show nothing, 8 or 256 colours", "why_tests_cant": "Documents nest without bound and a theme has a style for each kind of element and any class; what one reads is what is left on the terminal behind all control sequences.", "anchors": ["src/ast_terminal.c: apex_cmark_to_terminal (2443-2479)", "src/ast_terminal.c: serialize_block (1424-2437)", "src/ast_terminal.c: serialize_inline (1200-1421)"]}
{"id": "C202", "title": "Styles on a terminal hold for their text and end with it", "statement": "In terminal output strong text is bold and emphasis italic for the whole of it, and after a document the terminal is as it was before.", "quantifier": "all documents as trees of any depth and size, all themes whose styles show nothing, any state of the terminal", "why_tests_cant": "Each style nests in any other, and what counts is the state of the terminal at each letter.", "anchors": ["src/ast_terminal.c: serialize_inline (1200-1421)", "src/ast_terminal.c: apply_style_string (365-390)"]}
{"id": "C203", "title": "A document gives the terminal no commands", "statement": "Terminal output of a document from elsewhere changes nothing of the terminal but the styles of its text.", "quantifier": "all documents as trees of any depth and size, with any bytes in them", "why_tests_cant": "Any text of a document could be a control sequence or a part of one.", "anchors": ["src/ast_terminal.c: serialize_inline (1200-1421)", "src/ast_terminal.c: apex_cmark_to_terminal (2443-2479)"]}
{"id": "C204", "title": "HTML in a document never crashes terminal output", "statement": "A block of HTML, whatever it is, is written to a terminal or left out; the program does not read outside of it.", "quantifier": "all blocks of HTML", "why_tests_cant": "The code searches the block for marks of callouts and for what follows them; only a proof shows that all are there.", "anchors": ["src/ast_terminal.c: serialize_block (1424-2437)"]}
{"id": "C205", "title": "Code on a terminal is coloured by the tool alone", "statement": "To colour a code block in terminal output, the tool is run with the language of the block as an option, and no other command; if it fails the code is shown as it is.", "quantifier": "all languages and code blocks, all results of the tool", "why_tests_cant": "The language is any text of the document and a shell reads the command.", "anchors": ["src/ast_terminal.c: serialize_block (1424-2437)"]}
{"id": "C206", "title": "All lines of a table on a terminal are of the same width", "statement": "In terminal output, all lines of a table, its borders and its rows, take the same number of columns.", "quantifier": "all tables of any number of rows and columns, with cells that take more than one column, of any text, all sides and indents", "why_tests_cant": "The widths follow from all cells of all rows together.", "anchors": ["src/ast_terminal.c: serialize_block (1424-2437)", "src/ast_terminal.c: node_plain_text_width (1039-1067)", "src/ast_terminal.c: parse_span_attr (138-156)"]}
{"id": "C207", "title": "Cells of a table on a terminal stand in their columns", "statement": "In terminal output, a table has all its rows and cells in order, each cell between the bars of its column, on the side its column or itself asks for, and no column is wider than its widest cell.", "quantifier": "all tables of any number of rows and columns, of any text, all sides", "why_tests_cant": "Where a cell stands follows from all cells before it and from the widths of all columns.", "anchors": ["src/ast_terminal.c: serialize_block (1424-2437)", "src/ast_terminal.c: parse_alignment_from_attrs (105-135)", "src/ast_terminal.c: node_plain_text_width (1039-1067)"]}
{"id": "C208", "title": "A theme is the same with and without the library for YAML", "statement": "A file of a theme for terminal output gives the same theme whether the program was built with libyaml or reads the file line by line.", "quantifier": "all files of sections with keys and values, with comments, quotes, white space and line ends of any kind", "why_tests_cant": "There are two readers for one format; a test runs one of them, on files someone thought of.", "anchors": ["src/ast_terminal.c: load_theme_from_simple_yaml (564-755)", "src/ast_terminal.c: load_theme_from_yaml (757-1001)"]}
{"id": "C209", "title": "A theme has the styles its file says", "statement": "Each element is shown in the colour its section of the theme's file gives, bold if the file says so, and each class in the style of its own line; a theme is read from the file with its name, and else from the default one.", "quantifier": "all files of sections with keys and values as in C208, all elements and classes", "why_tests_cant": "A file has any number of sections, keys and classes in any order.", "anchors": ["src/ast_terminal.c: load_theme_from_simple_yaml (564-755)", "src/ast_terminal.c: ensure_bold_prefix (479-494)", "src/ast_terminal.c: parse_bool_value (464-473)", "src/ast_terminal.c: load_theme (1004-1030)"]}
{"id": "C210", "title": "Manual pages as HTML are well-formed and complete", "statement": "The HTML of a manual page has its tags closed and nested and no bare special characters; it shows all that is written in the document and nothing else, and its links lead where the document says.", "quantifier": "all trees of a document, all titles and lists of style sheets", "why_tests_cant": "Trees nest without limit, and any byte may need an escape in text or in an attribute.", "anchors": ["src/ast_man.c: render_block_man_html (732-809)", "src/ast_man.c: render_inline_man_html (627-679)", "src/ast_man.c: apex_cmark_to_man_html (811-921)"]}
{"id": "C211", "title": "Each entry of the navigation leads to its section", "statement": "The navigation of a manual page as HTML has an entry for each section, in order and with its title, and the entry leads to the heading of that section.", "quantifier": "all documents with any number of sections with headings of any text", "why_tests_cant": "Whether an anchor is there depends on all the headings together.", "anchors": ["src/ast_man.c: collect_man_sections (701-730)", "src/ast_man.c: section_id_from_heading (681-696)", "src/ast_man.c: apex_cmark_to_man_html (811-921)"]}
{"id": "C212", "title": "A manual page as HTML is headed by its name", "statement": "Title and headline are the name and the description from the section NAME, parted at the first ` - `, with one space between words; a title with parentheses replaces the name, and a page without NAME is headed `Document — manual page`.", "quantifier": "all documents, names, descriptions and white space", "why_tests_cant": "The line can have white space and dashes anywhere.", "anchors": ["src/ast_man.c: get_name_section_paragraph_text (275-310)", "src/ast_man.c: normalize_whitespace (313-327)", "src/ast_man.c: apex_cmark_to_man_html (811-921)"]}
{"id": "C213", "title": "Hashtags are put in spans and the rest is kept", "statement": "With hashtags on, each word which starts with `#` and a letter or digit, at the start of a line or behind white space, is put in a span, whole and as it is; all other text, code and markup above all, is kept.", "quantifier": "all texts", "why_tests_cant": "Any text has its own places for tags, and code, links and HTML have the same sign.", "anchors": ["src/apex.c: apex_markdown_to_html, hashtags (4554-4725)"]}
{"id": "C214", "title": "Proofreading turns marks into CriticMarkup", "statement": "In proofreading mode each passage between `==` becomes a highlight and each between `~~` a deletion in CriticMarkup; code and all else is kept.", "quantifier": "all texts", "why_tests_cant": "Marks, code and headings share their signs and follow each other in any order.", "anchors": ["src/apex.c: apex_markdown_to_html, proofreading (4727-4917)"]}
{"id": "C215", "title": "Hashtags and proofreading stay in their buffers", "statement": "The passes for hashtags and for proofreading write no byte outside the buffers they allocate.", "quantifier": "all texts", "why_tests_cant": "A write one byte too far shows in no output, and needs a text of just the right length.", "anchors": ["src/apex.c: apex_markdown_to_html (4554-4917)"]}
{"id": "C216", "title": "An extension that is off does nothing", "statement": "When the option of an extension is off, the code of this extension has no influence on the result of a conversion, in any output format: any other code in its place gives the same result.", "quantifier": "all programs that differ in the code of extensions that are off only, all options, texts and lengths", "why_tests_cant": "An extension has calls at several places — on the text, on the tree and on the page —, and a call left without its condition shows with some texts and options only.", "anchors": ["src/apex.c: apex_markdown_to_html (3958-5708)", "include/apex/apex.h: apex_options"]}
{"id": "C217", "title": "In CommonMark mode the text is parsed as it was written", "statement": "In CommonMark mode the parser gets the text as it was written, with a line ending at its end, and the tree and the page are changed only for what stays on in this mode.", "quantifier": "all texts, all parsers and writers", "why_tests_cant": "Forty functions stand between a text and its page, and each has a condition of its own.", "anchors": ["src/apex.c: apex_markdown_to_html (3958-5708)", "src/apex.c: apex_options_for_mode"]}
{"id": "C218", "title": "A conversion depends on the given text alone", "statement": "The result of `apex_markdown_to_html(text, len)` depends on nothing but the first `len` bytes of the text, up to a NUL; no others are read; and the parser always gets a text that ends in a line ending.", "quantifier": "all contents of memory, lengths and options", "why_tests_cant": "What stands in memory behind a text is chance in a test.", "anchors": ["src/apex.c: apex_markdown_to_html (3958-3988, 4940-4979)"]}
{"id": "C219", "title": "A conversion uses no memory that was released", "statement": "The text that was given to the parser is not used any more once its memory was released.", "quantifier": "all texts, options and programs", "why_tests_cant": "Reading released memory mostly gives the old bytes, so that tests pass.", "anchors": ["src/apex.c: apex_markdown_to_html (4940-5106)"]}
{"id": "C220", "title": "The bibliography of a document is looked for in the directory of the document", "statement": "A bibliography which the metadata of a document names is looked for in the base directory, with one slash in between, and under its own name without a base directory; no byte outside of a block is read for that.", "quantifier": "all directories, names and documents", "why_tests_cant": "Directories with and without a slash, the empty one and none at all each take another way.", "anchors": ["src/apex.c: apex_markdown_to_html (4084-4149)"]}
{"id": "C221", "title": "Liquid tags come through in every output format", "statement": "Tags `{% ... %}` are in the output as they were written, in every output format.", "quantifier": "all texts with tags, all formats, parsers and writers", "why_tests_cant": "Tags are taken out at one place and put back at another, with returns for other formats in between.", "anchors": ["src/apex.c: apex_markdown_to_html (4931-4938, 5122-5202)"]}
{"id": "C222", "title": "Raw HTML goes through where the options allow it, and only there", "statement": "With raw HTML off, the parser and the writer of HTML are never asked to let raw HTML through, whatever the document says; with it on, always. The filter for tags is attached exactly in GFM mode.", "quantifier": "all documents, options, parsers and writers", "why_tests_cant": "The options are turned into those of the parser at one place and into those of the writer at another, and metadata of a document changes options in between.", "anchors": ["src/apex.c: apex_to_cmark_options (2803-2843)", "src/apex.c: apex_register_extensions (2848-2927)", "src/apex.c: apex_markdown_to_html"]}
{"id": "C223", "title": "A value of the front matter is found under the name of its path", "statement": "With nested front matter, each text is an item of the metadata under the keys that lead to it, joined by dots; sequences of texts are one text with commas, and other sequences are numbered. There are no other items.", "quantifier": "all documents of libyaml and all paths", "why_tests_cant": "Mappings and sequences nest in each other without limit.", "anchors": ["src/extensions/metadata.c: yaml_node_to_flat_items (108-248)", "src/extensions/metadata.c: parse_yaml_with_libyaml (250-310)", "src/extensions/metadata.c: apex_metadata_get"]}
{"id": "C224", "title": "Every front matter is read in finite time", "statement": "Reading the metadata of a document ends, whatever the front matter is.", "quantifier": "all documents of libyaml, with anchors and aliases", "why_tests_cant": "An alias can stand inside of the node it names.", "anchors": ["src/extensions/metadata.c: yaml_node_to_flat_items (108-248)"]}
{"id": "C225", "title": "A bundle has one plugin for each of its entries", "statement": "A plugin manifest with a sequence under `bundle` gives one plugin for each mapping in it, in their order, with the texts of this mapping and of the mappings in it, and nothing else; other manifests are no bundles.", "quantifier": "all documents of libyaml", "why_tests_cant": "Entries that are no mappings, nested mappings and repeated nodes combine freely.", "anchors": ["src/extensions/metadata.c: apex_extract_plugin_bundle (3002-3066)", "src/extensions/metadata.c: yaml_mapping_to_metadata_items (2868-2932)"]}
{"id": "C226", "title": "Transforms of a metadata variable are applied as they are written", "statement": "`[%key:first:second(options)]` is replaced by the value of `key` after the transforms `first`, `second` with these options, in this order.", "quantifier": "all keys, chains and options", "why_tests_cant": "A chain has any number of transforms, and options hold any text.", "anchors": ["src/extensions/metadata.c: parse_transform_chain (859-956)", "src/extensions/metadata.c: apex_metadata_replace_variables (2054-2090)"]}
{"id": "C227", "title": "A block gets the attributes of the list behind it", "statement": "An attribute list `{: ...}` that is a paragraph of its own is removed, and its attributes are given to the block in front of it, at every depth of the document; nothing else changes.", "quantifier": "all documents of nested blocks with such lists", "why_tests_cant": "Blocks nest without limit, and each can have a list or not.", "anchors": ["src/extensions/ial.c: apex_process_ial_in_tree (1472-1518)", "src/extensions/ial.c: process_node_ial (1376-1467)", "src/extensions/ial.c: is_pure_ial_paragraph (1304-1364)"]}
{"id": "C228", "title": "An inline element gets the attributes of the list behind it", "statement": "In `*text*{: ...}` the list is removed and its attributes are given to the element directly in front of it; the paragraph and all other elements keep their attributes.", "quantifier": "all paragraphs of text and inline elements with such lists", "why_tests_cant": "A paragraph has any number of elements, with and without lists.", "anchors": ["src/extensions/ial.c: process_span_ial_in_container (863-1240)"]}
{"id": "C229", "title": "A block gets the attributes of the list at its end", "statement": "An attribute list at the end of a paragraph or a heading is removed, with the white space in front of it, and its attributes are given to the block.", "quantifier": "all paragraphs and headings", "why_tests_cant": "What is in front of the list can be any text with line breaks and inline elements.", "anchors": ["src/extensions/ial.c: process_span_ial_in_container (863-1240)", "src/extensions/ial.c: extract_ial_from_heading (1245-1298)"]}
{"id": "C230", "title": "No node of the document is used after it has been released", "statement": "Attribute lists are removed from the document without use of a node that is released.", "quantifier": "all documents", "why_tests_cant": "Whether a node is released depends on all texts around it; a test can only show it with a memory checker.", "anchors": ["src/extensions/ial.c: apex_process_ial_in_tree (1472-1518)", "src/extensions/ial.c: process_span_ial_in_container (1153-1210)"]}
{"id": "C231", "title": "Attribute lists do not remove text", "statement": "All texts of a document that are no attribute lists are still there after the attributes have been given to the blocks.", "quantifier": "all documents", "why_tests_cant": "A loss shows only for certain texts at certain places in the tree.", "anchors": ["src/extensions/ial.c: is_pure_ial_paragraph (1304-1364)", "src/extensions/ial.c: apex_process_ial_in_tree (1505-1515)"]}
{"id": "C232", "title": "Links and images keep everything but their attributes", "statement": "Before the document is parsed, the addresses of inline links and images are encoded, attributes in the parentheses and attribute lists behind images are taken out, and titles, labels and the text around them stay as they are.", "quantifier": "all documents of texts, links and images with titles, attributes and attribute lists", "why_tests_cant": "Links and images can follow each other in any number and order, and each has many forms.", "anchors": ["src/extensions/ial.c: apex_preprocess_image_attributes (2576-4002)"]}
{"id": "C233", "title": "Each image gets the attributes written with it", "statement": "The attributes in `![alt](url width=300){.class}` are given to this image of the document, and to no other one.", "quantifier": "all documents with images", "why_tests_cant": "Images are counted twice, in the text and in the document; whether both counts agree depends on all images in front.", "anchors": ["src/extensions/ial.c: apex_preprocess_image_attributes (2576-4002)", "src/extensions/ial.c: apex_apply_image_attributes (4012-4073)"]}
{"id": "C234", "title": "The search for images changes no other text and stays in its buffer", "statement": "Text that is no link and no image is not changed by the search for attributes of images, and what is written never exceeds the buffer for it, which has three bytes for each byte of the text.", "quantifier": "all texts", "why_tests_cant": "The buffer is exceeded only by certain texts, and a test sees it only with a memory checker.", "anchors": ["src/extensions/ial.c: apex_preprocess_image_attributes (2603-3699)"]}
{"id": "C235", "title": "References to images with attributes become images", "statement": "`![alt][name]` with a definition `[name]: url width=300` becomes an image with this address and these attributes, and the text around it stays.", "quantifier": "all texts with references, all definitions", "why_tests_cant": "The result can be longer than the text, by an amount that depends on all definitions.", "anchors": ["src/extensions/ial.c: apex_preprocess_image_attributes (3701-3990)"]}
{"id": "C236", "title": "Tables without captions and joined cells keep their HTML", "statement": "In a page whose tables have no captions and no joined cells nothing is changed, except that the first cell of each row becomes a header of the row in tables whose first header is blank.", "quantifier": "all pages of text and tables, all attributes and contents of cells", "why_tests_cant": "The page is read once from start to end with a state that each tag can change; any number of tables and rows can be in front of a cell.", "anchors": ["src/extensions/table_html_postprocess.c: apex_inject_table_attributes (528-2678)"]}
{"id": "C237", "title": "A table with a caption becomes a figure", "statement": "A table with a caption is put into a figure with the caption, escaped, above or below the table, and the paragraph in which the caption was written is left out of the page; everything else stays.", "quantifier": "all pages of text, captions and tables, all captions", "why_tests_cant": "Captions are found by the number of the table and by their text, whatever is in front of them in the page.", "anchors": ["src/extensions/table_html_postprocess.c: apex_inject_table_attributes (528-2678)", "src/extensions/table_html_postprocess.c: collect_table_captions (334-484)"]}
{"id": "C238", "title": "The text of a cell is kept", "statement": "A cell whose text contains a shift to the left, as in `1 << 2`, is shown with its text, and so are the cells in front of it.", "quantifier": "all tables", "why_tests_cant": "It depends on the distance between cells in the page whether one of them is lost.", "anchors": ["src/extensions/table_html_postprocess.c: apex_inject_table_attributes (2147-2249)"]}
{"id": "C239", "title": "Cells with colons at their ends are aligned", "statement": "A cell `:text:` is centred, `:text` is aligned to the left and `text:` to the right, and the colons are not shown; nothing is written outside of the memory for the page.", "quantifier": "all cells, all tables", "why_tests_cant": "Whether the memory is exceeded depends on the number of aligned cells in the whole page.", "anchors": ["src/extensions/table_html_postprocess.c: process_cell_alignment (213-306)", "src/extensions/table_html_postprocess.c: apex_inject_table_attributes (2385-2561)"]}
{"id": "C240", "title": "Cells below a header with text stay cells", "statement": "If the first header of a table is not blank, no cell of the table becomes a header.", "quantifier": "all tables with a first header that is not blank", "why_tests_cant": "It fails only from a certain length of the header on.", "anchors": ["src/extensions/table_html_postprocess.c: apex_inject_table_attributes (1721-1791)"]}
{"id": "C241", "title": "A bibliography in YAML is read completely", "statement": "Of a bibliography in CSL YAML every entry is read with its identifier, title, author, year, container, publisher, volume and pages.", "quantifier": "all files with any number of entries and fields", "why_tests_cant": "A file can have any number of entries, and what is read for one of them depends on the indentation of the lines behind it.", "anchors": ["src/extensions/citations.c: apex_parse_csl_yaml (1818-1958)", "src/extensions/citations.c: parse_yaml_author (1651-1728)", "src/extensions/citations.c: parse_yaml_date (1732-1813)"]}
{"id": "C242", "title": "Authors and dates of a bibliography in YAML are read", "statement": "All authors of an entry and its year are read in every notation that CSL has for them.", "quantifier": "all lists of authors, all notations of dates", "why_tests_cant": "Lists of authors have any length, and tests show a few notations only.", "anchors": ["src/extensions/citations.c: parse_yaml_author (1651-1728)", "src/extensions/citations.c: parse_yaml_date (1732-1813)", "src/extensions/citations.c: extract_yaml_value (1605-1646)"]}
{"id": "C243", "title": "Reading a bibliography in YAML is safe", "statement": "Whatever a file with the extension .yaml contains, reading it and freeing its entries accesses only memory that was allocated.", "quantifier": "all texts", "why_tests_cant": "What is read behind the end of a text is usually a zero, so that tests pass; only a statement about all texts shows which of them are safe.", "anchors": ["src/extensions/citations.c: apex_parse_csl_yaml (1818-1958)", "src/extensions/citations.c: extract_yaml_value (1605-1646)", "src/extensions/citations.c: apex_load_bibliography_file (1963-1994)"]}
{"id": "C244", "title": "Several bibliographies are used together", "statement": "If several bibliographies are given, in BibTeX, CSL JSON or CSL YAML, a citation is resolved by the first file that has an entry with its identifier.", "quantifier": "all lists of files, all contents, all identifiers", "why_tests_cant": "There can be any number of files and entries, and the entries of a file are kept in the opposite order.", "anchors": ["src/extensions/citations.c: apex_load_bibliography (1999-2042)", "src/extensions/citations.c: apex_parse_csl_json (1572-1588)", "src/extensions/citations.c: resolve_bibliography_path (1106-1131)", "src/extensions/citations.c: detect_bibliography_format (1143-1160)"]}
{"id": "C245", "title": "Each table gets the caption that is written next to it", "statement": "In a document with any number of tables each table is shown with the caption that is written above or below it, and with no other.", "quantifier": "all documents, any number of tables, all captions in brackets or behind a colon", "why_tests_cant": "A caption can be above or below its table, so that what a paragraph between two tables means depends on all tables in front of it; the number of tables is not bounded.", "anchors": ["src/extensions/advanced_tables.c: apex_process_advanced_tables (1541-1763)", "src/extensions/advanced_tables.c: is_table_caption (1270-1453)", "src/extensions/advanced_tables.c: is_table_caption_format (1096-1268)", "src/extensions/advanced_tables.c: add_table_caption (1458-1536)"]}
{"id": "C246", "title": "Nothing but captions that are shown is taken out of a document", "statement": "Looking for captions of tables takes nothing out of a document except paragraphs and rows that are shown as the caption of a table next to them; everything else stays where it is, unchanged.", "quantifier": "all documents", "why_tests_cant": "The search goes back over any number of blocks; tests show documents in which the paragraph in front of the table is the caption.", "anchors": ["src/extensions/advanced_tables.c: apex_process_advanced_tables (1541-1763)", "src/extensions/advanced_tables.c: is_caption_row (364-399)", "src/extensions/advanced_tables.c: is_adjacent_to_table (820-891)"]}
{"id": "C247", "title": "Attributes behind a caption become attributes of the table", "statement": "A list of attributes behind a caption, as in `[Caption] {: #name .class key=value}`, gives the table these attributes in addition to the caption.", "quantifier": "all captions, all lists of attributes", "why_tests_cant": "There can be any number of classes and attributes of any length, written into buffers of fixed sizes.", "anchors": ["src/extensions/advanced_tables.c: parse_ial_from_text (898-1033)", "src/extensions/advanced_tables.c: attributes_to_html_string (1035-1094)", "src/extensions/advanced_tables.c: add_table_caption (1458-1536)"]}
{"id": "C248", "title": "Looking for captions of tables is safe", "statement": "Whatever is written in the paragraphs and cells of a document, looking for captions of tables and reading their attributes accesses only memory that was set.", "quantifier": "all documents", "why_tests_cant": "What is behind the end of a text is often harmless, so that tests pass; only a statement about all texts shows which of them are safe.", "anchors": ["src/extensions/advanced_tables.c: parse_ial_from_text (898-1033)", "src/extensions/advanced_tables.c: apex_process_advanced_tables (1541-1763)"]}
{"id": "C249", "title": "Terms and definitions with two colons are shown as a definition list", "statement": "A paragraph that is followed by definitions `:: text` is shown as a term with all these definitions in one definition list.", "quantifier": "all documents of plain paragraphs, any number of terms and of definitions", "why_tests_cant": "A term can have any number of definitions, and a list that was made changes what is in front of the next one.", "anchors": ["src/extensions/definition_list.c: open_block (373-515)", "src/extensions/definition_list.c: is_definition_line (69-96)", "src/extensions/definition_list.c: postprocess (1867-1957)", "src/extensions/definition_list.c: html_render (1962-1988)"]}
{"id": "C250", "title": "Making definition lists loses no text", "statement": "When definition lists with two colons are made, everything that is in the document before is there afterwards, in the same order; only the colons in front of definitions are left out.", "quantifier": "all documents", "why_tests_cant": "Children are moved between nodes and nodes are freed; tests show a few documents only.", "anchors": ["src/extensions/definition_list.c: postprocess (1867-1957)", "src/extensions/definition_list.c: move_paragraph_inlines_to_term (1740-1759)", "src/extensions/definition_list.c: create_dd_from_paragraph (1801-1848)"]}
{"id": "C251", "title": "Making definition lists is safe", "statement": "Whatever a document contains, making definition lists from lines with two colons uses no node that was freed.", "quantifier": "all documents", "why_tests_cant": "A node that was freed often still has its old values, so that tests pass.", "anchors": ["src/extensions/definition_list.c: postprocess (1867-1957)", "src/extensions/definition_list.c: move_paragraph_inlines_to_term (1740-1759)"]}
{"id": "C252", "title": "The public parser reads the blocks that were written", "statement": "`apex_parse` returns for each text, and the document it returns has exactly the headings, paragraphs and code blocks of the text, in their order and with all of their text.", "quantifier": "all texts; all lists of blocks", "why_tests_cant": "A text has any number of blocks of any length; tests look at a few.", "anchors": ["src/parser.c: parse_simple (110-211)", "src/parser.c: apex_parse (213)"]}
{"id": "C253", "title": "The public renderer shows a tree as well-formed HTML", "statement": "For each tree `apex_render_html` gives HTML in which each element is closed and all text and attributes are escaped, and one reads in it exactly the text of the tree.", "quantifier": "all trees of any depth, both ways to treat soft line breaks", "why_tests_cant": "Trees have any depth and any text; tests look at a few.", "anchors": ["src/renderer.c: escape_html (11-31)", "src/renderer.c: render_node_html (33-220)", "src/renderer.c: apex_render_html (222)"]}
{"id": "C254", "title": "Nodes are linked and freed correctly", "statement": "However many blocks a document has, the links between its nodes are right; `apex_node_free` frees each node of a tree exactly once, uses none after that and touches no other node.", "quantifier": "all documents, all trees of any shape and depth", "why_tests_cant": "A node used after it was freed often still has its old values, so that tests pass.", "anchors": ["src/parser.c: apex_node_new (37-43)", "src/parser.c: apex_node_append_child (45-60)", "src/parser.c: apex_node_free (62-107)"]}
{"id": "C255", "title": "Each plugin of a bundle has its own values", "statement": "A manifest with a bundle of plugins gives a plugin for each entry; for each key it has the value of its entry and, where the entry has none, the value of the bundle.", "quantifier": "all bundles with any number of entries and items", "why_tests_cant": "Which value wins depends on the order of two lists that are merged and then read from front to end.", "anchors": ["src/plugins.c: load_plugins_from_dir (296-433)", "src/extensions/metadata.c: apex_merge_metadata (2352-2403)"]}
{"id": "C256", "title": "The directory for its data that a plugin is told about exists", "statement": "The directory that a plugin is given in `APEX_SUPPORT_DIR` exists when the plugin runs, and each plugin has one of its own.", "quantifier": "all environments, all sets of directories that exist, all ids", "why_tests_cant": "What exists differs between users; tests run where all has been made before.", "anchors": ["src/plugins.c: apex_get_support_base_dir (218-245)", "src/plugins.c: load_plugins_from_dir (376-384, 499-505)"]}
{"id": "C257", "title": "A date is shown as it was written", "statement": "The transform `strftime` of a date in the metadata shows the year, month, day, hour, minute and second that were written, and the day of the week of this date.", "quantifier": "all dates, all formats of plain text and conversions", "why_tests_cant": "There are very many dates and formats, and a test with the year alone, as there is, does not see the other fields.", "anchors": ["src/extensions/metadata.c: parse_date (961-1001)", "src/extensions/metadata.c: apply_transform (1456-1474)"]}
{"id": "C258", "title": "What is no date stays as it is", "statement": "The transform `strftime` leaves a value that is no date as it is.", "quantifier": "all values and formats", "why_tests_cant": "Values are any text; tests try few that are no dates.", "anchors": ["src/extensions/metadata.c: parse_date (961-1001)", "src/extensions/metadata.c: apply_transform (1456-1474)"]}
{"id": "C259", "title": "All plugins of a directory are found and nothing else", "statement": "Each subdirectory with a manifest and each file that is a manifest in a directory of plugins is a plugin, and nothing else is; hidden entries are not.", "quantifier": "all directories, names, files and their contents", "why_tests_cant": "Directories are of any contents and names of any length; tests have one directory with short names.", "anchors": ["src/plugins.c: file_has_yaml_front_matter (178-184)", "src/plugins.c: load_plugins_from_dir (247-288)"]}
{"id": "C260", "title": "Inside a repository the plugins of the repository are found", "statement": "In each directory of a git repository, the plugins in .apex/plugins at the top of the repository are found.", "quantifier": "all paths of repositories, all directories in them, all settings of the environment", "why_tests_cant": "Repositories can be at any path, also long ones; tests run in one.", "anchors": ["src/plugins.c: apex_git_toplevel (62-93)", "src/plugins.c: apex_plugins_load (565-641)"]}
{"id": "C261", "title": "Math of LaTeX is shown as math", "statement": "A text between \\( and \\) or \\[ and \\] is shown as math.", "quantifier": "all texts between the delimiters and behind them", "why_tests_cant": "The texts are any; tests accept any output that contains the text.", "anchors": ["src/extensions/math.c: match_math_backslash (196-257)", "src/extensions/math.c: create_math_extension (262-277)"]}
{"id": "C262", "title": "A text that is no regular expression separates where it is written", "statement": "The transform `split` with a text that is no regular expression separates the value at each place where this text is written, and nowhere else.", "quantifier": "all texts, all values", "why_tests_cant": "Texts and values are unbounded; tests split at one comma or blank.", "anchors": ["src/extensions/metadata.c: split_string_simple (1004-1060)", "src/extensions/metadata.c: split_string (1080-1088)"]}
{"id": "C263", "title": "A callout on a terminal shows its type and its title", "statement": "In terminal output, a callout is shown with its type in brackets and its title, and nothing of the HTML that is made for it is seen.", "quantifier": "all callouts, also those that can be folded, all titles, themes and indents", "why_tests_cant": "Titles are any text; the writer reads them again from the HTML that was made of them, where a title can look like HTML.", "anchors": ["src/ast_terminal.c: serialize_block (2284-2361)", "src/extensions/callouts.c: convert_blockquote_to_callout (130-185)"]}
{"id": "C264", "title": "A filter asked for by its name runs its script", "statement": "With --filter and names, the command run for each name, in their order, is its script in the directory of filters, by lua if it is in Lua; a name without a script is an error.", "quantifier": "all names, all directories of filters and their contents, all settings of the environment", "why_tests_cant": "What is run depends on the files there are and on what the shell makes of their paths; tests have one filter in a directory without blanks.", "anchors": ["cli/main.c: main (3264-3448)", "src/filters_ast.c: execl (52)"]}
{"id": "C265", "title": "With --filters all filters of the directory are run", "statement": "With --filters, each file in the directory of filters that is not hidden is run, as if it were asked for by its name, and nothing else.", "quantifier": "all directories, names and kinds of files", "why_tests_cant": "Directories are of any contents.", "anchors": ["cli/main.c: main (3292-3334)"]}
{"id": "C266", "title": "A Lua filter is run with its script in its turn", "statement": "With --lua-filter, the script that is given is run by lua, in the order of the filters on the command line.", "quantifier": "all paths of scripts, all other filters, all settings of the environment", "why_tests_cant": "Paths are any text and the shell reads them; the environment of a test has a home directory.", "anchors": ["cli/main.c: main (3450-3481)"]}
{"id": "C267", "title": "Removing a filter removes this filter and nothing else", "statement": "With --uninstall-filter and the answer yes, the file or directory of the filter is removed and nothing else; with any other answer nothing is.", "quantifier": "all names, answers, directories and their contents", "why_tests_cant": "Names are any text, and what is removed is decided by a shell.", "anchors": ["cli/main.c: main (2557-2611)"]}
{"id": "C268", "title": "The list of filters says which are installed and which are not", "statement": "With --list-filters, each filter that is installed is listed as installed, and each other filter of the remote directory as available.", "quantifier": "all directories of filters, all remote directories", "why_tests_cant": "Directories are of any size; tests list an empty one.", "anchors": ["cli/main.c: main (2614-2652)", "src/plugins_remote.c: apex_remote_print_plugins_filtered (233-269)"]}
{"id": "C269", "title": "The list of plugins has each installed plugin once, from the first directory that has it", "statement": "With --list-plugins, each plugin that is installed for the current directory, the base directory, the repository or the user is listed once, with what the manifest in the first of these directories says, in front of the plugins of the remote directory that are not installed.", "quantifier": "all directories and their contents, all manifests and remote directories", "why_tests_cant": "Several directories are read one after another, and what an earlier one has hides what is in later ones; tests have one directory.", "anchors": ["cli/main.c: cli_collect_installed_from_root (237-333)", "cli/main.c: main (2184-2317)"]}
{"id": "C270", "title": "The plugins that are listed are those that are loaded", "statement": "A plugin is in the list of --list-plugins if and only if it is loaded when plugins are enabled.", "quantifier": "all directories and their contents, all manifests", "why_tests_cant": "Two pieces of code read the same directories; tests do not compare them.", "anchors": ["cli/main.c: cli_collect_installed_from_root (237-333)", "src/plugins.c: load_plugins_from_dir (247-540)"]}
{"id": "C271", "title": "With --combine the files are written in order, with an empty line between them", "statement": "With --combine, the output is the text of each file that is named and can be read, and of each file that a summary among them names, in their order, with an empty line between any two of them.", "quantifier": "all command lines, files, summaries and texts", "why_tests_cant": "What stands between two texts depends on the kinds of all arguments before; tests combine two files or one summary.", "anchors": ["cli/main.c: main (2071-2117, 2936-2985)", "cli/main.c: apex_cli_write_combined_chunk (1270-1281)"]}
{"id": "C272", "title": "With --mmd-merge the texts of all index files are written in order", "statement": "With --mmd-merge and several index files, the output is the merged text of each of them, in their order; with an index that cannot be read the work ends with an error.", "quantifier": "all command lines, indexes and files", "why_tests_cant": "Any number of indexes can be given; tests have one.", "anchors": ["cli/main.c: main (2086-2104, 2901-2933)"]}
{"id": "C273", "title": "The line of progress appears only when wanted and only after a second, and is gone before the result", "statement": "Progress is written on the standard error only if it is wanted: the last of --progress and --no-progress decides, without them APEX_PROGRESS, without that whether the standard error is a terminal. Nothing is written before a second is over; after it the line shows the stage of now and nothing else; before the result is written the line is blank again.", "quantifier": "all environments, command lines, sequences of reports and times", "why_tests_cant": "The order and the times of the reports are not under the control of a test.", "anchors": ["cli/main.c: init_progress, progress_callback, update_progress_if_needed, check_delayed_progress, clear_progress (368-462)", "cli/main.c: main (1906-1909, 3506-3527)", "src/apex.c: PROGRESS_REPORT"]}
{"id": "C274", "title": "The result is written as a whole, or an error is reported", "statement": "At the end all of the result is written to the file or to the standard output and the status is 0; on a terminal it is wrapped to --width, or else to the width of the metadata; if not all of it could be written, an error is reported and the status is not 0.", "quantifier": "all results, formats, widths and places to write to", "why_tests_cant": "A full disk, a limit or a closed pipe can stop the writing at any byte; tests write to disks with room.", "anchors": ["cli/main.c: main (1507-1515, 3537-3582)", "cli/main.c: wrap_ansi_to_width"]}
{"id": "C275", "title": "Definition lists are shown on a terminal as terms with their definitions below", "statement": "On a terminal each term of a definition list is on a line of its own and each of its definitions on a line below it, one level further in, with an empty line between two terms; the text is shown as a reader of the page sees it.", "quantifier": "all lists of terms, definitions and levels", "why_tests_cant": "Any number of terms and definitions with any text; tests have one short list.", "anchors": ["src/ast_terminal.c: serialize_block, CMARK_NODE_HTML_BLOCK (2229-2282)"]}
{"id": "C276", "title": "Blocks of HTML are shown on a terminal as their text", "statement": "Of a block of HTML a terminal shows all text outside of the tags, in its order and with its words apart, and nothing of the tags.", "quantifier": "all blocks of HTML, as texts and tags in any order", "why_tests_cant": "Tags and white space can stand in any order; tests have one or two blocks.", "anchors": ["src/ast_terminal.c: serialize_block, CMARK_NODE_HTML_BLOCK (2364-2418)"]}
{"id": "C277", "title": "Classes have the style of the theme on a terminal", "statement": "On a terminal an element with classes has the style that the theme gives to the first of its classes for which it has one, and else no other style than without classes.", "quantifier": "all themes, attributes and lists of classes", "why_tests_cant": "Themes and classes are free; tests use one class and one theme.", "anchors": ["src/ast_terminal.c: theme_style_for_span_classes (1092-1127)", "src/ast_terminal.c: theme_style_for_node_attrs (1131-1176)", "src/ast_terminal.c: theme_style_for_node (1181-1192)", "src/ast_terminal.c: serialize_inline, CMARK_NODE_HTML_INLINE"]}
{"id": "C278", "title": "Ordered lists on a terminal are numbered from their start", "statement": "On a terminal each item of an ordered list is shown behind its number: the first number is the one the list starts with, and each other is one more than the one before it.", "quantifier": "all lists of any length and start, all texts, themes and levels", "why_tests_cant": "Lists have any length and start; tests have two or three items that start with 1.", "anchors": ["src/ast_terminal.c: serialize_block, CMARK_NODE_LIST and CMARK_NODE_ITEM (1966-2008)"]}
{"id": "C279", "title": "All lines of a quote on a terminal have its mark", "statement": "On a terminal each line of a quote, of whatever it consists, is shown behind the mark for quotes.", "quantifier": "all quotes of any number of blocks and lines, all texts, themes and levels", "why_tests_cant": "Quotes hold any blocks, and lines end within any element; tests have one line.", "anchors": ["src/ast_terminal.c: serialize_block, CMARK_NODE_BLOCK_QUOTE (2010-2070)"]}
{"id": "C280", "title": "Code in a man page keeps its lines", "statement": "In a man page written as roff, a block of code is shown line by line as it was written, with its empty lines, and no line of it is taken for a request.", "quantifier": "all code, all output in front of it, at all places of a document", "why_tests_cant": "Code holds any lines, among them ones that begin with a period; tests compare a line or two.", "anchors": ["src/ast_man.c: render_block_roff, CMARK_NODE_CODE_BLOCK (461-502)", "src/ast_man.c: man_buf_append_roff_safe"]}
{"id": "C281", "title": "Tags in text are not shown on a terminal", "statement": "On a terminal one reads nothing of a tag or a comment in text, whatever is in it, and it gives the terminal no command.", "quantifier": "all tags and comments, themes and terminals", "why_tests_cant": "Attributes and comments hold any text; tests have a span or two.", "anchors": ["src/ast_terminal.c: serialize_inline, CMARK_NODE_HTML_INLINE (1358-1414)"]}
{"id": "C282", "title": "Paragraphs of a man page stay paragraphs", "statement": "In a man page written as roff, two paragraphs are shown as two, at the top of the document and in items of lists.", "quantifier": "all numbers of paragraphs, all texts", "why_tests_cant": "The number of paragraphs and their texts are unbounded, and a text may look like a request.", "anchors": ["src/ast_man.c: render_block_roff, CMARK_NODE_PARAGRAPH (417-441)"]}
{"id": "C283", "title": "Lists in a man page show their marks and their levels", "statement": "In a man page written as roff, each item of a list is below a request with its bullet or its number, in their order, and a list within an item is further in than the list around it.", "quantifier": "all lists of any length and depth, all numbers and texts", "why_tests_cant": "Lists have any length and depth; tests have a few items at one level.", "anchors": ["src/ast_man.c: render_block_roff, CMARK_NODE_LIST and CMARK_NODE_ITEM (442-460)"]}
{"id": "C284", "title": "Headings of a man page keep their level and their text", "statement": "In a man page written as roff, each heading is one line that begins with the request for its level, and roff prints its text.", "quantifier": "all headings of all levels, all texts", "why_tests_cant": "Texts are unbounded, and what roff does with a line depends on each of its bytes; tests have plain words.", "anchors": ["src/ast_man.c: render_block_roff, CMARK_NODE_HEADING (408-416)"]}
{"id": "C285", "title": "Man pages as HTML keep the levels of headings and the numbers of lists", "statement": "In a man page written as HTML, headings of different levels are different elements, and lists have their items in order and, if ordered, with their numbers.", "quantifier": "all levels, all lists of any length and numbers, all texts", "why_tests_cant": "Lists have any length and any start; tests have short ones that start with 1.", "anchors": ["src/ast_man.c: render_block_man_html (740-781)"]}
{"id": "C286", "title": "Code on a terminal is shown between fences, line by line and as far in as its surroundings", "statement": "On a terminal a block of code that no tool colours is shown between two fences, the first with its language, with each of its lines as it is and as far in as the text around it.", "quantifier": "all code of any number of lines, all languages, themes and levels", "why_tests_cant": "Code has any lines and stands at any level of lists; tests have a line at the top.", "anchors": ["src/ast_terminal.c: serialize_block, CMARK_NODE_CODE_BLOCK (2073-2227)"]}
{"id": "C287", "title": "Lists on a terminal show their levels", "statement": "On a terminal each item of a list with bullets is on lines of its own behind a bullet, which is two columns further in for each level of lists around it; all lines of its text are as far in.", "quantifier": "all lists of any length and depth, all texts, themes and levels", "why_tests_cant": "Lists have any depth and length; tests have two levels.", "anchors": ["src/ast_terminal.c: serialize_block, CMARK_NODE_LIST, CMARK_NODE_ITEM and CMARK_NODE_PARAGRAPH"]}
{"id": "C288", "title": "Headings on a terminal look like their level", "statement": "On a terminal a heading is on a line of its own with an empty line below; all of its text, and nothing else, has the style of its level, that of the theme if there is one, and headings of different levels look different.", "quantifier": "all headings of all levels, all texts, themes and terminals", "why_tests_cant": "Themes and texts are unbounded; tests look for a word of the heading.", "anchors": ["src/ast_terminal.c: serialize_block, CMARK_NODE_HEADING (1934-1964)"]}
