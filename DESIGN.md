# Formal model of apex: design

## Trusted base

* Lean 4.33.0's kernel. No own axioms, no `sorry`/`admit`, no `native_decide`, no `bv_decide`.
  Every property theorem depends at most on `propext`, `Classical.choice`, `Quot.sound`
  (the exact list is printed by `Verif/Axioms.lean` during the build).
* The hand translation from C to Lean. Every definition cites the file and lines it models and says
  where it simplifies. The C code was read as text; it was not compiled or run.
* The reading of each English property as a Lean statement. Specifications are separate, small
  definitions (`Spec` namespaces) that do not call the model.

## Modelling conventions

* A byte is `UInt8`; a C string is the `List UInt8` before its NUL. Model functions take the list, so the
  NUL itself is "end of list". Where the code can read at or past the NUL, the read is explicit and
  reading past the NUL is the outcome `C.ub`.
* `C α` has two outcomes: a value, or `ub` (undefined behaviour: out-of-bounds read or write, read of
  uninitialised memory). A heap buffer is its capacity plus the list of bytes written so far; a write at
  an index not below the capacity is `ub`, including the final `*write = '\0'`.
* Loops that always finish are structural or well-founded recursions. Loops that may not finish are
  step functions on an explicit state; non-termination is "no number of steps reaches a final state".
* `ctype.h` functions are those of the C locale (`isspace` = 9..13,32; `isalnum` = ASCII).
* `malloc`/`realloc` are assumed to succeed, `size_t` and `int` arithmetic is assumed not to overflow
  (sizes are `Nat`), unless a definition says otherwise.
* POSIX regex, the filesystem, plugin processes, and cmark are parameters (arbitrary functions) where a
  property needs them.

## Not modelled

cmark-gfm (parser and its HTML renderer), libyaml, libcurl, process creation, the terminal renderer, the theme loader, the parsers of tables,
citations and syntax highlighting processes. Memory leaks and allocation failure are not modelled. Of every file named
below only the functions cited in the comments of the definitions are modelled; what is left out of a function is said there.

## What is modelled

* `Abbr`: Model of src/extensions/abbreviations.c. Files cited: abbreviations.c, abbreviations.h.
* `Address`: Parts of included files: `parse_address_spec` and `extract_lines` of src/extensions/includes.c. Simplified: `malloc` succeeds; line counts fit in `int` (files are at most 10 MB); `isspace` of a byte ≥ 128 is false; POSIX regular expressions are given by an arbitrary compiler `regcomp`. Files cited: includes.c.
* `AlphaLists`: src/apex.c:2000-2337: lists with letters become numbered lists with a mark in front, and the marks in the page become styles of the lists. The allocations succeed; the list counter of the first function stays below 2^31. Files cited: apex.c.
* `Aria`: src/html_renderer.c:2364-2716 `apex_apply_aria_labels`. The allocations succeed, the captions are not so many that their number overflows, and pointers before the page (`search - 200`) are only compared. Files cited: html_renderer.c.
* `AstJson`: Documents as Pandoc JSON: src/ast_json.c. The buffers and the escaping of strings are in `Escape` and `GrowBuf`. Simplified: trees of cmark nodes are values; nodes that are dropped or leaked are left out; `malloc` succeeds; `long` does not overflow. Files cited: ast_json.c, o.c.
* `AutoMedia`: src/html_renderer.c:158-255, 3459-3955: images that look for their own variants (`apex_expand_auto_media`). The files are a parameter `ex`, telling for a path whether it is that of a regular file; they stay the same while the page is written. Allocations succeed; no text has a zero byte to begin with. Files cited: html_renderer.c.
* `Autolinks`: src/apex.c:494-1011 `apex_preprocess_autolinks`: addresses become links. The allocations succeed, and there are fewer than 2^31 brackets. Files cited: apex.c.
* `Base64`: Model of `apex_base64_encode` (src/apex.c), used to embed images. Files cited: apex.c.
* `Bibliography`: src/extensions/citations.c:663-1005, 1185-1566, 1998-2043: entries of a bibliography in BibTeX, and the bibliography in the page. The allocations succeed, texts have no zero byte, and `ctype.h` is that of the C locale. Files cited: citations.c, ctype.h.
* `Buffer`: Model of src/buffer.c (complete file). Files cited: buffer.c, buffer.h.
* `Bundles`: src/plugins.c:218-245, 296-433: bundles of plugins in one manifest, and the directories in which plugins keep their data. That a manifest has a `bundle` array, and the items of its entries, are given (`apex_extract_plugin_bundle`); regular expressions are as in `Plugins`. Directories are the set of their paths; links and permissions are not modelled. Files cited: plugins.c.
* `Callouts`: Callouts: src/extensions/callouts.c, called for the parsed document by src/apex.c:5079. Simplified: a tree has its kinds of nodes, texts and children and nothing else; `strdup` succeeds. Files cited: apex.c, callouts.c.
* `Citations`: src/extensions/citations.c:1-661: citations in the text, and in the page. The allocations succeed, the text has less than 2^31 bytes and no zero byte, and `ctype.h` is that of the C locale, with a table that has room for negative characters (as that of glibc). Citations are turned on, the mode is Unified or MultiMarkdown, and the registry is empty at first. Files cited: apex.c, citations.c, citations.h, ctype.h.
* `CodeColor`: src/extensions/syntax_highlight.c: code blocks of a page are given to an external tool (`apex_apply_syntax_highlighting`). The page has no zero byte; allocations succeed. What the tool answers is a function of the command line and of its input; how it is run is modelled separately below. Files cited: syntax_highlight.c.
* `Colspans`: src/apex.c:1766-1999 `apex_preprocess_table_colspans` and its call, src/apex.c:4441-4475: pipes next to each other become marks for cells that span columns. The allocations succeed, and there are fewer than 2^31 pipes next to each other. Files cited: apex.c.
* `CombineFiles`: cli/main.c:2071-2117 and 2901-2985: the files of `--combine` and `--mmd-merge`. Files are read by parameters, as in `Merge`: `read` gives the bytes of a file, `file` its text with what it includes, `dir` its directory. Allocations succeed, and the output can be written. Files cited: libgen.h, main.c.
* `Critic`: Critic markup: src/extensions/critic.c. Not modelled: `apex_process_critic_markup_in_tree` (critic.c:176-272), which nothing calls. Simplified: lengths are natural numbers, not `int` (critic.c:25-76); `malloc` succeeds. Files cited: critic.c, critic.h.
* `CslYaml`: src/extensions/citations.c:1074-1160, 1567-2043: bibliographies in CSL YAML and CSL JSON, and which files are read. Allocations succeed, texts have no zero byte, and `ctype.h` is that of the C locale. Files cited: citations.c, ctype.h.
* `Csv`: CSV and TSV files as Markdown tables: `apex_csv_to_table` of src/extensions/includes.c. Simplified: `malloc`, `calloc` and `realloc` succeed; counts fit in `int`. Files cited: includes.c.
* `Dates`: Dates in metadata: `parse_date` and the transform `strftime` (src/extensions/metadata.c:957-1001, 1456-1474). With the C library of GNU the headers that are included before metadata.c:20 define `_POSIX_C_SOURCE`, so that `HAVE_STRPTIME` is not defined and the part of `parse_date` with `sscanf` is compiled (985-998); it is the one modelled here. `sscanf` and `strftime` are modelled as in the standard; a number that does not fit is undefined. Files cited: metadata.c.
* `DefLists`: src/extensions/definition_list.c:98-368, 576-1697: definition lists, which become HTML before the text is parsed. The parser and renderer of cmark is a parameter; allocations succeed; the text has no zero byte; debug output is left out. Files cited: definition_list.c.
* `DefTree`: Definition lists with two colons, in the tree of a document (src/extensions/definition_list.c). Files cited: definition_list.c.
* `DropBuf`: Buffers of a fixed size that lose what does not fit: `remaining`, `write` and the copying statements shared by src/extensions/critic.c:277-329, highlight.c:41-163, insert.c:48-248 and special_markers.c:16-194. Files cited: critic.c, highlight.c, insert.c, special_markers.c.
* `ElemAttrs`: src/html_renderer.c:48-156, 262-277, 298-1064: the attributes of elements put into the tags of the rendered page (`apex_render_html_with_attributes`). The page rendered by cmark-gfm and the tree it was rendered from are inputs; no text has a zero byte; allocations succeed. The numbers of the kinds of nodes are those of cmark-gfm: a heading is followed by a thematic break, a footnote, a table, a row and a cell (`CMARK_NODE_HEADING + 5` is a cell). Files cited: html_renderer.c.
* `Embed`: Images put into the page as data URLs: src/apex.c:218-252, :257-276, :281-316 and :322-486. Simplified: the file system is a function from paths to the content of regular files that can be read; `malloc` and `realloc` succeed; the page and the URLs are C strings, so they have no NUL byte. Files cited: apex.c.
* `Emoji`: Emoji names: src/extensions/emoji.c. Files cited: emoji.c.
* `EmojiData`: The emoji table: src/extensions/emoji_data.h:17-938, `complete_emoji_map`, in the same order, without the terminator. Generated from that file. Files cited: emoji_data.h.
* `EmojiHtml`: src/extensions/emoji.c:36-438, emoji in a page: `is_in_header`, `is_inside_html_attribute`, `apex_replace_emoji`. The allocation succeeds. Also `apex_find_emoji_name`, 197-220. Files cited: emoji.c.
* `Escape`: Models of the byte-wise escaping functions of apex. Files cited: apex.c, ast_json.c, ast_man.c, ast_markdown.c, ast_markdown.h, ial.c, metadata.c, plugins_env.c, renderer.c.
* `FencedDivs`: src/extensions/fenced_divs.c: `:::` fences become HTML elements, and wrapped custom elements get their names back. The allocations succeed. Files cited: fenced_divs.c.
* `FilterRun`: cli/main.c:3264-3489: the commands for the filters asked for with `--filters`, `--filter` and `--lua-filter`. Allocations succeed. Each command is run by `/bin/sh -c`, src/filters_ast.c:52. Files cited: filters_ast.c, main.c.
* `FilterTools`: cli/main.c:2557-2611 `--uninstall-filter` and 2614-2652 `--list-filters`, with src/plugins_remote.c:233-269. Allocations succeed; of the output, what goes to `stdout` is modelled. Files cited: main.c, plugins_remote.c.
* `Filters`: External AST filters and the pipes to external commands: src/filters_ast.c and src/plugins_env.c. Files cited: filters_ast.c, plugins_env.c.
* `Finish`: cli/main.c:1507-1515, 3537-3582, 3616: the end of the work, on top of the wrapping of text. Allocations succeed. Files cited: apex.h, main.c.
* `FootHash`: Model of the footnote id prefix, src/apex.c:3203-3415. Files cited: apex.c.
* `FrontMatter`: The front matter the command line tool puts in front of a document: cli/main.c, `main`, "Build enhanced markdown". Files cited: apex.c, main.c.
* `GrowBuf`: Models of the growing output buffers of the serialisers. They start as a NULL pointer and grow on the first append. Blocks, `store` and `realloc` are those of Model/Buffer.lean. Files cited: ast_json.c, ast_man.c, ast_markdown.c, ast_terminal.c.
* `Hashtags`: src/apex.c: hashtags and proofreading, two passes over the text in front of the parser. Texts have no zero byte; allocations succeed. Writing behind the end of the buffer is undefined. Files cited: apex.c.
* `HeaderIds`: Heading ids: src/extensions/header_ids.c and the place where they are looked up (html_renderer.c). Files cited: emoji.c, header_ids.c, header_ids.h, html_renderer.c.
* `Highlight`: `==highlight==` and `++insert++`: src/extensions/highlight.c and src/extensions/insert.c. The two passes are the same program up to the marker and a few tests, so the model has one copy with a record of the differences. Simplified: the attributes of an insertion (`parse_ial_content`, `attributes_to_html`, insert.c:131-136) are an arbitrary function of the text between the braces; `malloc` and `realloc` succeed. Files cited: highlight.c, insert.c.
* `HrBreak`: Model of `apex_replace_hr_with_pagebreak` (src/apex.c:3419-3532). Files cited: apex.c.
* `HtmlPass`: Passes over finished HTML: src/html_renderer.c, src/apex.c, and the header shift of cli/main.c. Files cited: apex.c, html_renderer.c, main.c.
* `Ial`: Model of the attribute lists of src/extensions/ial.c (parsing, definitions, references, merging, output). Files cited: abbreviations.c, ial.c, ial.h.
* `IalLines`: src/extensions/ial.c:1519-1706: attribute lists on lines of their own, and the marker of a table of contents. The allocation succeeds, the text has no zero byte, and `ctype.h` is that of the C locale. Files cited: ctype.h, ial.c.
* `IalTree`: src/extensions/ial.c:795-1518: attribute lists `{: ...}` in the tree of a document, for blocks and for inline elements. What is below a node is kept as a list. Allocations succeed. A literal is a C string. Files cited: ial.c.
* `Images`: src/extensions/ial.c:2332-4074: attributes of images and addresses of links, taken out of the text before it is parsed, and given to the images of the document. Allocations succeed, and lengths are less than 2³¹; no text has a zero byte. Files cited: ial.c.
* `ImgCaptions`: src/html_renderer.c:2718-3178: images and pictures with a caption become figures (`apex_convert_image_captions`). The page has no zero byte; allocations succeed. The pointer before the start of the page, compared when an image comes first, is not modelled. Files cited: html_renderer.c.
* `InHtml`: src/extensions/html_markdown.c: Markdown in HTML elements with a `markdown` attribute. The allocations succeed, the text has no zero byte, and `ctype.h` and `strncasecmp` are those of the C locale. What cmark-gfm, the attribute lists and the renderer make of the content of an element (lines 238-254) is the parameter `conv`; it has no zero byte. Files cited: ctype.h, html_markdown.c.
* `Includes`: File includes: `apex_process_includes` of src/extensions/includes.c and what it calls. The file system, `glob`, `dirname`, the metadata of a file and the regular expressions are an arbitrary `World`. Simplified: `malloc` succeeds; lengths fit in `int`; file contents hold no NUL (they are read as C strings); a file does not change while it is read. Calls and loop rounds use up fuel, so that not finishing can be expressed. Files cited: includes.c.
* `Index`: src/extensions/index.c: entries of the index in the text, their marks in the page, and the index. The allocations succeed, the text has less than 2^31 bytes, and `ctype.h` and `strcasecmp` are those of the C locale, with a table that has room for negative characters (as that of glibc). The text has no zero byte. Files cited: apex.c, ctype.h, index.c, index.h.
* `InjectIds`: Ids written into the headings of a page: src/html_renderer.c:1072-1404. Files cited: html_renderer.c.
* `InlineNotes`: Inline footnotes: src/extensions/inline_footnotes.c:16-205, called for the whole text by src/apex.c:4314-4322. Simplified: the text is the bytes in front of its terminator, the number of footnotes is not limited (an `int` in the code), and `malloc` succeeds. Files cited: apex.c, inline_footnotes.c.
* `InlineTables`: Inline tables: src/extensions/inline_tables.c:14-332, called for the whole text by src/apex.c:4282-4289. Simplified: the text is the bytes in front of its terminator; `malloc` and `realloc` succeed. Files cited: apex.c, inline_tables.c.
* `Install`: cli/main.c:828-926, 2146-2181, 2375-2525, 2726-2890: installing and removing plugins and filters: the commands given to `system`. Whether commands succeed, and what the manifest of a plugin says, are parameters, and so is the directory of plugins; the questions are answered with `y`; allocations succeed; no text has a zero byte. Files cited: main.c.
* `LatexMath`: Math between `\(` and `\)` or `\[` and `\]`: src/extensions/math.c:75-127, 196-257, and which function is called for a byte, 262-277. Simplified as in `Math`. Files cited: math.c.
* `Liquid`: src/apex.c:1012-1208 and 1634-1765: Liquid tags are replaced by placeholders in front of the conversion and put back into the page. The allocations succeed. Files cited: apex.c.
* `ListPlugins`: cli/main.c:213-333 and 2184-2317: `--list-plugins`. Allocations succeed. A manifest is a file that can be opened; its items, those of `apex_load_metadata_from_file`, are given by `load` (an empty list is NULL). Of the output, what goes to `stdout` is modelled. Files cited: main.c.
* `Man`: Model of the man page (roff) serialiser, src/ast_man.c. The output buffer is the list of bytes appended so far (Props/GrowBuf.lean proves that the real buffer holds exactly that). Files cited: ast_man.c.
* `ManHtml`: src/ast_man.c: manual pages as HTML. Trees of nodes are those of `Verif.Man`; a NULL literal or URL is an empty one, and texts have no zero byte. The buffer (lines 31-48) is that of `Verif.GrowBuf`; allocations succeed. Colouring of code (lines 822-828 and 912-918) is that of `Verif.CodeColor` and left out here. Files cited: ast_man.c.
* `Markers`: Special markers: src/extensions/special_markers.c. Simplified: `malloc` and `realloc` succeed; `read - 1` is only ever computed, not read, at the start of the text (line 34), and this is not counted as an error. Files cited: special_markers.c.
* `Math`: Math between dollar signs: src/extensions/math.c:28-72 and :129-191. Simplified: the input is what is left of the inline content from the dollar sign on; it has no NUL byte (the parser replaces them); `malloc` succeeds; line and column numbers are left out. Files cited: math.c.
* `Media`: src/extensions/ial.c:1748-2330: attributes of images, addresses of their variants, and the attributes written for them. Allocations succeed; no text has a zero byte; addresses are shorter than 2³¹ bytes. Files cited: ial.c.
* `Merge`: cli/main.c:1090-1219, 1266-1374: merging of the files an index or a summary names. Files are read by a parameter; allocations succeed; neither the index nor the files have a zero byte. The directory of the index is a parameter. Files cited: main.c.
* `MetaParse`: Metadata extraction from the start of a document and from the command line: src/extensions/metadata.c, `parse_mmd_metadata`, `parse_pandoc_metadata`, `parse_yaml_metadata`, `apex_extract_metadata`, `apex_parse_command_metadata`. Files cited: metadata.c.
* `Metadata`: Metadata lists: lookup, merging and `[%key]` variables. src/extensions/metadata.c. A metadata list is modelled by the list of its (key, value) pairs in the order of the `next` pointers; the NULL pointer is the empty list. Files cited: main.c, metadata.c.
* `Obfuscate`: Model of `apex_obfuscate_email_links` (src/apex.c:125-212). Files cited: apex.c.
* `Options`: Options: the defaults, the processor modes, what metadata does to them, and the command line. src/apex.c:2474-2800, src/extensions/metadata.c:2408-2858, cli/main.c:1380-2110 and 2990-3262, include/apex/apex.h:55-220. Files cited: apex.c, apex.h, main.c, metadata.c.
* `Pipeline`: src/apex.c:3958-5708: the conversion as a whole — which functions get the text, the tree and the page, in what order and under which options. The functions themselves are parameters here (`Code`); other files model them one by one. Left out: the printing of debugging and profiling messages, the progress reports and the releasing of memory at the end. The allocations succeed. Files cited: apex.c, apex.h.
* `PluginDirs`: src/plugins.c:62-93, 178-184, 247-288: the files in a directory that are taken for plugins, and the directory of the repository. Paths have no zero byte. A directory is read completely, in any order. Files cited: plugins.c.
* `Plugins`: Plugins: src/plugins.c and src/plugins_env.c. Files cited: plugins.c, plugins_env.c.
* `Poetry`: src/apex.c:2969-3139 `apex_add_poetry_class_to_code_blocks`. The allocations succeed. Files cited: apex.c.
* `Pretty`: Model of src/pretty_html.c. Files cited: pretty_html.c.
* `Progress`: cli/main.c:368-462, 1906-1909, 3506-3527: the line of progress on the standard error. Simplified: times are whole milliseconds; the percentage is left out, since apex passes −1 everywhere (src/apex.c:4176, 4189, 4204, 4374, 4379, 5066). Files cited: apex.c, main.c.
* `QuoteLang`: Model of `apex_adjust_quote_language` (src/html_renderer.c:2159-2356). A failing allocation is not modelled. Files cited: html_renderer.c.
* `RelaxedHeads`: Model of `apex_convert_relaxed_table_headers` (src/html_renderer.c:1572-1818). A failing allocation is not modelled. Files cited: html_renderer.c.
* `RelaxedTables`: Model of src/extensions/relaxed_tables.c:1-1113 (`apex_process_relaxed_tables`), of `apex_process_headerless_tables` (relaxed_tables.c:1115-1286) and of the two stages that call them (src/apex.c:4356-4437). Not modelled: failing allocations, the progress callback (unused) and the overflow of the `int` that counts columns (a line of more than 300 million bars). Files cited: apex.c, relaxed_tables.c.
* `Remote`: src/plugins_remote.c and cli/main.c:2345-2374, 2678-2724: the directories of plugins and filters, read from JSON that was fetched. Allocations succeed; the text has no zero byte. Files cited: main.c, plugins_remote.c.
* `SepRows`: Model of `apex_remove_table_separator_rows` (src/html_renderer.c:1887-1977) with `cell_contains_only_dashes` (src/html_renderer.c:1527-1570). Files cited: html_renderer.c.
* `Simple`: The parser and the renderer behind `apex_parse`, `apex_node_free` and `apex_render_html` (src/parser.c, src/renderer.c). Files cited: parser.c, parser.h, renderer.c.
* `Spans`: src/extensions/ial.c:4075-4414: bracketed spans. The allocations succeed, the text has no zero byte, and `ctype.h` is that of the C locale. `strcmp` of the result happens behind its terminator. Files cited: ctype.h, ial.c.
* `SplitSimple`: src/extensions/metadata.c:1003-1060 and 1080-1088: the transform `split` with a text that is no regular expression. Allocations succeed. Files cited: metadata.c.
* `Standalone`: The standalone page: src/apex.c:3146-3199 `apex_extract_first_h1_text`, 5711-5737 (the scripts), 5747-5941 (title, stylesheets, footer, wrapping, embedding of stylesheets, snippets) and 5998-6464 `apex_wrap_html_document`. The allocations succeed. `snprintf` fails when the text is longer than `INT_MAX`; sizes do not wrap around. The file system is a function from paths to the content of files that can be read. Files cited: apex.c.
* `StripWrap`: src/html_renderer.c:3184-3458 `apex_strip_figure_paragraph_wrapper`, `find_block_close` and `apex_strip_block_paragraph_wrapper`. The allocations succeed, and no page has so many tags that the depths overflow. Files cited: html_renderer.c.
* `SupSub`: `x^2`, `H~2~O` and `~underline~`: src/extensions/sup_sub.c. The tests for `{~~` and `~~}` (sup_sub.c:251-273) can never succeed after the test in lines 241-249, and are left out. Simplified: `malloc` succeeds; `ispunct` and `isalnum` are those of the C locale. Files cited: sup_sub.c.
* `TableCaps`: src/extensions/advanced_tables.c:358-399, 814-1763: the captions of tables. A paragraph `[Caption]` or `: Caption`, perhaps with attributes behind it, is taken from the document and written to the mark (`user_data`) of a table; so is a row of a table. The tree built by cmark-gfm is an input. The blocks that are children of one node are handled at a time: the code looks at nothing but the siblings of a table. What is done with the cells of the table afterwards (1757-1758, `process_table_spans`) is in `TableSpans` and looks at neither the mark of the table nor its siblings. Allocations succeed; no text has a zero byte. Files cited: advanced_tables.c.
* `TableCaptions`: src/apex.c:1230-1632 `apex_preprocess_table_captions`. The allocation succeeds. Pointers that are computed before the start of the text but not read through (`line_end - 5`) are not modelled. Files cited: apex.c.
* `TableHtml`: src/extensions/table_html_postprocess.c: what becomes of the tables in the page (`apex_inject_table_attributes`): attributes of joined cells, captions, the foot, aligned cells, and first cells of rows that become headers. The page is rendered by cmark-gfm and is an input, as is the tree. Allocations succeed, no text has a zero byte, and the work takes less than ten seconds (715-726). Files cited: table_html_postprocess.c.
* `TableSpans`: src/extensions/advanced_tables.c:31-404, 406-813: the cells of a table that join the one on their left (`<<`) or the one above (`^^`), the rows of the foot, and the colons that align a single cell (`process_table_spans`). The tree built by cmark-gfm is an input: a table has only rows, a row has only cells, and the mark of a cell (`user_data`) may already hold the text of the cell. Allocations succeed; no text has a zero byte. Files cited: advanced_tables.c.
* `Term`: src/ast_terminal.c: writing a document tree for a terminal. What is appended to the buffer is the value of each function (the growth of the buffer, lines 74-103, is that of `Verif.GrowBuf`; allocations succeed). cmark-gfm is not part of the checkout; its accessors are taken to behave as documented. A theme that could not be loaded is the same as one that says nothing: each use of it (e.g. lines 1274, 1313) tests for both. The stack of open `<span>` elements (lines 1197-1198) is written but never read, so it is left out, and so is `printed` (line 62), as each place of a table is drawn once. Files cited: ast_terminal.c.
* `TermStyle`: src/ast_terminal.c:158-390: the styles of terminal output. What is appended to the buffer is the value of each function; allocations succeed. Files cited: ast_terminal.c.
* `Text`: Walking over the lines of a text, and splitting a line, as several passes do. Files cited: includes.c.
* `ThemeFile`: src/ast_terminal.c: the file of a theme for terminal output. There are two readers: one of lines, and one of the events of libyaml, if the program was built with it. libyaml is not part of the checkout: its events are what the second reader is given. Allocations succeed, reading does not fail, and `ctype.h` is that of the C locale. Files cited: ast_terminal.c, ctype.h.
* `ToMarkdown`: src/ast_markdown.c: writing a document tree as Markdown. Not modelled: the growth of the output buffer (lines 27-50; src/ast_json.c has the same code, modelled in `Verif.GrowBuf`) — what is written here is the sequence of bytes appended, and the allocations succeed. cmark-gfm is not part of the checkout; its accessors are taken to behave as documented: a literal is NULL except for text, code, HTML and custom nodes, and the URL and title of a link or image are never NULL. Files cited: ast_json.c, ast_markdown.c.
* `Toc`: Tables of contents: src/extensions/toc.c. Files cited: toc.c.
* `Transforms`: The metadata transforms `[%key:transform(options)]`: src/extensions/metadata.c, `apply_transform` and its helper `split_string`. Values are C strings (lists of bytes without the terminator). Option parsing by `sscanf` is not modelled: the transforms take the parsed numbers as arguments. Files cited: metadata.c.
* `Utf8`: Model of src/utf8.c (complete file). Files cited: utf8.c.
* `Widont`: Non-breaking blanks in headings: `apex_apply_widont_to_headings`, src/apex.c:3538-3956. Simplified: `malloc` and `realloc` succeed; the page is a C string, so it has no NUL byte. Files cited: apex.c.
* `Wiki`: Wiki links: src/extensions/wiki_links.c. Allocation does not fail. Lengths stay below `INT_MAX` (wiki_links.c:530 casts a length to `int`). `base_path` is not NULL; a NULL `extension` behaves as an empty one. Files cited: wiki_links.c, wiki_links.h.
* `Wrap`: cli/main.c:713-826, 965-1004: wrapping of text for the terminal, and reading of the standard input. Allocations succeed. Files cited: main.c.
* `Yaml`: src/extensions/metadata.c: what is made of a YAML document of libyaml, the bundles of plugins, and the chains of transforms in `[%key:transform(options)]`. libyaml itself is not modelled: a document is given as its table of nodes. Files cited: metadata.c.

## Plan per property

| Id | Modelled | Method |
|----|----------|--------|
| C01 | utf8.c completely | iff with an independent inductive grammar, induction on the text |
| C02 | same | consequence of C01 plus unique lead length |
| C03 | same | RFC 3629 grammar as spec: inclusion proved, converse refuted by witness: partial |
| C04 | buffer.c with explicit memory | invariant over arbitrary operation histories, refinement to concatenation |
| C05 | growth loop as step function | non-termination from capacity 0 proved: partial (holds if buffer re-initialised) |
| C06 | renderer.c escape_html | induction; independent entity decoder |
| C07 | ast_man.c html escape | same decoder style, injectivity |
| C08 | plugins_env.c / ast_json.c escape with capacity | JSON string decoder written from RFC 8259, round trip, no `ub` |
| C09 | json_parse_string | round trip under the condition "no control byte except \n \r \t"; refutation without: partial |
| C10 | man_buf_append_roff_safe | line-start invariant by induction |
| C11 | append_html_fragment_roff as step function | non-termination witness; termination and safety under hypotheses: partial |
| C12 | escape_markdown | inverse function, induction |
| C13 | apex_encode_hex_entities with capacity | induction |
| C14 | apex_base64_encode | RFC 4648 spec encoder and decoder; equality iff len <= 3 or 3 divides len; witness: partial |
| C15 | urlencode/urldecode | induction, round trip |
| C16 | url_encode | induction |
| C17 | html_escape transform with capacity | induction |
| C18 | slug | state-machine invariant; non-idempotence witness: partial |
| C19 | string transforms | algebra |
| C20 | replace transform with two-pass allocation | induction on occurrences |
| C21 | truncate / pad with Int arithmetic | case analysis; ub witness: partial |
| C22 | split_string over an arbitrary matcher | non-termination witness; termination for matchers that consume: partial |
| C23 | apex_metadata_get | equivalence with declarative spec |
| C24 | apex_merge_metadata | induction over lists; refutations: partial |
| C25 | apex_metadata_replace_variables | segmentation spec |
| C26 | extraction (pandoc, MMD) | suffix property; refutation of "only metadata lines": partial |
| C27 | levenshtein_distance two-row DP | equality with recursive distance, which equals minimal edit script cost |
| C28 | find_best_emoji_match over arbitrary table | fold invariant |
| C29-C30 | plugin list construction | sortedness, permutation, stability, uniqueness by induction |
| C31 | apex_plugins_run_text_phase | fold spec, environment as a function |
| C32 | apex_run_ast_filters | fold spec |
| C33-C34 | wiki_links.c | character invariants; segmentation |
| C35 | apex_generate_header_id | invariant; ub witness: partial |
| C36 | apex_adjust_header_levels | spec on tags |
| C37 | apex_cli_shift_headers with shared buffer | correct for indent <= 1; ub for every larger indent: partial |
| C38-C41 | HTML post-processors | induction with explicit memory |
| C42-C44 | text pre-processors with capacity | induction; refutations: partial |
| C45-C47 | includes.c | line specs, ub witness, depth measure |
| C48-C50 | ial.c, abbreviations.c | list algebra, ub witness |
| C51 | djb2 hash, footnote prefix | induction |
| C52 | newline collapse | induction |
| C53 | option records | case analysis, induction over metadata |
| C54 | the four copies of the growing output buffer | refinement to concatenation for any sequence of appends, growth loop as fuelled step function |
| C55 | ast_man.c block and inline renderer over an abstract tree | count of lines that begin with a control character by induction over the tree |
| C56 | same, with the static flag as explicit state | independence for trees without definition lists, witness otherwise |
| C57 | man_buf_append_roff_safe | roff decoder, round trip by induction |
| C58 | title of the .TH line | exact for titles without quotes, witness |
| C59-C61 | metadata.c transforms, chains, regex replace over an arbitrary matcher | algebra; step function and fuel for the regex loop; witnesses |
| C62 | apex_parse_command_metadata | round trip with a printer for pairs, witness for commas |
| C63-C64 | emoji.c with the real table (`Model/EmojiData.lean`, generated from emoji_data.h) | segmentation by colons; bounds of the output buffer as invariant |
| C65 | apply_regex_replacement over an arbitrary matcher | fuel independence, relation to matches, bounds |
| C66 | parent and child as processes with two bounded pipes | invariant over all interleavings; deadlock characterised |
| C67-C68 | plugin request and manifest loading | JSON reader from RFC 8259; list induction |
| C69-C70 | ast_man.c fragments and inline fonts | font state machine as spec, induction over trees |
| C71-C74 | header_ids.c | induction over bytes; exact length bound for the overrun |
| C75 | critic.c in markup mode with capacity | piece list spec |
| C76 | special_markers.c index marker | witness and negative result for all texts |
| C77 | sup_sub.c | loss-free relation for all texts; exact results for marked pieces |
| C78-C79 | includes.c extract_lines with an arbitrary regex compiler | line lists, witness |
| C80-C86, C115 | includes.c: main loop, fences, wildcards, transclude base, over an arbitrary file system | fuel = depth; piece lists; witnesses |
| C87-C89 | ial.c parser and printer with stack buffers | printer/parser round trip, bounds |
| C90-C92 | abbreviations.c | piece lists; non-termination as "no number of steps" |
| C93 | djb2 in 64 bits and its printing with eight characters | arithmetic, witness |
| C94-C95, C110, C117 | pretty_html.c | one turn of the loop as function; white space invariant; forest of elements as spec of the layout |
| C96-C99, C108-C109, C116 | option records, metadata application, command line | finite case analysis for the fixed lists, induction over metadata and arguments |
| C100 | writing and reading front matter | round trip by induction over entries |
| C101-C105 | toc.c | stack discipline of lists; marker search by first occurrence |
| C106-C107 | apex_inject_header_ids with capacity | pages as lists of pieces, relation between page and output |
| C111-C112 | apex_obfuscate_email_links | entity decoder as spec, pages as lists of pieces |
| C113 | apex_replace_hr_with_pagebreak | cut relation, exact for every page |
| C114 | apex_remove_table_separator_rows | pages as lists of tables and rows |
| C118 | ast_json.c writer and reader, the filter loop of C32 | the reader's result computed for every written document by induction over it |
| C119 | ast_json.c writer | RFC 8259 as an inductive grammar; bracket counting for the converse |
| C120 | ast_json.c reader | skipping of every value of the grammar, members around the blocks |
| C121-C122 | apex_process_inline_footnotes | documents as lists of pieces; fixed buffer of DropBuf |
| C123 | apex_process_inline_tables, apex_csv_to_table | documents as lists of pieces; growing buffer with the unchecked line end |
| C124 | callouts.c | header line read back from its parts; trees of nodes; untouched trees by induction |
| C125 | math.c, dollar signs | equivalence of the scanner with a description of the text, by induction over it |
| C126-C127 | apex_embed_images with its helpers; files as a function from paths | every page is text and tags; the scanner by induction over them; the buffer with bytes that are dropped and chunks that make room |
| C128 | apex_apply_widont_to_headings | every page is text and headings; the backward search for words by induction over the words; the growing buffer and its unchecked end |
| C129-C130 | apex_cmark_to_markdown, serialize_block and serialize_inline over trees of any depth | a small reader of Markdown as the specification; the tree is flattened to a list of marks, and reading back goes by induction over that list; for blocks by induction over lines |
| C131-C132 | fenced_divs.c as a whole: fences, attributes in braces with the memory behind them, the stack of open elements, the output block with its estimates, and the replacement of wrappers in the finished page | documents as trees of lines and divs, by induction over the tree; for any text a relation that reads lines, by induction over the text; the block by its size and an invariant on what is left |
| C133 | apex_protect_liquid_tags and apex_restore_liquid_tags with their output blocks; the conversion between them is an arbitrary page of placeholders | every text is a row of tags; loop invariants for both passes; a word without a border is found at its place; decimal numbers read back |
| C134 | apex_preprocess_alpha_lists with its fixed output block, `int` arithmetic and truncating copies | every text is a row of maximal lists and other lines; invariant of the state between groups; line-by-line composition of the output |
| C135 | apex_postprocess_alpha_lists_html with the growth of its block | every page is a row of marks with or without a list and possibly a broken end; loop invariant on the size of the block; exact count of bytes |
| C136 | apex_preprocess_table_colspans with the growth of its block, and its call | every text with an end for its last line is a row of lines, every line a row of runs of pipes; induction on both with an invariant for the block |
| C137 | apex_preprocess_autolinks, all of its state, with the growth of its block | every step uses up at least one byte and writes pieces of the right shape; invariant for the block, where only a mail address at the start or behind white space may write more than four times what it reads |
| C138 | the same function | steps for each kind of part of a document, with the invariants that no tag is open and the state is idle between parts; induction on the parts |
| C139 | `apex_replace_emoji` with the tests for headings, attributes and images; the table is a parameter | `Html` reads a page by rules (mark of the index, name, byte); existence and uniqueness of the reading, then the loop follows it by induction; a length bound with the real table; concrete pages for the failures |
| C140 | `apex_find_emoji_name` | invariant of the loop over the table |
| C141 | `apex_preprocess_table_captions`; the bytes of a line are written at once | an inequality between what is read and what is written, strengthened by two bytes behind a row and one for a blank line kept back; each line satisfies one of the rules; induction on the lines |
| C142 | the same function | what the loop writes does not depend on the block; steps for each kind of line, uniqueness of the split of a caption and its attributes, induction on the blocks |
| C143 | `apex_wrap_html_document` with every write, its limit and the retries; the styles are copied from the source | the lengths of the constants are computed by the kernel, every write is shown to fit; the loop that looks for `</body>` is shown never to find it |
| C144 | the same function | the parts of the page in front of the title are shown not to contain the tag searched for |
| C145 | the end of `apex_markdown_to_html`; the array of stylesheets has an owner and can be freed, the file system is a function | the first occurrence of each link is its own; induction on the list from its end |
| C146 | `apex_extract_first_h1_text` and its use | induction on the pieces of the heading; the trimmed text is unique |
| C147 | the joining of scripts and footer | case analysis on both |
| C148 | `apex_add_poetry_class_to_code_blocks` with its growing block | every page is text and code blocks; induction on the blocks, the first class in front of a language is in front of all of them |
| C149 | relaxed_tables.c: classification of lines, generated separator, waiting rows, growing block, stage in `apex.c` | invariant of the block (first size, or at least twice that, and never more than four bytes out for one in) for safety; induction on the lines with the waiting rows for the result; induction on the derivation for tidy documents |
| C150 | `apex_process_headerless_tables` with its growing block, stage in `apex.c` | the capacity is the first one doubled some times; induction on the lines |
| C151 | `apex_convert_relaxed_table_headers` with its block, the search for empty header cells and for a row of dashes | invariant of the block (at least a byte more than the page); induction on the page for what may change; induction on cells, rows and tables for the result |
| C152 | `apex_adjust_quote_language` with its growing block and its table of languages | induction on the derivation of the replaced page with the room in the block; induction on the turns for what a result can be; induction on the name for its spellings |
| C153 | `apex_strip_figure_paragraph_wrapper` with its block and the depth of figures | the run of the loop as a derivation, with the room in the block; induction on the tags of the page for the result, on the derivation for what may be removed |
| C154 | `apex_strip_block_paragraph_wrapper` and `find_block_close` with the block | as C153; the counted end is the end of the element by induction on balanced tags, in both directions |
| C155 | `apex_apply_aria_labels`: both passes, the search backwards for the figure, the captions with their IDs, the cut attributes, the block with the writes it refuses | the captions of the model are those of the specification by induction on the tags, then the attributes of each tag; the search backwards as the last figure before a place; the writes refused only if the result is too long |
| C156 | `apex_process_index_entries` with its block and the three parsers | a separate grammar of entries; each parser agrees with it in both directions; the loop by induction on the derivation, with the room in the block; every text has a derivation, and one only |
| C157 | `apex_generate_index_html` with its block, the comparison for `qsort`, the first letters; any sorted permutation for `qsort` | `strcasecmp` is the lexicographic order of the lower-case bytes; groups by induction on the entries; the letters of sorted items ascend |
| C158 | `apex_render_index_markers` with reads behind the page, and `apex_insert_index` | induction on the comments of the page; for safety, on its bytes |
| C159 | `apex_process_html_markdown` with its block, the recursion for contents, `find_markdown_tag` and `find_closing_tag`; cmark-gfm and the renderer as a function | the result as a derivation on the tags of the text; the loop by induction on it, with the room of each block; every text of such tags has a derivation |
| C160 | `find_markdown_tag` and the copy of the opening tag with its array | induction on the attributes: `markdown=` has no blank, so that it lies in one attribute |
| C161 | `apex_process_citations` with its block, the parsers of the three syntaxes, the keys, the test for a start, the tracking of code | the syntaxes as relations, equal to the parsers; a derivation on the text that exists and is unique; the loop by induction on it, with the room of the block |
| C162 | `apex_render_citations` with its block, the texts with their arrays, the lookups of keys | a derivation on the comments of the page that exists and is unique; the loop by induction on it; an invariant for the room |
| C163 | `apex_parse_bibtex` with `parse_bibtex_field`, `remove_braces` and `trim_string`, the merge of files, the release of the registry; strings carry how far behind their block they begin | a grammar of files; the parser by induction on it; the merge by induction on the file |
| C164 | `format_bibliography_entry` with its block of 2048 bytes, `apex_generate_bibliography` with its growing block, `apex_insert_bibliography` | parts one after the other; an invariant on the list of cited entries, which is unique; the block by induction on the entries; first occurrences for the place |
| C165 | `apex_preprocess_ial` with its block | a derivation on the lines that exists and is unique; both directions by induction; the length of the text from it |
| C166 | `apex_preprocess_bracketed_spans` with `extract_reference_link_ids` and `reference_id_matches`, its growing block; attribute lists as in C87 and C89 | a derivation on the text; the loop by induction on it; an invariant on the block; references are compared by their words, both directions |
| C167 | `apex_process_definition_lists` with its growing block and its state; the content of terms and definitions as in C168 | an invariant on the block for every text; the loop without the block; a derivation on the lines of the document, and the loop by induction on it; every kind of line by both directions |
| C168 | the content of terms and definitions with `extract_reference_link_ids`, `extract_specific_reference_definitions` and `extract_reference_definitions`; cmark is a parameter | a relation for the references of a text that is total, and unique up to order; the lines that define them as a filter; both directions |
| C169 | `wrap_ansi_to_width` with its block and the current column; escape sequences as the code reads them | tokens of a text (sequence, line end, byte), relation `Fill` for the line ends added; the loop follows it with a room invariant; what is added and how wide lines are follows from `Fill` |
| C170 | `read_stdin`: the block, its growth, one read per piece | invariant: what is read so far and room for the terminator |
| C171 | `apex_cli_mmd_merge_index`: lines, trimming, levels, path block, the files through a parameter, `apex_cli_shift_headers` as in C37 | relation `Merged` over the lines; each helper is equivalent to a declarative statement about the line |
| C172 | `apex_cli_combine_from_summary` and `apex_cli_write_combined_chunk`; the text of a file with its inclusions is a parameter | relation `Texts` over the lines, `Names` equivalent to what the code finds |
| C173 | the commands of installing and removing plugins and filters, with the sizes of their blocks; outcomes of commands and manifests are parameters | a small grammar of shell commands with one reading each; the sequence of commands case by case for all outcomes |
| C174 | `normalize_plugin_repo_url` | equivalence with a declarative relation; idempotence from it |
| C175 | the names of directories in the same code | the name of the temporary directory has no `/` and does not end in `.git`, so that the fallback finds this name again |
| C176 | `url_with_2x_suffix`, `url_with_3x_suffix`, `url_with_extension` | equivalence with a declarative splitting of addresses, which is shown to be unique |
| C177 | `is_video_url` | equivalence with a declarative relation |
| C178 | `attributes_to_html_for_image`, `build_picture_srcset`, with the sizes of their blocks | case by case with the room needed; the variant of a variant by insertion into the splitting |
| C179 | `parse_image_attributes`, with the memory behind the terminator | induction over the written list; induction over the length for locality |
| C180 | `apex_expand_auto_media`, `find_tag_end`, with the room in its block | soundness and completeness against a derivation relation of pages, by induction |
| C181 | the replacements in `apex_expand_auto_media`, `extract_attr_from_tag`, the variants of addresses, the sizes of the blocks | equality with a specification over any set of files; lengths by arithmetic |
| C182 | `apex_render_html_with_attributes`, `collect_nodes_with_attrs_recursive`, `get_node_text_fingerprint` | refinement of the loop against pages of pieces, with an invariant on the attributes not used yet; numbering of the nodes of a tree by mutual induction |
| C183 | the same, with the room in the block | with C182; witnesses evaluated by the kernel |
| C184 | `extract_ial_from_table_attrs` and the branch for tables with a caption | induction over lists of attributes; the page by prefix and copy lemmas |
| C185 | the branches for videos and pictures, with the sizes of their blocks | equality with a specification, lengths by arithmetic |
| C186 | `apex_convert_image_captions`: attributes, caption, figures and pictures in front | refinement of the loop against pages of pieces, with an invariant on the figures and pictures in front |
| C187 | the same, with the room in the block | induction over the loop for all pages |
| C188 | `apex_apply_syntax_highlighting` with the size of its block | refinement of the loop against one without bounds, then against pages of pieces; witnesses evaluated by the kernel |
| C189 | `unescape_html`, the search for the language, `highlight_code_block` | induction over the code; equality with a specification of the words of the command |
| C190 | `highlight_code_block`, the lines given to `/bin/sh -c` | invariant of the loop for all pages; injection proved for every text |
| C191 | `run_command`: apex, the tool and two pipes as a transition system | invariant with a decreasing measure, progress, and absence of infinite executions |
| C192 | `process_table_spans` on a tree of rows and cells, with the marks as bytes | invariant over rows and cells (marks counted so far, last cell of each column); tiling by counting |
| C193 | the same, with `active_rowspan` of fifty entries and freed marks as undefined behaviour | induction for safety; refutations for all tables of a kind |
| C194 | the same | simulation of the shape of the table; invariant that remembered cells are shown |
| C195 | `process_cell_alignment` and the part of `process_table_spans` around it | equivalence with a specification of texts; induction over rows |
| C196 | `apex_remote_parse_array`, `apex_remote_extract_string` on bytes | specification of JSON text from members with blanks; induction over objects and members |
| C197 | with `apex_remote_find_plugin` | from C196, last entry by splitting the list |
| C198 | the loop over `"id"` in cli/main.c | induction over the objects in front of the one named |
| C199 | the loop of `fread` and `realloc` in `apex_remote_fetch_json` | induction with the invariant that the buffer is never full |
| C200 | `apply_style_token`, `apply_style_string` and the conversion of colours (src/ast_terminal.c:158-390) | specification of a terminal that reads bytes (ECMA-48 SGR); effects compose over the words; bounds for channels by cases over all levels |
| C201 | the writer of documents (src/ast_terminal.c:1039-2479) on trees of nodes | two runs side by side by induction on the tree: both show the same, whatever the styles; and the prose of a tree, a specification of its own, is a sublist of what is shown |
| C202 | the same | terminal of C200; induction on the tree with the state of the terminal behind each block |
| C203 | the same | same induction: no event is a command |
| C204 | callouts and other HTML of the same (2229-2422) | each search that is relied on succeeds |
| C205 | the command of code blocks (2073-2227) | specification of simple commands of a shell shared with C191 |
| C206 | tables of the same (1439-1895): places, widths, borders, rows | invariant of the placing of cells (a cell owns a stretch of its row); widths cover each cell; each line sums to the same |
| C207 | the same | specification of a drawn table; the places of single cells computed by induction over rows; each line by induction over its columns |
| C208 | both readers of theme files (src/ast_terminal.c:464-1001); the events of libyaml are given | grammar of lines with a meaning; each line does what it means; the events of the same parts do the same, by induction |
| C209 | the same, and the search for a theme (500-522, 1004-1030) | last value of each key by induction from the end of the file |
| C210 | HTML of manual pages (src/ast_man.c:590-921), without colouring of code | a grammar of HTML with text and attributes; induction on trees |
| C211 | navigation and anchors (681-730, 884-896) | the anchor of each heading of level 1, found again in the page |
| C212 | headline (275-327, 834-862) | relation of text and words; normalisation by induction on words |
| C213 | the loop for hashtags (src/apex.c:4554-4725) | the text cut into parts, with an invariant on the line; induction on the text |
| C214 | the loop for proofreading (4727-4917) | pieces of a text, as found and as written; induction on both |
| C215 | both, with sizes of buffers | invariants: one byte is left, and a text grows by half at most |
| C216 | apex_markdown_to_html as a whole (src/apex.c:3958-5708): conditions and order of all calls, the functions themselves as parameters | non-interference between two programs; induction on the list of calls |
| C217 | the same, with the models of the four functions that have no condition | the calls that are off are skipped one by one; C43, C123 and C133 for the others |
| C218 | the same, with the memory behind the text | case distinction; non-interference for the parser |
| C219 | the same, with the releasing of the text that was parsed | equivalence, both directions by cases over the calls |
| C220 | the path of the bibliography (4103-4120) | case distinction on the directory |
| C221 | the same, with the models of Liquid tags | C133 for the text and the page; non-interference for the other formats |
| C222 | the same, with apex_to_cmark_options and apex_register_extensions | non-interference between two parsers and writers |
| C223 | yaml_node_to_flat_items on a table of nodes (src/extensions/metadata.c:108-248) | induction on the depth of calls, paths as an inductive relation |
| C224 | the same, calls counted | equivalence: induction on the depth; well-founded induction on what is below a node |
| C225 | yaml_mapping_to_metadata_items, apex_extract_plugin_bundle (2868-3066) | induction over the pairs |
| C226 | parse_transform_chain (859-956) and its use (2061-2083) | induction on the chain |
| C227 | apex_process_ial_in_tree, process_node_ial, is_pure_ial_paragraph on trees (src/extensions/ial.c:795-1518) | mutual induction on the tree of the document |
| C228 | process_span_ial_in_container (863-1240) | induction over the elements of the paragraph |
| C229 | the same, extract_ial_from_heading (1245-1298) | the list at the end of the last text, what is in front of it arbitrary |
| C230 | the same, with release of the first child while the iterator points to it | mutual induction on the tree |
| C231 | the same | mutual induction on the tree |
| C232 | apex_preprocess_image_attributes (src/extensions/ial.c:2332-4002), each turn of the main loop, with the parsers of attributes as parameters | induction over the pieces of the document |
| C233 | the same, apex_apply_image_attributes (4012-4073) on the addresses of the images | induction over the images |
| C234 | the same | induction over the turns: each writes at most three bytes for each byte it reads |
| C235 | definitions (2999-3565), the expansion of references (3701-3850), the collection of their attributes (3870-3990) and the images they are given to (4012-4073) | induction over the parts of the text, for each of the four passes |
| C236 | apex_inject_table_attributes (src/extensions/table_html_postprocess.c:528-2678) on the rendered page, with all that is collected from the tree (26-526) | triples for each kind of tag, composed over cells, rows, tables and pages; the output fits because each part is at most doubled |
| C237 | the same | the same triples, with the figure around each table |
| C238 | the same | a witness |
| C239 | process_cell_alignment (213-306) and the step for a cell (2385-2561) | for all blanks and texts, by what the text begins and ends with; a witness for the overflow |
| C240 | apex_inject_table_attributes (1721-1791) | part of C236; a witness |
| C241 | apex_parse_csl_yaml, parse_yaml_author, parse_yaml_date, extract_yaml_value (src/extensions/citations.c:1593-1958) | line by line, by induction on the entries; that an author is not changed by the lines behind it is carried through the entries from the last one on |
| C242 | parse_yaml_author (1651-1728), parse_yaml_date (1732-1813) | by induction on the authors; witnesses |
| C243 | the same, with the strings and the place at which each was allocated | by induction on the text: what is left is always a part of it; for texts without a line end by induction on the lines |
| C244 | apex_load_bibliography, apex_load_bibliography_file, resolve_bibliography_path, detect_bibliography_format, apex_find_bibliography_entry (1074-1237, 1567-1588, 1963-2042) | by induction on the entries and on the files |
| C245 | apex_process_advanced_tables (src/extensions/advanced_tables.c:1541-1763), is_table_caption, is_table_caption_format, add_table_caption | by induction on the parts of the document, with the invariant that no block in front is an unused caption; the refutation by induction on the tables |
| C246 | the same, is_caption_row (364-399) | by induction on the blocks that are left, with the relation between the old and the new document as invariant |
| C247 | parse_ial_from_text (898-1033), attributes to HTML (1035-1094) with the buffer of 4096 bytes | by induction on the classes and on the attributes; the lengths are bounded by the length of what is written |
| C248 | parse_ial_from_text with the byte behind the end of the text as an outcome of its own | what is left is always an end of the text, which ends with a blank; by induction on the blocks |
| C249 | open_block, is_definition_line, postprocess (src/extensions/definition_list.c:69-96, 373-574, 1702-1988); the parser that calls open_block only for plain paragraphs of one line | by induction on the items of the document |
| C250 | the same, on any tree | by induction on the blocks that are left; what one reads is the invariant |
| C251 | the same, with the use of a freed paragraph as an outcome of its own | by induction on the blocks; what is behind a list is not changed before the list is reached |
| C252 | parse_simple and apex_parse (src/parser.c:110-211) whole | by induction on the number of turns, which is bounded by the length; by induction on the blocks |
| C253 | escape_html and render_node_html (src/renderer.c:11-220) whole; for nodes the renderer does not know all kinds are one | by mutual induction on trees and lists of trees; well-formed HTML is an inductive predicate |
| C254 | apex_node_new, apex_node_append_child, apex_node_free (src/parser.c:37-107), the links only, with the use of memory that is not allocated as an outcome of its own; not the strings of nodes, which are freed beside them | the links are an invariant of appending; freeing by mutual induction on the tree that is in memory |
| C255 | the entries of a bundle in load_plugins_from_dir (src/plugins.c:296-433) with apex_merge_metadata; the items of an entry are given, and the regular expression compiler | the merged list is computed for all lists by induction; the values are read off it |
| C256 | apex_get_support_base_dir and the directory of a plugin (src/plugins.c:218-245, 376-384, 499-505); directories are a set of paths, mkdir works where the directory above exists; no links, no permissions, and no `..` in a path | by computation with paths; the set of directories is any set closed upwards |
| C257 | parse_date as it is compiled with the GNU library (src/extensions/metadata.c:985-998, sscanf) and the transform strftime (1456-1474); sscanf and strftime as in the standard, of the conversions %Y %m %d %H %M %S %A %% and for the others any function | by computation with numbers in digits; the pieces of the format by induction |
| C258 | the same | by computation; the value is any text |
| C259 | file_has_yaml_front_matter and the scan of a directory in load_plugins_from_dir (src/plugins.c:178-184, 247-288); the disk is a function of paths, the entries of a directory are any list | by cases; the path of the manifest is cut as snprintf does |
| C260 | apex_git_toplevel (src/plugins.c:62-93) on the output of git, together with the directories of Plugins.searchDirs | fgets and the loop that takes the line break away, by induction |
| C261 | match_math_backslash, the function that is registered and create_math_extension (src/extensions/math.c:75-127, 196-277) | by computation; the search for the closing delimiter by induction |
| C262 | split_string_simple and the fallback of split_string (src/extensions/metadata.c:1003-1060, 1080-1088); regcomp is any function | induction over the pieces, strtok as a function on the text |
| C263 | the HTML made for a callout (Callouts.opening, Callouts.ending: src/extensions/callouts.c:141-153) and how the writer for terminals reads it (Term.htmlBlock: src/ast_terminal.c:2229-2422) | the places where the marks are found, by separation at bytes that are not in them |
| C264 | the commands for filters (cli/main.c:3264-3489); stat and the entries of a directory are any functions; the shell as a relation between a command and its words | the script is the first of a list of candidates; the command is read back word by word |
| C265 | the same | membership in the list of commands |
| C266 | the same | by computation |
| C267 | --uninstall-filter (cli/main.c:2557-2611), the answer is any line | the file is the first of a list of candidates; the command is read back word by word |
| C268 | --list-filters (cli/main.c:2614-2652) and the list of the remote directory (src/plugins_remote.c:233-269) | membership in the lists |
| C269 | --list-plugins (cli/main.c:213-333, 2184-2317); the disk, the names in each directory and the items of a manifest are any functions | induction over directories and their names; the items are the first ones with their id |
| C270 | the same, with the loading of plugins of C259 and C68 | both readings of a directory compared |
| C271 | the arguments and the loop of --combine (cli/main.c:2071-2117, 2936-2985), on top of C172; basename as in libgen.h | induction over the texts of the arguments |
| C272 | the loop of --mmd-merge (cli/main.c:2901-2933), on top of C171 | induction over the indexes |
| C273 | the state of the progress, its five functions and their calls (cli/main.c:368-462, 1906-1909, 3506-3527); times are whole milliseconds, no percentages | induction over the reports, with the width of the line on a terminal as invariant |
| C274 | the end of main (cli/main.c:1507-1515, 3537-3582), on top of C169; a place to write to has a limit or none | by cases, with C169 |
| C275 | the part of Model/Term for lists of definitions (src/ast_terminal.c:2229-2282) | induction over texts, definitions and terms |
| C276 | the part of Model/Term for other HTML (src/ast_terminal.c:2364-2418) | induction over the pieces of the block |
| C277 | the lookup of styles in Model/Term (src/ast_terminal.c:1092-1192) | induction over classes and table |
| C278 | the part of Model/Term for lists (src/ast_terminal.c:1966-2008), read on the terminal of C200 | induction over the items; digits by induction over the number |
| C279 | the part of Model/Term for quotes (src/ast_terminal.c:2010-2070), read on the terminal of C200 | induction over lines and paragraphs |
| C280 | the part of Model/Man for code (src/ast_man.c:461-502), read as roff prints it (C57) | the loop over runs equals the escaping of the code without empty lines, by induction over the code |
| C281 | the part of Model/Term for HTML in text (src/ast_terminal.c:1358-1414), read on the terminal of C200 | induction over the tag |
| C282 | the part of Model/Man for paragraphs (src/ast_man.c:417-441) | induction over the paragraphs, from C55 |
| C283 | the part of Model/Man for lists (src/ast_man.c:442-460); the numbers of items are input | induction over the items |
| C284 | the part of Model/Man for headings (src/ast_man.c:408-416), arguments of requests read as in C58 | the escaping adds no line end and no quotation mark |
| C285 | the parts of Model/ManHtml for headings and lists (src/ast_man.c:740-781), HTML read as in C210 | induction over the items |
| C286 | the part of Model/Term for code (src/ast_terminal.c:2073-2227), read on the terminal of C200 | the pieces are shown one after the other |
| C287 | the part of Model/Term for lists (src/ast_terminal.c:1966-2008), read on the terminal of C200 | induction over trees of items |
| C288 | the part of Model/Term for headings (src/ast_terminal.c:1934-1964), on the terminal of C200 with its styles | the events of the pieces, one after the other |

The authoritative status is `MANIFEST.json`; its notes say what is missing from each partial claim.

## Where the code does not do what one would expect

Each line is a theorem of the property named (a concrete witness, or a statement for all inputs of a kind).
The model follows the code; the properties were not weakened to fit.

* C03 UTF-8 validation accepts sequences RFC 3629 forbids. C05 a detached buffer makes the next append loop for ever.
* C11 a definition-list fragment with an unclosed tag never ends. C14 base64 of data is wrong for lengths not divisible by three.
* C35 an id for `📈 rise` overruns its allocation, truncated UTF-8 is read past the end; `É` becomes `e`, `é` is dropped (C71).
* C36 closing tags are not shifted, C37 an indent of two or more overruns, C38 a final `>` reads past the end.
* C42, C75 critic markup: short edits are lost in markup mode. C43 `==a==` loses `</mark>`, five of them overrun. C44, C76 page breaks in
  short texts overrun or lose text; `{index}` is matched at the end only and reads past it.
* C46 CSV: overflow, pipes and quotes. C45, C78, C79 includes: `[N]` is empty, an unfinished last line is lost, `[N,M]` with M < N goes to the
  end, one line matching both patterns selects nothing.
* C80-C86, C115 includes: fences of an even number of backticks are changed, double backticks are not protected, too large files are dropped or
  overrun, `<<[missing]` disappears, raw HTML is never inserted, the wildcard preference is dead code, the transclude base is applied twice,
  a five-tick line closes a four-tick block, lines of backticks in tilde blocks change.
* C49, C50, C87-C89 attribute lists: a stray last word reads stale memory, long lines are cut, references with attributes inherit nothing,
  quotes are not escaped, long widths overflow stack arrays.
* C50, C90-C92 abbreviations: long lines are cut, `[>(W3C ) x]` ends the document, words are lost, `[>( )x]` loops for ever.
* C51, C93 footnote prefix: the terminator may be written past the end; the last bytes of a document do not matter.
* C58 titles with `"`, C69, C70 nested fonts in man pages, C56 state left from the document before.
* C59, C60 `repeat` overflows, patterns matching the empty string do not return. C62 text behind a comma in `--meta` is lost.
* C63, C64 emoji names with hyphens, empty texts; long replacements lose the end of the text. C66 large inputs hang plugins. C67 ids unescaped.
* C73 `"` in ids injects attributes, `data-id` is taken for an id. C74 headings of 512 bytes overrun.
* C94, C95, C110, C117 pretty printing: long tags in deep nesting are lost, the empty text overruns, a second blank line in code is lost,
  blanks are put between an element at the beginning of a line and the text behind it.
* C96-C99, C108, C109 options: `per-cell-alignment` and `emoji-autocorrect` metadata are not read, `wikilink-sanitize: yes` means no, `unsafe: true`
  beats `--no-unsafe`, `mode` metadata drops `-t json` and the base directory, css metadata replaces `--css`, flags before `--mode` are lost,
  the default differs from unified mode, `--metadat` is taken for `--meta`.
* C100 front matter written by the command line is rendered as text in GFM and CommonMark mode; quoted and multi-line values change.
* C101-C105 table of contents: entries beyond 4096 bytes are lost, long ones cut, text unescaped, wrong nesting when levels are skipped, the rest
  of the page is read for the levels, only the first marker is replaced, manual ids are ignored.
* C106, C107 header ids: a heading with an id counts twice, raw HTML headings take ids, ids of 507 bytes are cut, anchors with ids of more than
  22 bytes lose the end of the page.
* C111, C112 e-mail hiding: non-ASCII text and entities are shown wrongly, a page that ends in a mail link is read past its end, titles and other
  spellings stay readable. C113 `<hr-line>` and rules in comments are replaced. C114 rows of dashes and rows with unclosed cells are removed.
* C118 a filter that changes nothing changes the document: of a paragraph or heading only the first inline comes back, links and images are lost, a
  code block loses everything behind it, a list or quote that is not the last block makes a strict conversion fail.
* C119 code blocks write one bracket too many and numbered lists one too few. C120 escapes are read as question marks, Pandoc's `Space`,
  `HorizontalRule`, `Emph` and `Div` lose text.
* C121, C122 inline footnotes: in short documents the text of a footnote is lost, `^[]` alone writes one byte behind the buffer, `[^fn1]` of
  the document clashes with the generated label; code between double backticks, in blocks fenced with four tildes and indented code is changed.
* C123 inline tables: eight columns in a one-line table write one byte behind the buffer; tables in code fenced with tildes and markers in
  inline code are converted; text behind the closing fence is lost.
* C124 callouts: characters in titles become markup, titles of about a thousand bytes lose the tags around the content, callouts in callouts
  are not converted. C125 math: `$a<b>c$` becomes a tag, `$5-$10` is math, `$a\\$` is not closed.
* C126 embedding images: an image that nearly fills the output buffer makes the text behind it disappear and writes one byte behind the buffer (780
  bytes in a page of 17 bytes); names with blanks are not found; `data-src` is taken for the source. C127: AVIF, TIFF and others are called PNG.
* C128 widont: a tag in front of the last words of a heading moves the place where blanks are replaced, line ends stay, a word of more than ten bytes
  is joined to the one in front of it in longer headings only, and `<h1>a b c d e f</h1>` with four bytes behind it writes behind the buffer.
* C129 Markdown output: descriptions of images, inline HTML, footnote references and strikethrough are lost; `<` and `&` are not escaped, so `&lt;b>`
  in the source becomes live HTML; code with backticks and addresses with blanks fall apart. In MultiMarkdown a paragraph beginning with `{{TOC` loses its other text.
* C130: every block of code gains an empty line, tables vanish, nested lists are flattened, paragraphs of a quote run together, a paragraph that
  begins with `>` becomes a quote.
* C131 fenced divs: `::: note`, `xxx`, `:::`, `end` on four lines gives `<div class="note" markdown="1">`, `xxx`, `</div` and nothing more, because the
  closing tag exactly fills the block; with other lengths bytes are written behind it. Fences in code are converted, the text after a closing
  fence goes on behind the closing tag, `::: .note` gives the class `.note`, values may break out of their quotes, `::: {foo` reads behind its copy.
* C132: a custom element in a custom element stays a `div`; thirteen elements with names of 127 bytes overflow the block.
- C133: `{% a %}5` leaves `APEX_LIQUID_TAG_05` in the page (with enough tags another tag is inserted and the digit lost); the words `APEX_LIQUID_TAG_0` in a text are replaced by a tag; a tag in a heading leaves its placeholder, rewritten, in the identifier; a tag in code comes back without its escapes.
- C134: the block is three times as long as the text, the mark has 25 bytes: `a. one\nb. two` alone is written behind the block and loses its last byte, the empty text has a block without a byte, for `a. x` the mark is left out; a line `99999999999` directly behind a list overflows an `int`; a list directly behind a paragraph leaves its mark in the page; code is changed; with CR LF a blank line ends the list.
- C135: a page that ends with a mark (a text `[apex-alpha-list:lower]` is enough) is read behind its end; a page with 172 lists and six lone marks is written behind its block; of two marks next to each other the second stays.
- C136: `a || b` in a sentence, in a code span, in indented code, or in code behind a line with the other kind of fence is changed to `a | << | b`. Called without its caller's line end, the function writes behind its block for `||x`.
- C138: `[me](mailto:me@x.org)` becomes `[[me](mailto:me@x.org)](mailto:[me](mailto:me@x.org))`; `<a href="mailto:me@x.org">` and `<a href=http://x>` get links inside the tag; `` ``http://x`` `` and code fenced with tildes are changed; one backtick in a text turns linking off up to the next; `**http://x**` takes the stars into the link; `mailto: me` links `mailto`.

- **C139** (emoji in a page). The block has three times the length of the page. It has no byte for the terminator when the page is empty, and an image (150 bytes and more) in a short page fills it, so that the terminator is written behind it. In an image, a colon that the test does not find in an attribute (`alt="1=2 3:4"`) leads to a `continue` that belongs to the inner loop: bytes are copied without looking for the end of the page. Names in `<code>` are replaced, the second colon of an unknown name never starts a name, and the size for headings is used for tags like `<1h>` only, since the bytes are compared in the wrong order.

- C142: the first line of a paragraph behind a blank line, and every row of a table, is searched for `table:`: `See the table: it is good` becomes two paragraphs, the second in brackets, and a cell `table: oak` ends its table. A fence of either kind ends a code block. Of two paragraphs that start with a link behind two blank lines the blank line between them is dropped; a paragraph that starts with a link behind a table gets a blank line behind its first line.

- C144: the loop that looks for `</body>` in front of `</html>` stops at the `y` of `</body>`, so it never finds it: content that is a whole page is closed twice. Titles, languages and paths are not escaped: the title `a</title><script>…` runs the script. The default styles are copied, not printed, so that tables have the width `100%%`.
- C145: when the document names a stylesheet and stylesheets are embedded, the array made for it is freed before the loop reads it. When the caller gives an empty list and the document names nothing, two null pointers are compared and the array of the caller is freed. A NUL in a stylesheet ends the page.
- C146: `<h1><img alt="a > b">Title</h1>` gives the title `b"Title`; a heading in a comment gives the title.

- C148: the search for a language goes on to the end of the page, so that a code block in front of one with a language does not get the class; `<code class="x">` gets a second `class`.
- C149: a single line with a bar in front of a blank line is written after the blank line, so that `a | b`, blank line, `text` becomes blank line, `a | b`, `text` (it shows when a table elsewhere in the document makes the pass return its result). If the block is full when the blank line behind a table is due, that line is dropped and the next paragraph becomes a row: `|a|b|c|d|`, `|e|f|g|h|`, blank line, `x`. Code blocks get separators between their lines. The body of a table with a separator gets another one after its first row. With CRLF line ends the separator row is taken for a row. In a text that ends with a carriage return the waiting rows are written without newlines.
- C150: if the new text fills the block to the last byte the pass returns NULL and the table stays without a header: `-|-|-|-|-|-|-|-|-`, `|a`, blank line, `xxxxx`.
- C151: the header of a table is kept only if its body holds a row of dashes. The pass for tables without separators (C149) puts one into tables with at least two body rows; a table with header, separator and one row has none, and its header becomes a body row. A table that is only a header with another table behind it gets a `<tbody>` that is not closed. For the empty page the block has no bytes and the terminator is written behind it. (The passes between these two are not part of this theorem.)
- C152: a mark that does not fit into the block is copied, and the block only grows when it is full. With `Language: fr`, `"A"` as a whole document keeps its English closing mark; `"merci!"` fills the block to the last byte and the terminator is written behind it; so does the empty page, for which the block has no bytes.
- C153: the depth of figures can become negative: behind a stray `</figure>` the next figure keeps its paragraphs. `<img` with a line end behind it is not taken for an image. A paragraph whose `</p>` ends the page is kept (one byte too many is asked for). Behind `</p` without `>` the rest of the page is lost.
- C154: the end of the opening tag of the paragraph is the first `>`, also in an attribute; closing tags in comments count as tags.
- C155: the block has 2048 bytes for all attributes (and ten times the length of the last ID): with 147 figures or more, content of the page is left out without a message. A caption that begins 200 bytes or more behind the start of its figure, as below most tables, gets no ID, and its table no `aria-describedby`. `aria-describedby` is cut at 255 bytes, without its closing mark. The value of `id='x'` runs on to the next `"` of the page.
- C156: indices are on by default and the pass does not look for code: `` `if (!done)` `` loses its condition. `word{^}` makes an entry of up to 50 characters in front of the mark, with a leading blank. `(!Café)` is not recognised. A blank item `(! )` is accepted, `{i: "*"}` gives an empty one.
- C157: leading blanks stay, because the pointer that `trim_string` returns is dropped, and sort before all letters: a letter may have two groups. Items are written without escaping. Items of more than 2042 bytes are cut.
- C158: behind `<!--IDX:` without `>` the code reads over the end of the page; for an empty page, it writes a byte to a block of none. A comment of the author that begins with `<!--IDX:` becomes a span or loses its start.
- C159: the output has twice the length of the text, and what does not fit is left out without a message: a `div` of twelve list items is emptied. The line end behind the closing tag may take the byte of the terminator (nine list items). Elements in code are converted, too. With `markdown="span"` and two paragraphs, unpaired tags remain. An empty text gets a block of no bytes, and a terminator.
- C160: the attributes are copied from the first blank on: attributes between a line end and this blank are lost. ` markdown=` in the value of another attribute is taken for the attribute. A tag of 2048 bytes writes its terminator behind the array of 2048 bytes.
- C161: white space behind `@key` is lost, also an empty line. Full stops, `<` and `>` belong to keys: `@doe99.` at the end of a sentence is another key. The block has twice the length of the text: "See @doe99." loses its citation, and for "@smith, yes" the terminator is written behind the block. `me@example.com` becomes a citation if the text has one elsewhere. `[@a; @b]` keeps `; ` and `]`, `[@a` takes the rest of the text, and `[-@a]` alone is not detected. Blocks of code with tildes, four backticks or indentation are changed, and a backtick alone turns citations off. Keys of more than 243 bytes make a comment that is not closed.
- C162: the block has three times the length of the page; citations that do not fit are left out, and so are bytes at the end. With links, `[@a] [@b]` shows one citation. All citations of a key are rendered in the style of the last one. Prefixes, locators and suffixes are parsed, but never shown. Names are not escaped. A comment `<!--CITE:x-->` of the author is removed.
- C163: `trim_string` returns a pointer behind the white space at the front, which is freed: `title = { The Book}` frees an invalid pointer. If there is no `}` behind an entry, a null pointer is read. Values in quotation marks keep them and end at their first comma, which loses the next field. `@book {x,` gives no entry, a field without `=` takes the text up to the next `=`, also of other entries, `@string` becomes an entry, and `@word{` in a value too.
- C164: parts that do not fit into 2048 bytes are left out without a notice, and the closing tag of the list is cut if it ends within the last seven bytes of the block. Texts are not escaped. `{backmatter}` in code is replaced too. The citations are registered last one first, so that the last cited entry is listed first.
- C165: code is not known to this pass: an empty line is added before a line like `{: .b}` in code, and `{:toc}` in code becomes a marker. A list with `}` in a value in quotation marks is not one.
- C166: the terminator is written without a check: a span and 25 bytes fill the block of twice the length exactly, and one byte is written behind it; an empty text takes an empty block. Double backticks open and close code at once, so that code between them is changed; code between tildes is changed too. A single backtick hides all spans behind it; so does a closing fence of four backticks. `\sqrt[3]{x}` loses its argument, any text in braces does. White space between words of a reference must be the same, or single: `[a  b]{.c}` is a span although `[a b]:` is defined. Between `markdown="span"` and the first attribute there is no blank; a later pass repairs this.
- C167: a line of text before code is lost when the document has a definition list, with empty lines between or not. `{:` anywhere behind a term takes it out of its list. The caption of a table is written before the text in front of it, and with four blanks. Code between `~~~` is changed; code between lines of four backquotes never ends. A second line of a definition ends the list; a line of blanks before a definition becomes the term.
- C168: identifiers of references are compared byte by byte, so that `[a][Site]` does not find `[site]:`; a reference `[site]` alone is not looked up.
- C169: `wrap_ansi_to_width` counts bytes: a character of several bytes is cut into two lines, lines with such characters are shorter than the width, and words are cut in the middle.
- C171: a file with headings that is indented two levels or more in an index overruns the block of `apex_cli_shift_headers` (see C37); paths of 4096 bytes or more are cut off, so that another file may be read.
- C172: only the first brackets of a line in a summary are looked at: `* [ ] [A](a.md)`, the second link of a line, and `[the [A] file](a.md)` are left out without a message. `[A](#a)` is taken as the directory.
- C173: names and addresses are put between double quotes into commands for a shell. The `id` in the manifest of a cloned repository is read by the shell: `$(…)` in it is run, and a `"` adds words. `--uninstall-plugin ../../../Documents` removes that directory (after a question), an empty name all plugins.
- C174: `user/name.git` becomes `https://github.com/user/name.git.git`; `./dir` becomes an address at GitHub.
- C175: the fallback of `extract_plugin_id_from_repo` finds the name of the temporary directory, `.apex_install_NAME`, which exists, so a plugin without `id` is always removed again. A filter installed from an address is moved to a path made of the whole argument, `filters/user/name`, which is not where filters are looked up, and whose parent in general does not exist.
- C176: `https://example.com` as the address of an image with `@2x` gives `https://example@2x.com`, although the comment says the domain is never modified; `https://example.com/v1.2/icon` gives `…/v1@2x.2/icon`; `icon.png?u=/a` gives nothing.
- C177: a `?` in the section hides the extension; a host ending in `.mov` is a video.
- C178: `![](clip.mp4 webm ogg mp4 mov m4v)` writes 138 bytes into a block of 128 (plus the length of the other attributes). Addresses are put between quotes without being escaped.
- C179: a word without a meaning at the end of the attributes (`![](a.png wide)`) makes reading go on behind the terminator, in what earlier calls left on the stack.
- C180: the mark is looked for in the rest of the page, not in the tag, so every image in front of a marked one is replaced too (and loses `width`, `class` and `id`). `alt="C:\"` hides the end of the tag.
- C181: with an alt text of 512+6n bytes for a video (1024+8n for a picture), or an address of 247 bytes with an `@2x` file, memory beyond a block is read or written. Other attributes are dropped; the mark stays in the page when there is no variant; `a.webp 1x` is listed although only `a@2x.webp` is there; `a%20b.png` is looked up under that name; `title=` inside the alt text is taken for the title, and quotes are not escaped.
- C182: a paragraph that starts with the same 50 bytes as a later one takes its attributes. The first table takes those of any table. `<pre><code>` is counted as code in a line of text. Thematic breaks, footnotes, tables, rows and cells are counted as headings (`CMARK_NODE_HEADING + 5`), and paragraphs of tight lists, which have no tags, are counted, so later elements lose their attributes to others. Text with `&`, a quote or a line break in its first 50 bytes is not found again.
- C183: each block element takes a byte more than its attributes, and the reserve is 1024 bytes: with 1024 elements the terminator goes behind the block. Removal starts at the opening tag with depth 1: elements stay, or the outer element of the same kind ends with them. `<ol class="x"start="3">` has no blank.
- C184: `data-caption` has 12 bytes, not 11, and is never left out (`data-captio` is).
- C185: the block of a video has 256 bytes and four times the address; an alt text, or all five formats for an address of 30 bytes, overrun it. `class` and other attributes are lost.
- C186: pictures use the text although only titles are asked for, ignore `caption=`, get a second figure in a figure, and their title is found in other values. Behind an attribute without a value (`hidden`) the next attribute is not seen, as the skip runs on to the blank behind it. A caption of blanks hides the title. Images in comments become figures, and a figure in a comment counts as open.
- C188: a block that stays is copied only if it fits what is left of the buffer, and silently left out if not; if it fits exactly, the terminator goes behind the buffer.
- C189: a language of 64 or more bytes counts as none. Escapes in a language are not undone (`a&b` gives `a&amp;b`).
- C190: the language is put into the line for `/bin/sh` without quotes: a code block in a document runs commands (`<pre lang="a;curl${IFS}…|sh;">`).
- C191: apex writes all the code before it reads anything, so a tool that writes while it reads hangs it; apex does not ignore SIGPIPE, so a tool that ends early (an unknown language) may kill it.
- C192: a cell joined by `<<` and by two or more `^^` loses its `colspan`; `^^` under a `<<` joins whatever cell was last seen in that column, so it may stretch a cell of the head; `<<` behind a `^^` at the begin of a row is shown as text. A cell whose text has `=` gets that text as attributes when `^^` is below it.
- C193: `active_rowspan[col_index] = cell` is not bounded (only the branch for `^^` checks `col_index < 50`): 51 columns write behind the array on the stack. The text the parser left as mark is freed when colons are taken off and then read as `raw_content`; alignment of cells is on by default.
- C194: a row of empty cells is dropped like a row of dashes.
- C195: `Note:` in a cell loses its colon.
- C196: a value that reads like a key (`"title": "id"`) is taken for it; a brace in a value hides entries or the directory; a value on the line below its key is not found; escapes such as `\\/` stay.
- C197: entries are put in front of the list, so the last of two with the same id is installed.
- C198: `apex_remote_extract_string` gets the rest of the whole file, not the object: with `repo` in front of `id` the repository of the next filter is cloned.
- C200: `#5f0000` is a colour of the palette (52) but is shown as 88; with 8 colours a background in hexadecimal colours the text; `bg` before a name of a colour does nothing, as it asks for a capital letter and the names have none; a word such as `38;5;2J` is written as it is, so a theme or class can show text or give the terminal commands.
- C201: the empty line in front of a block of HTML is left out if the text before it ends in two line ends, and whether it does depends on the style of a class.
- C202: each style ends with a reset of all styles, so of `**a *b* c**` the `c` is not bold, and likewise behind marks in headings and links; a `<span class="…">` that is not closed colours all that follows on the terminal.
- C203: an escape byte in the text of a document reaches the terminal, with whatever command follows it.
- C204: `<div class="callout-title"` or `callout-content` with no `>` behind it makes the code add one to the null pointer `strstr` returns and read there.
- C205: the language of a code block goes unquoted into `sh -c`: a block with the language `a;reboot;` runs `reboot`.
- C206: widths of columns are counted in bytes, so a line with `é` is too short; targets of links are written but not counted.
- C207: a cell that takes two columns counts them, and the empty cell it replaces takes another: of `| A | << | B |` the `B` stands in the fourth column.
- C208: `list_marker: "b red"`, as documented, keeps its quotes in the reader of lines, and the style does nothing; `blockquote:` / `marker:` / `character:`, as documented, is not found by the reader of events, which knows two levels of keys; `color: red # blue` is a style of three words in the reader of lines.
- C209: `bold: true` in front of `color:` is lost.
- C210: in manual pages as HTML the text of tables (and all other blocks the serialiser does not know, with text right below them) is lost; an HTML block starting `<dl` is copied, also if it is not closed.
- C211: a heading of 72 bytes or more has an entry which leads nowhere; `Options of *get*` and `Options of *set*` have the same anchor; the 49th section and headings without Latin letters have no entry.
- C212: `apex - convert` / `Markdown` on two lines is headed `convertMarkdown`; ` -` at the end of a line parts nothing.
- C213: `#include` in fenced code, `[a]: #b` and `style="color: #fff"` are taken for hashtags, and spans put there.
- C214: in proofreading mode `=====` below a heading becomes `{====}=`; code between `~~~` is marked as deleted; `a == b, ``c == d``` is cut in the code; behind code between four backticks nothing is marked.
- C215: in proofreading the size asked for (2 + n + 2) is not the size written (3 + n + 3); the size of the buffer at the start makes up for it.
- C216: a document whose metadata has `bibliography` or `csl` turns citations on, although the caller has turned them off.
- C217: in CommonMark mode `==x==`, `++x++`, fences with `table`, `<!--TABLE-->` and `{% x %}` are changed before the parser sees them.
- C218: `apex_markdown_to_html(text, len)` calls `strlen(text)`, so a text without a NUL is read past its end.
- C219: `final_normalized` is released behind the parser (src/apex.c:5008), `text_ptr` still points to it and is searched for `[[` (5065) and `{:` (5099): use after free whenever the prepared text does not end in a line ending and wiki links are on or the mode is Kramdown or unified.
- C220: with `base_directory = ""` and a bibliography in the metadata, `resolved_path[base_len - 1]` (4112) is in front of the block.
- C221: with the formats JSON, Markdown, terminal and man, the placeholders `APEX_LIQUID_TAG_0` stay in the output; and `{% if a==b or b==c %}` becomes `{% if a<mark>b or b</mark>c %}`, for tags are protected last.
- C223: names of front matter of more than 511 bytes are cut, so that two values can get one name.
- C224: front matter such as `a: &x [*x]` makes yaml_node_to_flat_items call itself without end (if libyaml accepts it, which its loader does: anchors are registered before the items are read).
- C226: `[%title:replace((a),b):upper]` runs `replace` with `(a` and drops `upper`, for options end at the first `)`.
- C227: of two attribute lists behind a block, each a paragraph, the second one is given to the paragraph of the first one, which is removed, and so is lost.
- C228: in `*a* and more {: .x}` the list is given to `*a*`, for texts between are skipped (ial.c:1043-1067), although the comment there says "immediately before".
- C229: only the first node of a heading is searched for a list, so `## *a* {: .x}` keeps it as text.
- C230: the iterator points to the first child of a paragraph when process_span_ial_in_container releases it: `&#32;{: .x}` as a paragraph is a use after free (ial.c:1153-1210, 1482-1485).
- C231: a paragraph such as `{: .lead} hello` behind a block is removed with its text (ial.c:1347-1364, 1505-1515).
- C233: apex_apply_image_attributes counts an image only if it has found attributes for it (ial.c:4012-4073), but the text is counted by all images, so `![a](1.png) ![b](2.png width=3)` has no attributes for the second image, although the comment in 2612-2617 says both have to agree.
- C234: `![alt](u` without `)` on its line and `![alt]()` lose their `!` (ial.c:2640-2643, 2977-2980); addresses in code are encoded too; a footnote definition with `\r\n` loses its line break (3430-3446).
- C235: the buffer of the expansion grows only for a reference that has no room itself; text behind it that has no room is left out without notice (ial.c:3706-3850).
- C232: a title in quotes behind the address of a definition is taken for attributes, so the code for attribute lists behind such titles (ial.c:3106-3276) is never reached.
- C236: pages with more than 50000 bytes are returned as they are, so cells below a blank header stay cells there (table_html_postprocess.c:549-563).
- C237: the caption is taken from the tree and looked for in the page, where it is escaped; with `&` it is not found, and its paragraph stays above the figure.
- C238: `&lt;&lt;` within a hundred bytes is taken for a mark for joined cells; the cell is left out, as are header cells in front of it.
- C239: what is written for an aligned cell is not counted, so the buffer (twice the page) does not grow: three rows of four centred cells overflow the heap.
- C240: the first header is looked at for 100 bytes only; a longer one counts as blank, and all first cells of rows become headers.
- C241: a line that begins with a dash starts an entry, and the rest of that line is not looked at, so `- id: doe99` is an entry without an identifier, and all its fields are left out (citations.c:1851-1860). The README promises CSL YAML.
- C242: each `family:` replaces the one before, so only the last author is kept; `year: 1999`, `{date-parts: [[1999]]}` and `date-parts:` with dashes give no year; `[{family: Doe, given: John}]` gives the name `Doe, given: John}]`; a title ends at its first `#`.
- C243: behind a last line without a line end the loop goes on one byte behind the terminator (citations.c:1834, 1947); a dash and white space at the end of the text moves behind the terminator in parse_yaml_author; a quoted text with a space in front is freed at the pointer that trim_string returns.
- C244: apex_parse_csl_json is not implemented and returns no entries.
- C245: when tables with captions above them follow each other, the paragraph behind the first table is tried as its caption although it has one: it is taken out and lost. The next table then finds no caption above it and takes the one below it, which is meant for the table after it (advanced_tables.c:1672-1708).
- C246: the search for a caption above a table goes back over all paragraphs and headings up to the last table (1556-1670), so that a paragraph `[see below]` at the beginning of a document disappears. A second caption is taken out and not shown. A last row of boxes `| [x] | [ ] |` is taken for a caption. Only direct texts of the paragraph are read: what is emphasized in a caption is lost (1102-1140).
- C247: with neither a name nor a class the first attribute is written without a blank in front of it: `data-caption="A"lang="en"` (1035-1094). Quotes in a caption are copied into the attribute as they are (1458-1536).
- C248: behind a word without `=` one byte is skipped even when it is the terminator of the text (parse_ial_from_text), so that what is behind it in the buffer on the stack is read: `[A] {#t wide}`.
- C249: the second definition of a term opens a list of its own, whose term stays empty, because the paragraph in front of it is the first definition (definition_list.c:1913-1923). A line with a tab behind its colons opens a list (69-96) but is not taken as a definition (1782-1795).
- C251: when a list has no term and the paragraph in front of it cannot be used, the paragraph behind it is moved and freed, and its type is read after that (1918-1927): a document that begins with `:: one` and, behind a blank line, `::<tab>two`.
- C252: a code block that is not closed is lost up to its last two bytes, which are then read as text (parser.c:169-187; its info string is also not freed); a paragraph ends only at two line feeds side by side, so that headings and code directly behind it, and blank lines of Windows texts, are part of it (189-201).
- C253: nodes that are not named in the renderer, tables and footnotes for example, are left out with all their children (renderer.c:216-218).
- C255: `handler.command` and `handler_command` are two keys for one value, and the items of the bundle are read after those of the entry, so that the command of the bundle under one name wins over that of the entry under the other (plugins.c:338-339).
- C256: only one level above `support` is made, and only below HOME, so that with XDG_CONFIG_HOME set and no directory `apex` in it no directory is made at all (plugins.c:236-243); a path of more than 1023 bytes is cut, and then all plugins share one directory.
- C257: the headers included before metadata.c:20 define `_POSIX_C_SOURCE`, so that `HAVE_STRPTIME` is not defined and the part with `sscanf` is compiled; it never sets the day of the week, and `%A` shows Sunday for each date (985-998). A time behind `T` is not read.
- C258: three numbers with dashes between them are a date whatever they are and whatever is behind them (988).
- C235: definitions of images are put in front of a list (ial.c:2352-2367, 3377), so of two definitions for a name the last one is used; Markdown uses the first one.
- C259: paths are cut at 1023 bytes (snprintf into a buffer of 1024 bytes), so that a plugin with a longer path is not found.
- C260: the output of git is read with one fgets of 1024 bytes: longer paths are cut, and of a path with a line break only the first line is used.
- C261: match_math_backslash is never registered (math.c:262-277 registers only the function for dollar signs), so \\( and \\[ do nothing.
- C262: strtok takes the text as a set of bytes, so that each byte of it separates where it stands alone; a part of white space gives an empty item.
- C263: the title is copied to the HTML without escapes and tags are removed from it again, so that what is behind a < is not seen; a title of 1023 bytes or more is cut together with the end of its element and is not seen at all.
- C264: the path of a script is given to the shell without quotes (main.c:3441), so that a path with a blank is two words.
- C265: with --filters a script in Lua is run as a program (main.c:3325), with --filter by lua (3435-3439).
- C266: without HOME and XDG_CONFIG_HOME the program ends with an error although the script is given by its path (3276-3279); the path is put between double quotes, in which $(...) is run; the scripts are run behind all other filters.
- C267: the name is not checked, so that an empty name stands for the directory of filters and `..` for the directory above it.
- C268: not more than 128 names are read (2624); a filter installed as NAME.lua is listed as available under NAME.
- C269: a path of 1200 bytes or more is cut (main.c:257-258), so that another directory can be read.
- C270: a plugin in a single file NAME.yml is loaded (plugins.c:282-288) but not listed (main.c:260-262); a manifest that does not begin with `---` is listed but not loaded; a plugin without a phase is listed and hides one with the same id that is loaded.
- C207: a cell that takes several columns is put over a cell that takes several rows (ast_terminal.c:1504-1519).
- C271: no empty line is written between a file and a summary behind it (main.c:1298 begins anew), so that `# A` and `# B` become `# A# B`; a summary without files counts as a text; behind a summary that cannot be read all files are left out; files named in front of --combine are left out (main.c:2107).
- C273: a message that is shorter than the one before it leaves the end of that one (main.c:420): `Processing: Processing wiki links...s...`.
- C274: the results of fwrite and fclose are not looked at (main.c:3574-3578): with a full disk the result is cut and the status is 0.
- C275: in a definition `<em>old</em>` is shown as `em>old/em>` (ast_terminal.c:2275 leaves out only the `<`); `&amp;` is shown as it is.
- C276: white space behind a tag is lost (ast_terminal.c:2379, 2388): `<b>bold</b> text` is shown as `boldtext`.
- C277: `data-class="x"` in front of `class="y"` is taken for the classes (ast_terminal.c:1137).
- C278: a list that starts with 0 is numbered from 1 (ast_terminal.c:1969).
- C279: the further lines of a quote within a quote have one mark (ast_terminal.c:2066); the lines of code in a quote, and a line behind a break within emphasis, have no mark (ast_terminal.c:2037, 2066).
- C280: empty lines of code are left out in man pages (ast_man.c:481), and code in a list item is written without .nf, so that its lines are joined (ast_man.c:467).
- C281: of a comment or an attribute with a > in it, what is behind that is shown (ast_terminal.c:1402).
- C282: the second paragraph of an item of a list is written without .PP or .IP, so that it is joined to the first (ast_man.c:430).
- C283: a list within an item is written without .RS, as further items of the list around it (ast_man.c:442).
- C284: headings of levels 2 to 6 are all .SS; quotation marks are not escaped and so not shown; a line break ends a heading (ast_man.c:411).
- C285: in HTML all headings from the third level on are h4 (ast_man.c:743), and an ordered list has no start, so that it is shown from 1 on (ast_man.c:770).
- C286: in a list only the first fence of code is as far in as the list; its lines and the last fence are not (ast_terminal.c:2207-2222).
- C287: a line of an item behind a soft break is not indented (ast_terminal.c:1271).
- C288: without a theme, headings of levels 4 to 6 look the same (ast_terminal.c:1951); C277: the classes of a heading are not looked at.

## Testing the theorems

`seeded/LOG.jsonl` has one line for each edit of the model that was built against the theorems: the definition, the edit, the claim it breaks,
the theorems that failed, and the theorems added or tightened when none did. Edits marked as generated come from a script that swaps operators,
constants, branches and arguments; edits that survive because they change nothing observable say so in their note. The claim named for a generated edit is
mostly the main one of its module, assigned by script: that the edit makes this claim false was not checked one by one. A failed proof can also
mean only that a lemma follows the text of the definition (for instance when fuel or a buffer grows), so the count of generated edits that failed
is an upper bound for those caught by a claim.
