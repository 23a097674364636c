{"id": "C01", "title": "Serialised objects parse back to the same object", "statement": "For every PDF object built from booleans, integers, decimal reals, names, keywords, literal and hexadecimal strings, indirect references, arrays and dictionaries nested to any depth, parse_obj applied to the bytes serialize produced (followed by any delimiter) returns an object equal (Python ==) to the original.", "quantifier": "all well-formed objects, all nesting depths, all sizes, all bytes following the object", "why_tests_cant": "The object space is infinite and recursive; a test samples a handful of shapes and cannot exclude a nesting, neighbour or string content that makes the tokenizer lose synchronisation.", "anchors": ["pdfsyntax/objects.py:serialize", "pdfsyntax/objects.py:to_str", "pdfsyntax/objects.py:parse_obj", "pdfsyntax/objects.py:next_token", "pdfsyntax/objects.py:replace_ref"]}
{"id": "C02", "title": "Stream objects survive writing and reading", "statement": "For every stream object (dictionary plus encoded bytes) that is serialised, parsing the bytes yields a stream with an equal dictionary and identical encoded bytes, whatever the encoded bytes are.", "quantifier": "all dictionaries, all byte strings used as encoded content", "why_tests_cant": "Content is arbitrary compressed binary; the failing contents (ending in CR, empty, containing the end marker) are rare points of an infinite space.", "anchors": ["pdfsyntax/objects.py:serialize", "pdfsyntax/objects.py:parse_obj", "pdfsyntax/objects.py:next_token", "pdfsyntax/objects.py:Stream"]}
{"id": "C03", "title": "The tokenizer always terminates with an in-bounds, advancing result", "statement": "For every byte string and every start index inside it, next_token returns (h, j, type) with start <= h <= j <= len(text); a typed token is non-empty (h < j) and so scanning progresses; an untyped result means either the text is exhausted or a closing bracket was met at h.", "quantifier": "all byte strings, all start positions", "why_tests_cant": "The scanner is a ten-mode automaton over unbounded input; malformed inputs are unbounded in number.", "anchors": ["pdfsyntax/objects.py:next_token"]}
{"id": "C04", "title": "Typed tokens have the lexical shape their type promises", "statement": "For every input, a NAME token starts with '/' and contains no white space or delimiter afterwards; an INTEGER token contains no '.', a REAL token contains one, KEYWORD/TRUE/FALSE tokens start with a letter and contain no white space or delimiter and TRUE/FALSE are exactly those words; a COMMENT starts with '%' and holds no EOL; DICT tokens start with '<<' and end with '>>'; ARRAY tokens start with '[' and end with ']'; STREAM tokens start with 'stream' and end with 'endstream'; and each name/number/keyword token is maximal.", "quantifier": "all byte strings, all start positions, all token types", "why_tests_cant": "It is a claim about every byte string the scanner can be given, including malformed ones.", "anchors": ["pdfsyntax/objects.py:next_token"]}
{"id": "C05", "title": "Parsing an object is independent of what precedes it in the file", "statement": "parse_obj(prefix + text, len(prefix)) equals parse_obj(text, 0), and next_token positions are simply shifted, for every prefix: an object means the same wherever it is stored.", "quantifier": "all prefixes, all texts (well-formed or not)", "why_tests_cant": "Quantifies over all pairs of byte strings.", "anchors": ["pdfsyntax/objects.py:next_token", "pdfsyntax/objects.py:parse_obj"]}
{"id": "C06", "title": "The parser terminates on every input", "statement": "parse_obj returns a value or raises for every byte string: it never loops forever on a malformed file.", "quantifier": "all byte strings, all start positions", "why_tests_cant": "Non-termination cannot be observed by a finite test and hanging inputs are rare.", "anchors": ["pdfsyntax/objects.py:parse_obj"]}
{"id": "C07", "title": "Retargeting rewrites every reference and nothing else", "statement": "deep_ref_retarget(obj, mapping) returns obj with each indirect reference r in it replaced by mapping[r] when mapped and left alone otherwise, at every depth; all non-reference leaves, keys, array lengths and nesting are unchanged.", "quantifier": "all objects of any depth, all mappings", "why_tests_cant": "Recursive structure and arbitrary finite maps.", "anchors": ["pdfsyntax/objects.py:deep_ref_retarget"]}
{"id": "C08", "title": "Reference detection finds exactly the references of an object", "statement": "deep_ref_detect(container) is the set of indirect references occurring anywhere in the dictionary, array or stream dictionary; no more, no fewer.", "quantifier": "all objects of any depth", "why_tests_cant": "Recursive structure of unbounded depth.", "anchors": ["pdfsyntax/objects.py:deep_ref_detect"]}
{"id": "C09", "title": "Single-filter encode/decode round trip", "statement": "For every byte string and each supported filter (none, /ASCIIHexDecode, /ASCII85Decode, /FlateDecode given a correct zlib), decode_stream(encode_stream(x, d), d) == x.", "quantifier": "all byte strings, each filter", "why_tests_cant": "Byte strings of every length including the ASCII85 partial groups and the all-zero group.", "anchors": ["pdfsyntax/filters.py:encode_stream", "pdfsyntax/filters.py:decode_stream", "pdfsyntax/filters.py:asciihex"]}
{"id": "C10", "title": "Filter pipelines are decoded by composing their stages", "statement": "With a /Filter array [f1, ..., fn] decode_stream applies f1's decoder first, feeds its output to f2's decoder and so on; consequently what encode_stream wrote with the same dictionary is recovered.", "quantifier": "all filter lists, all byte strings", "why_tests_cant": "All list lengths and contents.", "anchors": ["pdfsyntax/filters.py:encode_stream", "pdfsyntax/filters.py:decode_stream"]}
{"id": "C11", "title": "PNG 'Up' predictor is inverted exactly", "statement": "For every row length and every list of rows, decode_predictor applied to the PNG-Up encoding of the rows returns the concatenated original rows.", "quantifier": "all column counts, all row counts, all byte values", "why_tests_cant": "Row-to-row dependence makes every byte depend on the whole history above it.", "anchors": ["pdfsyntax/filters.py:decode_predictor"]}
{"id": "C12", "title": "/Length written is the extent of the stream data", "statement": "After forge_stream on a dictionary with a direct integer /Length, the /Length entry equals the number of bytes between the newline following 'stream' and the 'endstream' keyword in serialize's output, and no other entry is changed.", "quantifier": "all dictionaries, all contents, all filters", "why_tests_cant": "All contents and encoders.", "anchors": ["pdfsyntax/objects.py:forge_stream", "pdfsyntax/objects.py:update_internal_stream_length", "pdfsyntax/objects.py:serialize"]}
{"id": "C13", "title": "Cross-reference stream rows decode to what was encoded", "statement": "For every list of entries whose fields fit in the chosen column width, the xref stream rows produced when committing decode (parse_xref_stream_raw) to exactly the same free / in-use / embedded entries in the same order with the same object numbers.", "quantifier": "all entry lists, all widths, all field values that fit", "why_tests_cant": "Unbounded numbers and list lengths; multi-byte packing.", "anchors": ["pdfsyntax/filestruct.py:format_xref_stream", "pdfsyntax/objects.py:parse_xref_stream_raw", "pdfsyntax/objects.py:expand_xref_index"]}
{"id": "C14", "title": "Cross-reference tables parse back to what was written", "statement": "For every sorted list of entries, the xref table text produced when committing parses (parse_xref_table_raw) to the same entries: same object numbers, offsets, generations and n/f keyword, in the same order, with subsection headers that count exactly the lines that follow.", "quantifier": "all entry lists (any gaps between object numbers), all offsets and generations", "why_tests_cant": "Subsection grouping depends on the whole gap structure of the list.", "anchors": ["pdfsyntax/filestruct.py:format_xref_table", "pdfsyntax/objects.py:parse_xref_table_raw"]}
{"id": "C15", "title": "Index pairs expand to the numbers they describe", "statement": "expand_xref_index([s1,n1,s2,n2,...]) (all counts >= 1) lists s1..s1+n1-1 tagged 0, then s2..s2+n2-1 tagged 1, ...; and grouping any strictly increasing list of object numbers into /Index pairs then expanding returns that list.", "quantifier": "all index arrays, all increasing object number lists", "why_tests_cant": "All gap patterns.", "anchors": ["pdfsyntax/objects.py:expand_xref_index", "pdfsyntax/filestruct.py:format_xref_stream"]}
{"id": "C16", "title": "Deleted objects form one circular free list", "statement": "Following circular_deleted from object 0 visits every deleted object of the revision exactly once, in the order of the change list, and comes back to 0.", "quantifier": "all change lists with distinct object numbers", "why_tests_cant": "A claim about every list length; errors appear only at the ends of the chain.", "anchors": ["pdfsyntax/filestruct.py:circular_deleted"]}
{"id": "C17", "title": "Xref stream column width is always sufficient", "statement": "The column width chosen when writing an xref stream can hold every field of every row, so writing never fails.", "quantifier": "all entry lists", "why_tests_cant": "Failure happens only for particular magnitudes.", "anchors": ["pdfsyntax/filestruct.py:format_xref_stream"]}
{"id": "C18", "title": "Every offset recorded in a new revision points at its object", "statement": "For every change list, each in-use entry (num, gen, offset) that build_revision_byte_stream writes in the xref satisfies: the bytes of previous-file + revision at that offset start with 'num gen obj' followed by the serialised object, 'endobj'; the same offset is stored in the returned index.", "quantifier": "all change lists, all objects, all starting positions", "why_tests_cant": "Offsets accumulate over all earlier fragments; one off-by-one shifts all following entries.", "anchors": ["pdfsyntax/filestruct.py:build_revision_byte_stream", "pdfsyntax/filestruct.py:serialize_fragment"]}
{"id": "C19", "title": "startxref and end marker are exact", "statement": "The revision ends with 'startxref\\nN\\n%%EOF\\n' where N is the absolute position of the xref section ('xref' keyword or xref stream object) in the resulting file.", "quantifier": "all change lists, both xref styles", "why_tests_cant": "Depends on total length of all fragments.", "anchors": ["pdfsyntax/filestruct.py:build_revision_byte_stream"]}
{"id": "C20", "title": "The original bytes are never altered by writing", "statement": "Whatever edits and commits are applied to a document loaded from bytes B, the bytes produced by writefile start with the prefix of B up to the end of its last revision and everything new is appended after it.", "quantifier": "all source files, all edit histories", "why_tests_cant": "Any number of edits and commits in any order.", "anchors": ["pdfsyntax/api.py:writefile", "pdfsyntax/docstruct.py:commit", "pdfsyntax/filestruct.py:build_revision_byte_stream", "pdfsyntax/docstruct.py:revision_index"]}
{"id": "C21", "title": "Committing without changes is a no-op", "statement": "commit(doc) with no pending change returns a document identical to doc; hence commit is idempotent: commit(commit(d)) shows the same revisions, objects and bytes as commit(d).", "quantifier": "all documents and histories", "why_tests_cant": "All reachable documents.", "anchors": ["pdfsyntax/docstruct.py:commit", "pdfsyntax/docstruct.py:changes"]}
{"id": "C22", "title": "changes() reports exactly the pending edits", "statement": "After any sequence of add/update/delete operations since the last commit, changes(doc) lists each touched object exactly once, as 'a' if it was added in this revision, 'd' if it existed and is now deleted, 'u' otherwise; untouched objects are not listed.", "quantifier": "all operation sequences", "why_tests_cant": "All interleavings of operations on all objects.", "anchors": ["pdfsyntax/docstruct.py:changes", "pdfsyntax/docstruct.py:update_object", "pdfsyntax/docstruct.py:add_object"]}
{"id": "C23", "title": "The document behaves like a map from object numbers to objects", "statement": "get_object after any sequence of add_object/update_object/commit returns the last value written for that number, None if it was last deleted, and the value stored in the file if never written; operations on one number do not affect others; add_object returns a fresh number.", "quantifier": "all operation sequences and all object numbers", "why_tests_cant": "History-dependent: every sequence of operations.", "anchors": ["pdfsyntax/docstruct.py:get_object", "pdfsyntax/docstruct.py:update_object", "pdfsyntax/docstruct.py:add_object", "pdfsyntax/docstruct.py:memoize_obj_in_cache"]}
{"id": "C24", "title": "Documents are immutable: edits never change an existing Doc", "statement": "After any sequence of update_object/add_object (with immut=True), commit and reads applied to documents derived from d, every observation of d (objects, changes, revisions) is what it was before.", "quantifier": "all operation sequences, all aliasing patterns created by shallow copies", "why_tests_cant": "Aliasing bugs depend on which lists and dicts are shared by which history.", "anchors": ["pdfsyntax/docstruct.py:copy_doc", "pdfsyntax/docstruct.py:update_object", "pdfsyntax/docstruct.py:add_object", "pdfsyntax/docstruct.py:commit", "pdfsyntax/docstruct.py:force_xref_stream"]}
{"id": "C25", "title": "Memoisation is invisible", "statement": "The value returned by get_object(doc, ref) does not depend on which references were read before, in which order, or how many times.", "quantifier": "all read sequences", "why_tests_cant": "All orders of reads.", "anchors": ["pdfsyntax/docstruct.py:memoize_obj_in_cache", "pdfsyntax/docstruct.py:get_object"]}
{"id": "C26", "title": "rewind undoes the last commit", "statement": "rewind(commit(d)) exposes the same object for every number as d, has one revision fewer than commit(d), and its pending changes are those of d.", "quantifier": "all documents with pending changes", "why_tests_cant": "All documents and change sets.", "anchors": ["pdfsyntax/docstruct.py:rewind", "pdfsyntax/docstruct.py:commit"]}
{"id": "C27", "title": "Deleting objects can always be committed", "statement": "Any document in which some objects were deleted can be committed.", "quantifier": "all documents, all deletions, at any revision", "why_tests_cant": "The crash needs a particular combination of revision count and history.", "anchors": ["pdfsyntax/docstruct.py:changes", "pdfsyntax/docstruct.py:commit", "pdfsyntax/filestruct.py:build_revision_byte_stream", "pdfsyntax/objects.py:to_str"]}
{"id": "C28", "title": "Written documents reload to the same objects", "statement": "For every document whose objects are well-formed, loading the bytes produced by writefile gives a document in which every live object number resolves to an equal object and the trailer /Root is the same.", "quantifier": "all well-formed documents", "why_tests_cant": "End-to-end over serialisation, xref layout, tokenisation and index building for all documents.", "anchors": ["pdfsyntax/api.py:writefile", "pdfsyntax/api.py:loads", "pdfsyntax/filestruct.py:build_xref_sequence", "pdfsyntax/filestruct.py:build_index_from_xref_sequence", "pdfsyntax/docstruct.py:memoize_obj_in_cache"]}
{"id": "C29", "title": "flat_page_tree lists pages in document order with nearest-ancestor inheritance", "statement": "For every finite page tree, flat_page_tree returns the leaves left to right, each with exactly the inheritable attributes of its ancestors, the nearest ancestor winning.", "quantifier": "all page trees of any shape and depth", "why_tests_cant": "All tree shapes and attribute placements.", "anchors": ["pdfsyntax/docstruct.py:flat_page_tree", "pdfsyntax/docstruct.py:pages"]}
{"id": "C30", "title": "Page listing depends only on the document", "statement": "flat_page_tree(doc) gives the same answer regardless of which other documents were inspected before.", "quantifier": "all histories of calls on other documents", "why_tests_cant": "The leak needs a particular earlier call in the same process.", "anchors": ["pdfsyntax/docstruct.py:flat_page_tree"]}
{"id": "C31", "title": "max_nb bounds the page list without changing its beginning", "statement": "pages listed with max_nb = m agree with the full list on the first m pages, and no more than m are returned.", "quantifier": "all page trees, all m >= 1", "why_tests_cant": "All tree shapes.", "anchors": ["pdfsyntax/docstruct.py:flat_page_tree", "pdfsyntax/docstruct.py:pages", "pdfsyntax/api.py:page_layouts"]}
{"id": "C32", "title": "rotate adds angles modulo 360 and touches only the selected pages", "statement": "After rotate(doc, a, sel) each selected page's effective rotation is (old + a) mod 360, where old takes inheritance into account, and every other page and object is unchanged; rotations compose additively and rotating by a then -a restores effective rotations modulo 360.", "quantifier": "all documents, all angles, all page selections", "why_tests_cant": "All integers and selections, all page trees.", "anchors": ["pdfsyntax/api.py:rotate", "pdfsyntax/api.py:page_layouts"]}
{"id": "C33", "title": "remove_pages removes exactly the selected pages", "statement": "After remove_pages(doc, S) the page list is the old one without the positions in S, in the same order, and every /Count on the path is decremented once per removed page below it.", "quantifier": "all page trees, all subsets S", "why_tests_cant": "All tree shapes and subsets, independent of set iteration order.", "anchors": ["pdfsyntax/docstruct.py:remove_pages", "pdfsyntax/docstruct.py:keep_pages"]}
{"id": "C34", "title": "Removing pages never deletes objects still used by kept pages", "statement": "No object reachable from a kept page (not through /Parent or /P) is deleted by remove_pages.", "quantifier": "all object graphs, all subsets of pages", "why_tests_cant": "All sharing patterns between pages.", "anchors": ["pdfsyntax/docstruct.py:remove_pages", "pdfsyntax/docstruct.py:dependencies"]}
{"id": "C35", "title": "Slicing a document keeps exactly the pages Python slicing selects", "statement": "doc[i] keeps page i mod n; doc[a:b:c] keeps the pages at the positions range(*slice.indices(n)), in document order.", "quantifier": "all n, all integers / slices", "why_tests_cant": "All integer combinations, negative and out of range.", "anchors": ["pdfsyntax/docstruct.py:Doc.__getitem__", "pdfsyntax/docstruct.py:keep_pages"]}
{"id": "C36", "title": "concat appends the pages of one document to the other", "statement": "concat(a, b) has page list pages(a) followed by the renumbered pages(b), page count the sum, existing objects of a other than its root page node are unchanged, and all copied references are renumbered consistently.", "quantifier": "all pairs of documents", "why_tests_cant": "All object graphs.", "anchors": ["pdfsyntax/docstruct.py:concat", "pdfsyntax/objects.py:deep_ref_retarget"]}
{"id": "C37", "title": "squash renumbers consistently and loses no live object", "statement": "squash(doc) has exactly one slot per live object of doc, numbered 1..n without gaps, and following any path of keys/indices/references from the catalog gives the same result (up to renumbering) in doc and in squash(doc).", "quantifier": "all documents", "why_tests_cant": "All object graphs and deletion patterns.", "anchors": ["pdfsyntax/docstruct.py:squash", "pdfsyntax/docstruct.py:defragment_map", "pdfsyntax/objects.py:deep_ref_retarget"]}
{"id": "C38", "title": "PDFDocEncoding decoding is total, length preserving and injective", "statement": "decode_pdfdoc accepts every byte string, returns as many characters as bytes, maps printable ASCII to itself, and never maps two different byte strings to the same text.", "quantifier": "all byte strings", "why_tests_cant": "All byte strings.", "anchors": ["pdfsyntax/text.py:decode_pdfdoc", "pdfsyntax/text.py:prepare_pdfdoc_charset"]}
{"id": "C39", "title": "Unescaping inverts escaping of literal strings", "statement": "For every byte string s, unescape_literal_string applied to s with backslash, parentheses (and optionally any other byte as a 3-digit octal escape) escaped returns s.", "quantifier": "all byte strings, all choices of escaping style per byte", "why_tests_cant": "All byte strings and escape choices.", "anchors": ["pdfsyntax/text.py:unescape_literal_string"]}
{"id": "C40", "title": "Text strings in UTF-16BE hexadecimal or literal form decode to their characters", "statement": "text_string of the hexadecimal (FEFF-prefixed) encoding of any text returns that text; of the escaped literal form likewise; of the hexadecimal PDFDoc form returns decode_pdfdoc of the bytes.", "quantifier": "all texts", "why_tests_cant": "All strings.", "anchors": ["pdfsyntax/text.py:text_string"]}
{"id": "C41", "title": "Glyph width tables answer what the font dictionary says", "statement": "The function built by prepare_w returns, for each character code, the width given by the last /W group that covers it, or the default width; the function built by prepare_widths returns widths[c - first] inside the range and 500 outside; neither ever fails.", "quantifier": "all /W arrays, all codes", "why_tests_cant": "All group layouts, overlaps and codes.", "anchors": ["pdfsyntax/docstruct.py:prepare_w", "pdfsyntax/docstruct.py:prepare_widths"]}
{"id": "C42", "title": "Transformation matrices compose associatively", "statement": "multiply_matrices is associative with IDENTITY_MATRIX as two-sided unit and acts on points as composition, for exact arithmetic.", "quantifier": "all matrices", "why_tests_cant": "All numeric matrices.", "anchors": ["pdfsyntax/graphics.py:multiply_matrices"]}
{"id": "C43", "title": "q ... Q restores the graphics state", "statement": "Executing q, any command sequence balanced in q/Q, then Q leaves the graphics state stack exactly as it was before q.", "quantifier": "all balanced command sequences, all initial stacks", "why_tests_cant": "All nestings and commands.", "anchors": ["pdfsyntax/graphics.py:apply_command"]}
{"id": "C44", "title": "Content streams split into commands without losing or repeating operands", "statement": "parse_stream_content returns commands whose concatenation is the token list, each command ending with its operator.", "quantifier": "all content streams", "why_tests_cant": "All token lists.", "anchors": ["pdfsyntax/graphics.py:parse_stream_content"]}
{"id": "C45", "title": "Text positioning operators obey their definitions", "statement": "Td accumulates translations on the line matrix, Tm replaces both matrices, TD equals setting the leading then Td, T* moves down by the leading, ' equals T*, and \" sets both spacings; no text operator touches the graphics state stack.", "quantifier": "all states and operands", "why_tests_cant": "All states.", "anchors": ["pdfsyntax/graphics.py:apply_command"]}
{"id": "C46", "title": "The disassembly tiles the file", "statement": "The regions with absolute positions reported by file_object_map are contiguous: the first starts at 0 and each next one starts where the previous ended, so no byte is skipped or reported twice.", "quantifier": "all byte strings", "why_tests_cant": "All files, including malformed ones.", "anchors": ["pdfsyntax/filestruct.py:file_object_map", "pdfsyntax/objects.py:parse_region", "pdfsyntax/objects.py:parse_indirect_obj"]}
{"id": "C47", "title": "The disassembler terminates on every file", "statement": "file_object_map returns or raises for every byte string.", "quantifier": "all byte strings", "why_tests_cant": "Non-termination is not observable by tests.", "anchors": ["pdfsyntax/filestruct.py:file_object_map", "pdfsyntax/objects.py:parse_region"]}
{"id": "C48", "title": "Index checks are exact", "statement": "check_index_targets reports an xref entry iff no scanned object matches its number, generation and position (or envelope and rank); check_not_indexed_objects reports an object iff no entry of any xref section matches it.", "quantifier": "all object maps, all xref sequences", "why_tests_cant": "All combinations of objects and entries.", "anchors": ["pdfsyntax/filestruct.py:check_index_targets", "pdfsyntax/filestruct.py:check_not_indexed_objects"]}
{"id": "C49", "title": "Revision cut keeps the end-of-file marker and its line ends", "statement": "eof_cut(i) is the first position after the '%%EOF' at i that is not an EOL byte (or the end of file).", "quantifier": "all byte strings, all positions", "why_tests_cant": "All lengths of trailing EOL runs.", "anchors": ["pdfsyntax/filestruct.py:eof_cut"]}
{"id": "C50", "title": "Data providers honour their contract", "statement": "For every request inside the data, the returned (buffer, index, offset, n) satisfies buffer[index:index+n] == data[start:start+n], n is the number of bytes available up to the requested length, negative positions count from the end, and both loading modes agree.", "quantifier": "all data, all positions and lengths, both modes", "why_tests_cant": "All positions and lengths.", "anchors": ["pdfsyntax/filestruct.py:bdata_provider", "pdfsyntax/filestruct.py:bdata_dummy"]}
{"id": "C51", "title": "The merged provider reads the concatenated file", "statement": "The provider built by commit over (old provider, cut position, new bytes) answers any request strictly after the cut with the bytes of old[:cut] + new at that position, any request before it as the old provider does, and reports the total size.", "quantifier": "all data, all positions, any number of nested merges", "why_tests_cant": "All positions around the seam and all nesting depths.", "anchors": ["pdfsyntax/docstruct.py:merge_fdata", "pdfsyntax/docstruct.py:commit"]}
{"id": "C52", "title": "hexdump shows every byte of the requested range", "statement": "The hex column of hexdump(data) read back gives exactly data, ten bytes per line, with each line labelled by the offset of its first byte.", "quantifier": "all data", "why_tests_cant": "All lengths.", "anchors": ["pdfsyntax/filestruct.py:hexdump", "pdfsyntax/filters.py:ascii_hexdump_printable"]}
{"id": "C53", "title": "PDF version never decreases", "statement": "version(update_version(doc, v)) is the greatest (in the code's string order) of the header version, the previous catalog version and v; other catalog entries are unchanged.", "quantifier": "all documents, all version strings", "why_tests_cant": "All combinations.", "anchors": ["pdfsyntax/docstruct.py:version", "pdfsyntax/docstruct.py:update_version"]}
{"id": "C54", "title": "Layout statistics are what they claim", "statement": "most_frequent returns a key with the maximal count (the first such); minimum_x returns the smallest x of the blocks.", "quantifier": "all distributions, all block lists", "why_tests_cant": "All lists.", "anchors": ["pdfsyntax/layout.py:most_frequent", "pdfsyntax/layout.py:minimum_x", "pdfsyntax/layout.py:typical_font_size"]}
{"id": "C55", "title": "The HTML view never lets file content inject markup", "statement": "Text taken from the file (stream content, names, strings, keywords, comments) appears in the generated HTML without raw '<' or '>' characters.", "quantifier": "all file contents", "why_tests_cant": "All byte strings.", "anchors": ["pdfsyntax/graphics.py:printable_stream_content", "pdfsyntax/display.py:follow_obj", "pdfsyntax/display.py:add_comment"]}
{"id": "C56", "title": "Object streams index the objects they contain", "statement": "After appending any sequence of objects to an object stream and finalising it, parsing the stream returns the same objects with the same numbers in the same order.", "quantifier": "all sequences of well-formed objects", "why_tests_cant": "Offsets in the header depend on all previous objects.", "anchors": ["pdfsyntax/filestruct.py:append_to_stream_fragment", "pdfsyntax/filestruct.py:finalize_stream", "pdfsyntax/objects.py:parse_object_stream", "pdfsyntax/filestruct.py:get_pos_in_stream"]}
{"id": "C57", "title": "Adding a text annotation preserves existing content", "statement": "add_text_annotation adds exactly one annotation reference at the end of the page's annotation array, and every other object and page entry is unchanged.", "quantifier": "all documents, all pages", "why_tests_cant": "All documents.", "anchors": ["pdfsyntax/api.py:add_text_annotation"]}
{"id": "C58", "title": "in_use lists exactly the live objects", "statement": "in_use(doc) lists, in increasing order, the references of exactly the object numbers that have an entry and are not deleted.", "quantifier": "all documents and histories", "why_tests_cant": "All deletion patterns.", "anchors": ["pdfsyntax/docstruct.py:in_use", "pdfsyntax/docstruct.py:get_iref"]}
{"id": "C59", "title": "A deletion survives writing and reloading", "statement": "After an object is deleted, the document is written and the written bytes are loaded, the object is no longer found.", "quantifier": "all documents, all deleted object numbers", "why_tests_cant": "A free entry must be honoured at load time whatever the history.", "anchors": ["pdfsyntax/filestruct.py:build_xref_sequence", "pdfsyntax/docstruct.py:doc_constructor"]}
{"id": "C60", "title": "Loading terminates", "statement": "The loop that follows /Prev and /XRefStm ends on every file.", "quantifier": "all byte strings", "why_tests_cant": "Divergence only on adversarial chains.", "anchors": ["pdfsyntax/filestruct.py:build_xref_sequence"]}
{"id": "C61", "title": "Hybrid files keep the objects of the table", "statement": "In a file with a cross-reference table and an /XRefStm, the objects listed by the table are loaded.", "quantifier": "all hybrid files", "why_tests_cant": "Few hybrid files are available as test data.", "anchors": ["pdfsyntax/filestruct.py:build_xref_sequence", "pdfsyntax/docstruct.py:build_index_from_xref_sequence"]}
{"id": "C62", "title": "Pending edits are always written", "statement": "The bytes produced by writefile contain, for every pending change, a cross-reference entry leading to the new object (or a free entry for a deletion), after a byte-identical copy of the loaded file.", "quantifier": "all loaded files, all edits", "why_tests_cant": "All files and edit histories.", "anchors": ["pdfsyntax/api.py:writefile", "pdfsyntax/docstruct.py:commit"]}
{"id": "C63", "title": "Every listed object is loaded at its newest position", "statement": "For every object number listed by some cross-reference section, the newest column of the index holds the position given by the newest section that lists it.", "quantifier": "all files", "why_tests_cant": "All interleavings of sections and numbers.", "anchors": ["pdfsyntax/docstruct.py:build_index_from_xref_sequence"]}
{"id": "C64", "title": "squash leaves the given document unchanged", "statement": "After squash(doc), every object number of doc shows the same object as before the call.", "quantifier": "all documents, all deletion patterns", "why_tests_cant": "The references are renumbered in place in the cached objects of doc; whether this shows depends on which objects have moved and are referred to.", "anchors": ["pdfsyntax/docstruct.py:squash", "pdfsyntax/objects.py:deep_ref_retarget"]}
{"id": "C65", "title": "squash may be repeated", "statement": "squash(squash(doc)) succeeds whenever squash(doc) does, and shows the same objects as squash(doc).", "quantifier": "all documents, all deletion patterns", "why_tests_cant": "Depends on which numbers are deleted: the new entries keep the old numbers.", "anchors": ["pdfsyntax/docstruct.py:squash", "pdfsyntax/docstruct.py:defragment_map"]}
{"id": "C66", "title": "concat keeps the attributes of the pages", "statement": "After concat(a, b), each page of b has the effective inheritable attributes (/Resources, /MediaBox, /CropBox, /Rotate) that it had in b, references renumbered, and each page of a those that it had in a.", "quantifier": "all pairs of documents, all inheritable attributes", "why_tests_cant": "Depends on which attributes are defined at which level of the two page trees.", "anchors": ["pdfsyntax/docstruct.py:concat", "pdfsyntax/docstruct.py:flat_page_tree"]}
{"id": "C67", "title": "concat leaves the given target document unchanged", "statement": "After concat(a, b), the document a shows the same objects as before, and its pages are listed as before.", "quantifier": "all pairs of documents, all states of the cache of a", "why_tests_cant": "The root page node is changed in place; whether this shows in a depends on what had been read before.", "anchors": ["pdfsyntax/docstruct.py:concat", "pdfsyntax/docstruct.py:copy_doc"]}
{"id": "C68", "title": "Deletions survive a reload", "statement": "For every document, an object number that is not live when writefile is called does not resolve to an object in the document loaded from the bytes written.", "quantifier": "all documents and all object numbers", "why_tests_cant": "The outcome depends on the whole history of revisions that a number has gone through; a test sees a few histories.", "anchors": ["pdfsyntax/api.py:writefile", "pdfsyntax/docstruct.py:update_object", "pdfsyntax/filestruct.py:build_index_from_xref_sequence", "pdfsyntax/filestruct.py:parse_xref_table"]}
{"id": "C69", "title": "apply_filter changes the encoding and not the data", "statement": "After apply_filter(doc, streams, flt), each listed stream has the filter flt (or none if flt is empty), decodes to the same data as before, and keeps its other entries; every other object is unchanged. list_streams lists exactly the numbers in use whose object is a stream.", "quantifier": "all documents, all lists of stream numbers, all supported filters", "why_tests_cant": "The outcome depends on the filter that each stream already has, on the form of /Filter (name or array) and on the state of the cache.", "anchors": ["pdfsyntax/api.py:apply_filter", "pdfsyntax/api.py:list_streams", "pdfsyntax/docstruct.py:update_object"]}
{"id": "C70", "title": "Written files pass the checks of the disassembler", "statement": "For every file produced by writefile, the checks of dump_disasm find nothing: every entry of every cross-reference section leads to an object that the sequential scan of the file finds at this position with this number and generation, every object found by the scan is indexed, and the scan lists the cross-reference tables with their entries.", "quantifier": "all documents made with the library, all histories of edits, commits and reloads", "why_tests_cant": "The positions depend on the bytes of all objects of all revisions.", "anchors": ["pdfsyntax/filestruct.py:file_object_map", "pdfsyntax/filestruct.py:check_index_targets", "pdfsyntax/filestruct.py:check_not_indexed_objects", "pdfsyntax/filestruct.py:build_revision_byte_stream", "pdfsyntax/cli.py:dump_disasm"]}
{"id": "C71", "title": "Versions and limits of loaded objects", "statement": "In the index built when a file is loaded, the version number of an object never decreases from a revision to the next and two revisions in which it is equal hold the same entry; the limit abs_next of every entry is the least position after it among those declared by the cross-reference sections and the size of the file.", "quantifier": "all files that load, all revisions, all objects", "why_tests_cant": "The anchors of the HTML view are made of the version numbers and the reader cuts objects at abs_next, for any combination of sections.", "anchors": ["pdfsyntax/filestruct.py:build_xref_sequence", "pdfsyntax/filestruct.py:build_index_from_xref_sequence"]}
{"id": "C72", "title": "Text of a string shown with a ToUnicode map", "statement": "Decoding a shown string with the /ToUnicode map of its font gives, for every sequence of codes that the bfchar and bfrange sections map, the concatenation in order of the Unicode texts that the map gives to the codes, whatever the number and the order of the sections.", "quantifier": "all ToUnicode maps, all sequences of codes", "why_tests_cant": "Maps and strings are unbounded, and mistakes show only with some widths of codes and forms of ranges.", "anchors": ["pdfsyntax/text.py:apply_tounicode", "pdfsyntax/text.py:tokenize_string"]}
{"id": "C73", "title": "Text of a string shown with a simple encoding", "statement": "Decoding a string shown with a font that has no ToUnicode map gives one character per byte: the character that WinAnsiEncoding or MacRomanEncoding gives to the byte, for literal strings and for hexadecimal ones.", "quantifier": "all strings, both encodings", "why_tests_cant": "256 bytes by position by form of string.", "anchors": ["pdfsyntax/text.py:apply_encoding"]}
{"id": "C74", "title": "Text and displacement of Tj and TJ", "statement": "The text given for a Tj or TJ element is the concatenation of the texts of its strings, with a space where a number moves by more than a fifth of a space; its width is the sum of the widths of the glyphs minus the numbers of the array, in thousandths.", "quantifier": "all fonts, all arrays of strings and numbers", "why_tests_cant": "Arrays are unbounded and widths come from the font.", "anchors": ["pdfsyntax/text.py:text_element_to_unicode"]}
{"id": "C75", "title": "Text fragments of a page", "statement": "build_text_fragments gives one fragment per text-showing operator of the content of the page, in order, each with the text of the operator and the position that the text and transformation matrices give it.", "quantifier": "all sequences of content operators, all fonts", "why_tests_cant": "The state of the text machine depends on the whole sequence of operators.", "anchors": ["pdfsyntax/api.py:build_text_fragments", "pdfsyntax/graphics.py:parse_stream_content"]}
{"id": "C76", "title": "Spatial layout keeps the text of the page", "statement": "The text laid out from the blocks of a page holds all the characters of all the blocks and adds only spaces and line ends; blocks come line by line from top to bottom, left to right within a line, each starting at the column proportional to its abscissa unless it is glued to the preceding block or the line has already passed this column.", "quantifier": "all lists of blocks", "why_tests_cant": "Depends on the positions of all the blocks together.", "anchors": ["pdfsyntax/layout.py:basic_spatial_layout", "pdfsyntax/layout.py:typical_line_spacing", "pdfsyntax/layout.py:typical_char_width"]}
{"id": "C77", "title": "Text of a page", "statement": "The text extracted from a page is laid out from the content streams of this page, in order, decoded with the fonts that its resources (own or inherited) name, each with the widths and the decoding that its dictionary gives; nothing else in the document, and no earlier call, has an effect; the document is not changed.", "quantifier": "all documents with a well-formed page tree, all page numbers, all fonts", "why_tests_cant": "Fonts and contents are found through chains of references that have many legal shapes.", "anchors": ["pdfsyntax/api.py:extract_page_text", "pdfsyntax/api.py:get_page_contents", "pdfsyntax/docstruct.py:get_page_fonts", "pdfsyntax/docstruct.py:prepare_font"]}
{"id": "C78", "title": "List of fonts", "statement": "fonts gives one item per font used by the pages of the document, with the name, type and encoding of its dictionary and the list, in increasing order and without repetition, of the pages whose resources name it.", "quantifier": "all documents whose page fonts can be read", "why_tests_cant": "Any distribution of fonts over pages.", "anchors": ["pdfsyntax/api.py:fonts", "pdfsyntax/docstruct.py:get_page_fonts"]}
{"id": "C79", "title": "Packing into object streams is invisible to readers", "statement": "When a document is switched to a cross-reference stream, its objects are grouped into an object stream and it is written, the file loads again without error and every object is found at the same number with an equal value; exactly the objects that may not be in an object stream (streams, objects of a generation other than 0) stay out of it; the numbers without object still raise; the trailer keeps every key that is not about the file itself. Grouping alone changes nothing that can be read.", "quantifier": "for all documents of one revision held in memory whose objects are well-formed and whose streams are storable (non-empty, without endstream, not ending with CR), files of 100 bytes or more, cross-reference streams without filter and addresses of at most four bytes (or any filter, provided its output is storable)", "why_tests_cant": "The rows of the cross-reference stream, the widths, the offsets inside the object stream and the order of the two passes depend on the lengths of every object; a test with a few objects meets one width and one order.", "anchors": ["pdfsyntax/docstruct.py:393-415", "pdfsyntax/docstruct.py:672-690", "pdfsyntax/filestruct.py:442-487", "pdfsyntax/filestruct.py:490-640", "pdfsyntax/objects.py:353-400"]}
{"id": "C80", "title": "Compressing a document keeps its content", "statement": "When a document is compressed (squash, version 1.5, cross-reference stream, object stream, /FlateDecode on every stream), written and loaded, every object in use is found at its new number: a stream has the same data and the same entries but /Filter (now /FlateDecode) and /Length, any other object is the same with its references renumbered, the catalog being given the version 1.5 exactly when the version of the document was lower; the trailer leads to the catalog.", "quantifier": "for all documents without cross-reference stream and without objects in object streams, with any numbers not in use, whose objects are well-formed, whose references lead to objects in use, and whose streams have at most one supported filter and no predictor; for any zlib that is inverted by its decompression and does not produce endstream", "why_tests_cant": "Five steps rewrite the index, the numbers, the references, the catalog and every stream; a fault in any of them shows only for some arrangement of numbers, filters and sizes.", "anchors": ["pdfsyntax/api.py:204-233", "pdfsyntax/api.py:300-320", "pdfsyntax/docstruct.py:393-445", "pdfsyntax/docstruct.py:672-690", "pdfsyntax/docstruct.py:833-870"]}
{"id": "C81", "title": "The listing of a file says what is in the file and marks what the index gets wrong", "statement": "The disasm listing has, in the order of the file, one line per region, then one per cross-reference entry and per embedded object; the lines of the regions give positions and sizes that follow each other from 0 to the end of the file; an object is marked ?- exactly when no entry of the chain of sections leads to it, an entry of the chain is marked -? exactly when it leads to no object of the file; all the lines are cut into the same columns; a file written by the library has no such mark.", "quantifier": "for all files for which the listing is made; regions: those ending with an end of line; no marks: all documents the library can have made", "why_tests_cant": "The marks compare two independent readings of the file, the scan and the index; a confusion of addresses, sections or object streams shows only for files with a particular defect.", "anchors": ["pdfsyntax/cli.py:113-190", "pdfsyntax/cli.py:193-347", "pdfsyntax/filestruct.py:490-600"]}
{"id": "C82", "title": "The view of a file shows exactly the uses of each object", "statement": "In the view of a file there is one block for each object found in the file (and each table with its trailer); the uses shown in a block are exactly the objects and trailers of the last revision that hold, anywhere inside them, a reference to the object which the last revision places there.", "quantifier": "for all files ending with an end of line for which the view is made and whose index does not give one position to two numbers", "why_tests_cant": "The uses come from matching two readings of the file, the scan and the index of every revision; superseded versions, objects of object streams and trailers of older revisions must be dropped or kept in every combination.", "anchors": ["pdfsyntax/api.py:399-464", "pdfsyntax/cli.py:401-411", "pdfsyntax/objects.py:513-530"]}
{"id": "C83", "title": "The link to a page leads to the block of its current version", "statement": "In the view of a file, each page has a link, and the link is the id of exactly one block: the one at the position that the last revision gives to the page.", "quantifier": "for all files ending with an end of line for which the view is made, all lists of pages, and each page outside object streams, or in an object stream and never updated, whose reference has the generation of the index", "why_tests_cant": "Ids are made of numbers, generations and versions counted over the revisions; a duplicate or missing id shows only for some histories of updates.", "anchors": ["pdfsyntax/display.py:207-266", "pdfsyntax/display.py:558-613", "pdfsyntax/api.py:399-464"]}
{"id": "C84", "title": "The overview of a file shows its revisions, its format and whether it is encrypted or linearized", "statement": "overview of a written document shows as many revisions as there were commits with something to write; the paper format is the one whose size is that of the first page; the file is shown as linearized exactly when its first object is a dictionary with /Linearized; it is shown as encrypted exactly when its trailer has /Encrypt, and then the texts of the metadata are hidden.", "quantifier": "for all documents obtained by any history of operations, all files, all boxes", "why_tests_cant": "The number of revisions depends on the whole history of the document and on how the reader cuts the file.", "anchors": ["pdfsyntax/api.py:structure", "pdfsyntax/api.py:paper", "pdfsyntax/api.py:linearized", "pdfsyntax/docstruct.py:updates", "pdfsyntax/cli.py:overview"]}
{"id": "C85", "title": "The metadata shown are the texts of the information dictionary, and survive writing and loading", "statement": "metadata gives, for each of the eight entries of the information dictionary, its text (UTF-16BE or PDFDocEncoding, literal or hexadecimal, direct or through a reference), and nothing when it is absent or empty; writing a document and loading the file leaves the metadata as they are.", "quantifier": "for all documents, all texts, all escapings, all histories", "why_tests_cant": "All strings in all their written forms, for all histories of updates.", "anchors": ["pdfsyntax/api.py:metadata", "pdfsyntax/docstruct.py:info", "pdfsyntax/text.py:text_string"]}
{"id": "C86", "title": "Sessions above files with cross-reference streams and object streams", "statement": "After a file made of sections of any kind (cross-reference tables or cross-reference streams, objects in the file or in object streams) is loaded, a session of additions, updates, deletions, reads and revisions is a map from numbers to values: each number shows the last value given to it, or else what the file gives. Written, the document extends the bytes of the file, and the new file can be loaded and shows equal values.", "quantifier": "for all files of this form, all sessions, all numbers of revisions", "why_tests_cant": "All mixes of sections, all histories of updates above them, with the addresses that follow from them.", "anchors": ["pdfsyntax/api.py:writefile", "pdfsyntax/docstruct.py:commit", "pdfsyntax/filestruct.py:build_revision_byte_stream", "pdfsyntax/filestruct.py:build_index_from_xref_sequence", "pdfsyntax/docstruct.py:update_object"]}
{"id": "C87", "title": "Links of markdown texts", "statement": "Turning the links of a text into HTML ends exactly when every `](` is followed by a `)`; on a text made of plain parts, links and images, every link is shown as a link with its label and its address (that of the page for a markdown file), every image as an image, and the rest is kept.", "quantifier": "for all texts (termination); for all lists of parts without other brackets (output)", "why_tests_cant": "The divergence depends on the positions of three characters in a text of any length.", "anchors": ["pdfsyntax/markdown.py:link"]}
{"id": "C88", "title": "Marks of markdown texts", "statement": "On a text made of plain parts, code and emphases, every part is shown in its element with its text and nothing is lost or added.", "quantifier": "for all lists of parts", "why_tests_cant": "The loop jumps over characters after each emphasis: whether something is lost depends on what is around it.", "anchors": ["pdfsyntax/markdown.py:style"]}
{"id": "C89", "title": "Markdown documents", "statement": "A document made of paragraphs, titles, code, lists, tables and quotations is shown with every block in its element, in order, with its text, and nothing else.", "quantifier": "for all documents of this grammar, of any number of blocks and lines", "why_tests_cant": "Any succession of blocks: the state of the parser after each of them matters to the next.", "anchors": ["pdfsyntax/markdown.py:render_html", "pdfsyntax/markdown.py:parse_markdown", "pdfsyntax/markdown.py:assemble_html"]}
{"id": "C90", "title": "Rendering of markdown ends and is balanced", "statement": "The parser of markdown ends on every document; the whole rendering ends and makes a text when there is neither `]` nor `|`; the tags of what it makes are balanced.", "quantifier": "for all documents (termination); for all documents without `<` and `]`, line breaks and underlines of one character (balance)", "why_tests_cant": "Termination of a recursive parser and balance of the tags on all texts.", "anchors": ["pdfsyntax/markdown.py:parse_markdown", "pdfsyntax/markdown.py:render_html", "pdfsyntax/markdown.py:style"]}
{"id": "C91", "title": "The page that shows a file is well formed", "statement": "The HTML page made from a file is well-formed markup after the tag `<html>`: elements are closed in the reverse order of their opening, whatever is in the file. The ids of its elements are those of the blocks, one block per item of the file, in the order of the file.", "quantifier": "for all files that end with an end of line and of which the page is made, whose objects are tidy and whose comments, keywords and version have no angle bracket", "why_tests_cant": "The page depends on every byte of the file; nesting and truncation must preserve balance for all objects of any depth.", "anchors": ["pdfsyntax/display.py:build_html", "pdfsyntax/display.py:follow_obj", "pdfsyntax/display.py:follow_dict", "pdfsyntax/display.py:follow_list", "pdfsyntax/cli.py:browse"]}
{"id": "C92", "title": "Links of the navigation panel", "statement": "In the page made from a file, the minimap has one link per object and table in the order of the file, and each leads to an element of the page; the panel has one link per page in the order of the pages, and exactly one element has the id to which it leads.", "quantifier": "for all files as for C91 (minimap); for all files and pages as for C83 (pages)", "why_tests_cant": "Uniqueness of the ids and liveness of the links over all files and all histories of revisions.", "anchors": ["pdfsyntax/display.py:build_nav_objects", "pdfsyntax/display.py:build_nav_pages", "pdfsyntax/display.py:build_obj_header", "pdfsyntax/cli.py:browse"]}
{"id": "C93", "title": "Iteration over the pages of a document", "statement": "Iterating over a document gives, in order, one document for each page, which shows this page and no other with the attributes that it inherits, and leaves the iterated document as it was.", "quantifier": "for all documents that can be edited and page trees as for C33 whose root has the number of its pages as direct /Count", "why_tests_cant": "All shapes of page trees, sharing of objects between pages, and any order of the sets that Python goes through.", "anchors": ["pdfsyntax/docstruct.py:Doc.__iter__", "pdfsyntax/docstruct.py:Doc.__next__", "pdfsyntax/docstruct.py:keep_pages"]}
{"id": "C94", "title": "Tables of the command line", "statement": "A table is printed with one line for each row in order, each cell cut or filled to the width of its column; the command fonts prints one line for each font used in a page, with its name, type, encoding, object number and number of pages.", "quantifier": "for all tables with as many cells as columns; for all documents as for C78 where no page has two names for one font", "why_tests_cant": "All lengths of cells and all documents.", "anchors": ["pdfsyntax/cli.py:print_generic_table", "pdfsyntax/cli.py:print_fonts"]}
{"id": "C95", "title": "Matrix of the cache", "statement": "In the printed matrix, under the last digit of the number of an object and on the line of its other digits, there is one mark, which tells whether the object is changed and how, in memory, or neither.", "quantifier": "for all documents and all objects below 100000", "why_tests_cant": "Alignment for every number of objects and all sequences of changes.", "anchors": ["pdfsyntax/docstruct.py:pprint_cache"]}
{"id": "C96", "title": "History of the data", "statement": "The history of the data shows, for each revision in order, the kind of its provider, the size of its data, the size of the part it adds and where it is cut.", "quantifier": "for all documents of one or two revisions whose data have a size", "why_tests_cant": "Every kind of provider and every number of revisions; the exchange of columns only appears from three revisions on.", "anchors": ["pdfsyntax/docstruct.py:pprint_data_history"]}
{"id": "C97", "title": "Printed tree of pages", "statement": "The tree of pages is printed in full: the count that the root announces, then one line per node and page, every node before its kids and its kids in order, indented according to their levels; the pages are numbered from 0 in the order of the list of pages, and the document is unchanged.", "quantifier": "for all documents and page trees with direct arrays of kids, less deep than the recursion limit", "why_tests_cant": "All shapes of trees; the numbering is threaded through the recursion.", "anchors": ["pdfsyntax/docstruct.py:pprint_page_hierarchy", "pdfsyntax/docstruct.py:flat_page_tree"]}
{"id": "C98", "title": "Every text of an object is read as this object", "statement": "Whatever program wrote it, and wherever it is in a file, the text of an object is read as this object: white space and comments between tokens or none where none is needed, signs, leading zeros, decimal points anywhere, hexadecimal strings next to the end of a dictionary, any end of line around the data of a stream; two texts of the same object give equal objects, and so do indirect objects read from the position that the index gives.", "quantifier": "for all objects, all their texts (as given by the grammar of ISO 32000 7.2 and 7.3), all positions and all that precedes and follows", "why_tests_cant": "Unbounded nesting, unbounded amounts of white space and comments, and all combinations of the ways of writing each token.", "anchors": ["pdfsyntax/objects.py:parse_obj", "pdfsyntax/objects.py:next_token", "pdfsyntax/objects.py:replace_ref", "pdfsyntax/docstruct.py:memoize_obj_in_cache"]}
{"id": "C99", "title": "Files written by any program are read, edited and written again", "statement": "A file whose text follows ISO 32000 (header, objects written in any way, tables and cross-reference streams in any number and mix, object streams, one end mark) can be loaded whatever program wrote it: each number shows the object that the newest section gives for it, a number that no section uses shows nothing, and the trailer is that of the newest section. After a session of any number of operations and revisions the file that is written starts with the bytes of the first one, can be loaded, and shows the last value of the numbers that were set and the objects of the first file for the others.", "quantifier": "for all files that match the text specification, all their sections and numbers, all sessions", "why_tests_cant": "Unbounded numbers of sections, rows, objects and revisions, and all combinations of the ways of writing each of them.", "anchors": ["pdfsyntax/filestruct.py:build_xref_sequence", "pdfsyntax/objects.py:parse_xref_table_raw", "pdfsyntax/objects.py:parse_object_stream", "pdfsyntax/filestruct.py:build_index_from_xref_sequence", "pdfsyntax/docstruct.py:memoize_obj_in_cache", "pdfsyntax/api.py:loads", "pdfsyntax/api.py:writefile"]}
{"id": "C100", "title": "ASCII texts of stream data are decoded", "statement": "A stream whose filter is ASCII85Decode or ASCIIHexDecode gives the data that its text stands for: any data, any of its texts according to ISO 32000 7.4 (groups of five digits, the letter z for four zeros, a last partial group; two hexadecimal digits of either case for each byte), with white space anywhere.", "quantifier": "for all data, all their texts, all the ways of adding white space", "why_tests_cant": "Unbounded data; every group of four bytes and every length of the last group; white space anywhere.", "anchors": ["pdfsyntax/filters.py:decode_stream"]}
{"id": "C101", "title": "What the page shows of an object is a text of this object", "statement": "In the page that shows a file, what a reader sees of an object (tags removed, entities replaced) is a text of this object according to the grammar of ISO 32000, whatever its nesting, its strings and its order of entries, or contains the mark of what is left out; read again it gives an equal object. Strings are shown whole up to thirty characters; the data of a stream follow its dictionary, as they are or as hexadecimal digits.", "quantifier": "for all objects, all depths, all indexes", "why_tests_cant": "Unbounded nesting of arrays and dictionaries, all strings with characters that need escaping, all orders of the entries.", "anchors": ["pdfsyntax/display.py:follow_obj", "pdfsyntax/display.py:move_list_item", "pdfsyntax/graphics.py:printable_stream_content"]}
{"id": "C102", "title": "A squashed document is written and its file shows the same document", "statement": "Squashing a document, writing it and loading the file gives a document that has exactly the objects in use of the document given, numbered from 1 without gaps; following any path of keys, indices and references from the root leads to an equal thing, up to the new numbers.", "quantifier": "for all documents, objects and paths", "why_tests_cant": "Every graph of objects, every gap in the numbers, every path; composition of renumbering, serialization, cross-reference table and parsing.", "anchors": ["pdfsyntax/docstruct.py:squash", "pdfsyntax/api.py:writefile", "pdfsyntax/docstruct.py:loads"]}
{"id": "C103", "title": "Page operations survive writing and loading", "statement": "The file that is written after rotating or removing pages shows, once loaded, the expected list of pages: same order, same entries and same inherited attributes; the selected pages have turned by the given angle modulo 360, the removed ones are not there any more.", "quantifier": "for all documents, page trees, angles and selections", "why_tests_cant": "All page trees, all selections, all documents with any history; composition of the operation, the incremental update and the reading of the file.", "anchors": ["pdfsyntax/api.py:rotate", "pdfsyntax/docstruct.py:remove_pages", "pdfsyntax/api.py:writefile", "pdfsyntax/docstruct.py:flat_page_tree"]}
{"id": "C104", "title": "Slices and joined documents survive writing and loading", "statement": "The file that doc[i] or doc[a:b:c] is written to shows, once loaded, exactly the pages that Python chooses, in document order, with their entries and inherited attributes. The file that the concatenation of two documents is written to shows the pages of the one followed by those of the other; every object of the first keeps its value, the root page node excepted, and the objects of the second come after them with the same values up to the new numbers.", "quantifier": "for all pairs of documents, page trees, indices and slices", "why_tests_cant": "All pairs of page trees and object graphs, all histories of the documents, all slices; composition of squash, renumbering, incremental update and reading of the file.", "anchors": ["pdfsyntax/docstruct.py:Doc.__getitem__", "pdfsyntax/docstruct.py:keep_pages", "pdfsyntax/docstruct.py:concat", "pdfsyntax/api.py:writefile", "pdfsyntax/docstruct.py:loads"]}
{"id": "C105", "title": "Streams given another filter survive writing and loading", "statement": "After apply_filter on some streams, the file that is written and loaded shows each of these streams with the requested filter, decoding to the same data, with its other entries; every other object keeps its value.", "quantifier": "for all documents, lists of streams, data and filters", "why_tests_cant": "All byte strings as data, all lists of streams, any history of the document; composition of encoding, incremental update, search of endstream and decoding.", "anchors": ["pdfsyntax/api.py:apply_filter", "pdfsyntax/filters.py:encode_stream", "pdfsyntax/filters.py:decode_stream", "pdfsyntax/api.py:writefile"]}
{"id": "C106", "title": "Linearized files", "statement": "A linearized file, whose two cross-reference sections are read in the order opposite to that of the file, is loaded: each number shows the object that the section read first gives for it, or else the main section; numbers that no section lists show nothing; the trailer has the entries of both sections, the first one winning. A linearized file can be edited and written like any other.", "quantifier": "for all linearized files, with tables or cross-reference streams, with any objects, and all sessions", "why_tests_cant": "All texts of files of the specification, all numbers, all sequences of edits; the failure of updates depends on which entry the object number 1 has, which no sample file shows in general.", "anchors": ["pdfsyntax/filestruct.py:build_xref_sequence", "pdfsyntax/filestruct.py:build_xref", "pdfsyntax/docstruct.py:commit", "pdfsyntax/api.py:loads"]}
{"id": "C107", "title": "The table of the index tells the version and the position of each object", "statement": "The printed table of the index has one line per object number, all of the same length with the bars at the same places, and one column per revision. From a line alone, the generation, the version and the position of the object in each revision can be read: the nearest column to the left that is not marked as unchanged gives them. The mark of a deletion is shown exactly where the object is deleted, and the mark of an unchanged object only where there is an object.", "quantifier": "for all documents, object numbers and revisions", "why_tests_cant": "A cell depends on what was last shown in its row, over any number of revisions, and its width on all the rows; a table wrong in one column of a long history looks right.", "anchors": ["pdfsyntax/docstruct.py:pprint_index"]}
{"id": "C108", "title": "An annotation added to a page is in the file that is written", "statement": "A document to which a text annotation has been added, written and loaded again, shows the annotation under its number with the text, the rectangle and the flag that were given. The page shows its other entries as before, and its annotations are the old ones in the same order followed by the new one. The other objects are the same.", "quantifier": "for all documents that can be written, pages, texts, rectangles and flags", "why_tests_cant": "The text is put in the file without being escaped, next to the other entries of the annotation; whether it comes back depends on every character of it, and on its place in the syntax of dictionaries.", "anchors": ["pdfsyntax/api.py:add_text_annotation", "pdfsyntax/api.py:writefile", "pdfsyntax/objects.py:serialize"]}
{"id": "C109", "title": "The details of the disassembly say what the dictionaries and comments hold", "statement": "Each printed line of the disassembly is the columns of the listing followed by a detail, and all the lines have the same length. The detail of a dictionary, a stream or a trailer is made of its type, of a mark when it holds a script and of the listed keys it has, and of nothing else: the mark is shown when there is a script, and only then. The detail of a comment is its first bytes, in hexadecimal when they are not ASCII. The other lines have none.", "quantifier": "for all files that can be disassembled", "why_tests_cant": "The mark of scripts is read by people who look for malicious files; whether it can be missing or forged depends on all the ways a dictionary can be written, and the widths on all the lines.", "anchors": ["pdfsyntax/cli.py:keys_in_line", "pdfsyntax/cli.py:dump_disasm", "pdfsyntax/cli.py:print_disasm_columns"]}
{"id": "C110", "title": "The page made by browse, read without its tags, shows the file in order", "statement": "The page made by browse, once its tags are removed and its entities replaced, is: one part for each item of the file, in the order of the file, with its position and its text (the number and generation that the index gives to an object, the objects that use it, and a text of the object according to the grammar of PDF; the rows and the trailer of a cross-reference table; the rows of a cross-reference stream; the position given by startxref; the first bytes of a comment), then the name of the file, the information about the document, the numbers of the pages, and one line for each object or table in the minimap.", "quantifier": "for all files for which the page is made", "why_tests_cant": "The page is assembled by concatenation from about twenty functions, each opening and closing tags around texts of the file; that no text is swallowed by a tag, moved or lost depends on the bytes of the file.", "anchors": ["pdfsyntax/display.py:build_html", "pdfsyntax/display.py:build_obj_header", "pdfsyntax/display.py:follow_obj", "pdfsyntax/display.py:build_xref_table", "pdfsyntax/display.py:build_xref_stream", "pdfsyntax/display.py:add_comment", "pdfsyntax/display.py:build_nav_info", "pdfsyntax/display.py:build_nav_objects"]}
{"id": "C111", "title": "Commands change no file but the one named by -o, and print nothing when they fail", "statement": "A command of the command line changes no file except the one that -o of compress names, and that one only when the command ends without an exception: it then holds the bytes of the compressed document, the same that go to the standard output when no name is given. A command that raises leaves the files and the standard output as they were, except text, which prints the pages in order as they are laid out: each is the text of that page of the file as loaded, whatever was printed before, and the pages before the one that fails stay printed. The file can be read back from what hexdump prints. pprint_page_contents prints the content streams of a page.", "quantifier": "for all states of the files, all commands, input names and output names", "why_tests_cant": "That nothing is written or printed before the last computation that can raise, and that a page does not depend on the calls made before it (the shared default argument of flat_page_tree, the cache of objects), are about every file and every point of failure.", "anchors": ["pdfsyntax/cli.py:main", "pdfsyntax/cli.py:spatial", "pdfsyntax/cli.py:compress_file", "pdfsyntax/cli.py:hexdump_cli", "pdfsyntax/api.py:readfile", "pdfsyntax/api.py:writefile", "pdfsyntax/api.py:pprint_page_contents"]}
{"id": "C112", "title": "The text of the pages survives writing and loading", "statement": "Writing a document and loading the file leaves the number of pages and the text of every page that could be laid out as they were; the text command on the file prints these texts in order.", "quantifier": "for all documents made by editing and writing, all pages, all recursion limits, all previous calls", "why_tests_cant": "The text of a page goes through the page tree, the resources, the fonts, their widths, their character maps and the content streams, each direct or by reference, and dictionaries may be read back in another order; that nothing of this is lost or laid out otherwise is about every document.", "anchors": ["pdfsyntax/api.py:extract_page_text", "pdfsyntax/api.py:get_page_contents", "pdfsyntax/docstruct.py:get_page_fonts", "pdfsyntax/docstruct.py:prepare_font", "pdfsyntax/docstruct.py:flat_page_tree", "pdfsyntax/api.py:writefile", "pdfsyntax/cli.py:spatial"]}
{"id": "C113", "title": "Operations on pages leave the text of the pages alone", "statement": "Rotating pages leaves the text of every page as it was. Removing pages, or keeping some of them with a slice, leaves the text of each page that remains as it was, at its new position. The texts of the pages of a concatenation are those of the first document followed by those of the second one.", "quantifier": "for all documents, all pages, angles, selections and slices, all iteration orders of sets, all previous calls", "why_tests_cant": "Removal deletes what only removed pages use and concatenation renumbers everything; that no font, width, character map or content stream of another page is lost or confused, however objects are shared, is about every graph of objects.", "anchors": ["pdfsyntax/api.py:extract_page_text", "pdfsyntax/api.py:rotate", "pdfsyntax/docstruct.py:remove_pages", "pdfsyntax/docstruct.py:keep_pages", "pdfsyntax/docstruct.py:concat", "pdfsyntax/docstruct.py:get_page_fonts"]}
{"id": "C114", "title": "Operations on pages, then the text command on the file", "statement": "The text command on the file that is written after rotating pages prints the texts that the pages had before. After removing pages, or keeping some of them with a slice, it prints the texts that the remaining pages had, in order. On the file of a concatenation it prints the texts of the pages of the first document, then those of the second one. Nothing else is printed, and the command succeeds.", "quantifier": "for all documents made by editing and writing, all page trees, angles, selections and slices, all iteration orders of sets", "why_tests_cant": "Composition of the operation, the incremental update, the reading of the file and the layout of every page, for every graph of objects, every history of the document and every selection.", "anchors": ["pdfsyntax/cli.py:spatial", "pdfsyntax/api.py:rotate", "pdfsyntax/docstruct.py:remove_pages", "pdfsyntax/docstruct.py:Doc.__getitem__", "pdfsyntax/docstruct.py:concat", "pdfsyntax/api.py:writefile", "pdfsyntax/api.py:extract_page_text"]}
{"id": "C115", "title": "An annotation leaves the text of the pages alone", "statement": "Adding a text annotation to a page succeeds, and the text of every page of the document that could be extracted before is extracted after, unchanged. When the document is then written, the text command on the file prints the texts that the pages had before the annotation, and nothing else.", "quantifier": "for all documents made by editing, all page trees, all pages and page numbers (negative ones too) for the annotation, all texts, rectangles and flags, all pages whose text is extracted", "why_tests_cant": "The edit touches the page or an array that any object may refer to; that the layout of every page reads none of it holds for every graph of objects, not for some files.", "anchors": ["pdfsyntax/api.py:add_text_annotation", "pdfsyntax/api.py:extract_page_text", "pdfsyntax/api.py:get_page_contents", "pdfsyntax/docstruct.py:flat_page_tree", "pdfsyntax/cli.py:spatial", "pdfsyntax/api.py:writefile"]}
