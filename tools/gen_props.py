#!/usr/bin/env python3
"""Writes /verif/properties.jsonl (one JSON object per property)."""
import json, os
P = []
def p(title, statement, quantifier, why, anchors):
    P.append(dict(id=f"C{len(P)+1:02d}", title=title, statement=statement,
                  quantifier=quantifier, why_tests_cant=why, anchors=anchors))
O='pdfsyntax/objects.py'; F='pdfsyntax/filestruct.py'; D='pdfsyntax/docstruct.py'
A='pdfsyntax/api.py'; FI='pdfsyntax/filters.py'; T='pdfsyntax/text.py'; G='pdfsyntax/graphics.py'
L='pdfsyntax/layout.py'; C='pdfsyntax/cli.py'; DI='pdfsyntax/display.py'

# --- objects: tokenizer, parser, serializer
p("Serialised objects parse back to the same object",
  "For every PDF object built from booleans, integers, decimal reals, names, keywords, literal and hexadecimal strings, indirect references, arrays and dictionaries nested to any depth, parse_obj applied to the bytes serialize produced (followed by any delimiter) returns an object equal (Python ==) to the original.",
  "all well-formed objects, all nesting depths, all sizes, all bytes following the object",
  "The object space is infinite and recursive; a test samples a handful of shapes and cannot exclude a nesting, neighbour or string content that makes the tokenizer lose synchronisation.",
  [f"{O}:serialize", f"{O}:to_str", f"{O}:parse_obj", f"{O}:next_token", f"{O}:replace_ref"])
p("Stream objects survive writing and reading",
  "For every stream object (dictionary plus encoded bytes) that is serialised, parsing the bytes yields a stream with an equal dictionary and identical encoded bytes, whatever the encoded bytes are.",
  "all dictionaries, all byte strings used as encoded content",
  "Content is arbitrary compressed binary; the failing contents (ending in CR, empty, containing the end marker) are rare points of an infinite space.",
  [f"{O}:serialize", f"{O}:parse_obj", f"{O}:next_token", f"{O}:Stream"])
p("The tokenizer always terminates with an in-bounds, advancing result",
  "For every byte string and every start index inside it, next_token returns (h, j, type) with start <= h <= j <= len(text); a typed token is non-empty (h < j) and so scanning progresses; an untyped result means either the text is exhausted or a closing bracket was met at h.",
  "all byte strings, all start positions",
  "The scanner is a ten-mode automaton over unbounded input; malformed inputs are unbounded in number.",
  [f"{O}:next_token"])
p("Typed tokens have the lexical shape their type promises",
  "For every input, a NAME token starts with '/' and contains no white space or delimiter afterwards; an INTEGER token contains no '.', a REAL token contains one, KEYWORD/TRUE/FALSE tokens start with a letter and contain no white space or delimiter and TRUE/FALSE are exactly those words; a COMMENT starts with '%' and holds no EOL; DICT tokens start with '<<' and end with '>>'; ARRAY tokens start with '[' and end with ']'; STREAM tokens start with 'stream' and end with 'endstream'; and each name/number/keyword token is maximal.",
  "all byte strings, all start positions, all token types",
  "It is a claim about every byte string the scanner can be given, including malformed ones.",
  [f"{O}:next_token"])
p("Parsing an object is independent of what precedes it in the file",
  "parse_obj(prefix + text, len(prefix)) equals parse_obj(text, 0), and next_token positions are simply shifted, for every prefix: an object means the same wherever it is stored.",
  "all prefixes, all texts (well-formed or not)",
  "Quantifies over all pairs of byte strings.",
  [f"{O}:next_token", f"{O}:parse_obj"])
p("The parser terminates on every input",
  "parse_obj returns a value or raises for every byte string: it never loops forever on a malformed file.",
  "all byte strings, all start positions",
  "Non-termination cannot be observed by a finite test and hanging inputs are rare.",
  [f"{O}:parse_obj"])
p("Retargeting rewrites every reference and nothing else",
  "deep_ref_retarget(obj, mapping) returns obj with each indirect reference r in it replaced by mapping[r] when mapped and left alone otherwise, at every depth; all non-reference leaves, keys, array lengths and nesting are unchanged.",
  "all objects of any depth, all mappings",
  "Recursive structure and arbitrary finite maps.",
  [f"{O}:deep_ref_retarget"])
p("Reference detection finds exactly the references of an object",
  "deep_ref_detect(container) is the set of indirect references occurring anywhere in the dictionary, array or stream dictionary; no more, no fewer.",
  "all objects of any depth",
  "Recursive structure of unbounded depth.",
  [f"{O}:deep_ref_detect"])
# --- filters
p("Single-filter encode/decode round trip",
  "For every byte string and each supported filter (none, /ASCIIHexDecode, /ASCII85Decode, /FlateDecode given a correct zlib), decode_stream(encode_stream(x, d), d) == x.",
  "all byte strings, each filter",
  "Byte strings of every length including the ASCII85 partial groups and the all-zero group.",
  [f"{FI}:encode_stream", f"{FI}:decode_stream", f"{FI}:asciihex"])
p("Filter pipelines are decoded by composing their stages",
  "With a /Filter array [f1, ..., fn] decode_stream applies f1's decoder first, feeds its output to f2's decoder and so on; consequently what encode_stream wrote with the same dictionary is recovered.",
  "all filter lists, all byte strings",
  "All list lengths and contents.",
  [f"{FI}:encode_stream", f"{FI}:decode_stream"])
p("PNG 'Up' predictor is inverted exactly",
  "For every row length and every list of rows, decode_predictor applied to the PNG-Up encoding of the rows returns the concatenated original rows.",
  "all column counts, all row counts, all byte values",
  "Row-to-row dependence makes every byte depend on the whole history above it.",
  [f"{FI}:decode_predictor"])
p("/Length written is the extent of the stream data",
  "After forge_stream on a dictionary with a direct integer /Length, the /Length entry equals the number of bytes between the newline following 'stream' and the 'endstream' keyword in serialize's output, and no other entry is changed.",
  "all dictionaries, all contents, all filters",
  "All contents and encoders.",
  [f"{O}:forge_stream", f"{O}:update_internal_stream_length", f"{O}:serialize"])
# --- xref
p("Cross-reference stream rows decode to what was encoded",
  "For every list of entries whose fields fit in the chosen column width, the xref stream rows produced when committing decode (parse_xref_stream_raw) to exactly the same free / in-use / embedded entries in the same order with the same object numbers.",
  "all entry lists, all widths, all field values that fit",
  "Unbounded numbers and list lengths; multi-byte packing.",
  [f"{F}:format_xref_stream", f"{O}:parse_xref_stream_raw", f"{O}:expand_xref_index"])
p("Cross-reference tables parse back to what was written",
  "For every sorted list of entries, the xref table text produced when committing parses (parse_xref_table_raw) to the same entries: same object numbers, offsets, generations and n/f keyword, in the same order, with subsection headers that count exactly the lines that follow.",
  "all entry lists (any gaps between object numbers), all offsets and generations",
  "Subsection grouping depends on the whole gap structure of the list.",
  [f"{F}:format_xref_table", f"{O}:parse_xref_table_raw"])
p("Index pairs expand to the numbers they describe",
  "expand_xref_index([s1,n1,s2,n2,...]) (all counts >= 1) lists s1..s1+n1-1 tagged 0, then s2..s2+n2-1 tagged 1, ...; and grouping any strictly increasing list of object numbers into /Index pairs then expanding returns that list.",
  "all index arrays, all increasing object number lists",
  "All gap patterns.",
  [f"{O}:expand_xref_index", f"{F}:format_xref_stream"])
p("Deleted objects form one circular free list",
  "Following circular_deleted from object 0 visits every deleted object of the revision exactly once, in the order of the change list, and comes back to 0.",
  "all change lists with distinct object numbers",
  "A claim about every list length; errors appear only at the ends of the chain.",
  [f"{F}:circular_deleted"])
p("Xref stream column width is always sufficient",
  "The column width chosen when writing an xref stream can hold every field of every row, so writing never fails.",
  "all entry lists",
  "Failure happens only for particular magnitudes.",
  [f"{F}:format_xref_stream"])
# --- revision bytes
p("Every offset recorded in a new revision points at its object",
  "For every change list, each in-use entry (num, gen, offset) that build_revision_byte_stream writes in the xref satisfies: the bytes of previous-file + revision at that offset start with 'num gen obj' followed by the serialised object, 'endobj'; the same offset is stored in the returned index.",
  "all change lists, all objects, all starting positions",
  "Offsets accumulate over all earlier fragments; one off-by-one shifts all following entries.",
  [f"{F}:build_revision_byte_stream", f"{F}:serialize_fragment"])
p("startxref and end marker are exact",
  "The revision ends with 'startxref\\nN\\n%%EOF\\n' where N is the absolute position of the xref section ('xref' keyword or xref stream object) in the resulting file.",
  "all change lists, both xref styles",
  "Depends on total length of all fragments.",
  [f"{F}:build_revision_byte_stream"])
p("The original bytes are never altered by writing",
  "Whatever edits and commits are applied to a document loaded from bytes B, the bytes produced by writefile start with the prefix of B up to the end of its last revision and everything new is appended after it.",
  "all source files, all edit histories",
  "Any number of edits and commits in any order.",
  [f"{A}:writefile", f"{D}:commit", f"{F}:build_revision_byte_stream", f"{D}:revision_index"])
p("Committing without changes is a no-op",
  "commit(doc) with no pending change returns a document identical to doc; hence commit is idempotent: commit(commit(d)) shows the same revisions, objects and bytes as commit(d).",
  "all documents and histories",
  "All reachable documents.",
  [f"{D}:commit", f"{D}:changes"])
p("changes() reports exactly the pending edits",
  "After any sequence of add/update/delete operations since the last commit, changes(doc) lists each touched object exactly once, as 'a' if it was added in this revision, 'd' if it existed and is now deleted, 'u' otherwise; untouched objects are not listed.",
  "all operation sequences",
  "All interleavings of operations on all objects.",
  [f"{D}:changes", f"{D}:update_object", f"{D}:add_object"])
p("The document behaves like a map from object numbers to objects",
  "get_object after any sequence of add_object/update_object/commit returns the last value written for that number, None if it was last deleted, and the value stored in the file if never written; operations on one number do not affect others; add_object returns a fresh number.",
  "all operation sequences and all object numbers",
  "History-dependent: every sequence of operations.",
  [f"{D}:get_object", f"{D}:update_object", f"{D}:add_object", f"{D}:memoize_obj_in_cache"])
p("Documents are immutable: edits never change an existing Doc",
  "After any sequence of update_object/add_object (with immut=True), commit and reads applied to documents derived from d, every observation of d (objects, changes, revisions) is what it was before.",
  "all operation sequences, all aliasing patterns created by shallow copies",
  "Aliasing bugs depend on which lists and dicts are shared by which history.",
  [f"{D}:copy_doc", f"{D}:update_object", f"{D}:add_object", f"{D}:commit", f"{D}:force_xref_stream"])
p("Memoisation is invisible",
  "The value returned by get_object(doc, ref) does not depend on which references were read before, in which order, or how many times.",
  "all read sequences",
  "All orders of reads.",
  [f"{D}:memoize_obj_in_cache", f"{D}:get_object"])
p("rewind undoes the last commit",
  "rewind(commit(d)) exposes the same object for every number as d, has one revision fewer than commit(d), and its pending changes are those of d.",
  "all documents with pending changes",
  "All documents and change sets.",
  [f"{D}:rewind", f"{D}:commit"])
p("Deleting objects can always be committed",
  "Any document in which some objects were deleted can be committed.",
  "all documents, all deletions, at any revision",
  "The crash needs a particular combination of revision count and history.",
  [f"{D}:changes", f"{D}:commit", f"{F}:build_revision_byte_stream", f"{O}:to_str"])
p("Written documents reload to the same objects",
  "For every document whose objects are well-formed, loading the bytes produced by writefile gives a document in which every live object number resolves to an equal object and the trailer /Root is the same.",
  "all well-formed documents",
  "End-to-end over serialisation, xref layout, tokenisation and index building for all documents.",
  [f"{A}:writefile", f"{A}:loads", f"{F}:build_xref_sequence", f"{F}:build_index_from_xref_sequence", f"{D}:memoize_obj_in_cache"])
# --- pages
p("flat_page_tree lists pages in document order with nearest-ancestor inheritance",
  "For every finite page tree, flat_page_tree returns the leaves left to right, each with exactly the inheritable attributes of its ancestors, the nearest ancestor winning.",
  "all page trees of any shape and depth",
  "All tree shapes and attribute placements.",
  [f"{D}:flat_page_tree", f"{D}:pages"])
p("Page listing depends only on the document",
  "flat_page_tree(doc) gives the same answer regardless of which other documents were inspected before.",
  "all histories of calls on other documents",
  "The leak needs a particular earlier call in the same process.",
  [f"{D}:flat_page_tree"])
p("max_nb bounds the page list without changing its beginning",
  "pages listed with max_nb = m agree with the full list on the first m pages, and no more than m are returned.",
  "all page trees, all m >= 1",
  "All tree shapes.",
  [f"{D}:flat_page_tree", f"{D}:pages", f"{A}:page_layouts"])
p("rotate adds angles modulo 360 and touches only the selected pages",
  "After rotate(doc, a, sel) each selected page's effective rotation is (old + a) mod 360, where old takes inheritance into account, and every other page and object is unchanged; rotations compose additively and rotating by a then -a restores effective rotations modulo 360.",
  "all documents, all angles, all page selections",
  "All integers and selections, all page trees.",
  [f"{A}:rotate", f"{A}:page_layouts"])
p("remove_pages removes exactly the selected pages",
  "After remove_pages(doc, S) the page list is the old one without the positions in S, in the same order, and every /Count on the path is decremented once per removed page below it.",
  "all page trees, all subsets S",
  "All tree shapes and subsets, independent of set iteration order.",
  [f"{D}:remove_pages", f"{D}:keep_pages"])
p("Removing pages never deletes objects still used by kept pages",
  "No object reachable from a kept page (not through /Parent or /P) is deleted by remove_pages.",
  "all object graphs, all subsets of pages",
  "All sharing patterns between pages.",
  [f"{D}:remove_pages", f"{D}:dependencies"])
p("Slicing a document keeps exactly the pages Python slicing selects",
  "doc[i] keeps page i mod n; doc[a:b:c] keeps the pages at the positions range(*slice.indices(n)), in document order.",
  "all n, all integers / slices",
  "All integer combinations, negative and out of range.",
  [f"{D}:Doc.__getitem__", f"{D}:keep_pages"])
p("concat appends the pages of one document to the other",
  "concat(a, b) has page list pages(a) followed by the renumbered pages(b), page count the sum, existing objects of a other than its root page node are unchanged, and all copied references are renumbered consistently.",
  "all pairs of documents",
  "All object graphs.",
  [f"{D}:concat", f"{O}:deep_ref_retarget"])
p("squash renumbers consistently and loses no live object",
  "squash(doc) has exactly one slot per live object of doc, numbered 1..n without gaps, and following any path of keys/indices/references from the catalog gives the same result (up to renumbering) in doc and in squash(doc).",
  "all documents",
  "All object graphs and deletion patterns.",
  [f"{D}:squash", f"{D}:defragment_map", f"{O}:deep_ref_retarget"])
# --- text
p("PDFDocEncoding decoding is total, length preserving and injective",
  "decode_pdfdoc accepts every byte string, returns as many characters as bytes, maps printable ASCII to itself, and never maps two different byte strings to the same text.",
  "all byte strings",
  "All byte strings.",
  [f"{T}:decode_pdfdoc", f"{T}:prepare_pdfdoc_charset"])
p("Unescaping inverts escaping of literal strings",
  "For every byte string s, unescape_literal_string applied to s with backslash, parentheses (and optionally any other byte as a 3-digit octal escape) escaped returns s.",
  "all byte strings, all choices of escaping style per byte",
  "All byte strings and escape choices.",
  [f"{T}:unescape_literal_string"])
p("Text strings in UTF-16BE hexadecimal or literal form decode to their characters",
  "text_string of the hexadecimal (FEFF-prefixed) encoding of any text returns that text; of the escaped literal form likewise; of the hexadecimal PDFDoc form returns decode_pdfdoc of the bytes.",
  "all texts",
  "All strings.",
  [f"{T}:text_string"])
p("Glyph width tables answer what the font dictionary says",
  "The function built by prepare_w returns, for each character code, the width given by the last /W group that covers it, or the default width; the function built by prepare_widths returns widths[c - first] inside the range and 500 outside; neither ever fails.",
  "all /W arrays, all codes",
  "All group layouts, overlaps and codes.",
  [f"{D}:prepare_w", f"{D}:prepare_widths"])
# --- graphics
p("Transformation matrices compose associatively",
  "multiply_matrices is associative with IDENTITY_MATRIX as two-sided unit and acts on points as composition, for exact arithmetic.",
  "all matrices",
  "All numeric matrices.",
  [f"{G}:multiply_matrices"])
p("q ... Q restores the graphics state",
  "Executing q, any command sequence balanced in q/Q, then Q leaves the graphics state stack exactly as it was before q.",
  "all balanced command sequences, all initial stacks",
  "All nestings and commands.",
  [f"{G}:apply_command"])
p("Content streams split into commands without losing or repeating operands",
  "parse_stream_content returns commands whose concatenation is the token list, each command ending with its operator.",
  "all content streams",
  "All token lists.",
  [f"{G}:parse_stream_content"])
p("Text positioning operators obey their definitions",
  "Td accumulates translations on the line matrix, Tm replaces both matrices, TD equals setting the leading then Td, T* moves down by the leading, ' equals T*, and \" sets both spacings; no text operator touches the graphics state stack.",
  "all states and operands",
  "All states.",
  [f"{G}:apply_command"])
# --- file inspection
p("The disassembly tiles the file",
  "The regions with absolute positions reported by file_object_map are contiguous: the first starts at 0 and each next one starts where the previous ended, so no byte is skipped or reported twice.",
  "all byte strings",
  "All files, including malformed ones.",
  [f"{F}:file_object_map", f"{O}:parse_region", f"{O}:parse_indirect_obj"])
p("The disassembler terminates on every file",
  "file_object_map returns or raises for every byte string.",
  "all byte strings",
  "Non-termination is not observable by tests.",
  [f"{F}:file_object_map", f"{O}:parse_region"])
p("Index checks are exact",
  "check_index_targets reports an xref entry iff no scanned object matches its number, generation and position (or envelope and rank); check_not_indexed_objects reports an object iff no entry of any xref section matches it.",
  "all object maps, all xref sequences",
  "All combinations of objects and entries.",
  [f"{F}:check_index_targets", f"{F}:check_not_indexed_objects"])
p("Revision cut keeps the end-of-file marker and its line ends",
  "eof_cut(i) is the first position after the '%%EOF' at i that is not an EOL byte (or the end of file).",
  "all byte strings, all positions",
  "All lengths of trailing EOL runs.",
  [f"{F}:eof_cut"])
p("Data providers honour their contract",
  "For every request inside the data, the returned (buffer, index, offset, n) satisfies buffer[index:index+n] == data[start:start+n], n is the number of bytes available up to the requested length, negative positions count from the end, and both loading modes agree.",
  "all data, all positions and lengths, both modes",
  "All positions and lengths.",
  [f"{F}:bdata_provider", f"{F}:bdata_dummy"])
p("The merged provider reads the concatenated file",
  "The provider built by commit over (old provider, cut position, new bytes) answers any request strictly after the cut with the bytes of old[:cut] + new at that position, any request before it as the old provider does, and reports the total size.",
  "all data, all positions, any number of nested merges",
  "All positions around the seam and all nesting depths.",
  [f"{D}:merge_fdata", f"{D}:commit"])
p("hexdump shows every byte of the requested range",
  "The hex column of hexdump(data) read back gives exactly data, ten bytes per line, with each line labelled by the offset of its first byte.",
  "all data",
  "All lengths.",
  [f"{F}:hexdump", f"{FI}:ascii_hexdump_printable"])
# --- versions, misc
p("PDF version never decreases",
  "version(update_version(doc, v)) is the greatest (in the code's string order) of the header version, the previous catalog version and v; other catalog entries are unchanged.",
  "all documents, all version strings",
  "All combinations.",
  [f"{D}:version", f"{D}:update_version"])
p("Layout statistics are what they claim",
  "most_frequent returns a key with the maximal count (the first such); minimum_x returns the smallest x of the blocks.",
  "all distributions, all block lists",
  "All lists.",
  [f"{L}:most_frequent", f"{L}:minimum_x", f"{L}:typical_font_size"])
p("The HTML view never lets file content inject markup",
  "Text taken from the file (stream content, names, strings, keywords, comments) appears in the generated HTML without raw '<' or '>' characters.",
  "all file contents",
  "All byte strings.",
  [f"{G}:printable_stream_content", f"{DI}:follow_obj", f"{DI}:add_comment"])
p("Object streams index the objects they contain",
  "After appending any sequence of objects to an object stream and finalising it, parsing the stream returns the same objects with the same numbers in the same order.",
  "all sequences of well-formed objects",
  "Offsets in the header depend on all previous objects.",
  [f"{F}:append_to_stream_fragment", f"{F}:finalize_stream", f"{O}:parse_object_stream", f"{F}:get_pos_in_stream"])
p("Adding a text annotation preserves existing content",
  "add_text_annotation adds exactly one annotation reference at the end of the page's annotation array, and every other object and page entry is unchanged.",
  "all documents, all pages",
  "All documents.",
  [f"{A}:add_text_annotation"])
p("in_use lists exactly the live objects",
  "in_use(doc) lists, in increasing order, the references of exactly the object numbers that have an entry and are not deleted.",
  "all documents and histories",
  "All deletion patterns.",
  [f"{D}:in_use", f"{D}:get_iref"])

with open(os.path.join(os.path.dirname(__file__), '..', 'properties.jsonl'), 'w') as f:
    for x in P:
        f.write(json.dumps(x) + "\n")
print(len(P))
