C01|partial|Proved for all well-formed objects (Spec.WF) in any file context; each restriction of WF is shown necessary by a counterexample theorem (the code fails there).
C02|partial|Proved for all encoded bytes that are non-empty, do not contain endstream and do not end with CR; each restriction is necessary (counterexample theorems).
C03|proved|For all byte strings and start indexes. The function is total in the model by structural recursion on the remaining text.
C04|proved|Shape is stated independently in Spec/Token.lean.
C05|proved|Both for next_token and parse_obj.
C06|partial|False of the code: C06_diverges exhibits inputs on which the loop state repeats and C06_diverges_predictor a stream whose predictor never advances. C06_exact characterises the diverging texts (both directions, all texts and positions); C06_decoding tells when a stream is never decoded; C06_terminates_partial: every text without ']' and without '/Columns' terminates. Serialised well-formed objects terminate by C01.
C07|partial|Proved for all objects containing no Stream; C07_stream_counterexample shows that references inside stream dictionaries are not rewritten.
C08|proved|For all objects but a bare reference, which the claim excludes.
C09|partial|Proved for no filter and for each single filter without predictor, given that zlib decompress inverts compress (a hypothesis on the Zlib class); C09_predictor_counterexample shows the round trip is false when /Predictor is set.
C10|partial|Proved for one filter and for arrays of one filter. False of the code for two or more filters (each stage restarts from the original bytes): C10_counterexample, C10_last_stage_only say exactly what it computes instead.
C11|proved|For any number of rows and columns, all rows being of the declared width.
C12|partial|Proved for all non-empty contents; C12_empty_counterexample: an empty content keeps a stale /Length.
C38|proved|
C39|proved|For every mixture of plain bytes, named escapes and three-digit octal escapes. C39_not_total records inputs outside that set on which the function raises.
C40|proved|All four forms. C40_lower_case_mark: the mark is only recognised in upper case, as the statement says.
C41|partial|prepare_widths: complete. prepare_w: complete for non-empty arrays of complete groups; C41_empty_counterexample (default width ignored) and C41_malformed_counterexample (IndexError) show the rest is false.
C42|proved|Over any commutative ring; floating point rounding is not modelled.
C43|proved|For the graphics state stack, the only thing the claim is about; C43_text_state_not_restored records that text state parameters are not saved.
C44|partial|False of the code: when the first token is an operand the first command is returned twice (C44_counterexample, C44_first_repeated); the operators ' and " are lost (C44_quote_counterexample). Proved when the first token is an operator.
C45|proved|Over any commutative ring.
C54|partial|most_frequent complete (0 when no count is positive). minimum_x proved when no block is at -1; C54_minimum_x_counterexample otherwise.
C13|proved|For every entry list on which writing succeeds; no ordering needed.
C14|proved|For a well-formed trailer (WF) not followed by the keyword stream; C14_writes gives the conditions under which writing succeeds.
C15|proved|No ordering is needed for the second half. C15_zero_count shows that the restriction on counts is necessary.
C16|proved|
C17|partial|False of the code (C17_counterexample, C17_envelope_counterexample): the width only depends on positions. Proved: positions always fit, and rows are written whenever the other fields do not exceed the greatest position.
C49|proved|
C50|partial|SINGLE mode complete. CONTINUOUS mode returns a buffer that does not start at the announced index (C50_continuous_counterexample, C50_modes_disagree); the dummy provider is proved for non-negative positions only.
C51|proved|C51_at_cut records that the position equal to the cut is served by the older provider.
C52|partial|Any non-empty file and range; an empty file raises (C52_empty_counterexample).
C18|partial|Xref-stream style: proved for all change lists (distinct non-zero numbers) and objects, with completeness (every change has a row). Table style: proved when no changed object is assigned to an object stream; C18_embedded_in_table shows that otherwise the rank is written as a file offset.
C19|proved|Both styles, for every change list for which the function returns.
C56|partial|Round trip, ISO layout of the header and rank of each object proved for every non-empty sequence of well-formed objects that are not bare references; C56_ref_counterexample shows that an embedded bare reference is misread (and invents an object).
C21|proved|No-op without changes; a committed document has no pending change; commit is idempotent; the bytes written are the same with or without a previous commit.
C22|proved|Any list of edits from a committed document (C22_changes, exact list, sorted); first revision (C22_first). The placeholder of an xref stream is skipped by the code and by the statement.
C26|partial|C26_rewind_partial and C26_history_partial: for documents in table mode without object streams (opened from a file or built in memory, then any history of additions, replacements, deletions, reads and commits with well-formed objects), rewind of commit succeeds, drops one revision, restores the pending changes, the trailer up to /Size, and shows equal objects for every number. False in general: streams ending with CR, top-level references, trailers containing the word trailer (C26_cr_counterexample, C26_ref_counterexample, C26_trailer_counterexample). Missing: xref streams and object streams.
C27|partial|Proved for committed documents with classic tables, for any mixture of deletions of live objects and writable additions/updates. False of the code in the first revision, for an object added in the same revision, for an object already deleted, and with an xref stream and only deletions (four counterexamples).
C53|proved|For every document whose catalog can be read; the hypothesis that reading the catalog leaves the trailer in place holds whenever the catalog is not in an object stream (C53_trailer_kept).
C58|proved|
C23|partial|C23_map_partial: full map semantics over any sequence of add/update/delete/commit/read for documents without object streams; false with object streams (C23_counterexample, C23_deleted_counterexample: reading a sibling in the same stream restores the superseded value) and for add_object(None) (C23_add_none).
C24|partial|Proved on a heap model (lists index, revisions, entries, caches, trailer dicts, data records as shared mutable cells; copy_doc SAME/NEXT/PREVIOUS and every in-place write transcribed): for any sharing in the initial document and any program of update_object/add_object/commit/rewind/get_object on any of the documents made so far, every document keeps revisions, data, changes, and (coherent object streams) objects; and each step computes what the functional model says. Missing: force_xref_stream and a commit pending on it (false of the code: two counterexamples), incoherent object streams (C25), objects in the cache as mutable cells, operations that raise.
C25|partial|C25_reads_partial: reads are invisible whenever the object streams are coherent with the index (in particular without object streams); false when an object of a stream has been superseded (C25_counterexample).
C20|proved|For every file that loads and every history of edits (any steps leaving the committed revisions and file records alone) and commits; C20_ops shows that sequences of add/update/delete/read/commit are such histories.
C59|partial|False of the code (C59_counterexample: delete, write, reload gives the object back). C59_free_ignored, C59_free_ignored_stream, C59_carried show why: free rows leave no trace and an object not listed keeps its older entry.
C60|partial|False of the code (C60_counterexample: a section naming itself as /Prev). C60_terminates_partial: it ends when no section has an /XRefStm and each /Prev is below its section. C60_exact_partial: on any file of n bytes the loop fails to end if and only if it meets a section that leads back to itself or one whose reading does not end (C06), and a loop that ends does so within 2n+2 turns; C60_fuel_partial: the fuel of the model is therefore enough.
C61|partial|False of the code (C61_counterexample); C61_table_dropped: the objects of the table are dropped from every hybrid section. C61_chain: after the stream, the chain goes on with the table, whatever the stream says.
C62|partial|False of the code when the last revision of the loaded file is empty (C62_counterexample). C62_written_partial and C62_objects_partial prove it otherwise (table mode, no changed object in an object stream).
C63|partial|False for embedded objects whose number is beyond the last direct one (C63_counterexample). C63_newest_partial proves it for all other numbers, apart from hybrid files (C61).
C29|partial|Proved for every page tree of any shape and depth below the recursion limit, in the form ISO 32000 describes (Shown/IsRoot: references with positive numbers, direct /Kids array), when nothing was listed before: C29_pages_partial (flat_page_tree) and C29_effective_partial (pages). False for an indirect /Kids (C29_counterexample).
C30|partial|False: the default argument inherited={} is shared by all calls (C30_counterexample). Proved: the listed references and the exceptions never depend on earlier calls (C30_references_partial), and the attributes do not either when every page inherits all four attributes in its own document (C30_defined_partial).
C31|partial|First half proved for any document (C31_prefix). The bound is false (C31_counterexample), and pages may be skipped (C31_skips); it is proved for max_nb = 1 (C31_one_partial) and for trees with one level (C31_flat_partial).
C32|partial|Proved for well-formed page trees of any shape in documents without object streams, for all angles and selections: exact effect on the store (C32_rotate_partial), effective rotations, composition, inverse. Hypotheses: distinct page numbers, a /MediaBox, integer or absent /Rotate, the shared dict of C30 not filled by another document. False for /Rotate null on a page (C32_counterexample).
C57|partial|Proved for documents without object streams and pages that have no /Annots or an indirect array: exactly one annotation is added at the chosen page (any Python index), the others and the other pages are unchanged. C57_counterexample: with a direct /Annots array the call fails.
C33|partial|Proved (page list by position, every /Count, tree well-formed again, any set order) for documents without object streams whose /Count are direct integers and whose removed pages do not lead to tree nodes otherwise than through /Parent or /P; everything below the pages readable without cycles. C33_counterexample: an indirect /Count.
C34|partial|Exact fate of every object proved for uses found outside stream dictionaries, on the documents of C33. C34_counterexample: a font used by a kept page only through a form XObject is deleted.
C35|partial|Proved for every index and every slice (positions of Python, document order) on the documents of C33 with at least one page and a right root /Count; C35_step: step 0 refused. C35_counterexample: an indirect /Count.
C37|partial|Proved for documents without object streams, whose cells know their numbers, without dangling references, and whose stream dictionaries do not refer to a moved object (no condition on streams when nothing is deleted): the numbers are 1..n in order, generations 0, each object is the renumbered old one, and all walks from the root by keys, positions and references agree. False in general: C37_stream_counterexample (references in stream dictionaries are not renumbered), C37_dangling_counterexample (a reference to a deleted object then leads to another object).
C64|partial|False of the code (C64_squash_counterexample: the cached objects of the given document are renumbered in place). Proved when no live object refers to a moved object.
C65|partial|False of the code (C65_counterexample: the entries keep the old numbers, and the second squash raises). Proved when nothing was deleted and all generations are 0.
C36|partial|Proved (both values of target_left) for a target that may be edited, with direct /Kids and /Count at the root, and a source as in C37 that has no cross-reference stream, no reference in its stream dictionaries and no reference to its catalog: page list, count, unchanged objects, consistent renumbering; C36_listed_partial ties it to flat_page_tree. False without these conditions: C36_stream_counterexample (an indirect /Length), C36_catalog_counterexample, C36_xref_counterexample (another object than the xref stream is left out).
C66|partial|False of the code (C66_counterexample: the added pages inherit from the root node of the target). C66_attributes_partial gives the exact outcome on the documents of C36, C66_kept_partial the cases that hold.
C67|partial|False of the code (C67_counterexample: afterwards the pages of the given document cannot be listed). C67_others_partial: only the root page node differs, and nothing does if it had not been read.
C28|partial|Proved for every document obtained from a new one (blank, or built in memory from well-formed objects) by any sequence of additions, replacements, deletions, reads, commits, and write/load cycles, in table mode. Loading succeeds and all live objects and trailer entries are equal up to entry order. Missing: object streams and xref streams. Objects that do not survive writing are excluded, with a counterexample.
C68|partial|False of the code: C68_counterexample shows a deleted object that is back after writing and loading (free rows are skipped when the index is built). Proved for numbers that have never been used.
C46|partial|Regions tile the file from 0 to the end or to the first unrecognised token (characterised). False in general: begin is None when no end of line follows the object (C46_begin_counterexample); bytes after an unrecognised token are skipped (C46_rest_counterexample), and so is the end of a file whose trailer is on one line (C46_one_line_counterexample). With a final end of line every begin is the previous end (C46_lines_partial). The rows of cross-reference streams carry the rank of their subsection and their rank in it (C46_stream_rows), those of tables too (C46_table_rows).
C47|partial|False of the code (C47_diverges: a closing bracket where a region begins). C47_divergence characterises divergence exactly; termination proved for files without ']', '/Columns' and '/ObjStm'; the parser itself is characterised by C06_exact.
C48|partial|Exactness of both checks as equivalences, for sections as read in files (one entry numbered 0, distinct positions); C48_overwritten_counterexample for other sections. Non-integer numbers of embedded objects that Python compares with integers (booleans, floats) are not modelled.
C55|partial|follow_obj shows every object obtained by parse_obj without raw angle brackets of the file (provenance-tagged output), printable_stream_content escapes; comments are shown raw (exact characterisation and counterexample), as are keywords of xref tables and /Type strings in the minimap (counterexamples).
C69|partial|False of the code: data of streams with an unsupported filter are lost, so are those of unfiltered streams when the filter is to be removed, arrays of filters raise (three counterexamples). Proved for streams with at most one supported filter given by name and no predictor; list_streams exact for all coherent documents whose live objects can be read.
C70|partial|Both checks find nothing and the tables listed by the scan are the sections, for all documents made from fresh ones by edits, commits and reloads, in table mode without object streams. The scan can only fail on a stored stream that pretends to be a cross-reference stream (C70_scan_partial, C70_scan_counterexample).
C71|proved|For every file (data provider) for which the index can be built; object 0 (the trailer), which is replaced in each revision, is apart for versions.
C72|partial|False of the code: one-byte ranges are decoded with two-byte keys, ligature targets of ranges, codes of mixed widths and empty targets (four counterexamples). Proved for the maps whose codes have two bytes or more and one width, with one-unit range targets.
C73|partial|False of the code: hexadecimal strings are returned undecoded (C73_hex describes what they give) and /Differences are ignored. Proved for all literal strings, both encodings; bytes without a character in cp1252 raise.
C74|partial|The text is exact for all arrays; the displacement is off by the numbers taken as spaces (counterexample) and a space of width 0 raises (C74_zero_space).
C75|partial|False of the code: ' and " show nothing, content streams are joined without white space, character and word spacing are counted once (counterexamples). Proved: fragments, in order, with texts and positions for contents without these operators.
C76|partial|Proved for pages with a positive line spacing and a character width other than 0. Pages whose blocks all have fewer than two characters raise (C76_single_characters).
C77|partial|False of the code: inherited resources, resources without fonts or with an indirect dict of fonts, pages without /Contents (blank pages) and Type 3 fonts raise; /MissingWidth is ignored (six counterexamples). Proved for all pages with their own resources and a direct dict of usable fonts, all forms of /Contents.
C78|partial|A page that has two names for a font is listed twice (counterexample). Proved with multiplicities for all documents whose pages have usable fonts.
C79|partial|False of small documents (below 256 bytes the generation 65535 does not fit: OverflowError, counterexample). Proved from the document in memory to the loaded one for documents of one revision; hypotheses on the file: streams storable (C02), 100 bytes or more, addresses of at most four bytes. Documents with several revisions are not covered in this mode.
C80|partial|False of the code in general: a document that has a cross-reference stream keeps its stale number and may lose its catalog; images with a filter that is not supported are replaced by a message; arrays of filters raise (three counterexamples). Proved from the document to the loaded one for documents without cross-reference stream and object streams, streams with at most one supported filter without predictor, file of 100 bytes or more; supposed of the bytes that zlib makes: not empty, without endstream, not ending with CR.
C81|partial|False in three ways of the code: a right entry has the mark of a wrong one when both give the same address, tables out of the chain are not checked, and the marks of embedded objects are those of other objects (three counterexamples); the theorem says exactly what the marks mean. Positions: for files which end with an end of line. Own files: when the listing is made. The detail column is in C109, the text of ratios is a parameter.
C82|partial|The view is not made (TypeError, KeyError) of files with an object that no table lists or with a reference to an object which does not exist, and loses uses when the index gives one position to two numbers (three counterexamples). Proved for the files of which the view is made, ending with an end of line, when no position is given to two numbers. Positions of embedded objects are floats in the code, pairs here.
C83|partial|False of pages updated in object streams: the blocks of embedded objects always have the version 0, the link is dead and the id is given twice (counterexample); an object stream that gives another number than the index doubles an id (counterexample). Proved for pages outside object streams, and for those of the first version in them.
C84|partial|False in three ways of the code: a last revision that only deletes is not counted, a hybrid file with one revision is not shown as hybrid, a linearized file without a comment after the header is missed (three counterexamples). The number of revisions is proved for all documents made without object streams nor xref streams, the format for all boxes of integers, linearized for files laid out as the library writes. The text of the dimensions of an unknown format is left out. C84_shown_partial ties every line of the overview to the file and the objects (well-formed page trees).
C85|partial|A hexadecimal string whose mark is not in capitals is not decoded as UTF-16, and a deleted entry is back after a reload (two counterexamples). Proved for entries that are strings; the reload for the documents of C28 when references lead to objects in use.
C86|partial|In stream mode, a revision that only deletes cannot be committed, and without a placeholder nothing can be added after the first commit (two counterexamples, for all documents of the form). Left out: the number of the cross-reference streams itself, object streams replaced while their objects are in use, objects of an object stream changed before the others are read (C25 is false there), numbers that are deleted (C68 is false). Filters on the cross-reference stream: none under 4 GiB, or /FlateDecode with the law of zlib and conditions on its bytes (xsOk_flate).
C87|partial|Termination is proved exactly (C87_stops, with the fuel of the model in C87_fuel), and fails on an unclosed `](`. What is shown is proved for texts without other brackets and without `!` at the end of a plain part; two counterexamples where it is wrong.
C88|partial|False after an emphasis: the loop jumps two characters too far, so that the last character of a text can be lost (counterexample for all texts) or a mark missed. Proved for texts whose emphases are followed by enough plain text.
C89|partial|Proved for the documents of the grammar DocShown (blocks at the top level, each followed by its blank line). Nested lists and quotations are left out. False otherwise: eight counterexamples (last paragraph lost, lines glued, lines lost after a list or before a title, first rule, empty paragraphs, IndexError of a table, code that is not escaped).
C90|partial|Termination of the parser is proved for all documents, of the rendering for those without `]`. The balance leaves out `<`, `]`, line breaks and underlines of one character, with counterexamples.
C91|partial|False of a file where /Prev holds a reference (a tag inside an attribute), where an array holds a dictionary with /JS (text cut inside a tag), and no page is made when a table comes before every object (three counterexamples). Proved for tidy objects when the raw texts of C55 (comments, keywords of tables, /Type strings, version, name of the file) have no angle bracket. The text of the float positions of embedded objects is only assumed to be made of digits and of the characters `.e+-`.
C92|partial|As for C91; for the links to pages also the hypotheses of C83, with its counterexamples. The links inside the blocks are not covered here (C82 says what the uses are).
C93|partial|For the documents of C33 whose root has a direct /Count equal to the number of pages; no iteration otherwise (counterexample).
C94|partial|The columns are proved for all tables. The fonts as for C78, when no page has two names for one font (counterexample: the count of pages is that of the names).
C95|partial|For the first 100000 objects; the label of the next lines is one character longer than the others.
C96|partial|The exact text is proved for any number of revisions; from three on it shows the cuts of other revisions (counterexample), and a document made from scratch makes it fail (counterexample).
C97|partial|False of an indirect array of kids (counterexample). The text of references, counts and contents in an f-string is a parameter.
C98|partial|False of comments with a delimiter in an array or a dictionary, of a comment before the keyword stream, of data that contain endstream or end with a carriage return, of null, of names with bytes above 127 (counterexamples), of strings with brackets or double angles (C01), of generations other than 0 (C01). Numbers with underscores are read though they are no numbers (counterexample). Reals: at most fifteen significant digits.
C99|partial|Restricted to the texts of Spec/FileText.lean. False of a number freed by a newer section, of a blank after xref, of a dictionary that begins on the line of the word trailer and ends on another, of more than a hundred bytes after the end mark, of bytes before the header, of a cross-reference stream without a column of types or with an empty run, of an object stream whose members are not in the order of its head, or that ends with a number or a name (counterexamples). Hybrid files (XRefStm) are left out; linearized files are covered once they have an update, and by C106 before that.
C100|partial|False of hexadecimal texts with their end mark or with white space (never decoded: the text of an error is given as data), of ASCII85 texts with a form feed or a null as white space, or with anything after the end mark (counterexamples).
C101|partial|False of booleans (True and False are shown), of strings with a backslash, of keys of twenty characters or more, of keys and data with an ampersand (counterexamples), of strings with both kinds of quotes or unprintable characters, of a value of Prev other than an integer (C91). What is left out is marked but not described, except for strings, arrays of integers and data of streams.
C102|partial|For documents whose first revision has no xref stream, whose objects survive writing (C28) and that can be squashed faithfully (C37: no moved reference in a stream dictionary, no dangling reference).
C103|partial|For documents written with tables, without object streams, whose objects survive writing (C28), under the conditions of C32 and C33; false of pages added in the same revision, whose removal makes writefile fail (counterexample).
C104|partial|For documents written with tables, without object streams, whose objects survive writing (C28), under the conditions of C33 and C35 for slices and of C36 for concat (no moved reference in a stream dictionary, nothing refers to the catalog of the source, no xref stream).
C105|partial|For streams with at most one supported filter and no predictor (C69), in documents written with tables (C28), when the encoded data are not empty, do not contain endstream and do not end with a carriage return (counterexample; always true of hexadecimal digits).
C106|partial|For the texts of Spec/FileText.lean in which the number 1 is in use; otherwise the file cannot be loaded (counterexample). False of editing: whatever is set or added, commit and writefile fail (C106_updates_rejected, for all these files).
C107|partial|The lines, versions and deletions are proved for all documents with less than 10^7 (compact) or 10^17 numbers; the positions for objects outside object streams. False of a number that is not used, which is shown as an unchanged object (counterexample).
C108|partial|For ASCII texts whose parentheses are balanced or escaped and without double angle brackets, pages without annotations or with an indirect array (C57), documents of C28 and less than 2^53 numbers. False of the other texts, which are cut, read as entries, make the annotation unreadable or the writing fail (counterexamples); the annotation in memory is a Python string, that of the file bytes (counterexample).
C109|partial|The lines, their details and the layout are proved of all the listings that are made. The mark of scripts is false in two ways of the code: a key written with an escape and the scripts of inner dictionaries and arrays have none, and a byte string may contain the mark (counterexamples). Values that are lists or dictionaries, and floats written with an exponent, are not modelled in the details.
C110|partial|Proved part by part (C110_items_partial) and of the whole text (C110_page_partial) for items shown as they are: objects legible in the sense of C101, no ampersand in the data of the streams, no < or & in comments, keywords of entries, types, version and name of the file; nothing truncated; the file ends with an end of line. Comments are not escaped (C110_comment_counterexample).
C111|partial|Files, failures, compress and reports are proved of all states of the files; text for files whose object streams agree with the index (Coherent), hexdump for files that are not empty (C52). False for pprint_page_contents, which calls a function that does not exist (C111_pprint_counterexample, for all documents with a page tree). The arguments are supposed parsed, what is printed is a value and not an encoded text, and a write is all or nothing.
C112|partial|For documents made by editing, with classic tables (C28), whose references lead to objects in use. False when a reference leads to a deleted object: it is back in the file, and the page is laid out otherwise (C112_deleted_counterexample). A page that cannot be laid out before is not covered.
C113|partial|For the documents of C32, C33, C35 and C36. For rotation, success is kept in both directions; for the others, a page that could be laid out still can, with the same text. False of a font named /P or /Parent: the entry is taken for a link to a page, and the font is deleted with another page that uses it (C113_name_counterexample). Page numbers from 0 on; a negative page number gives what the one from the start gives (C113_negative).
C114|partial|Composition of C112 and C113. That the references of the result lead to objects in use is derived: from the same fact of the documents and, for removal and slices, from the hypothesis that nothing that stays refers to what only the removed pages use, the lists of the pages excepted (an outline item or a link to a removed page makes it false). Otherwise the limits are those of C112 and C113.
C115|partial|The annotations of the page must be absent or an array that is an object of its own (for a direct array the edit fails, C57_counterexample), and that array must be referred to under /Annots only: C115_shared_counterexample is a page whose /Contents is the same array, where the text is lost. One direction: a page whose text could not be extracted before is not covered. On the file, also the limits of C108 (ASCII text that can be put between parentheses) and of C112.
