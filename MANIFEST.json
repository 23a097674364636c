{
 "claims": [
  {
   "property": "C01",
   "status": "partial",
   "theorems": [
    "Pdf.C01_roundtrip_partial",
    "Pdf.C01_reference_in_array",
    "Pdf.C01_backslash_counterexample",
    "Pdf.C01_angle_counterexample",
    "Pdf.C01_bracket_counterexample",
    "Pdf.C01_bare_ref_counterexample",
    "Pdf.C01_generation_counterexample",
    "Pdf.C01_null_counterexample"
   ],
   "note": "Proved for all well-formed objects (Spec.WF) in any file context; each restriction of WF is shown necessary by a counterexample theorem (the code fails there)."
  },
  {
   "property": "C02",
   "status": "partial",
   "theorems": [
    "Pdf.C02_stream_roundtrip_partial",
    "Pdf.C02_unfiltered_partial",
    "Pdf.C02_empty_counterexample",
    "Pdf.C02_cr_counterexample",
    "Pdf.C02_endstream_counterexample"
   ],
   "note": "Proved for all encoded bytes that are non-empty, do not contain endstream and do not end with CR; each restriction is necessary (counterexample theorems)."
  },
  {
   "property": "C03",
   "status": "proved",
   "theorems": [
    "Pdf.C03_bounds"
   ],
   "note": "For all byte strings and start indexes. The function is total in the model by structural recursion on the remaining text."
  },
  {
   "property": "C04",
   "status": "proved",
   "theorems": [
    "Pdf.C04_shape"
   ],
   "note": "Shape is stated independently in Spec/Token.lean."
  },
  {
   "property": "C05",
   "status": "proved",
   "theorems": [
    "Pdf.C05_next_token",
    "Pdf.C05_parse_obj"
   ],
   "note": "Both for next_token and parse_obj."
  },
  {
   "property": "C06",
   "status": "partial",
   "theorems": [
    "Pdf.C06_diverges",
    "Pdf.C06_diverges_array",
    "Pdf.C06_diverges_predictor",
    "Pdf.C06_exact",
    "Pdf.C06_decoding",
    "Pdf.C06_terminates_partial"
   ],
   "note": "False of the code: C06_diverges exhibits inputs on which the loop state repeats and C06_diverges_predictor a stream whose predictor never advances. C06_exact characterises the diverging texts (both directions, all texts and positions); C06_decoding tells when a stream is never decoded; C06_terminates_partial: every text without ']' and without '/Columns' terminates. Serialised well-formed objects terminate by C01."
  },
  {
   "property": "C07",
   "status": "partial",
   "theorems": [
    "Pdf.C07_retarget_partial",
    "Pdf.C07_stream_counterexample"
   ],
   "note": "Proved for all objects containing no Stream; C07_stream_counterexample shows that references inside stream dictionaries are not rewritten."
  },
  {
   "property": "C08",
   "status": "proved",
   "theorems": [
    "Pdf.C08_detect",
    "Pdf.C08_bare_reference",
    "Pdf.C08_boolean"
   ],
   "note": "For all objects but a bare reference, which the claim excludes."
  },
  {
   "property": "C09",
   "status": "partial",
   "theorems": [
    "Pdf.C09_no_filter",
    "Pdf.C09_single_filter_partial",
    "Pdf.C09_predictor_counterexample"
   ],
   "note": "Proved for no filter and for each single filter without predictor, given that zlib decompress inverts compress (a hypothesis on the Zlib class); C09_predictor_counterexample shows the round trip is false when /Predictor is set."
  },
  {
   "property": "C10",
   "status": "partial",
   "theorems": [
    "Pdf.C10_counterexample",
    "Pdf.C10_foreign_counterexample",
    "Pdf.C10_pipeline_partial",
    "Pdf.C10_last_stage_only",
    "Pdf.C10_empty_counterexample"
   ],
   "note": "Proved for one filter and for arrays of one filter. False of the code for two or more filters (each stage restarts from the original bytes): C10_counterexample, C10_last_stage_only say exactly what it computes instead."
  },
  {
   "property": "C11",
   "status": "proved",
   "theorems": [
    "Pdf.C11_png_up"
   ],
   "note": "For any number of rows and columns, all rows being of the declared width."
  },
  {
   "property": "C12",
   "status": "partial",
   "theorems": [
    "Pdf.C12_length_partial",
    "Pdf.C12_empty_counterexample"
   ],
   "note": "Proved for all non-empty contents; C12_empty_counterexample: an empty content keeps a stale /Length."
  },
  {
   "property": "C38",
   "status": "proved",
   "theorems": [
    "Pdf.C38_total",
    "Pdf.C38_ascii",
    "Pdf.C38_injective",
    "Pdf.C38_append"
   ],
   "note": ""
  },
  {
   "property": "C39",
   "status": "proved",
   "theorems": [
    "Pdf.C39_unescape_escapes",
    "Pdf.C39_unescape_escape",
    "Pdf.C39_not_total",
    "Pdf.C39_underscore",
    "Pdf.C39_line_continuation"
   ],
   "note": "For every mixture of plain bytes, named escapes and three-digit octal escapes. C39_not_total records inputs outside that set on which the function raises."
  },
  {
   "property": "C40",
   "status": "proved",
   "theorems": [
    "Pdf.C40_utf16_exact",
    "Pdf.C40_hex_utf16",
    "Pdf.C40_literal_utf16",
    "Pdf.C40_literal_pdfdoc",
    "Pdf.C40_hex_pdfdoc",
    "Pdf.C40_lower_case_mark"
   ],
   "note": "All four forms. C40_lower_case_mark: the mark is only recognised in upper case, as the statement says."
  },
  {
   "property": "C41",
   "status": "partial",
   "theorems": [
    "Pdf.C41_cid_widths_partial",
    "Pdf.C41_width_exists",
    "Pdf.C41_empty_counterexample",
    "Pdf.C41_malformed_counterexample",
    "Pdf.C41_simple_widths",
    "Pdf.C41_simple_total"
   ],
   "note": "prepare_widths: complete. prepare_w: complete for non-empty arrays of complete groups; C41_empty_counterexample (default width ignored) and C41_malformed_counterexample (IndexError) show the rest is false."
  },
  {
   "property": "C42",
   "status": "proved",
   "theorems": [
    "Pdf.C42_assoc",
    "Pdf.C42_identity",
    "Pdf.C42_action",
    "Pdf.C42_faithful",
    "Pdf.C42_cm"
   ],
   "note": "Over any commutative ring; floating point rounding is not modelled."
  },
  {
   "property": "C43",
   "status": "proved",
   "theorems": [
    "Pdf.C43_restores",
    "Pdf.C43_restores_initial",
    "Pdf.C43_never_raises",
    "Pdf.C43_text_state_not_restored"
   ],
   "note": "For the graphics state stack, the only thing the claim is about; C43_text_state_not_restored records that text state parameters are not saved."
  },
  {
   "property": "C44",
   "status": "partial",
   "theorems": [
    "Pdf.C44_split_partial",
    "Pdf.C44_first_repeated",
    "Pdf.C44_counterexample",
    "Pdf.C44_quote_counterexample",
    "Pdf.C44_content_partial"
   ],
   "note": "False of the code: when the first token is an operand the first command is returned twice (C44_counterexample, C44_first_repeated); the operators ' and \" are lost (C44_quote_counterexample). Proved when the first token is an operator."
  },
  {
   "property": "C45",
   "status": "proved",
   "theorems": [
    "Pdf.C45_stack_untouched",
    "Pdf.C45_Td",
    "Pdf.C45_Td_Td",
    "Pdf.C45_Tm",
    "Pdf.C45_BT",
    "Pdf.C45_initial",
    "Pdf.C45_TD",
    "Pdf.C45_Tstar",
    "Pdf.C45_TD_Tstar",
    "Pdf.C45_quotes",
    "Pdf.C45_parameters"
   ],
   "note": "Over any commutative ring."
  },
  {
   "property": "C54",
   "status": "partial",
   "theorems": [
    "Pdf.C54_most_frequent",
    "Pdf.C54_most_frequent_zero",
    "Pdf.C54_typical_font_size",
    "Pdf.C54_minimum_x_partial",
    "Pdf.C54_minimum_x_counterexample"
   ],
   "note": "most_frequent complete (0 when no count is positive). minimum_x proved when no block is at -1; C54_minimum_x_counterexample otherwise."
  },
  {
   "property": "C13",
   "status": "proved",
   "theorems": [
    "Pdf.C13_xref_stream",
    "Pdf.C13_text"
   ],
   "note": "For every entry list on which writing succeeds; no ordering needed."
  },
  {
   "property": "C14",
   "status": "proved",
   "theorems": [
    "Pdf.C14_xref_table",
    "Pdf.C14_writes"
   ],
   "note": "For a well-formed trailer (WF) not followed by the keyword stream; C14_writes gives the conditions under which writing succeeds."
  },
  {
   "property": "C15",
   "status": "proved",
   "theorems": [
    "Pdf.C15_expand",
    "Pdf.C15_group",
    "Pdf.C15_zero_count"
   ],
   "note": "No ordering is needed for the second half. C15_zero_count shows that the restriction on counts is necessary."
  },
  {
   "property": "C16",
   "status": "proved",
   "theorems": [
    "Pdf.C16_circular"
   ],
   "note": ""
  },
  {
   "property": "C17",
   "status": "partial",
   "theorems": [
    "Pdf.C17_width_partial",
    "Pdf.C17_counterexample",
    "Pdf.C17_envelope_counterexample"
   ],
   "note": "False of the code (C17_counterexample, C17_envelope_counterexample): the width only depends on positions. Proved: positions always fit, and rows are written whenever the other fields do not exceed the greatest position."
  },
  {
   "property": "C49",
   "status": "proved",
   "theorems": [
    "Pdf.C49_eof_cut"
   ],
   "note": ""
  },
  {
   "property": "C50",
   "status": "partial",
   "theorems": [
    "Pdf.C50_single_partial",
    "Pdf.C50_continuous_partial",
    "Pdf.C50_continuous_counterexample",
    "Pdf.C50_modes_disagree",
    "Pdf.C50_continuous_actual",
    "Pdf.C50_dummy_partial",
    "Pdf.C50_dummy_counterexample"
   ],
   "note": "SINGLE mode complete. CONTINUOUS mode returns a buffer that does not start at the announced index (C50_continuous_counterexample, C50_modes_disagree); the dummy provider is proved for non-negative positions only."
  },
  {
   "property": "C51",
   "status": "proved",
   "theorems": [
    "Pdf.C51_after",
    "Pdf.C51_before",
    "Pdf.C51_size",
    "Pdf.C51_nested",
    "Pdf.C51_at_cut"
   ],
   "note": "C51_at_cut records that the position equal to the cut is served by the older provider."
  },
  {
   "property": "C52",
   "status": "partial",
   "theorems": [
    "Pdf.C52_hexdump_range",
    "Pdf.C52_hexdump_partial",
    "Pdf.C52_empty_counterexample",
    "Pdf.C52_continuous_counterexample"
   ],
   "note": "Any non-empty file and range; an empty file raises (C52_empty_counterexample)."
  },
  {
   "property": "C18",
   "status": "partial",
   "theorems": [
    "Pdf.C18_table_partial",
    "Pdf.C18_stream",
    "Pdf.C18_embedded_in_table"
   ],
   "note": "Xref-stream style: proved for all change lists (distinct non-zero numbers) and objects, with completeness (every change has a row). Table style: proved when no changed object is assigned to an object stream; C18_embedded_in_table shows that otherwise the rank is written as a file offset."
  },
  {
   "property": "C19",
   "status": "proved",
   "theorems": [
    "Pdf.C19_startxref"
   ],
   "note": "Both styles, for every change list for which the function returns."
  },
  {
   "property": "C56",
   "status": "partial",
   "theorems": [
    "Pdf.C56_roundtrip_partial",
    "Pdf.C56_layout_partial",
    "Pdf.C56_rank",
    "Pdf.C56_ref_counterexample"
   ],
   "note": "Round trip, ISO layout of the header and rank of each object proved for every non-empty sequence of well-formed objects that are not bare references; C56_ref_counterexample shows that an embedded bare reference is misread (and invents an object)."
  },
  {
   "property": "C21",
   "status": "proved",
   "theorems": [
    "Pdf.C21_noop",
    "Pdf.C21_changes",
    "Pdf.C21_idempotent",
    "Pdf.C21_write"
   ],
   "note": "No-op without changes; a committed document has no pending change; commit is idempotent; the bytes written are the same with or without a previous commit."
  },
  {
   "property": "C22",
   "status": "proved",
   "theorems": [
    "Pdf.C22_changes",
    "Pdf.C22_first"
   ],
   "note": "Any list of edits from a committed document (C22_changes, exact list, sorted); first revision (C22_first). The placeholder of an xref stream is skipped by the code and by the statement."
  },
  {
   "property": "C26",
   "status": "partial",
   "theorems": [
    "Pdf.C26_rewind_partial",
    "Pdf.C26_history_partial",
    "Pdf.C26_cr_counterexample",
    "Pdf.C26_trailer_counterexample",
    "Pdf.C26_ref_counterexample"
   ],
   "note": "C26_rewind_partial and C26_history_partial: for documents in table mode without object streams (opened from a file or built in memory, then any history of additions, replacements, deletions, reads and commits with well-formed objects), rewind of commit succeeds, drops one revision, restores the pending changes, the trailer up to /Size, and shows equal objects for every number. False in general: streams ending with CR, top-level references, trailers containing the word trailer (C26_cr_counterexample, C26_ref_counterexample, C26_trailer_counterexample). Missing: xref streams and object streams."
  },
  {
   "property": "C27",
   "status": "partial",
   "theorems": [
    "Pdf.C27_delete_partial",
    "Pdf.C27_single_revision",
    "Pdf.C27_added_then_deleted",
    "Pdf.C27_deleted_twice",
    "Pdf.C27_xref_stream"
   ],
   "note": "Proved for committed documents with classic tables, for any mixture of deletions of live objects and writable additions/updates. False of the code in the first revision, for an object added in the same revision, for an object already deleted, and with an xref stream and only deletions (four counterexamples)."
  },
  {
   "property": "C53",
   "status": "proved",
   "theorems": [
    "Pdf.C53_version",
    "Pdf.C53_trailer_kept"
   ],
   "note": "For every document whose catalog can be read; the hypothesis that reading the catalog leaves the trailer in place holds whenever the catalog is not in an object stream (C53_trailer_kept)."
  },
  {
   "property": "C58",
   "status": "proved",
   "theorems": [
    "Pdf.C58_in_use"
   ],
   "note": ""
  },
  {
   "property": "C23",
   "status": "partial",
   "theorems": [
    "Pdf.C23_map_partial",
    "Pdf.C23_add_fresh",
    "Pdf.C23_counterexample",
    "Pdf.C23_deleted_counterexample",
    "Pdf.C23_add_none"
   ],
   "note": "C23_map_partial: full map semantics over any sequence of add/update/delete/commit/read for documents without object streams; false with object streams (C23_counterexample, C23_deleted_counterexample: reading a sibling in the same stream restores the superseded value) and for add_object(None) (C23_add_none)."
  },
  {
   "property": "C24",
   "status": "partial",
   "theorems": [
    "Pdf.C24_immutable_partial",
    "Pdf.C24_functional_partial",
    "Pdf.C24_force_counterexample",
    "Pdf.C24_commit_counterexample"
   ],
   "note": "Proved on a heap model (lists index, revisions, entries, caches, trailer dicts, data records as shared mutable cells; copy_doc SAME/NEXT/PREVIOUS and every in-place write transcribed): for any sharing in the initial document and any program of update_object/add_object/commit/rewind/get_object on any of the documents made so far, every document keeps revisions, data, changes, and (coherent object streams) objects; and each step computes what the functional model says. Missing: force_xref_stream and a commit pending on it (false of the code: two counterexamples), incoherent object streams (C25), objects in the cache as mutable cells, operations that raise."
  },
  {
   "property": "C25",
   "status": "partial",
   "theorems": [
    "Pdf.C25_reads_partial",
    "Pdf.C25_no_object_stream",
    "Pdf.C25_counterexample"
   ],
   "note": "C25_reads_partial: reads are invisible whenever the object streams are coherent with the index (in particular without object streams); false when an object of a stream has been superseded (C25_counterexample)."
  },
  {
   "property": "C20",
   "status": "proved",
   "theorems": [
    "Pdf.C20_prefix",
    "Pdf.C20_ops",
    "Pdf.C20_cut"
   ],
   "note": "For every file that loads and every history of edits (any steps leaving the committed revisions and file records alone) and commits; C20_ops shows that sequences of add/update/delete/read/commit are such histories."
  },
  {
   "property": "C59",
   "status": "partial",
   "theorems": [
    "Pdf.C59_counterexample",
    "Pdf.C59_free_ignored",
    "Pdf.C59_free_ignored_stream",
    "Pdf.C59_carried"
   ],
   "note": "False of the code (C59_counterexample: delete, write, reload gives the object back). C59_free_ignored, C59_free_ignored_stream, C59_carried show why: free rows leave no trace and an object not listed keeps its older entry."
  },
  {
   "property": "C60",
   "status": "partial",
   "theorems": [
    "Pdf.C60_counterexample",
    "Pdf.C60_terminates_partial",
    "Pdf.C60_exact_partial",
    "Pdf.C60_fuel_partial"
   ],
   "note": "False of the code (C60_counterexample: a section naming itself as /Prev). C60_terminates_partial: it ends when no section has an /XRefStm and each /Prev is below its section. C60_exact_partial: on any file of n bytes the loop fails to end if and only if it meets a section that leads back to itself or one whose reading does not end (C06), and a loop that ends does so within 2n+2 turns; C60_fuel_partial: the fuel of the model is therefore enough."
  },
  {
   "property": "C61",
   "status": "partial",
   "theorems": [
    "Pdf.C61_counterexample",
    "Pdf.C61_table_dropped",
    "Pdf.C61_chain",
    "Pdf.C61_trailer_partial"
   ],
   "note": "False of the code (C61_counterexample); C61_table_dropped: the objects of the table are dropped from every hybrid section. C61_chain: after the stream, the chain goes on with the table, whatever the stream says."
  },
  {
   "property": "C62",
   "status": "partial",
   "theorems": [
    "Pdf.C62_counterexample",
    "Pdf.C62_written_partial",
    "Pdf.C62_objects_partial"
   ],
   "note": "False of the code when the last revision of the loaded file is empty (C62_counterexample). C62_written_partial and C62_objects_partial prove it otherwise (table mode, no changed object in an object stream)."
  },
  {
   "property": "C63",
   "status": "partial",
   "theorems": [
    "Pdf.C63_counterexample",
    "Pdf.C63_newest_partial",
    "Pdf.C63_places_partial"
   ],
   "note": "False for embedded objects whose number is beyond the last direct one (C63_counterexample). C63_newest_partial proves it for all other numbers, apart from hybrid files (C61)."
  },
  {
   "property": "C29",
   "status": "partial",
   "theorems": [
    "Pdf.C29_pages_partial",
    "Pdf.C29_effective_partial",
    "Pdf.C29_counterexample"
   ],
   "note": "Proved for every page tree of any shape and depth below the recursion limit, in the form ISO 32000 describes (Shown/IsRoot: references with positive numbers, direct /Kids array), when nothing was listed before: C29_pages_partial (flat_page_tree) and C29_effective_partial (pages). False for an indirect /Kids (C29_counterexample)."
  },
  {
   "property": "C30",
   "status": "partial",
   "theorems": [
    "Pdf.C30_counterexample",
    "Pdf.C30_defined_partial",
    "Pdf.C30_references_partial"
   ],
   "note": "False: the default argument inherited={} is shared by all calls (C30_counterexample). Proved: the listed references and the exceptions never depend on earlier calls (C30_references_partial), and the attributes do not either when every page inherits all four attributes in its own document (C30_defined_partial)."
  },
  {
   "property": "C31",
   "status": "partial",
   "theorems": [
    "Pdf.C31_prefix",
    "Pdf.C31_counterexample",
    "Pdf.C31_skips",
    "Pdf.C31_one_partial",
    "Pdf.C31_flat_partial"
   ],
   "note": "First half proved for any document (C31_prefix). The bound is false (C31_counterexample), and pages may be skipped (C31_skips); it is proved for max_nb = 1 (C31_one_partial) and for trees with one level (C31_flat_partial)."
  },
  {
   "property": "C32",
   "status": "partial",
   "theorems": [
    "Pdf.C32_rotate_partial",
    "Pdf.C32_effective_partial",
    "Pdf.C32_compose_partial",
    "Pdf.C32_inverse_partial",
    "Pdf.C32_counterexample"
   ],
   "note": "Proved for well-formed page trees of any shape in documents without object streams, for all angles and selections: exact effect on the store (C32_rotate_partial), effective rotations, composition, inverse. Hypotheses: distinct page numbers, a /MediaBox, integer or absent /Rotate, the shared dict of C30 not filled by another document. False for /Rotate null on a page (C32_counterexample)."
  },
  {
   "property": "C57",
   "status": "partial",
   "theorems": [
    "Pdf.C57_annotation_partial",
    "Pdf.C57_counterexample"
   ],
   "note": "Proved for documents without object streams and pages that have no /Annots or an indirect array: exactly one annotation is added at the chosen page (any Python index), the others and the other pages are unchanged. C57_counterexample: with a direct /Annots array the call fails."
  },
  {
   "property": "C33",
   "status": "partial",
   "theorems": [
    "Pdf.C33_remove_partial",
    "Pdf.C33_counterexample"
   ],
   "note": "Proved (page list by position, every /Count, tree well-formed again, any set order) for documents without object streams whose /Count are direct integers and whose removed pages do not lead to tree nodes otherwise than through /Parent or /P; everything below the pages readable without cycles. C33_counterexample: an indirect /Count."
  },
  {
   "property": "C34",
   "status": "partial",
   "theorems": [
    "Pdf.C34_objects_partial",
    "Pdf.C34_counterexample"
   ],
   "note": "Exact fate of every object proved for uses found outside stream dictionaries, on the documents of C33. C34_counterexample: a font used by a kept page only through a form XObject is deleted."
  },
  {
   "property": "C35",
   "status": "partial",
   "theorems": [
    "Pdf.C35_keep_partial",
    "Pdf.C35_slice_partial",
    "Pdf.C35_step",
    "Pdf.C35_counterexample"
   ],
   "note": "Proved for every index and every slice (positions of Python, document order) on the documents of C33 with at least one page and a right root /Count; C35_step: step 0 refused. C35_counterexample: an indirect /Count."
  },
  {
   "property": "C37",
   "status": "partial",
   "theorems": [
    "Pdf.C37_squash_partial",
    "Pdf.C37_no_gap_partial",
    "Pdf.C37_stream_counterexample",
    "Pdf.C37_dangling_counterexample"
   ],
   "note": "Proved for documents without object streams, whose cells know their numbers, without dangling references, and whose stream dictionaries do not refer to a moved object (no condition on streams when nothing is deleted): the numbers are 1..n in order, generations 0, each object is the renumbered old one, and all walks from the root by keys, positions and references agree. False in general: C37_stream_counterexample (references in stream dictionaries are not renumbered), C37_dangling_counterexample (a reference to a deleted object then leads to another object)."
  },
  {
   "property": "C64",
   "status": "partial",
   "theorems": [
    "Pdf.C64_squash_source_partial",
    "Pdf.C64_squash_counterexample"
   ],
   "note": "False of the code (C64_squash_counterexample: the cached objects of the given document are renumbered in place). Proved when no live object refers to a moved object."
  },
  {
   "property": "C65",
   "status": "partial",
   "theorems": [
    "Pdf.C65_counterexample",
    "Pdf.C65_twice_partial"
   ],
   "note": "False of the code (C65_counterexample: the entries keep the old numbers, and the second squash raises). Proved when nothing was deleted and all generations are 0."
  },
  {
   "property": "C36",
   "status": "partial",
   "theorems": [
    "Pdf.C36_concat_partial",
    "Pdf.C36_right_partial",
    "Pdf.C36_listed_partial",
    "Pdf.C36_stream_counterexample",
    "Pdf.C36_catalog_counterexample",
    "Pdf.C36_xref_counterexample"
   ],
   "note": "Proved (both values of target_left) for a target that may be edited, with direct /Kids and /Count at the root, and a source as in C37 that has no cross-reference stream, no reference in its stream dictionaries and no reference to its catalog: page list, count, unchanged objects, consistent renumbering; C36_listed_partial ties it to flat_page_tree. False without these conditions: C36_stream_counterexample (an indirect /Length), C36_catalog_counterexample, C36_xref_counterexample (another object than the xref stream is left out)."
  },
  {
   "property": "C66",
   "status": "partial",
   "theorems": [
    "Pdf.C66_attributes_partial",
    "Pdf.C66_kept_partial",
    "Pdf.C66_counterexample"
   ],
   "note": "False of the code (C66_counterexample: the added pages inherit from the root node of the target). C66_attributes_partial gives the exact outcome on the documents of C36, C66_kept_partial the cases that hold."
  },
  {
   "property": "C67",
   "status": "partial",
   "theorems": [
    "Pdf.C67_counterexample",
    "Pdf.C67_others_partial"
   ],
   "note": "False of the code (C67_counterexample: afterwards the pages of the given document cannot be listed). C67_others_partial: only the root page node differs, and nothing does if it had not been read."
  },
  {
   "property": "C28",
   "status": "partial",
   "theorems": [
    "Pdf.C28_reload_partial",
    "Pdf.C28_blank_partial",
    "Pdf.C28_cr_counterexample"
   ],
   "note": "Proved for every document obtained from a new one (blank, or built in memory from well-formed objects) by any sequence of additions, replacements, deletions, reads, commits, and write/load cycles, in table mode. Loading succeeds and all live objects and trailer entries are equal up to entry order. Missing: object streams and xref streams. Objects that do not survive writing are excluded, with a counterexample."
  },
  {
   "property": "C68",
   "status": "partial",
   "theorems": [
    "Pdf.C68_unused_partial",
    "Pdf.C68_counterexample"
   ],
   "note": "False of the code: C68_counterexample shows a deleted object that is back after writing and loading (free rows are skipped when the index is built). Proved for numbers that have never been used."
  },
  {
   "property": "C46",
   "status": "partial",
   "theorems": [
    "Pdf.C46_tiles_partial",
    "Pdf.C46_lines_partial",
    "Pdf.C46_one_line_counterexample",
    "Pdf.C46_table_rows",
    "Pdf.C46_stream_rows",
    "Pdf.C46_embedded",
    "Pdf.C46_begin_counterexample",
    "Pdf.C46_rest_counterexample"
   ],
   "note": "Regions tile the file from 0 to the end or to the first unrecognised token (characterised). False in general: begin is None when no end of line follows the object (C46_begin_counterexample); bytes after an unrecognised token are skipped (C46_rest_counterexample), and so is the end of a file whose trailer is on one line (C46_one_line_counterexample). With a final end of line every begin is the previous end (C46_lines_partial). The rows of cross-reference streams carry the rank of their subsection and their rank in it (C46_stream_rows), those of tables too (C46_table_rows)."
  },
  {
   "property": "C47",
   "status": "partial",
   "theorems": [
    "Pdf.C47_diverges",
    "Pdf.C47_divergence",
    "Pdf.C47_terminates_partial"
   ],
   "note": "False of the code (C47_diverges: a closing bracket where a region begins). C47_divergence characterises divergence exactly; termination proved for files without ']', '/Columns' and '/ObjStm'; the parser itself is characterised by C06_exact."
  },
  {
   "property": "C48",
   "status": "partial",
   "theorems": [
    "Pdf.C48_targets_partial",
    "Pdf.C48_not_indexed",
    "Pdf.C48_not_indexed_odd",
    "Pdf.C48_overwritten_counterexample"
   ],
   "note": "Exactness of both checks as equivalences, for sections as read in files (one entry numbered 0, distinct positions); C48_overwritten_counterexample for other sections. Non-integer numbers of embedded objects that Python compares with integers (booleans, floats) are not modelled."
  },
  {
   "property": "C55",
   "status": "partial",
   "theorems": [
    "Pdf.C55_stream_content",
    "Pdf.C55_objects_partial",
    "Pdf.C55_comment_partial",
    "Pdf.C55_comment_counterexample",
    "Pdf.C55_xref_counterexample",
    "Pdf.C55_minimap_counterexample"
   ],
   "note": "follow_obj shows every object obtained by parse_obj without raw angle brackets of the file (provenance-tagged output), printable_stream_content escapes; comments are shown raw (exact characterisation and counterexample), as are keywords of xref tables and /Type strings in the minimap (counterexamples)."
  },
  {
   "property": "C69",
   "status": "partial",
   "theorems": [
    "Pdf.C69_apply_partial",
    "Pdf.C69_list",
    "Pdf.C69_unsupported_counterexample",
    "Pdf.C69_remove_counterexample",
    "Pdf.C69_array_counterexample"
   ],
   "note": "False of the code: data of streams with an unsupported filter are lost, so are those of unfiltered streams when the filter is to be removed, arrays of filters raise (three counterexamples). Proved for streams with at most one supported filter given by name and no predictor; list_streams exact for all coherent documents whose live objects can be read."
  },
  {
   "property": "C70",
   "status": "partial",
   "theorems": [
    "Pdf.C70_checks_partial",
    "Pdf.C70_scan_partial",
    "Pdf.C70_tables_partial",
    "Pdf.C70_scan_counterexample"
   ],
   "note": "Both checks find nothing and the tables listed by the scan are the sections, for all documents made from fresh ones by edits, commits and reloads, in table mode without object streams. The scan can only fail on a stored stream that pretends to be a cross-reference stream (C70_scan_partial, C70_scan_counterexample)."
  },
  {
   "property": "C71",
   "status": "proved",
   "theorems": [
    "Pdf.C71_versions",
    "Pdf.C71_limits"
   ],
   "note": "For every file (data provider) for which the index can be built; object 0 (the trailer), which is replaced in each revision, is apart for versions."
  },
  {
   "property": "C72",
   "status": "partial",
   "theorems": [
    "Pdf.C72_tounicode_partial",
    "Pdf.C72_unicode_unique",
    "Pdf.C72_one_byte_range",
    "Pdf.C72_one_byte_counterexample",
    "Pdf.C72_ligature_counterexample",
    "Pdf.C72_mixed_counterexample",
    "Pdf.C72_empty_counterexample"
   ],
   "note": "False of the code: one-byte ranges are decoded with two-byte keys, ligature targets of ranges, codes of mixed widths and empty targets (four counterexamples). Proved for the maps whose codes have two bytes or more and one width, with one-unit range targets."
  },
  {
   "property": "C73",
   "status": "partial",
   "theorems": [
    "Pdf.C73_winansi_partial",
    "Pdf.C73_winansi_unique",
    "Pdf.C73_undefined",
    "Pdf.C73_mac",
    "Pdf.C73_hex",
    "Pdf.C73_hex_counterexample",
    "Pdf.C73_differences_counterexample"
   ],
   "note": "False of the code: hexadecimal strings are returned undecoded (C73_hex describes what they give) and /Differences are ignored. Proved for all literal strings, both encodings; bytes without a character in cp1252 raise."
  },
  {
   "property": "C74",
   "status": "partial",
   "theorems": [
    "Pdf.C74_number",
    "Pdf.C74_TJ_partial",
    "Pdf.C74_Tj",
    "Pdf.C74_zero_space",
    "Pdf.C74_displacement_counterexample"
   ],
   "note": "The text is exact for all arrays; the displacement is off by the numbers taken as spaces (counterexample) and a space of width 0 raises (C74_zero_space)."
  },
  {
   "property": "C75",
   "status": "partial",
   "theorems": [
    "Pdf.C75_texts_partial",
    "Pdf.C75_position",
    "Pdf.C75_displacement_partial",
    "Pdf.C75_quote_counterexample",
    "Pdf.C75_streams_counterexample",
    "Pdf.C75_spacing_counterexample"
   ],
   "note": "False of the code: ' and \" show nothing, content streams are joined without white space, character and word spacing are counted once (counterexamples). Proved: fragments, in order, with texts and positions for contents without these operators."
  },
  {
   "property": "C76",
   "status": "partial",
   "theorems": [
    "Pdf.C76_layout_partial",
    "Pdf.C76_blank_lines",
    "Pdf.C76_single_characters",
    "Pdf.C76_line_spacing",
    "Pdf.C76_char_width",
    "Pdf.C76_fragments"
   ],
   "note": "Proved for pages with a positive line spacing and a character width other than 0. Pages whose blocks all have fewer than two characters raise (C76_single_characters)."
  },
  {
   "property": "C77",
   "status": "partial",
   "theorems": [
    "Pdf.C77_fonts_partial",
    "Pdf.C77_contents_partial",
    "Pdf.C77_text_partial",
    "Pdf.C77_inherited_counterexample",
    "Pdf.C77_indirect_counterexample",
    "Pdf.C77_no_font_counterexample",
    "Pdf.C77_type3_counterexample",
    "Pdf.C77_blank_counterexample",
    "Pdf.C77_missing_width_counterexample"
   ],
   "note": "False of the code: inherited resources, resources without fonts or with an indirect dict of fonts, pages without /Contents (blank pages) and Type 3 fonts raise; /MissingWidth is ignored (six counterexamples). Proved for all pages with their own resources and a direct dict of usable fonts, all forms of /Contents."
  },
  {
   "property": "C78",
   "status": "partial",
   "theorems": [
    "Pdf.C78_fonts_partial",
    "Pdf.C78_twice_counterexample"
   ],
   "note": "A page that has two names for a font is listed twice (counterexample). Proved with multiplicities for all documents whose pages have usable fonts."
  },
  {
   "property": "C79",
   "status": "partial",
   "theorems": [
    "Pdf.C79_parms",
    "Pdf.C79_reload_partial",
    "Pdf.C79_plain_partial",
    "Pdf.C79_flate_partial",
    "Pdf.C79_group_partial",
    "Pdf.C79_force_partial",
    "Pdf.C79_pack_partial",
    "Pdf.C79_small_counterexample"
   ],
   "note": "False of small documents (below 256 bytes the generation 65535 does not fit: OverflowError, counterexample). Proved from the document in memory to the loaded one for documents of one revision; hypotheses on the file: streams storable (C02), 100 bytes or more, addresses of at most four bytes. Documents with several revisions are not covered in this mode."
  },
  {
   "property": "C80",
   "status": "partial",
   "theorems": [
    "Pdf.C80_compress_partial",
    "Pdf.C80_stale_counterexample",
    "Pdf.C80_image_counterexample",
    "Pdf.C80_array_counterexample"
   ],
   "note": "False of the code in general: a document that has a cross-reference stream keeps its stale number and may lose its catalog; images with a filter that is not supported are replaced by a message; arrays of filters raise (three counterexamples). Proved from the document to the loaded one for documents without cross-reference stream and object streams, streams with at most one supported filter without predictor, file of 100 bytes or more; supposed of the bytes that zlib makes: not empty, without endstream, not ending with CR."
  },
  {
   "property": "C81",
   "status": "partial",
   "theorems": [
    "Pdf.C81_lines_partial",
    "Pdf.C81_regions_partial",
    "Pdf.C81_columns",
    "Pdf.C81_own_partial",
    "Pdf.C81_address_counterexample",
    "Pdf.C81_chain_counterexample",
    "Pdf.C81_embedded_counterexample"
   ],
   "note": "False in three ways of the code: a right entry has the mark of a wrong one when both give the same address, tables out of the chain are not checked, and the marks of embedded objects are those of other objects (three counterexamples); the theorem says exactly what the marks mean. Positions: for files which end with an end of line. Own files: when the listing is made. The detail column is in C109, the text of ratios is a parameter."
  },
  {
   "property": "C82",
   "status": "partial",
   "theorems": [
    "Pdf.C82_uses_partial",
    "Pdf.C82_orphan_counterexample",
    "Pdf.C82_dangling_counterexample",
    "Pdf.C82_shared_counterexample"
   ],
   "note": "The view is not made (TypeError, KeyError) of files with an object that no table lists or with a reference to an object which does not exist, and loses uses when the index gives one position to two numbers (three counterexamples). Proved for the files of which the view is made, ending with an end of line, when no position is given to two numbers. Positions of embedded objects are floats in the code, pairs here."
  },
  {
   "property": "C83",
   "status": "partial",
   "theorems": [
    "Pdf.C83_links_partial",
    "Pdf.C83_updated_counterexample",
    "Pdf.C83_number_counterexample"
   ],
   "note": "False of pages updated in object streams: the blocks of embedded objects always have the version 0, the link is dead and the id is given twice (counterexample); an object stream that gives another number than the index doubles an id (counterexample). Proved for pages outside object streams, and for those of the first version in them."
  },
  {
   "property": "C84",
   "status": "partial",
   "theorems": [
    "Pdf.C84_commits",
    "Pdf.C84_revisions_partial",
    "Pdf.C84_linearized_partial",
    "Pdf.C84_encrypted",
    "Pdf.C84_hidden",
    "Pdf.C84_paper",
    "Pdf.C84_blank",
    "Pdf.C84_deletion_counterexample",
    "Pdf.C84_hybrid_counterexample",
    "Pdf.C84_comment_counterexample",
    "Pdf.C84_shown_partial"
   ],
   "note": "False in three ways of the code: a last revision that only deletes is not counted, a hybrid file with one revision is not shown as hybrid, a linearized file without a comment after the header is missed (three counterexamples). The number of revisions is proved for all documents made without object streams nor xref streams, the format for all boxes of integers, linearized for files laid out as the library writes. The text of the dimensions of an unknown format is left out. C84_shown_partial ties every line of the overview to the file and the objects (well-formed page trees)."
  },
  {
   "property": "C85",
   "status": "partial",
   "theorems": [
    "Pdf.C85_metadata_partial",
    "Pdf.C85_none",
    "Pdf.C85_reload_partial",
    "Pdf.C85_mark_counterexample",
    "Pdf.C85_deleted_counterexample"
   ],
   "note": "A hexadecimal string whose mark is not in capitals is not decoded as UTF-16, and a deleted entry is back after a reload (two counterexamples). Proved for entries that are strings; the reload for the documents of C28 when references lead to objects in use."
  },
  {
   "property": "C86",
   "status": "partial",
   "theorems": [
    "Pdf.C86_map_partial",
    "Pdf.C86_reload_partial",
    "Pdf.C86_own_partial",
    "Pdf.C86_deletions_counterexample",
    "Pdf.C86_placeholder_counterexample"
   ],
   "note": "In stream mode, a revision that only deletes cannot be committed, and without a placeholder nothing can be added after the first commit (two counterexamples, for all documents of the form). Left out: the number of the cross-reference streams itself, object streams replaced while their objects are in use, objects of an object stream changed before the others are read (C25 is false there), numbers that are deleted (C68 is false). Filters on the cross-reference stream: none under 4 GiB, or /FlateDecode with the law of zlib and conditions on its bytes (xsOk_flate)."
  },
  {
   "property": "C87",
   "status": "partial",
   "theorems": [
    "Pdf.C87_stops",
    "Pdf.C87_fuel",
    "Pdf.C87_loop_counterexample",
    "Pdf.C87_shown_partial",
    "Pdf.C87_image_counterexample",
    "Pdf.C87_bracket_counterexample"
   ],
   "note": "Termination is proved exactly (C87_stops, with the fuel of the model in C87_fuel), and fails on an unclosed `](`. What is shown is proved for texts without other brackets and without `!` at the end of a plain part; two counterexamples where it is wrong."
  },
  {
   "property": "C88",
   "status": "partial",
   "theorems": [
    "Pdf.C88_shown_partial",
    "Pdf.C88_lost_counterexample",
    "Pdf.C88_skipped_counterexample"
   ],
   "note": "False after an emphasis: the loop jumps two characters too far, so that the last character of a text can be lost (counterexample for all texts) or a mark missed. Proved for texts whose emphases are followed by enough plain text."
  },
  {
   "property": "C89",
   "status": "partial",
   "theorems": [
    "Pdf.C89_document_partial",
    "Pdf.C89_code_inert",
    "Pdf.C89_last_counterexample",
    "Pdf.C89_glued_counterexample",
    "Pdf.C89_after_counterexample",
    "Pdf.C89_before_counterexample",
    "Pdf.C89_rule_counterexample",
    "Pdf.C89_empty_counterexample",
    "Pdf.C89_table_counterexample",
    "Pdf.C89_code_counterexample"
   ],
   "note": "Proved for the documents of the grammar DocShown (blocks at the top level, each followed by its blank line). Nested lists and quotations are left out. False otherwise: eight counterexamples (last paragraph lost, lines glued, lines lost after a list or before a title, first rule, empty paragraphs, IndexError of a table, code that is not escaped)."
  },
  {
   "property": "C90",
   "status": "partial",
   "theorems": [
    "Pdf.C90_parses",
    "Pdf.C90_renders",
    "Pdf.C90_balanced_partial",
    "Pdf.C90_url_counterexample",
    "Pdf.C90_rule_counterexample",
    "Pdf.C90_break_counterexample"
   ],
   "note": "Termination of the parser is proved for all documents, of the rendering for those without `]`. The balance leaves out `<`, `]`, line breaks and underlines of one character, with counterexamples."
  },
  {
   "property": "C91",
   "status": "partial",
   "theorems": [
    "Pdf.C91_page_partial",
    "Pdf.C91_prev_counterexample",
    "Pdf.C91_script_counterexample",
    "Pdf.C91_unbound_counterexample"
   ],
   "note": "False of a file where /Prev holds a reference (a tag inside an attribute), where an array holds a dictionary with /JS (text cut inside a tag), and no page is made when a table comes before every object (three counterexamples). Proved for tidy objects when the raw texts of C55 (comments, keywords of tables, /Type strings, version, name of the file) have no angle bracket. The text of the float positions of embedded objects is only assumed to be made of digits and of the characters `.e+-`."
  },
  {
   "property": "C92",
   "status": "partial",
   "theorems": [
    "Pdf.C92_minimap_partial",
    "Pdf.C92_pages_partial"
   ],
   "note": "As for C91; for the links to pages also the hypotheses of C83, with its counterexamples. The links inside the blocks are not covered here (C82 says what the uses are)."
  },
  {
   "property": "C93",
   "status": "partial",
   "theorems": [
    "Pdf.C93_iterate_partial",
    "Pdf.C93_counterexample"
   ],
   "note": "For the documents of C33 whose root has a direct /Count equal to the number of pages; no iteration otherwise (counterexample)."
  },
  {
   "property": "C94",
   "status": "partial",
   "theorems": [
    "Pdf.C94_columns",
    "Pdf.C94_fonts_partial",
    "Pdf.C94_twice_counterexample"
   ],
   "note": "The columns are proved for all tables. The fonts as for C78, when no page has two names for one font (counterexample: the count of pages is that of the names)."
  },
  {
   "property": "C95",
   "status": "partial",
   "theorems": [
    "Pdf.C95_matrix_partial"
   ],
   "note": "For the first 100000 objects; the label of the next lines is one character longer than the others."
  },
  {
   "property": "C96",
   "status": "partial",
   "theorems": [
    "Pdf.C96_exact",
    "Pdf.C96_history_partial",
    "Pdf.C96_counterexample",
    "Pdf.C96_blank_counterexample"
   ],
   "note": "The exact text is proved for any number of revisions; from three on it shows the cuts of other revisions (counterexample), and a document made from scratch makes it fail (counterexample)."
  },
  {
   "property": "C97",
   "status": "partial",
   "theorems": [
    "Pdf.C97_hierarchy_partial",
    "Pdf.C97_counterexample",
    "Pdf.C97_numbers"
   ],
   "note": "False of an indirect array of kids (counterexample). The text of references, counts and contents in an f-string is a parameter."
  },
  {
   "property": "C98",
   "status": "partial",
   "theorems": [
    "Pdf.C98_parse_partial",
    "Pdf.C98_same_partial",
    "Pdf.C98_indirect_partial",
    "Pdf.C98_sample_indirect",
    "Pdf.C98_comment_counterexample",
    "Pdf.C98_endstream_counterexample",
    "Pdf.C98_null_counterexample",
    "Pdf.C98_name_counterexample",
    "Pdf.C98_underscore_counterexample"
   ],
   "note": "False of comments with a delimiter in an array or a dictionary, of a comment before the keyword stream, of data that contain endstream or end with a carriage return, of null, of names with bytes above 127 (counterexamples), of strings with brackets or double angles (C01), of generations other than 0 (C01). Numbers with underscores are read though they are no numbers (counterexample). Reals: at most fifteen significant digits."
  },
  {
   "property": "C99",
   "status": "partial",
   "theorems": [
    "Pdf.C99_load_partial",
    "Pdf.C99_session_partial",
    "Pdf.C99_freed_counterexample",
    "Pdf.C99_left_out_counterexample",
    "Pdf.C99_stream_left_out_counterexample",
    "Pdf.C99_offsets_counterexample",
    "Pdf.C99_last_counterexample",
    "Pdf.C99_sample",
    "Pdf.C99_sample_last",
    "Pdf.C99_sample_gives",
    "Pdf.C99_sample_whole"
   ],
   "note": "Restricted to the texts of Spec/FileText.lean. False of a number freed by a newer section, of a blank after xref, of a dictionary that begins on the line of the word trailer and ends on another, of more than a hundred bytes after the end mark, of bytes before the header, of a cross-reference stream without a column of types or with an empty run, of an object stream whose members are not in the order of its head, or that ends with a number or a name (counterexamples). Hybrid files (XRefStm) are left out; linearized files are covered once they have an update, and by C106 before that."
  },
  {
   "property": "C100",
   "status": "partial",
   "theorems": [
    "Pdf.C100_a85_partial",
    "Pdf.C100_a85_counterexample",
    "Pdf.C100_hex_partial",
    "Pdf.C100_hex_counterexample"
   ],
   "note": "False of hexadecimal texts with their end mark or with white space (never decoded: the text of an error is given as data), of ASCII85 texts with a form feed or a null as white space, or with anything after the end mark (counterexamples)."
  },
  {
   "property": "C101",
   "status": "partial",
   "theorems": [
    "Pdf.C101_visible_partial",
    "Pdf.C101_parse_partial",
    "Pdf.C101_string_partial",
    "Pdf.C101_array_partial",
    "Pdf.C101_lines_partial",
    "Pdf.C101_stream_partial",
    "Pdf.C101_data_partial",
    "Pdf.C101_ampersand_counterexample",
    "Pdf.C101_bool_counterexample",
    "Pdf.C101_backslash_counterexample",
    "Pdf.C101_key_counterexample",
    "Pdf.C101_entity_counterexample"
   ],
   "note": "False of booleans (True and False are shown), of strings with a backslash, of keys of twenty characters or more, of keys and data with an ampersand (counterexamples), of strings with both kinds of quotes or unprintable characters, of a value of Prev other than an integer (C91). What is left out is marked but not described, except for strings, arrays of integers and data of streams."
  },
  {
   "property": "C102",
   "status": "partial",
   "theorems": [
    "Pdf.C102_squash_reload_partial"
   ],
   "note": "For documents whose first revision has no xref stream, whose objects survive writing (C28) and that can be squashed faithfully (C37: no moved reference in a stream dictionary, no dangling reference)."
  },
  {
   "property": "C103",
   "status": "partial",
   "theorems": [
    "Pdf.C103_pages_partial",
    "Pdf.C103_rotate_partial",
    "Pdf.C103_remove_partial",
    "Pdf.C103_added_counterexample"
   ],
   "note": "For documents written with tables, without object streams, whose objects survive writing (C28), under the conditions of C32 and C33; false of pages added in the same revision, whose removal makes writefile fail (counterexample)."
  },
  {
   "property": "C104",
   "status": "partial",
   "theorems": [
    "Pdf.C104_slice_partial",
    "Pdf.C104_concat_partial"
   ],
   "note": "For documents written with tables, without object streams, whose objects survive writing (C28), under the conditions of C33 and C35 for slices and of C36 for concat (no moved reference in a stream dictionary, nothing refers to the catalog of the source, no xref stream)."
  },
  {
   "property": "C105",
   "status": "partial",
   "theorems": [
    "Pdf.C105_filter_partial",
    "Pdf.C105_endstream_counterexample"
   ],
   "note": "For streams with at most one supported filter and no predictor (C69), in documents written with tables (C28), when the encoded data are not empty, do not contain endstream and do not end with a carriage return (counterexample; always true of hexadecimal digits)."
  },
  {
   "property": "C106",
   "status": "partial",
   "theorems": [
    "Pdf.C106_cases",
    "Pdf.C106_load_partial",
    "Pdf.C106_updates_rejected",
    "Pdf.C106_sample",
    "Pdf.C106_sample_linearized",
    "Pdf.C106_sample_one",
    "Pdf.C106_one_counterexample"
   ],
   "note": "For the texts of Spec/FileText.lean in which the number 1 is in use; otherwise the file cannot be loaded (counterexample). False of editing: whatever is set or added, commit and writefile fail (C106_updates_rejected, for all these files)."
  },
  {
   "property": "C107",
   "status": "partial",
   "theorems": [
    "Pdf.C107_table_partial",
    "Pdf.C107_printed",
    "Pdf.C107_counterexample"
   ],
   "note": "The lines, versions and deletions are proved for all documents with less than 10^7 (compact) or 10^17 numbers; the positions for objects outside object streams. False of a number that is not used, which is shown as an unchanged object (counterexample)."
  },
  {
   "property": "C108",
   "status": "partial",
   "theorems": [
    "Pdf.C108_annotation_partial",
    "Pdf.C108_counterexample",
    "Pdf.C108_memory_counterexample"
   ],
   "note": "For ASCII texts whose parentheses are balanced or escaped and without double angle brackets, pages without annotations or with an indirect array (C57), documents of C28 and less than 2^53 numbers. False of the other texts, which are cut, read as entries, make the annotation unreadable or the writing fail (counterexamples); the annotation in memory is a Python string, that of the file bytes (counterexample)."
  },
  {
   "property": "C109",
   "status": "partial",
   "theorems": [
    "Pdf.C109_details_partial",
    "Pdf.C109_printed",
    "Pdf.C109_script_counterexample",
    "Pdf.C109_mark_counterexample"
   ],
   "note": "The lines, their details and the layout are proved of all the listings that are made. The mark of scripts is false in two ways of the code: a key written with an escape and the scripts of inner dictionaries and arrays have none, and a byte string may contain the mark (counterexamples). Values that are lists or dictionaries, and floats written with an exponent, are not modelled in the details."
  },
  {
   "property": "C110",
   "status": "partial",
   "theorems": [
    "Pdf.C110_items_partial",
    "Pdf.C110_page_partial",
    "Pdf.C110_comment_counterexample"
   ],
   "note": "Proved part by part (C110_items_partial) and of the whole text (C110_page_partial) for items shown as they are: objects legible in the sense of C101, no ampersand in the data of the streams, no < or & in comments, keywords of entries, types, version and name of the file; nothing truncated; the file ends with an end of line. Comments are not escaped (C110_comment_counterexample)."
  },
  {
   "property": "C111",
   "status": "partial",
   "theorems": [
    "Pdf.C111_files",
    "Pdf.C111_failed",
    "Pdf.C111_compress",
    "Pdf.C111_compress_total",
    "Pdf.C111_reports",
    "Pdf.C111_hexdump_partial",
    "Pdf.C111_text_partial",
    "Pdf.C111_text_unread",
    "Pdf.C111_pprint_counterexample"
   ],
   "note": "Files, failures, compress and reports are proved of all states of the files; text for files whose object streams agree with the index (Coherent), hexdump for files that are not empty (C52). False for pprint_page_contents, which calls a function that does not exist (C111_pprint_counterexample, for all documents with a page tree). The arguments are supposed parsed, what is printed is a value and not an encoded text, and a write is all or nothing."
  },
  {
   "property": "C112",
   "status": "partial",
   "theorems": [
    "Pdf.C112_text_partial",
    "Pdf.C112_command_partial",
    "Pdf.C112_deleted_counterexample"
   ],
   "note": "For documents made by editing, with classic tables (C28), whose references lead to objects in use. False when a reference leads to a deleted object: it is back in the file, and the page is laid out otherwise (C112_deleted_counterexample). A page that cannot be laid out before is not covered."
  },
  {
   "property": "C113",
   "status": "partial",
   "theorems": [
    "Pdf.C113_negative",
    "Pdf.C113_rotate_partial",
    "Pdf.C113_remove_partial",
    "Pdf.C113_slice_partial",
    "Pdf.C113_concat_partial",
    "Pdf.C113_name_counterexample"
   ],
   "note": "For the documents of C32, C33, C35 and C36. For rotation, success is kept in both directions; for the others, a page that could be laid out still can, with the same text. False of a font named /P or /Parent: the entry is taken for a link to a page, and the font is deleted with another page that uses it (C113_name_counterexample). Page numbers from 0 on; a negative page number gives what the one from the start gives (C113_negative)."
  },
  {
   "property": "C114",
   "status": "partial",
   "theorems": [
    "Pdf.C114_rotate_partial",
    "Pdf.C114_remove_partial",
    "Pdf.C114_slice_partial",
    "Pdf.C114_concat_partial"
   ],
   "note": "Composition of C112 and C113. That the references of the result lead to objects in use is derived: from the same fact of the documents and, for removal and slices, from the hypothesis that nothing that stays refers to what only the removed pages use, the lists of the pages excepted (an outline item or a link to a removed page makes it false). Otherwise the limits are those of C112 and C113."
  },
  {
   "property": "C115",
   "status": "partial",
   "theorems": [
    "Pdf.C115_annotation_partial",
    "Pdf.C115_file_partial",
    "Pdf.C115_shared_counterexample"
   ],
   "note": "The annotations of the page must be absent or an array that is an object of its own (for a direct array the edit fails, C57_counterexample), and that array must be referred to under /Annots only: C115_shared_counterexample is a page whose /Contents is the same array, where the text is lost. One direction: a page whose text could not be extracted before is not covered. On the file, also the limits of C108 (ASCII text that can be put between parentheses) and of C112."
  }
 ]
}