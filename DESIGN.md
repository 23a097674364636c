# Formal model of pdfsyntax in Lean 4 — design

The plan per property was written before the proofs and is kept below, extended as the model grew.

## Layout

* `lean/Verif/Model/*.lean` — the model. One definition per Python function (or loop), each
  with a comment citing file and lines in `/repo`. Exceptions are values
  (`Except PyErr α`). Loops are structural recursions, or take fuel where the
  Python loop may not terminate (running out of fuel is the value `.nonterm`,
  and adequacy theorems say it means real divergence).
* `lean/Verif/Spec/*.lean` — small specifications, independent of the model's helpers.
* `lean/Verif/Lemmas/*.lean` — helper lemmas.
* `lean/Verif/Props/*.lean` — the property theorems (named `Cnn_…`), each with a
  non-vacuity example beside it; counterexamples are named `Cnn_…_counterexample`.
* `tools/` — generation of MANIFEST.json and of the axiom table below; the runner of seeded faults.
* `seeded/LOG.jsonl` — one line per wrong program tried against the theorems.

A property that is false of the code is kept in full in `properties.jsonl`; beside it are a theorem that
negates it on a concrete witness and a theorem with suffix `_partial` for the inputs on which it holds.

## Trusted base

* The kernel of Lean 4.33.0. No `sorry`, no axiom of our own, no `native_decide`, no `bv_decide`.
  The tactic `kernel_rfl` (Lemmas/KernelRfl.lean) only proposes the proof term `Eq.refl a`; the
  kernel checks it like any other.
* Axioms: at most `propext`, `Classical.choice` and `Quot.sound`, per theorem as listed in "Axioms" below.
* The reading of the Python code by hand: that each definition of `Verif/Model` does what the cited lines do. Nothing
  was run. The simplifications are listed in the next section and in the comments of the definitions.
* The English statements of `properties.jsonl` against the Lean statements and the definitions of `Verif/Spec`.

## Modelling conventions and simplifications

* `bytes` = `List UInt8`. A Python `str` obtained by `decode('ascii')` is
  the same list (all bytes < 128). A `str` of extracted text is the list of its code points.
* Python values that PDF objects are mapped to = inductive `Obj`
  (`null bool int real str bytes ref list dict stream`). A reference is the Python
  complex `gen + num·j`; `dict` is an insertion-ordered association list
  with `str` keys. Parsing a dictionary with a key that is not a `str` is outside
  the model (`.outside`).
* `float`: a PDF real is modelled as an exact decimal with at most 15 significant digits
  and magnitude in [1e-4, 1e16) or 0 — on that domain Python's `float`/`str` pair is exactly
  decimal normalisation; other reals yield `.outside`.
  Graphics is modelled over any commutative ring, layout over the rationals: rounding is not modelled.
  The float positions `loc + (rank + 1)/10000` of embedded objects (filestruct.py:375) are pairs.
  Their text in the page (C91, C92) is a parameter (`FloatText`), supposed to be made of digits and of `.e+-`.
* `math.log2` and `math.log10`, when used to count the bytes or digits of an integer, are taken as exact (true of
  positions below 2^47).
* Python `int` = `Int` (unbounded in both). `int(s, 16)` only on plain hexadecimal digits.
* `.outside` is a model value meaning "behaviour not modelled". No theorem concludes anything
  about the code from `.outside`; theorems that claim success claim `.ok`.
* zlib is a parameter: any pair of functions; the theorems that need it suppose `decompress (compress x) = x`
  (`ZlibLaw`), and C79/C80 what they state about the bytes produced.
* The order in which Python iterates over a `set` is a parameter of the functions concerned; the theorems hold for
  every order.
* Pages: the recursion limit is a parameter (`lim`); the default argument `inherited={}` shared by the calls of
  `flat_page_tree` is passed explicitly (`leak`). Elsewhere the recursion limit, memory and I/O errors are not modelled.
* The functions on pages are programs (`Prog`) over get_object / update_object / add_object; `Prog.run` runs them on a
  document, and the specifications run them on an abstract store.
* Sharing of mutable cells between documents (C24) has its own heap model (Model/Heap.lean), with an abstraction to the functional
  one; its simplifications are at the top of that file.
* HTML output carries the provenance of each character (from the file / from the program).
* Disassembly: in the column `detail`, the values of keys that are lists or dictionaries, and floats written with an exponent, are left out; the text of a compression ratio (float to text) is a parameter.
* Codec tables (mac_roman, cp1252, PDFDoc) are transcribed in full from the sources.

## What is modelled

| module | modelled | not modelled |
|--------|----------|--------------|
| objects.py | everything the parser, serializer and reference walks use | `Stream` dunder methods |
| filters.py | everything | |
| filestruct.py | everything | |
| docstruct.py | index, cache, get/update/add/delete, commit, rewind, pages, keep/remove, concat, squash, fonts, object streams, version, updates, encrypted, hybrid, info, iteration over a document, the texts of pprint_index, pprint_cache, pprint_data_history, pprint_page_hierarchy | `max_num`, equality of positions of embedded objects as floats in pprint_index, the other `Doc` dunder methods |
| api.py | loading, writing, blank, page_layouts, rotate, filters, annotations, fonts, compress, text extraction, cross_map_index, structure, metadata, paper (not the text of unknown dimensions), pprint_page_contents | `load` with other modes, failing writes |
| text.py, layout.py, graphics.py | everything | `print_debug` |
| display.py | the whole page: objects, tables, comments, ids of the blocks, uses, panel, style sheet, assembly (the text of float positions is a class, `FloatText`, of which only the characters are known) | numbers of pages and of objects that are not integers |
| cli.py | disasm (lines and columns), the data of overview, browse, the table of fonts; the commands with the files and the standard output | argument parsing, encoding of what is printed |
| markdown.py | render_html and all it calls (1-298): link, style, the parsers of blocks, assemble_html | transform and what it calls (301-792), a second renderer; texts are lists of characters below 256; the limit of Python on the depth of recursion |

## Plan per property

| id | what is modelled | how it is proved |
|----|------------------|------------------|
| C01 | next_token, replace_ref, dedicated_type, parse_obj, to_str, serialize | induction on the object; scanner lemmas per mode; round trip modulo dict order |
| C02 | same + Stream branch | scanner lemma for STREAM mode; counterexamples for CR-terminated, empty content |
| C03, C04 | next_token | invariant of the scanner loop |
| C05 | next_token, parse_obj | shift simulation |
| C06 | parse_obj with fuel | concrete diverging inputs (all fuels), adequacy of fuel, inductive description of exactly the diverging texts (`Stuck`), termination of texts without `]` and `/Columns` |
| C07, C08 | deep_ref_retarget, deep_ref_detect | structural induction |
| C09–C11 | filters.py incl. hexlify, a85; zlib is a parameter with law decompress∘compress = id | induction, arithmetic |
| C12 | forge_stream, update_internal_stream_length, serialize | computation |
| C13–C17 | format_xref_*, parse_xref_*_raw, expand_xref_index, circular_deleted | induction over entry lists |
| C18–C19 | build_revision_byte_stream | loop invariant on (fragments, counter) |
| C20–C23, C25–C27 | docstruct state machine | refinement to an abstract map with revisions, invariants over operation lists |
| C24 | heap model of copy_doc/update_object/add_object/commit | frame lemmas over an explicit store |
| C28 | composition of the above with build_xref_sequence, build_index_from_xref_sequence | composition |
| C29–C37, C57 | page tree functions over an abstract object store | induction over trees |
| C38–C41 | text.py, prepare_w(idths) | induction, full finite tables by `decide` |
| C42–C45 | graphics.py over rings | ring, induction over command lists |
| C46–C49 | parse_region, file_object_map, checks, eof_cut | loop invariants |
| C50–C52 | providers, merge_fdata, hexdump | arithmetic, induction |
| C53–C55, C58 | version, layout, HTML escaping, in_use | case analysis, induction |
| C56 | object streams | offsets invariant + C01 |
| C59–C61 | single_load, continuous_load, doc_constructor, readfile, writefile | composition; equality of the two ways to load |
| C62–C68 | pending changes, histories of edits, of revisions, memoized reads | simulation between documents and abstract histories |
| C69 | apply_filter, list_streams | run of the edits, C09–C12 |
| C70, C71 | whole files written by the library read back by the file map and by the index | composition of C18, C28 and the scanner |
| C72–C78 | ToUnicode maps, encodings, text operators, fragments, layout, fonts | induction on the CMap and on the content; exact rationals |
| C79, C80 | cross-reference streams and object streams, compress | composition of C56, C59, C37 and C69 |
| C81 | dump_disasm, print_disasm_columns | C46, C48 and the reading of each section |
| C82, C83 | cross_map_index, build_obj_header, build_nav_pages | C46 for the distinct positions, C71 for the versions |
| C86 | loads, commit, build_revision_byte_stream on sections of mixed kinds | invariant `FiledX` of a session, kept by each operation |
| C87 | link | the place where the loop resumes; texts as lists of spans |
| C88 | style | a run of the loop over each part of the text |
| C89 | parse_markdown, assemble_html | one step lemma for each kind of block, induction on a grammar of documents |
| C90 | parse_markdown, style, assemble_html | induction on the fuel, with the trees and what they contain |
| C91, C92 | build_html and all it calls, browse | grammar of markup (`Spec.Markup`), each function makes a fragment with known ids and links; C46, C82, C83 |
| C93 | Doc.__iter__, __next__ | C33, C35 for each page |
| C94 | print_generic_table, print_fonts | position of each column; C78 |
| C95, C96 | pprint_cache, pprint_data_history | the loop over the lines with the position of each mark; lists indexed by revisions |
| C97 | pprint_page_hierarchy | induction on the tree, text in preorder with the number of pages met before |
| C98 | parse_obj, next_token, tokenizers on foreign texts | grammar of texts as an inductive relation (`Spec/Spelling.lean`); mutual induction on derivations, one scanning lemma per token kind, gaps skipped token by token |
| C99 | loads, parse_xref_table_raw, parse_xref_stream_raw, parse_object_stream, write on files of any program | text of whole files as predicates (`Spec/FileText.lean`); each section is read line by line or column by column, chained through /Prev, then the invariant of C86 carries the session |
| C100 | a85_decode and unhexlify as used by decode_stream | the texts of the data as relations (`Spec/AsciiText.lean`), the loop of the decoder by induction on them |
| C101 | follow_obj, printable_stream_content | `visible` removes tags and entities (`Spec/Visible.lean`); each piece of markup shows a known text whatever follows; the text is one of the grammar of C98 |
| C102 | squash, writefile, loads | the squashed document is a new one in the sense of C28 (`squash_fresh`); walks in maps that show equal objects lead to equal objects (`walk_same`) |
| C103 | rotate, remove_pages, writefile, loads | a program that only writes well-formed objects keeps the document writable (`Emits`, `made_eval`); page trees in maps that show equal objects are the same (`SameTree`) |
| C104 | doc[...], concat, writefile, loads | the steps of `concat` are additions and one replacement: the result is a document made by a history (`concat_made`), then C28 and `reload_root` |
| C105 | apply_filter, writefile, loads | the stream that is forged survives writing (`forge_keepable`), then C28 |
| C106 | build_xref on linearized files, commit | the second trailer is put beside the first one in cell 0; the entries of objects hold no position of a section (`Bare`), so `/Prev` is null and nothing can be written (`commit_null`) |
| C107 | pprint_index | invariant over the columns: what the row says so far is what the loop keeps; the widths bound the cells, so the columns can be cut |
| C108 | add_text_annotation, writefile, loads | the document is compared with a twin, which holds the annotation as a file shows it: no program that leaves this number alone can tell them apart, and both write the same bytes (Lemmas/Twin.lean); the twin is a document of C28 |
| C109 | keys_in_line, dump_disasm, print_disasm_columns | C81 with, for each item of the scan, the fields of its detail; no `!/` can appear across two fields |
| C110 | build_html, build_obj_header, build_xref_table, build_xref_stream, build_nav_info, build_nav_pages, build_nav_objects | each literal is read by a two-state reader of tags (`Step`), so that a piece may begin or end inside a tag; the pieces are put together in the order of the page; the objects by C101 |
| C111 | main, spatial, compress_file, hexdump_cli, readfile, writefile, pprint_page_contents | the state is the files and what was printed, and stays when an exception is raised; the pages listed and the text of a page do not depend on the shared attributes (`SameBy`), nor on the cache (C25) |
| C112 | extract_page_text, get_page_contents, get_page_fonts, prepare_font, flat_page_tree, writefile, spatial | C28 gives equal objects in both maps; each reading step, when it succeeds on the first map, succeeds on the second with an equal result (`Sim`), dicts being compared as maps; fonts are compared as functions from names |
| C113 | extract_page_text, rotate, remove_pages, keep_pages, concat, get_page_fonts | the reading steps of C112 on two maps that agree on what they read (`Agree`): dicts that differ elsewhere than in the entries read (rotation, nodes of the tree), objects used by kept pages (removal), renumbered objects (concatenation) |
| C114 | spatial, rotate, remove_pages, `Doc.__getitem__`, concat, writefile, extract_page_text | C113, then C112 on the result: the references of the result lead to objects in use (`Closed`), derived from those of the documents; for removal, nothing that stays refers to what only the removed pages use (`Apart`) |
| C115 | add_text_annotation, extract_page_text, writefile, spatial | The edit changes `/Annots` of one page, or the array it refers to; what the layout of a page reads is the same but for these (`Safe`, with `OnlyAnnots` for what may refer to the array), so the texts are equal; for the file, C112 on the twin document of C108 that holds the annotation as the file shows it |
| C84, C85 | updates, linearized, structure, metadata, paper | C28 for the reload, C40 for the texts |

Not expressible in a model: none of the listed properties; runtime matters (recursion limit outside pages,
memory, wall-clock, real file I/O) are excluded from each statement.

## Axioms

<!-- axioms -->
483 theorems (of 483 in MANIFEST.json).

* **none** (9): C15_zero_count, C50_continuous_counterexample, C50_modes_disagree, C50_dummy_counterexample, C51_at_cut, C52_empty_counterexample, C52_continuous_counterexample, C99_sample_last, C106_sample_linearized

* **propext** (58): C01_null_counterexample, C07_retarget_partial, C09_no_filter, C10_counterexample, C10_foreign_counterexample, C10_pipeline_partial, C10_empty_counterexample, C12_empty_counterexample, C39_not_total, C39_underscore, C39_line_continuation, C40_lower_case_mark, C41_malformed_counterexample, C42_assoc, C42_identity, C42_action, C42_faithful, C42_cm, C43_text_state_not_restored, C45_stack_untouched, C45_Td, C45_Td_Td, C45_Tm, C45_BT, C45_initial, C45_TD, C45_Tstar, C45_TD_Tstar, C45_quotes, C45_parameters, C17_counterexample, C17_envelope_counterexample, C51_size, C48_overwritten_counterexample, C73_hex_counterexample, C73_differences_counterexample, C87_image_counterexample, C87_bracket_counterexample, C88_skipped_counterexample, C89_code_inert, C89_glued_counterexample, C89_after_counterexample, C89_before_counterexample, C89_rule_counterexample, C89_empty_counterexample, C89_table_counterexample, C89_code_counterexample, C90_url_counterexample, C90_rule_counterexample, C90_break_counterexample, C96_counterexample, C97_numbers, C98_sample_indirect, C100_a85_counterexample, C100_hex_counterexample, C101_ampersand_counterexample, C101_backslash_counterexample, C101_entity_counterexample

* **propext, Quot.sound** (189): C01_backslash_counterexample, C01_angle_counterexample, C01_bracket_counterexample, C01_bare_ref_counterexample, C01_generation_counterexample, C02_empty_counterexample, C02_cr_counterexample, C02_endstream_counterexample, C05_next_token, C06_diverges, C06_diverges_array, C07_stream_counterexample, C08_detect, C08_bare_reference, C08_boolean, C10_last_stage_only, C38_total, C38_injective, C38_append, C39_unescape_escapes, C39_unescape_escape, C40_literal_pdfdoc, C41_empty_counterexample, C41_simple_widths, C41_simple_total, C43_restores, C43_restores_initial, C43_never_raises, C44_split_partial, C44_first_repeated, C44_counterexample, C44_quote_counterexample, C54_minimum_x_counterexample, C13_text, C15_expand, C15_group, C17_width_partial, C50_continuous_partial, C50_continuous_actual, C51_before, C18_embedded_in_table, C56_ref_counterexample, C21_noop, C26_cr_counterexample, C26_trailer_counterexample, C26_ref_counterexample, C27_single_revision, C27_added_then_deleted, C27_deleted_twice, C27_xref_stream, C53_trailer_kept, C23_map_partial, C23_add_fresh, C23_counterexample, C23_deleted_counterexample, C23_add_none, C24_immutable_partial, C24_functional_partial, C24_force_counterexample, C24_commit_counterexample, C25_reads_partial, C25_no_object_stream, C25_counterexample, C20_ops, C59_counterexample, C59_free_ignored, C59_free_ignored_stream, C60_counterexample, C61_counterexample, C61_chain, C62_counterexample, C63_counterexample, C63_newest_partial, C29_counterexample, C30_counterexample, C30_references_partial, C31_prefix, C31_counterexample, C31_skips, C31_one_partial, C32_counterexample, C57_counterexample, C33_counterexample, C34_counterexample, C35_step, C35_counterexample, C37_stream_counterexample, C37_dangling_counterexample, C64_squash_counterexample, C65_counterexample, C36_stream_counterexample, C36_catalog_counterexample, C36_xref_counterexample, C66_counterexample, C67_counterexample, C28_cr_counterexample, C68_counterexample, C46_one_line_counterexample, C46_table_rows, C46_stream_rows, C46_embedded, C46_begin_counterexample, C46_rest_counterexample, C47_diverges, C48_not_indexed_odd, C55_stream_content, C55_comment_partial, C55_comment_counterexample, C55_xref_counterexample, C55_minimap_counterexample, C69_unsupported_counterexample, C69_remove_counterexample, C69_array_counterexample, C70_scan_counterexample, C71_versions, C72_unicode_unique, C72_one_byte_counterexample, C72_ligature_counterexample, C72_mixed_counterexample, C72_empty_counterexample, C73_winansi_unique, C79_small_counterexample, C80_stale_counterexample, C80_image_counterexample, C80_array_counterexample, C81_columns, C81_address_counterexample, C81_chain_counterexample, C81_embedded_counterexample, C82_orphan_counterexample, C82_dangling_counterexample, C82_shared_counterexample, C83_updated_counterexample, C83_number_counterexample, C84_encrypted, C84_hidden, C84_paper, C84_blank, C84_deletion_counterexample, C84_hybrid_counterexample, C84_comment_counterexample, C85_none, C85_mark_counterexample, C85_deleted_counterexample, C86_deletions_counterexample, C86_placeholder_counterexample, C87_loop_counterexample, C87_shown_partial, C88_lost_counterexample, C89_last_counterexample, C91_prev_counterexample, C91_script_counterexample, C91_unbound_counterexample, C93_counterexample, C94_columns, C96_blank_counterexample, C97_counterexample, C98_comment_counterexample, C98_endstream_counterexample, C98_null_counterexample, C98_name_counterexample, C98_underscore_counterexample, C99_freed_counterexample, C99_left_out_counterexample, C99_stream_left_out_counterexample, C99_offsets_counterexample, C99_last_counterexample, C99_sample, C99_sample_gives, C99_sample_whole, C100_hex_partial, C101_string_partial, C101_array_partial, C101_data_partial, C101_bool_counterexample, C101_key_counterexample, C103_added_counterexample, C105_endstream_counterexample, C106_cases, C106_sample, C106_sample_one, C106_one_counterexample, C107_printed, C107_counterexample, C108_counterexample, C108_memory_counterexample, C109_script_counterexample, C109_mark_counterexample, C110_comment_counterexample

* **propext, Classical.choice, Quot.sound** (227): C01_roundtrip_partial, C01_reference_in_array, C02_stream_roundtrip_partial, C02_unfiltered_partial, C03_bounds, C04_shape, C05_parse_obj, C06_diverges_predictor, C06_exact, C06_decoding, C06_terminates_partial, C09_single_filter_partial, C09_predictor_counterexample, C11_png_up, C12_length_partial, C38_ascii, C40_utf16_exact, C40_hex_utf16, C40_literal_utf16, C40_hex_pdfdoc, C41_cid_widths_partial, C41_width_exists, C44_content_partial, C54_most_frequent, C54_most_frequent_zero, C54_typical_font_size, C54_minimum_x_partial, C13_xref_stream, C14_xref_table, C14_writes, C16_circular, C49_eof_cut, C50_single_partial, C50_dummy_partial, C51_after, C51_nested, C52_hexdump_range, C52_hexdump_partial, C18_table_partial, C18_stream, C19_startxref, C56_roundtrip_partial, C56_layout_partial, C56_rank, C21_changes, C21_idempotent, C21_write, C22_changes, C22_first, C26_rewind_partial, C26_history_partial, C27_delete_partial, C53_version, C58_in_use, C20_prefix, C20_cut, C59_carried, C60_terminates_partial, C60_exact_partial, C60_fuel_partial, C61_table_dropped, C61_trailer_partial, C62_written_partial, C62_objects_partial, C63_places_partial, C29_pages_partial, C29_effective_partial, C30_defined_partial, C31_flat_partial, C32_rotate_partial, C32_effective_partial, C32_compose_partial, C32_inverse_partial, C57_annotation_partial, C33_remove_partial, C34_objects_partial, C35_keep_partial, C35_slice_partial, C37_squash_partial, C37_no_gap_partial, C64_squash_source_partial, C65_twice_partial, C36_concat_partial, C36_right_partial, C36_listed_partial, C66_attributes_partial, C66_kept_partial, C67_others_partial, C28_reload_partial, C28_blank_partial, C68_unused_partial, C46_tiles_partial, C46_lines_partial, C47_divergence, C47_terminates_partial, C48_targets_partial, C48_not_indexed, C55_objects_partial, C69_apply_partial, C69_list, C70_checks_partial, C70_scan_partial, C70_tables_partial, C71_limits, C72_tounicode_partial, C72_one_byte_range, C73_winansi_partial, C73_undefined, C73_mac, C73_hex, C74_number, C74_TJ_partial, C74_Tj, C74_zero_space, C74_displacement_counterexample, C75_texts_partial, C75_position, C75_displacement_partial, C75_quote_counterexample, C75_streams_counterexample, C75_spacing_counterexample, C76_layout_partial, C76_blank_lines, C76_single_characters, C76_line_spacing, C76_char_width, C76_fragments, C77_fonts_partial, C77_contents_partial, C77_text_partial, C77_inherited_counterexample, C77_indirect_counterexample, C77_no_font_counterexample, C77_type3_counterexample, C77_blank_counterexample, C77_missing_width_counterexample, C78_fonts_partial, C78_twice_counterexample, C79_parms, C79_reload_partial, C79_plain_partial, C79_flate_partial, C79_group_partial, C79_force_partial, C79_pack_partial, C80_compress_partial, C81_lines_partial, C81_regions_partial, C81_own_partial, C82_uses_partial, C83_links_partial, C84_commits, C84_revisions_partial, C84_linearized_partial, C84_shown_partial, C85_metadata_partial, C85_reload_partial, C86_map_partial, C86_reload_partial, C86_own_partial, C87_stops, C87_fuel, C88_shown_partial, C89_document_partial, C90_parses, C90_renders, C90_balanced_partial, C91_page_partial, C92_minimap_partial, C92_pages_partial, C93_iterate_partial, C94_fonts_partial, C94_twice_counterexample, C95_matrix_partial, C96_exact, C96_history_partial, C97_hierarchy_partial, C98_parse_partial, C98_same_partial, C98_indirect_partial, C99_load_partial, C99_session_partial, C100_a85_partial, C101_visible_partial, C101_parse_partial, C101_lines_partial, C101_stream_partial, C102_squash_reload_partial, C103_pages_partial, C103_rotate_partial, C103_remove_partial, C104_slice_partial, C104_concat_partial, C105_filter_partial, C106_load_partial, C106_updates_rejected, C107_table_partial, C108_annotation_partial, C109_details_partial, C109_printed, C110_items_partial, C110_page_partial, C111_files, C111_failed, C111_compress, C111_compress_total, C111_reports, C111_hexdump_partial, C111_text_partial, C111_text_unread, C111_pprint_counterexample, C112_text_partial, C112_command_partial, C112_deleted_counterexample, C113_negative, C113_rotate_partial, C113_remove_partial, C113_slice_partial, C113_concat_partial, C113_name_counterexample, C114_rotate_partial, C114_remove_partial, C114_slice_partial, C114_concat_partial, C115_annotation_partial, C115_file_partial, C115_shared_counterexample
<!-- end axioms -->
