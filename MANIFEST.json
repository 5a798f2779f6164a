{
 "claims": [
  {
   "property": "C01",
   "status": "proved",
   "theorems": [
    "Verif.C01_pxa_roundtrip",
    "Verif.C01_pxa_roundtrip_checked",
    "Verif.C01_pxa_writer_total",
    "Verif.C01_nul_block_counterexample",
    "Verif.C01_compress_fast_roundtrip",
    "Verif.C01_compress_fast_checked",
    "Verif.C01_compress_default_partial"
   ],
   "note": "Encoder/decoder round trip for every correct cover; NUL in raw blocks excluded (witness theorem shows necessity). Composed with the match finder: fast mode unconditional; default mode when the block planner emits no empty block (C01_compress_default_partial)."
  },
  {
   "property": "C02",
   "status": "partial",
   "theorems": [
    "Verif.C02_cover",
    "Verif.C02_cover_blocks_partial",
    "Verif.C02_terminates",
    "Verif.C02_block_counterexample"
   ],
   "note": "Unconditional without imposed block layout (any cost function, limits, options), termination always; with a block layout proved when no empty block is emitted. The default planner can emit one: C02_block_counterexample shows the compressor then fails; C06_fast_crash_counterexample shows counts below the minimum in legacy fast mode."
  },
  {
   "property": "C03",
   "status": "proved",
   "theorems": [
    "Verif.C03_mtf_permutation",
    "Verif.C03_literal_always_writable"
   ],
   "note": "Invariant over all reachable tables of writer and reader."
  },
  {
   "property": "C04",
   "status": "proved",
   "theorems": [
    "Verif.C04_bitstream_roundtrip"
   ],
   "note": "Little-endian bit streams, arbitrary field sequences, exact byte count."
  },
  {
   "property": "C05",
   "status": "proved",
   "theorems": [
    "Verif.C05_match_decodes",
    "Verif.C05_block_decodes",
    "Verif.C05_offset_bound"
   ],
   "note": "Fields decoded at every bit phase; offset above 32768 refused."
  },
  {
   "property": "C06",
   "status": "proved",
   "theorems": [
    "Verif.C06_old_roundtrip",
    "Verif.C06_old_writer_total",
    "Verif.C06_no_terminator_counterexample",
    "Verif.C06_nul_counterexample",
    "Verif.C06_compress_default_roundtrip",
    "Verif.C06_compress_fast_roundtrip",
    "Verif.C06_compress_fast_total_partial",
    "Verif.C06_fast_crash_counterexample"
   ],
   "note": "Compressor success implies round trip in fast mode. Needs two zero bytes after the code (supplied by zero fill); witness theorem for missing terminator and NUL."
  },
  {
   "property": "C07",
   "status": "proved",
   "theorems": [
    "Verif.C07_raw_roundtrip",
    "Verif.C07_raw_writable",
    "Verif.C07_nul_never_roundtrips",
    "Verif.C07_signature_counterexample"
   ],
   "note": "For NUL-free code the signature exclusion reduces to the single text \":c:\"; both exclusions shown necessary."
  },
  {
   "property": "C08",
   "status": "proved",
   "theorems": [
    "Verif.C08_pxa_size",
    "Verif.C08_raw_size",
    "Verif.C08_old_size",
    "Verif.C08_size_keeps_code"
   ],
   "note": "PXA and raw: equals bytes written. Legacy: written size + 2 terminator bytes. Generic: copying the reported bytes keeps code readable, for any area."
  },
  {
   "property": "C09",
   "status": "partial",
   "theorems": [
    "Verif.C09_area_fast",
    "Verif.C09_area_legacy",
    "Verif.C09_area_default_partial",
    "Verif.C09_area_raw",
    "Verif.C09_image_size",
    "Verif.C09_rom_roundtrip",
    "Verif.C09_rom_roundtrip_fast",
    "Verif.C09_write_succeeds",
    "Verif.C09_keep_compression",
    "Verif.C09_legacy_full_area_counterexample"
   ],
   "note": "Round trip for any stored code area that the reader understands (fast PXA, raw and legacy with two spare bytes: unconditional; default PXA mode when the block planner emits no empty block). C09_legacy_full_area_counterexample: a legacy area filled to the last byte cannot be read back."
  },
  {
   "property": "C10",
   "status": "proved",
   "theorems": [
    "Verif.C10_accepted_only_if_hash_ok",
    "Verif.C10_corruption_detected",
    "Verif.C10_short_trailer_rejected"
   ],
   "note": "sha1 is a parameter, so detection is stated as: an accepted image has a zero or matching stored hash."
  },
  {
   "property": "C11",
   "status": "proved",
   "theorems": [
    "Verif.C11_tiny_roundtrip",
    "Verif.C11_tiny_roundtrip_fast",
    "Verif.C11_tiny_keep",
    "Verif.C11_legacy_counterexample"
   ],
   "note": "Raw or fast PXA storage; legacy compressed tiny ROMs are unreadable (C11_legacy_counterexample)."
  },
  {
   "property": "C12",
   "status": "proved",
   "theorems": [
    "Verif.C12_set8",
    "Verif.C12_set16",
    "Verif.C12_set32",
    "Verif.C12_set8_bits",
    "Verif.C12_set4",
    "Verif.C12_set_block",
    "Verif.C12_copy8",
    "Verif.C12_fill8",
    "Verif.C12_clear",
    "Verif.C12_cmpeq8",
    "Verif.C12_set_block_extends",
    "Verif.C12_sprite_addr_inj",
    "Verif.C12_map_addr_inj"
   ],
   "note": "All accessors, all values (values masked), in-range addresses."
  },
  {
   "property": "C13",
   "status": "proved",
   "theorems": [
    "Verif.C13_layout",
    "Verif.C13_sections_roundtrip",
    "Verif.C13_source_roundtrip"
   ],
   "note": "Every ROM content and label, every choice of sections and capital style; an all-zero label reads back as none. The code preprocessor hook is applied afterwards and is not part of this theorem."
  },
  {
   "property": "C14",
   "status": "proved",
   "theorems": [
    "Verif.C14_raw",
    "Verif.C14_lua_only",
    "Verif.C14_source_roundtrip",
    "Verif.C14_header_line_counterexample",
    "Verif.C14_cr_counterexample",
    "Verif.C14_empty_meta_counterexample",
    "Verif.C14_white_space"
   ],
   "note": "Every cart meeting the provisos; each proviso shown necessary by a counterexample theorem."
  },
  {
   "property": "C15",
   "status": "proved",
   "theorems": [
    "Verif.C15_note_roundtrip",
    "Verif.C15_note_injective",
    "Verif.C15_music_row",
    "Verif.C15_sfx_row"
   ],
   "note": "All notes; all music and sfx rows inside a full memory, with frame."
  },
  {
   "property": "C16",
   "status": "proved",
   "theorems": [
    "Verif.C16_roundtrip_before",
    "Verif.C16_roundtrip",
    "Verif.C16_from_injective",
    "Verif.C16_to_is_p8str",
    "Verif.C16_ascii_unchanged",
    "Verif.C16_table"
   ],
   "note": "Every P8SCII string, both capital styles; ends in any context that does not start with a variation selector."
  },
  {
   "property": "C17",
   "status": "proved",
   "theorems": [
    "Verif.C17_parser_complete",
    "Verif.C17_z_counterexample",
    "Verif.C17_parser_sound",
    "Verif.C17_x_counterexample",
    "Verif.C17_quoted_denotes",
    "Verif.C17_long_denotes",
    "Verif.C17_quoted_parse",
    "Verif.C17_quoted_token",
    "Verif.C17_long_parse",
    "Verif.C17_any_parse",
    "Verif.C17_shortest"
   ],
   "note": "All values and options, both languages; str.isdigit assumed only on ASCII. Tokenisation of bracketed literals is C54."
  },
  {
   "property": "C18",
   "status": "proved",
   "theorems": [
    "Verif.C18_roundtrip",
    "Verif.C18_shortest",
    "Verif.C18_parse_denotes",
    "Verif.C18_denotes"
   ],
   "note": "All 2^32 values, every base and sign option; exact arithmetic in place of doubles, justified by fix_float_exact for the literals the formatter emits."
  },
  {
   "property": "C19",
   "status": "partial",
   "theorems": [
    "Verif.C19_roundtrip",
    "Verif.C19_decimal_partial",
    "Verif.C19_decimal_counterexample",
    "Verif.C19_parse_denotes",
    "Verif.C19_denotes"
   ],
   "note": "Automatic and hexadecimal base: all values and sign options. Decimal base (POD text): only above -10^18; C19_decimal_counterexample shows the formatter is wrong below."
  },
  {
   "property": "C20",
   "status": "proved",
   "theorems": [
    "Verif.C20_shorten",
    "Verif.C20_no_error"
   ],
   "note": "Any reader agreeing with itself on texts without trailing zeros; never reports an error when the six-place text is right."
  },
  {
   "property": "C21",
   "status": "proved",
   "theorems": [
    "Verif.C21_unary",
    "Verif.C21_binary",
    "Verif.C21_call",
    "Verif.C21_no_zero_division",
    "Verif.C21_no_overflow"
   ],
   "note": "All operators and builtins of the folding tables on all operands; left open which way the machine shifts left by a negative count. Independent runtime specification in Spec/Runtime.lean."
  },
  {
   "property": "C22",
   "status": "proved",
   "theorems": [
    "Verif.C22_unary",
    "Verif.C22_binary",
    "Verif.C22_int",
    "Verif.C22_call",
    "Verif.C22_string_counterexample"
   ],
   "note": "All operators on all 64-bit integers, strings and mixed values; float values (the result of / and float literals) are not modelled. String comparison only for strings without escaped raw bytes: C22_string_counterexample shows it is wrong otherwise."
  },
  {
   "property": "C23",
   "status": "partial",
   "theorems": [
    "Verif.C23_terminates_partial",
    "Verif.C23_unary",
    "Verif.C23_call_partial",
    "Verif.C23_counterexample"
   ],
   "note": "Returns for all operands except shift and rotate counts equal to their own negation, for which the code recurses for ever (C23_counterexample)."
  },
  {
   "property": "C24",
   "status": "partial",
   "theorems": [
    "Verif.C24_value",
    "Verif.C24_values_partial",
    "Verif.C24_known",
    "Verif.C24_count_counterexample",
    "Verif.C24_block_partial",
    "Verif.C24_return_last",
    "Verif.C24_label_counterexample"
   ],
   "note": "Expressions (first value, all values) and blocks with if/elseif/else, for any behaviour of calls, tables and loops. Excluded: and/or with a multi-valued right side in a multi-value place (C24_count_counterexample) and branches with labels (C24_label_counterexample); goto and floats are not modelled."
  },
  {
   "property": "C25",
   "status": "partial",
   "theorems": [
    "Verif.C25_values_partial",
    "Verif.C25_values",
    "Verif.C25_gone",
    "Verif.C25_no_assert",
    "Verif.C25_marked",
    "Verif.C25_marked_only",
    "Verif.C25_expose_counterexample"
   ],
   "note": "All targets/sources/marks. Excluded: a multi-valued source that becomes last while more targets follow (C25_expose_counterexample); full when only the last source is multi-valued (C25_values). The uses of the erased variables are C24 (ConstsHold)."
  },
  {
   "property": "C26",
   "status": "proved",
   "theorems": [
    "Verif.C26_valid",
    "Verif.C26_is_identifier",
    "Verif.C26_lua_name",
    "Verif.C26_not_reserved",
    "Verif.C26_distinct",
    "Verif.C26_short_first",
    "Verif.C26_complete"
   ],
   "note": "The generator for any character order offered by the focus options; Picotron identifiers likewise."
  },
  {
   "property": "C27",
   "status": "proved",
   "theorems": [
    "Verif.C27_no_clash",
    "Verif.C27_globals_distinct",
    "Verif.C27_preserved",
    "Verif.C27_each_once",
    "Verif.C27_after_zero",
    "Verif.C27_ends"
   ],
   "note": "Round, retry and termination of the name selection for arbitrary usage data; the collection of usage data from the tree is C28."
  },
  {
   "property": "C28",
   "status": "partial",
   "theorems": [
    "Verif.C28_local",
    "Verif.C28_label",
    "Verif.C28_label_unique",
    "Verif.C28_global",
    "Verif.C28_globals_distinct",
    "Verif.C28_member_counterexample"
   ],
   "note": "Locals, labels and globals in nested scopes. Excluded: a global that an _ENV member-keys hint turns into a preserved member (C28_member_counterexample). Sublanguages are not modelled."
  },
  {
   "property": "C29",
   "status": "proved",
   "theorems": [
    "Verif.C29_names",
    "Verif.C29_negative_wins",
    "Verif.C29_negative_name_wins",
    "Verif.C29_members",
    "Verif.C29_texts",
    "Verif.C29_order_example",
    "Verif.C29_pattern_order"
   ],
   "note": "For any pattern matcher (fnmatch is a parameter). Rules with = that turn members into globals are not modelled. Among rules for the very same name the later counts (C29_order_example)."
  },
  {
   "property": "C30",
   "status": "partial",
   "theorems": [
    "Verif.C30_with_comments_partial",
    "Verif.C30_minified",
    "Verif.C30_original_layout",
    "Verif.C30_identifier",
    "Verif.C30_quoted_string",
    "Verif.C30_long_string",
    "Verif.C30_block_comment",
    "Verif.C30_line_comment",
    "Verif.C30_reordered",
    "Verif.C30_comment_counterexample",
    "Verif.C30_symbols",
    "Verif.C30_longest_symbol"
   ],
   "note": "All token sequences, both languages, minified and original layout, with or without kept comments. Missing: kept comments after a minus sign, where the claim fails (C30_comment_counterexample)"
  },
  {
   "property": "C31",
   "status": "proved",
   "theorems": [
    "Verif.Paren.C31_reparse",
    "Verif.Paren.C31_same_tree",
    "Verif.Paren.C31_same_values",
    "Verif.Paren.C31_text_values"
   ],
   "note": "All expression trees of both languages: printed text parses back to the tree, removed parentheses leave the tree (ignoring parentheses) and the values under every interpretation unchanged. Function expressions are opaque, statement-level contexts are the Ctx values, number formatting is a contract (FmtOk)."
  },
  {
   "property": "C32",
   "status": "partial",
   "theorems": [
    "Verif.MergeAsg.C32_merge_partial",
    "Verif.MergeAsg.C32_names",
    "Verif.MergeAsg.C32_locals_partial",
    "Verif.MergeAsg.C32_vararg_counterexample",
    "Verif.MergeAsg.C32_target_order_counterexample",
    "Verif.MergeAsg.C32_length_counterexample",
    "Verif.MergeAsg.C32_newindex_counterexample"
   ],
   "note": "All assignments and local declarations with variable targets, for every interpretation satisfying the stated laws. Missing: table-member targets (order of evaluation can differ, counterexamples proved) and an empty second declaration after a multi-value source, where the claim fails (C32_vararg_counterexample)."
  },
  {
   "property": "C33",
   "status": "proved",
   "theorems": [
    "Verif.Lz4.C33_reader",
    "Verif.Lz4.C33_reads_blocks",
    "Verif.Lz4.C33_writer",
    "Verif.Lz4.C33_roundtrip"
   ],
   "note": "Reader characterised exactly against an independent description of the LZ4 block format; writer total in both modes and always within the format and its end-of-block restrictions, for every byte string."
  },
  {
   "property": "C34",
   "status": "proved",
   "theorems": [
    "Verif.Ptron.C34_reader",
    "Verif.Ptron.C34_writer",
    "Verif.Ptron.C34_roundtrip",
    "Verif.Ptron.C34_nul_path_counterexample"
   ],
   "note": "Reader and writer proved against an independent description of the ROM form; success conditions exact; NUL-free paths shown necessary."
  },
  {
   "property": "C35",
   "status": "proved",
   "theorems": [
    "Verif.Stego.C35_pico_hide",
    "Verif.Stego.C35_pico_write",
    "Verif.Stego.C35_pico_read",
    "Verif.Stego.C35_pico_cart",
    "Verif.Stego.C35_pico_label_counterexample",
    "Verif.Stego.C35_ptron_hide",
    "Verif.Stego.C35_ptron_cart"
   ],
   "note": "Both image formats: data found again bit for bit, only the low bits change, whole-cart round trips (PICO-8 with label and title, Picotron with the label file rule). PNG/QOI coding is outside the model."
  },
  {
   "property": "C36",
   "status": "proved",
   "theorems": [
    "Verif.C36_base64",
    "Verif.C36_gfx",
    "Verif.C36_roundtrip",
    "Verif.C36_written",
    "Verif.C36_cart",
    "Verif.C36_counterexample",
    "Verif.C36_no_question",
    "Verif.C36_unknown_param"
   ],
   "note": "All code bytes and all ROMs; end to end with the fast compression for all code without NULs except the code :c:, whose padded form is mistaken for a compression header (C36_counterexample). The decoder tolerance for + and / is not modelled."
  },
  {
   "property": "C37",
   "status": "proved",
   "theorems": [
    "Verif.C37_roundtrip",
    "Verif.C37_tags"
   ],
   "note": "All byte strings; accepted texts are characterised."
  },
  {
   "property": "C38",
   "status": "proved",
   "theorems": [
    "Verif.Pxu.C38_roundtrip",
    "Verif.Pxu.C38_read_plain",
    "Verif.Pxu.C38_uncompressed",
    "Verif.Pxu.C38_counterexample"
   ],
   "note": "Both methods of write_pxu with read_pxu, including headers, unbounded run lengths and the shared slot table; the uncompressed form as read. C38_counterexample: text with an odd number of digits, with a size not matching its data, or in upper case is changed."
  },
  {
   "property": "C39",
   "status": "proved",
   "theorems": [
    "Verif.PodFile.C39_carts",
    "Verif.PodFile.C39_carts_history",
    "Verif.PodFile.C39_carts_read",
    "Verif.PodFile.C39_empty_name_counterexample",
    "Verif.PodFile.C39_reader",
    "Verif.PodFile.C39_edit",
    "Verif.PodFile.C39_history",
    "Verif.PodFile.C39_create",
    "Verif.PodFile.C39_palette_counterexample",
    "Verif.PodFile.C39_tail_counterexample",
    "Verif.PodFile.C39_name_counterexample"
   ],
   "note": "PodFile reader characterised exactly against an independent description of the format; insert/delete/replace/rename refine an ordered list, for all histories; CartExport operations over it refine an ordered list of carts. The excluded cases are shown to go wrong: C39_palette_counterexample, C39_tail_counterexample, C39_name_counterexample, C39_empty_name_counterexample. FullExport/zip layers not modelled."
  },
  {
   "property": "C40",
   "status": "proved",
   "theorems": [
    "Verif.JsExport.C40_change",
    "Verif.JsExport.C40_read",
    "Verif.JsExport.C40_history",
    "Verif.JsExport.C40_create",
    "Verif.JsExport.C40_name_counterexample"
   ],
   "note": "CartExport.write_cart/read_cart/list_carts over the javascript container, for every history of changes, with the regular expressions modelled and the rest of the file shown unchanged; new files included. The restriction on names (no comma, no square bracket) is needed: C40_name_counterexample. The size of a cart is a parameter."
  },
  {
   "property": "C41",
   "status": "proved",
   "theorems": [
    "Verif.SysRom.C41_roundtrip",
    "Verif.SysRom.C41_exact",
    "Verif.SysRom.C41_set",
    "Verif.SysRom.C41_cart"
   ],
   "note": "Container format exact in both directions; setting entries; carts inside the container."
  },
  {
   "property": "C42",
   "status": "partial",
   "theorems": [
    "Verif.P64.C42_roundtrip_partial",
    "Verif.P64.C42_text",
    "Verif.P64.C42_raw",
    "Verif.P64.C42_cr_counterexample",
    "Verif.P64.C42_cr_file_counterexample",
    "Verif.P64.C42_b64_counterexample",
    "Verif.P64.C42_path_counterexample"
   ],
   "note": "Writer and reader modelled in both modes; round trip proved for files with one-line paths whose contents are base64-encoded by the writer or hold no CR and do not begin with b64$. The remaining files are shown to be changed by the code (C42_*_counterexample). Also: the text form is plain ASCII whatever the contents, and the .lua form loses exactly one final line feed."
  },
  {
   "property": "C43",
   "status": "proved",
   "theorems": [
    "Verif.C43_exact",
    "Verif.C43_nested",
    "Verif.C43_true",
    "Verif.C43_no_includes",
    "Verif.C43_all_expanded",
    "Verif.C43_ends",
    "Verif.C43_hang_counterexample",
    "Verif.C43_where",
    "Verif.C43_ends_iff",
    "Verif.C43_level_counterexample"
   ],
   "note": "Text and source map for any nesting of included files, whatever reading an included cart returns (file access is a parameter). C43_where: exactly the include lines at the top level (Spec/Top.lean) are expanded; C43_ends_iff: when it ends. An unterminated [[ makes it hang (C43_hang_counterexample); strings with [=[ do not count as strings (C43_level_counterexample). Not fixed by a theorem: that a # directly before a parenthesis is not taken for a directive (see seeded/LOG.jsonl)."
  },
  {
   "property": "C44",
   "status": "partial",
   "theorems": [
    "Verif.C44_line_col",
    "Verif.C44_unique",
    "Verif.C44_tab_partial",
    "Verif.C44_marker_counterexample"
   ],
   "note": "All texts and positions for plain line and column. With tabs: all positions outside a tab break; C44_marker_counterexample shows a negative column inside one."
  },
  {
   "property": "C45",
   "status": "partial",
   "theorems": [
    "Verif.C45_map_partial",
    "Verif.C45_map_file",
    "Verif.C45_map_counterexample",
    "Verif.C45_tab_partial",
    "Verif.C45_empty_counterexample"
   ],
   "note": "All texts and tab numbers, except an empty last tab (C45_empty_counterexample); the adjusted source map is right for carts without nested includes (C45_map_counterexample otherwise)."
  },
  {
   "property": "C46",
   "status": "proved",
   "theorems": [
    "Verif.C46_each_once",
    "Verif.C46_order"
   ],
   "note": "Arbitrary graphs, cyclic ones included, for completeness; dependency order for acyclic ones."
  },
  {
   "property": "C47",
   "status": "proved",
   "theorems": [
    "Verif.C47_glob",
    "Verif.C47_order"
   ],
   "note": "Any pattern matcher (fnmatch is a parameter)."
  },
  {
   "property": "C48",
   "status": "partial",
   "theorems": [
    "Verif.C48_merge",
    "Verif.C48_all",
    "Verif.C48_unknown",
    "Verif.C48_meta_counterexample"
   ],
   "note": "All section lists without metadata sections; a metadata section is always an error in the code (C48_meta_counterexample)."
  },
  {
   "property": "C49",
   "status": "proved",
   "theorems": [
    "Verif.PtFile.C49_read",
    "Verif.PtFile.C49_read_plain",
    "Verif.PtFile.C49_set_raw_metadata",
    "Verif.PtFile.C49_remove_metadata",
    "Verif.PtFile.C49_set_raw_payload",
    "Verif.PtFile.C49_history",
    "Verif.PtFile.C49_metadata",
    "Verif.PtFile.C49_payload",
    "Verif.PtFile.C49_create",
    "Verif.PtFile.C49_create_pod",
    "Verif.PtFile.C49_payload_counterexample",
    "Verif.PtFile.C49_cache_counterexample",
    "Verif.PtFile.C49_escape",
    "Verif.PtFile.C49_escape_string"
   ],
   "note": "Metadata/payload layout, setters, caches and whole histories, with the metadata and pod formats as parameters; escape_meta is modelled and shown to terminate, to remove every closing mark and to keep string values. Exclusions (payload that looks like metadata, unclosed metadata ending with a bracket, metadata removed after a pod was set) are necessary: C49_payload_counterexample, C49_cache_counterexample."
  },
  {
   "property": "C50",
   "status": "proved",
   "theorems": [
    "Verif.C50_count",
    "Verif.C50_layout",
    "Verif.C50_whitespace_removal"
   ],
   "note": "All token sequences: characterisation of the count, layout independence, monotone under whitespace removal"
  },
  {
   "property": "C51",
   "status": "proved",
   "theorems": [
    "Verif.C51_parse",
    "Verif.C51_roundtrip",
    "Verif.C51_raw",
    "Verif.C51_old",
    "Verif.C51_early",
    "Verif.C51_order"
   ],
   "note": "All version tuples from 0.2.0 on with letters a-z; environment overrides and non-ASCII digits not modelled"
  },
  {
   "property": "C52",
   "status": "proved",
   "theorems": [
    "Verif.C52_unsigned",
    "Verif.C52_signed",
    "Verif.C52_unsigned_inverse",
    "Verif.C52_nat",
    "Verif.C52_int",
    "Verif.C52_bool",
    "Verif.C52_nbytes",
    "Verif.C52_zero_terminated",
    "Verif.C52_fixed_text",
    "Verif.C52_align"
   ],
   "note": "All integer widths and byte orders, variable-length, zero-terminated, fixed-size, alignment; floats and text encodings not modelled"
  },
  {
   "property": "C53",
   "status": "proved",
   "theorems": [
    "Verif.C53_unicode_escape",
    "Verif.C53_utf8_read",
    "Verif.C53_injective"
   ],
   "note": "Equal to generalised UTF-8 below 2^31, with an independent reader."
  },
  {
   "property": "C54",
   "status": "partial",
   "theorems": [
    "Verif.C54_long_token_partial",
    "Verif.C54_long_token_counterexample",
    "Verif.C54_shortest_token_counterexample"
   ],
   "note": "Quoted literals: C17_quoted_token. Bracketed: exact characterisation (iff); fails when the value ends with \"]\" followed by the chosen equal signs, a bug of the formatter (counterexample theorems)."
  },
  {
   "property": "C55",
   "status": "proved",
   "theorems": [
    "Verif.C55_pxa_reader",
    "Verif.C55_pxa_unique",
    "Verif.C55_pxa_writer",
    "Verif.C55_compress_fast",
    "Verif.C55_old_reader",
    "Verif.C55_old_writer",
    "Verif.C55_raw_reader",
    "Verif.C55_choice"
   ],
   "note": "Reader: exact characterisation of all accepted byte strings in the three layouts. Writer: every output for a valid cover, and the whole fast compressor, is in the layout."
  },
  {
   "property": "C56",
   "status": "partial",
   "theorems": [
    "Verif.Ptron.C56_partial",
    "Verif.Ptron.C56_smallest",
    "Verif.Ptron.C56_size_counterexample",
    "Verif.Ptron.C56_counterexample"
   ],
   "note": "Proved for NUL-free programs of at least three bytes not starting with p64 on which the default compressor emits no empty block; the excluded programs are shown to fail (C56_counterexample, C56_size_counterexample)."
  },
  {
   "property": "C57",
   "status": "proved",
   "theorems": [
    "Verif.Stego.C57_colours",
    "Verif.Stego.C57_label",
    "Verif.Stego.C57_sheet"
   ],
   "note": "All labels with colours below 32 and all sprite memories."
  },
  {
   "property": "C58",
   "status": "proved",
   "theorems": [
    "Verif.SysRom.C58_put",
    "Verif.SysRom.C58_cart"
   ],
   "note": "Replacement of the cart's digits in the page; the surrounding files of an export are not modelled."
  },
  {
   "property": "C59",
   "status": "proved",
   "theorems": [
    "Verif.PodText.C59_roundtrip_userdata",
    "Verif.PodText.C59_roundtrip",
    "Verif.PodText.C59_text_denotes",
    "Verif.PodText.C59_injective",
    "Verif.PodText.C59_true_key_counterexample",
    "Verif.PodText.C59_false_key_counterexample",
    "Verif.PodText.C59_big_int_counterexample"
   ],
   "note": "Formatter and parser (through the tokenizer of C30) with unbounded nesting, also with userdata handed over separately; the text against an independent grammar. Floats are abstract (FloatOk). The exclusions are needed: C59_true_key_counterexample, C59_false_key_counterexample, C59_big_int_counterexample. White space in the text is covered by the tokenizer model only."
  },
  {
   "property": "C60",
   "status": "proved",
   "theorems": [
    "Verif.LuaStr.C60_bytes",
    "Verif.LuaStr.C60_utf8",
    "Verif.LuaStr.C60_text",
    "Verif.LuaStr.C60_fails",
    "Verif.LuaStr.C60_ascii_split",
    "Verif.LuaStr.C60_decoded",
    "Verif.LuaStr.C60_escape_counterexample"
   ],
   "note": "Python's UTF-8 codec with surrogateescape against an independent description of UTF-8, for all bytes and all text. Escaped bytes that happen to form a character are read back as that character: C60_escape_counterexample."
  },
  {
   "property": "C61",
   "status": "proved",
   "theorems": [
    "Verif.Syntax.C61_sound",
    "Verif.Syntax.C61_complete",
    "Verif.Syntax.C61_unambiguous",
    "Verif.Syntax.C61_fuel",
    "Verif.Syntax.C61_rejects",
    "Verif.Syntax.C61_precedence",
    "Verif.Syntax.C61_unary",
    "Verif.Syntax.C61_return_counterexample",
    "Verif.Syntax.C61_target_counterexample"
   ],
   "note": "Whole parser against an independent grammar (definite clause style), sound and complete for all token sequences, hence unambiguous; operator priorities also against the table of Lua's own parser. The grammar records where the parser deviates from Lua: C61_return_counterexample (a bare return as last token of the program is rejected), C61_target_counterexample (targets of assignments are not checked). The ? shorthand is modelled at the start of statements only."
  },
  {
   "property": "C62",
   "status": "proved",
   "theorems": [
    "Verif.Resolve.C62_scopes",
    "Verif.Resolve.C62_labels",
    "Verif.Resolve.C62_text"
   ],
   "note": "Name resolution as a machine over the events of parsing (scopes opened, pending, added, left) against a recursive specification on trees written after the Lua manual, for all trees; labels likewise. C62_text adds C61: the tree is the one the grammar gives the text."
  },
  {
   "property": "C63",
   "status": "proved",
   "theorems": [
    "Verif.Resolve.C63_meaning",
    "Verif.Resolve.C63_text",
    "Verif.Resolve.C63_valid",
    "Verif.Resolve.C63_exists",
    "Verif.Resolve.C63_env_key_counterexample"
   ],
   "note": "Whole trees: parsed program -> variables and uses -> names chosen -> renamed tree, against the visibility rules of LuaScope/LuaLabels on both trees (C63_meaning), and against the grammar on the texts (C63_text). Proves the assumptions of C28 for parsed programs. Left out: rename hints and other special comments, names in strings, `table.name` rules, members_as_globals. C63_env_key_counterexample: keys of _ENV preserved as members only."
  },
  {
   "property": "C64",
   "status": "proved",
   "theorems": [
    "Verif.Mini.C64_minify",
    "Verif.Mini.C64_parser",
    "Verif.Mini.C64_pico8",
    "Verif.Mini.C64_do_counterexample",
    "Verif.Mini.C64_condition_counterexample",
    "Verif.Mini.C64_line_counterexample",
    "Verif.Mini.C64_else_counterexample",
    "Verif.Mini.C64_print_counterexample",
    "Verif.Mini.C64_return_counterexample",
    "Verif.Mini.C64_forin_counterexample"
   ],
   "note": "Whole trees: parsed program -> minified tree -> tokens and line breaks -> parsed again (grammar of C61), compared by the normal form of Spec/LuaNorm. C64_pico8 has the formatters of C17/C18 plugged in. Excluded programs (Spec/Tidy) are shown to be necessary by seven counterexamples. Left out: merging assignments (C32), shorthand conversion, sublanguages, kept comments; white space on a line is C30."
  },
  {
   "property": "C65",
   "status": "proved",
   "theorems": [
    "Verif.Mini.C65_written",
    "Verif.Mini.C65_tokens",
    "Verif.Mini.C65_pico8",
    "Verif.Mini.C65_possible",
    "Verif.Mini.C65_string_counterexample",
    "Verif.Mini.C65_operators",
    "Verif.Mini.C65_known"
   ],
   "note": "C65_operators and C65_known fix the tables of words and signs. From characters to characters: lexer with line numbers (Source), parser of C61, minifier of C64, writer of C30, lexer and parser again. Which tokens are kept from the source (and so may keep its white space) is left open: any rendering of the minified tokens that the writer can meet (Renders) is covered, and one exists for every program (C65_possible). Strings excluded by C54 are excluded here, with a counterexample. Merging assignments, shorthand conversion, renaming, kept comments and sublanguages are left out."
  },
  {
   "property": "C66",
   "status": "proved",
   "theorems": [
    "Verif.Mini.C66_shorten",
    "Verif.Mini.C66_parser",
    "Verif.Mini.C66_plain",
    "Verif.Mini.C66_undo",
    "Verif.Mini.C66_pico8",
    "Verif.Mini.C66_keeps_before_else",
    "Verif.Mini.C66_keeps_before_inner_else",
    "Verif.Mini.C66_keeps_before_more",
    "Verif.Mini.C66_keeps_while_before_more",
    "Verif.Mini.C66_keeps_inside",
    "Verif.Mini.C66_keeps_around",
    "Verif.Mini.C66_keeps_around_print",
    "Verif.Mini.C66_keeps_around_more",
    "Verif.Mini.C66_do_counterexample",
    "Verif.Mini.C66_call_counterexample",
    "Verif.Mini.C66_next_counterexample",
    "Verif.Mini.C66_break_counterexample",
    "Verif.Mini.C66_else_counterexample",
    "Verif.Mini.C66_print_counterexample"
   ],
   "note": "C66_plain: all programs in plain Lua (Verif/Spec/Plain.lean), all options. C66_undo: all tidy programs, all shorthands undone. C66_shorten, C66_parser: any mixture, under the conditions Apt. C66_pico8: from text to text. Conditions that the code does not check are shown to be needed by five programs that change their meaning and one that is rejected. The counts that decide which kinds are converted (new_shorts) are parameters; that a print is the builtin is decided for the whole program."
  },
  {
   "property": "C67",
   "status": "proved",
   "theorems": [
    "Verif.Stored.C67_roundtrip",
    "Verif.Stored.C67_written",
    "Verif.Stored.C67_not_longer",
    "Verif.Stored.C67_metadata",
    "Verif.Stored.C67_file",
    "Verif.Stored.C67_codec",
    "Verif.Stored.C67_digits_counterexample"
   ],
   "note": "C67_roundtrip, C67_written, C67_not_longer: all pods that fit (Verif/Spec/StoredPod.lean) and all options. C67_metadata: the bytes of metadata, told from what follows, read back up to the place of pod_format or pod_type. C67_file, C67_codec: whole files; the formats meet what C49 assumes. Floats are a parameter (their text is a number and is read back, as in C59). C67_digits_counterexample: userdata with upper-case digits changes."
  },
  {
   "property": "C68",
   "status": "proved",
   "theorems": [
    "Verif.Unmin.C68_pico8",
    "Verif.Unmin.C68_negative_counterexample",
    "Verif.Unmin.C68_bracket_counterexample",
    "Verif.Unmin.C68_semicolon_counterexample",
    "Verif.Unmin.C68_else_counterexample"
   ],
   "note": "C68_pico8: from text to text, for tidy programs (as in C64) that meet Long.Clear (Verif/Spec/Long.lean). That each of its conditions is needed is shown by C68_negative_counterexample, C68_bracket_counterexample, C68_semicolon_counterexample and C68_else_counterexample, which are errors of unminify_code. Comments are not modelled."
  },
  {
   "property": "C69",
   "status": "proved",
   "theorems": [
    "Verif.Mini.C69_pico8",
    "Verif.Mini.C69_minified"
   ],
   "note": "C69_pico8 (with shorthands changed) and C69_minified (without): from text to text. The assumptions are those of C65 (tidy, strings), C63 (Setting) and C66 (apt, for the renamed program). Constant folding and merging of assignments (C23-C25, C32) are not part of the chain."
  },
  {
   "property": "C70",
   "status": "proved",
   "theorems": [
    "Verif.Lint.C70_warnings",
    "Verif.Lint.C70_once",
    "Verif.Lint.C70_clean_defined",
    "Verif.Lint.C70_clean_used",
    "Verif.Lint.C70_clean_distinct"
   ],
   "note": "C70_warnings is the equivalence; labels, sublanguages and func:: hints are not modelled. Names that are declared together (local x,x) are not compared with one another, as the specification says."
  },
  {
   "property": "C71",
   "status": "proved",
   "theorems": [
    "Verif.C71_value",
    "Verif.C71_nearest",
    "Verif.C71_overflow",
    "Verif.C71_decimal",
    "Verif.C71_exponent",
    "Verif.C71_hex_exponent",
    "Verif.C71_hex",
    "Verif.C71_binary",
    "Verif.C71_roundtrip",
    "Verif.C71_all",
    "Verif.C71_injective",
    "Verif.C71_zero",
    "Verif.C71_large_counterexample"
   ],
   "note": "C71_nearest and C71_overflow say what reading does, C71_roundtrip and C71_all what writing does. IEEE 754 rounding of Python (float, fromhex, ldexp, %) is modelled as correct rounding. A decimal integer too large for a float is an error that is not caught (C71_large_counterexample)."
  },
  {
   "property": "C72",
   "status": "proved",
   "theorems": [
    "Verif.Mini.C72_tokens",
    "Verif.Mini.C72_picotron",
    "Verif.Mini.C72_meaning",
    "Verif.Mini.C72_distinct"
   ],
   "note": "C72_picotron is C65 for Picotron with real numerals; needs that no string is written as a long one that ends too early (the bug of C54). C72_meaning and C72_distinct say what the meaning of numerals is."
  },
  {
   "property": "C73",
   "status": "proved",
   "theorems": [
    "Verif.Mini.C73_valid",
    "Verif.Mini.C73_picotron",
    "Verif.Mini.C73_exists"
   ],
   "note": "C73_picotron is C69 for Picotron with its floating point numerals; needs what C72 and C66 need, and that there is no focus on characters (no such option exists for Picotron). C73_exists: names can always be chosen."
  },
  {
   "property": "C74",
   "status": "partial",
   "theorems": [
    "Verif.Core.C74_meaning_partial",
    "Verif.Core.C74_scoped",
    "Verif.Core.C74_expose_counterexample",
    "Verif.Core.C74_prefix_counterexample"
   ],
   "note": "C74_meaning_partial: the folded program does the same, for all worlds, arguments and numbers of steps, by a simulation in which the variables found constant have the same value in all instances. Missing: programs in which and/or has several values on its right where all of them count (C24_count_counterexample), and declarations with too few expressions of which one before the last may give several values (C74_expose_counterexample, where the code is wrong); goto; globals marked const. C74_scoped: declarations and uses still fit. C74_prefix_counterexample: a constant may end up before a dot or parenthesis, where the grammar does not allow it."
  },
  {
   "property": "C75",
   "status": "partial",
   "theorems": [
    "Verif.Core.C75_meaning_partial",
    "Verif.Core.C75_scoped",
    "Verif.Core.C75_names",
    "Verif.Core.C75_bare_counterexample"
   ],
   "note": "C75_meaning_partial: the merged program does the same, for all worlds, arguments and numbers of steps, by a simulation up to a bijection of variable instances. Missing: a declaration whose last expression may give several values followed by one without expressions (C75_bare_counterexample, where the code is wrong); goto; local _ENV; plain assignments (merged only when the focus is on tokens, C32). C75_scoped, C75_names: scoping by variable and by name is kept."
  },
  {
   "property": "C76",
   "status": "partial",
   "theorems": [
    "Verif.Elab.C76_normal",
    "Verif.Elab.C76_scoped",
    "Verif.Elab.C76_renamed",
    "Verif.Elab.C76_pico8_text",
    "Verif.Elab.C76_pico8_partial",
    "Verif.Elab.C76_picotron_partial"
   ],
   "note": "C76_normal: trees of equal normal form (C64, C66, C72) run alike, for all worlds, arguments and numbers of steps; C76_scoped: the programs that trees stand for declare each variable once and use it in scope (the assumption of C74, C75); C76_renamed: the renamed program is the same program with globals and keys under their new names; C76_pico8_text: PICO-8 text without renaming; C76_pico8_partial, C76_picotron_partial: text with renaming. Missing: goto and labels (an unexplained operation of the world in this semantics), _ENV when renaming (other than C63_meaning, which covers resolution), attributes of locals."
  },
  {
   "property": "C77",
   "status": "proved",
   "theorems": [
    "Verif.CartDir.C77_inside",
    "Verif.CartDir.C77_read",
    "Verif.CartDir.C77_written",
    "Verif.CartDir.C77_round_trip",
    "Verif.CartDir.C77_unlisted_counterexample",
    "Verif.CartDir.C77_filter_counterexample"
   ],
   "note": "C77_inside for any cart and any outcome; C77_read (exact); C77_written and C77_round_trip for carts whose names are proper, whose directories are listed and where no name is both file and directory (that this is needed: C77_unlisted_counterexample, C77_filter_counterexample). Not modelled: symbolic links, Windows drives and separators, encoding of names, failures of the operating system other than those of paths (no such directory, is a file), metadata kept in .info.pod (C67)."
  },
  {
   "property": "C78",
   "status": "proved",
   "theorems": [
    "Verif.CartDir.C78_merged",
    "Verif.CartDir.C78_fits",
    "Verif.CartDir.C78_filter",
    "Verif.CartDir.C78_clash_counterexample"
   ],
   "note": "C78_merged (which files), C78_fits (the result fits a directory), C78_filter (filtering by merging into an empty cart does not lose files). Patterns are a parameter (C47). C78_clash_counterexample: a file and a directory of the same name."
  },
  {
   "property": "C79",
   "status": "proved",
   "theorems": [
    "Verif.Stored.C79_file",
    "Verif.Stored.C79_plain",
    "Verif.Stored.C79_cart",
    "Verif.Stored.C79_shown",
    "Verif.Stored.C79_raw_counterexample",
    "Verif.Stored.C79_payload_counterexample",
    "Verif.Stored.C79_number_counterexample",
    "Verif.Stored.C79_version_counterexample"
   ],
   "note": "C79_file, C79_plain, C79_cart, C79_shown, on the bytes of files, with metadata as in C67. Assumed of files with metadata: all keys are texts (else the program stops, C79_number_counterexample), pod_format=raw comes first if it is there (else C79_raw_counterexample), the contents do not look like metadata when all metadata is removed (else C79_payload_counterexample). The text of values in titles is a parameter; labels and the repacking of pods (C67) are not part of this."
  },
  {
   "property": "C80",
   "status": "partial",
   "theorems": [
    "Verif.Elab.C80_program",
    "Verif.Elab.C80_tree_partial",
    "Verif.Elab.C80_minified_partial",
    "Verif.Elab.C80_printed_partial",
    "Verif.Elab.C80_pico8_partial",
    "Verif.Elab.C80_renamed_partial",
    "Verif.Elab.C80_picotron_partial",
    "Verif.Elab.C80_call_counterexample",
    "Verif.Elab.C80_group_counterexample",
    "Verif.Elab.C80_close_counterexample"
   ],
   "note": "C80_program (which program the merged tree stands for), C80_tree_partial, C80_minified_partial (after minifying, as in C66). The trees are those of C61, their meaning that of C76. Missing: `local x=f() local y` (wrong, C75_bare_counterexample, C80_group_counterexample); attributes of variables have no meaning in the model (C80_close_counterexample). Whether two declarations are merged is decided by the variables name resolution (C63) gives; C80_printed_partial, C80_pico8_partial, C80_renamed_partial and C80_picotron_partial: the text that is written for the merged tree is read again as a program that does the same, without and with renaming, if no `local y` without values stands before a statement that begins with a parenthesis (false otherwise: C80_call_counterexample); the other assumptions are those of C66, C69, C73 and C76."
  },
  {
   "property": "C81",
   "status": "proved",
   "theorems": [
    "Verif.CartTitle.C81_code_title",
    "Verif.CartTitle.C81_kept",
    "Verif.CartTitle.C81_kept_always",
    "Verif.CartTitle.C81_nothing_added",
    "Verif.CartTitle.C81_given",
    "Verif.CartTitle.C81_saved",
    "Verif.CartTitle.C81_cr_counterexample",
    "Verif.CartTitle.C81_header_counterexample",
    "Verif.CartTitle.C81_empty_counterexample"
   ],
   "note": "C81_code_title (what the title of code is), C81_kept, C81_kept_always, C81_nothing_added, C81_given, C81_saved (with C14). Titles with carriage returns, and for saving, if the new code alone does not give the title, empty titles and titles like a section header, do not stay: counterexamples."
  },
  {
   "property": "C82",
   "status": "proved",
   "theorems": [
    "Verif.Auto.C82_written",
    "Verif.Auto.C82_png",
    "Verif.Auto.C82_p8",
    "Verif.Auto.C82_crlf",
    "Verif.Auto.C82_code",
    "Verif.Auto.C82_lua",
    "Verif.Auto.C82_lua_code",
    "Verif.Auto.C82_clip",
    "Verif.Auto.C82_url",
    "Verif.Auto.C82_lua_counterexample",
    "Verif.Auto.C82_cr_counterexample",
    "Verif.Auto.C82_final_newline_counterexample",
    "Verif.Auto.C82_not_utf8_counterexample",
    "Verif.Auto.C82_file"
   ],
   "note": "C82_p8 (with C13), C82_code, C82_lua, C82_lua_code, C82_png, C82_clip (with C37), C82_url (the text is that of C36), C82_crlf, C82_written, C82_file (every savable cart is saved as Unicode text). Counterexamples: code beginning with `__lua__`, carriage returns alone, a line end at the end of code, metadata that is not UTF-8. ROM files cannot be recognised."
  },
  {
   "property": "C83",
   "status": "proved",
   "theorems": [
    "Verif.AutoTron.C83_p64",
    "Verif.AutoTron.C83_rom_form",
    "Verif.AutoTron.C83_rom",
    "Verif.AutoTron.C83_png",
    "Verif.AutoTron.C83_lua",
    "Verif.AutoTron.C83_pod_plain",
    "Verif.AutoTron.C83_pod_meta",
    "Verif.AutoTron.C83_pod_again",
    "Verif.AutoTron.C83_tiny_counterexample",
    "Verif.AutoTron.C83_pod_counterexample",
    "Verif.AutoTron.C83_pod_open_counterexample"
   ],
   "note": "C83_p64 (with C42), C83_rom (with C34), C83_rom_form, C83_png, C83_lua (with C42), C83_pod_plain, C83_pod_meta, C83_pod_again. Counterexamples: tiny ROMs with PICO-8 compression are taken for code, metadata that is just `pod` is removed, metadata that is not closed is lost."
  },
  {
   "property": "C84",
   "status": "partial",
   "theorems": [
    "Verif.EndToEnd.C84_data",
    "Verif.EndToEnd.C84_saved",
    "Verif.EndToEnd.C84_minified",
    "Verif.EndToEnd.C84_renamed_partial",
    "Verif.EndToEnd.C84_rom",
    "Verif.EndToEnd.C84_header_counterexample"
   ],
   "note": "C84_data (everything but the code, and the code verbatim), C84_saved, C84_minified (minifying without renaming), C84_renamed_partial (with renaming and merging, under the assumptions of C80: in particular no call right before a declaration without values, no _ENV and no labels), C84_rom. Missing: folding of constants, and that the minified code never looks like a section header (it can: C84_header_counterexample)."
  },
  {
   "property": "C85",
   "status": "proved",
   "theorems": [
    "Verif.Icons.C85_exe_sound",
    "Verif.Icons.C85_exe_found",
    "Verif.Icons.C85_exe_replaced",
    "Verif.Icons.C85_icns",
    "Verif.Icons.C85_icns_unique",
    "Verif.Icons.C85_zstr"
   ],
   "note": "C85_icns, C85_icns_unique, C85_exe_sound, C85_exe_found (complete for proper programs), C85_exe_replaced, C85_zstr. How the label becomes pixels is not modelled here (the image library does the conversion to bytes)."
  },
  {
   "property": "C86",
   "status": "proved",
   "theorems": [
    "Verif.NewExport.C86_boot",
    "Verif.NewExport.C86_pictures",
    "Verif.NewExport.C86_resources",
    "Verif.NewExport.C86_new",
    "Verif.NewExport.C86_carts",
    "Verif.NewExport.C86_made",
    "Verif.NewExport.C86_title_counterexample"
   ],
   "note": "C86_new (with C86_boot, C86_pictures, C86_resources), C86_carts (with C39), C86_made. Names of pods are at most 32 bytes. Includes in the boot cart are not expanded in the model. A title that is too long for its picture makes the export fail (C86_title_counterexample)."
  },
  {
   "property": "C87",
   "status": "proved",
   "theorems": [
    "Verif.SrcFiles.C87_filter",
    "Verif.SrcFiles.C87_sources",
    "Verif.SrcFiles.C87_processed",
    "Verif.SrcFiles.C87_code",
    "Verif.SrcFiles.C87_succeeds",
    "Verif.SrcFiles.C87_saved",
    "Verif.SrcFiles.C87_meta_counterexample"
   ],
   "note": "C87_sources, C87_processed, C87_code, C87_succeeds, C87_saved (with C42), C87_filter (with C47). Whether a pattern fits a path (fnmatch) is a parameter. Code that begins like metadata becomes metadata (C87_meta_counterexample). A call of include without arguments makes sort_root fail; this is not modelled."
  },
  {
   "property": "C88",
   "status": "proved",
   "theorems": [
    "Verif.Main.C88_success",
    "Verif.Main.C88_nothing",
    "Verif.Main.C88_errors",
    "Verif.Main.C88_failure",
    "Verif.Main.C88_succeeds",
    "Verif.Main.C88_only",
    "Verif.Main.C88_input_safe",
    "Verif.Main.C88_in_place",
    "Verif.Main.C88_unchanged",
    "Verif.Main.C88_edit",
    "Verif.Main.C88_listing",
    "Verif.Main.C88_script_counterexample",
    "Verif.Main.C88_late_counterexample",
    "Verif.Main.C88_in_place_counterexample",
    "Verif.Main.C88_keep_counterexample"
   ],
   "note": "C88_success, C88_nothing, C88_errors, C88_failure, C88_succeeds, C88_only, C88_input_safe, C88_in_place, C88_unchanged, C88_edit. Carts, formats, reading and writing are parameters; merging, inserting, counting, the file of renamed names and scripts (other than their complaints) are not modelled. Findings: C88_script_counterexample, C88_late_counterexample, C88_in_place_counterexample, C88_keep_counterexample. C88_listing: listing and dumping write none of the outputs."
  },
  {
   "property": "C89",
   "status": "proved",
   "theorems": [
    "Verif.Stored.C89_file",
    "Verif.Stored.C89_succeeds",
    "Verif.Stored.C89_again",
    "Verif.Stored.C89_cart",
    "Verif.Stored.C89_metadata",
    "Verif.Stored.C89_label",
    "Verif.Stored.C89_which",
    "Verif.Stored.C89_options",
    "Verif.Stored.C89_preproc",
    "Verif.Stored.C89_unread_counterexample",
    "Verif.Stored.C89_open_counterexample"
   ],
   "note": "C89_file, C89_cart, C89_metadata, C89_again, C89_succeeds, C89_label, C89_which, C89_options, C89_preproc, by C67 and C49. Metadata has to be ended (C89_open_counterexample); userdata is assumed in lower case as in C67. One pod that cannot be read makes the whole run fail (C89_unread_counterexample)."
  },
  {
   "property": "C90",
   "status": "proved",
   "theorems": [
    "Verif.GivenConst.C90_read",
    "Verif.GivenConst.C90_string",
    "Verif.GivenConst.C90_text",
    "Verif.GivenConst.C90_characters",
    "Verif.GivenConst.C90_sound",
    "Verif.GivenConst.C90_number",
    "Verif.GivenConst.C90_given",
    "Verif.GivenConst.C90_fails",
    "Verif.GivenConst.C90_bnot_counterexample"
   ],
   "note": "C90_read (words and numbers), C90_string, C90_text, C90_sound (nothing else is accepted), C90_number (what C18 writes), C90_given and C90_fails (the options). In Picotron a complement is refused although it is a constant in Lua (C90_bnot_counterexample). Floats are kept as their text."
  },
  {
   "property": "C91",
   "status": "proved",
   "theorems": [
    "Verif.Embed.C91_contents",
    "Verif.Embed.C91_code",
    "Verif.Embed.C91_quote_counterexample",
    "Verif.Embed.C91_digit_counterexample"
   ],
   "note": "C91_contents and C91_code, by C17 and a theorem that a token can be put in the place of another one that begins the same. The double quotes are needed (C91_quote_counterexample), and that nothing else is in the string (C91_digit_counterexample)."
  },
  {
   "property": "C92",
   "status": "proved",
   "theorems": [
    "Verif.Aliases.C92_split",
    "Verif.Aliases.C92_use",
    "Verif.Aliases.C92_run",
    "Verif.Aliases.C92_abbreviation",
    "Verif.Aliases.C92_others",
    "Verif.Aliases.C92_ends",
    "Verif.Aliases.C92_self",
    "Verif.Aliases.C92_cycle_counterexample",
    "Verif.Aliases.C92_newline_counterexample"
   ],
   "note": "C92_split, C92_use, C92_run, C92_abbreviation, C92_others, C92_ends, C92_self. Names defined by each other make the tool hang (C92_cycle_counterexample); only a space ends the name (C92_newline_counterexample)."
  },
  {
   "property": "C93",
   "status": "proved",
   "theorems": [
    "Verif.TreeEdit.C93_sequence",
    "Verif.TreeEdit.C93_walk",
    "Verif.TreeEdit.C93_remove",
    "Verif.TreeEdit.C93_replace",
    "Verif.TreeEdit.C93_erase",
    "Verif.TreeEdit.C93_last",
    "Verif.TreeEdit.C93_last_counterexample",
    "Verif.TreeEdit.C93_move_counterexample",
    "Verif.TreeEdit.C93_copy_counterexample"
   ],
   "note": "C93_sequence, C93_walk, C93_remove, C93_replace, C93_erase; C93_last says where the comments go with the index -1. With this index the order changes (C93_last_counterexample), a moved node leaves its comments behind as well (C93_move_counterexample), and a copied comment counts as another one (C93_copy_counterexample). keep_comments with flags or False is not modelled."
  },
  {
   "property": "C94",
   "status": "partial",
   "theorems": [
    "Verif.Trace.C94_rows",
    "Verif.Trace.C94_trace",
    "Verif.Trace.C94_sizes_partial",
    "Verif.Trace.C94_read",
    "Verif.Trace.C94_size_counterexample"
   ],
   "note": "C94_rows, C94_trace: the CSV file has one row for each item and the second cells are the code. C94_read: when reading, sizes are the bits read. When compressing, the sizes are wrong, even negative (C94_size_counterexample), since bit_position of the writer takes off the pending bits instead of adding them; C94_sizes_partial says what they add up to instead. Only for PICO-8 and the current format."
  },
  {
   "property": "C95",
   "status": "partial",
   "theorems": [
    "Verif.Sizes.C95_report",
    "Verif.Sizes.C95_limit_partial",
    "Verif.Sizes.C95_within",
    "Verif.Sizes.C95_tokens",
    "Verif.Sizes.C95_compressed",
    "Verif.Sizes.C95_url",
    "Verif.Sizes.C95_tron_partial",
    "Verif.Sizes.C95_chars_partial",
    "Verif.Sizes.C95_chars_counterexample"
   ],
   "note": "C95_report: label, size, and the rounded percentage. C95_within: a size within the limit is never shown as over 100 percent. C95_limit_partial, C95_tokens, C95_compressed, C95_url: for limits below 20000, over 100 percent is shown exactly for sizes over the limit. For characters (limit 65535) this fails (C95_chars_counterexample) by up to three characters (C95_chars_partial), and for Picotron carts by up to 13 bytes (C95_tron_partial). The quotient is exact where the code divides in doubles."
  },
  {
   "property": "C96",
   "status": "proved",
   "theorems": [
    "Verif.Bbs.C96_url",
    "Verif.Bbs.C96_injective",
    "Verif.Bbs.C96_refused"
   ],
   "note": "C96_url: the address and what a server reads from it. C96_injective: different ids have different addresses. C96_refused: ids without # or with surrogates are refused. urlencode of the Python library is modelled, not the download."
  },
  {
   "property": "C97",
   "status": "partial",
   "theorems": [
    "Verif.Errors.C97_line",
    "Verif.Errors.C97_tabbed_partial",
    "Verif.Errors.C97_printed_partial",
    "Verif.Errors.C97_files_counterexample"
   ],
   "note": "C97_line: path, line, column and message. C97_printed_partial: each error once, sorted by line and column within each source, stable. Errors of several files are mixed by position (C97_files_counterexample). C97_tabbed_partial: the same line with tabs, outside of tab breaks (C44)."
  },
  {
   "property": "C98",
   "status": "partial",
   "theorems": [
    "Verif.IncludeOrder.C98_each_once",
    "Verif.IncludeOrder.C98_order",
    "Verif.IncludeOrder.C98_succeeds_partial",
    "Verif.IncludeOrder.C98_crash_counterexample"
   ],
   "note": "C98_each_once, C98_order. C98_succeeds_partial: the order exists if each call of include has an argument; without one the tool crashes (C98_crash_counterexample). The calls of include in a file are given as a list; walking the tree is in C93."
  }
 ]
}