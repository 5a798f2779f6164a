# Axioms of the theorems in MANIFEST.json

Output of `#print axioms`, grouped.

## none

`Verif.Aliases.C92_newline_counterexample`, `Verif.C12_set_block_extends`, `Verif.C29_order_example`, `Verif.C51_early`, `Verif.C52_bool`, `Verif.Stego.C57_colours`

## propext

`Verif.Aliases.C92_others`, `Verif.C12_clear`, `Verif.C16_ascii_unchanged`, `Verif.C36_no_question`, `Verif.C36_unknown_param`, `Verif.C43_hang_counterexample`, `Verif.C43_level_counterexample`, `Verif.C48_meta_counterexample`, `Verif.C48_unknown`, `Verif.CartTitle.C81_cr_counterexample`, `Verif.LuaStr.C60_escape_counterexample`, `Verif.Main.C88_in_place_counterexample`, `Verif.Main.C88_keep_counterexample`, `Verif.Main.C88_late_counterexample`, `Verif.Main.C88_script_counterexample`, `Verif.MergeAsg.C32_length_counterexample`, `Verif.MergeAsg.C32_newindex_counterexample`, `Verif.MergeAsg.C32_target_order_counterexample`, `Verif.MergeAsg.C32_vararg_counterexample`, `Verif.Paren.C31_same_tree`, `Verif.Stored.C89_options`, `Verif.TreeEdit.C93_copy_counterexample`, `Verif.TreeEdit.C93_last_counterexample`, `Verif.TreeEdit.C93_move_counterexample`, `Verif.TreeEdit.C93_sequence`

## propext, Quot.sound

`Verif.Aliases.C92_cycle_counterexample`, `Verif.Aliases.C92_split`, `Verif.Aliases.C92_use`, `Verif.Auto.C82_cr_counterexample`, `Verif.Auto.C82_final_newline_counterexample`, `Verif.Auto.C82_lua_counterexample`, `Verif.Auto.C82_not_utf8_counterexample`, `Verif.Auto.C82_png`, `Verif.C02_terminates`, `Verif.C05_offset_bound`, `Verif.C09_image_size`, `Verif.C09_write_succeeds`, `Verif.C12_cmpeq8`, `Verif.C12_copy8`, `Verif.C12_fill8`, `Verif.C12_set8`, `Verif.C12_set8_bits`, `Verif.C12_set_block`, `Verif.C14_cr_counterexample`, `Verif.C14_empty_meta_counterexample`, `Verif.C14_header_line_counterexample`, `Verif.C16_from_injective`, `Verif.C16_roundtrip`, `Verif.C16_roundtrip_before`, `Verif.C17_long_denotes`, `Verif.C17_long_parse`, `Verif.C17_shortest`, `Verif.C17_x_counterexample`, `Verif.C17_z_counterexample`, `Verif.C19_decimal_counterexample`, `Verif.C21_no_zero_division`, `Verif.C23_counterexample`, `Verif.C23_unary`, `Verif.C24_label_counterexample`, `Verif.C24_return_last`, `Verif.C36_written`, `Verif.C37_roundtrip`, `Verif.C37_tags`, `Verif.C43_ends`, `Verif.C43_exact`, `Verif.C43_nested`, `Verif.C43_no_includes`, `Verif.C43_true`, `Verif.C44_marker_counterexample`, `Verif.C45_map_counterexample`, `Verif.C47_glob`, `Verif.C47_order`, `Verif.C50_layout`, `Verif.C50_whitespace_removal`, `Verif.C51_old`, `Verif.C52_align`, `Verif.C52_fixed_text`, `Verif.C52_unsigned_inverse`, `Verif.C52_zero_terminated`, `Verif.C53_unicode_escape`, `Verif.C54_long_token_counterexample`, `Verif.C54_long_token_partial`, `Verif.C54_shortest_token_counterexample`, `Verif.C71_large_counterexample`, `Verif.C71_value`, `Verif.C71_zero`, `Verif.CartTitle.C81_empty_counterexample`, `Verif.CartTitle.C81_header_counterexample`, `Verif.Core.C74_prefix_counterexample`, `Verif.Core.C75_names`, `Verif.Core.C75_scoped`, `Verif.Embed.C91_digit_counterexample`, `Verif.Embed.C91_quote_counterexample`, `Verif.Errors.C97_files_counterexample`, `Verif.Icons.C85_exe_sound`, `Verif.Icons.C85_icns_unique`, `Verif.IncludeOrder.C98_crash_counterexample`, `Verif.IncludeOrder.C98_succeeds_partial`, `Verif.Main.C88_edit`, `Verif.Main.C88_errors`, `Verif.Main.C88_failure`, `Verif.Main.C88_in_place`, `Verif.Main.C88_input_safe`, `Verif.Main.C88_listing`, `Verif.Main.C88_nothing`, `Verif.Main.C88_only`, `Verif.Main.C88_succeeds`, `Verif.Main.C88_success`, `Verif.Paren.C31_reparse`, `Verif.Paren.C31_same_values`, `Verif.Paren.C31_text_values`, `Verif.SrcFiles.C87_filter`, `Verif.Stego.C35_pico_label_counterexample`, `Verif.SysRom.C41_set`, `Verif.Trace.C94_size_counterexample`, `Verif.Trace.C94_sizes_partial`, `Verif.TreeEdit.C93_remove`, `Verif.TreeEdit.C93_replace`, `Verif.TreeEdit.C93_walk`

## propext, Classical.choice, Quot.sound

`Verif.Aliases.C92_abbreviation`, `Verif.Aliases.C92_ends`, `Verif.Aliases.C92_run`, `Verif.Aliases.C92_self`, `Verif.Auto.C82_clip`, `Verif.Auto.C82_code`, `Verif.Auto.C82_crlf`, `Verif.Auto.C82_file`, `Verif.Auto.C82_lua`, `Verif.Auto.C82_lua_code`, `Verif.Auto.C82_p8`, `Verif.Auto.C82_url`, `Verif.Auto.C82_written`, `Verif.AutoTron.C83_lua`, `Verif.AutoTron.C83_p64`, `Verif.AutoTron.C83_png`, `Verif.AutoTron.C83_pod_again`, `Verif.AutoTron.C83_pod_counterexample`, `Verif.AutoTron.C83_pod_meta`, `Verif.AutoTron.C83_pod_open_counterexample`, `Verif.AutoTron.C83_pod_plain`, `Verif.AutoTron.C83_rom`, `Verif.AutoTron.C83_rom_form`, `Verif.AutoTron.C83_tiny_counterexample`, `Verif.Bbs.C96_injective`, `Verif.Bbs.C96_refused`, `Verif.Bbs.C96_url`, `Verif.C01_compress_default_partial`, `Verif.C01_compress_fast_checked`, `Verif.C01_compress_fast_roundtrip`, `Verif.C01_nul_block_counterexample`, `Verif.C01_pxa_roundtrip`, `Verif.C01_pxa_roundtrip_checked`, `Verif.C01_pxa_writer_total`, `Verif.C02_block_counterexample`, `Verif.C02_cover`, `Verif.C02_cover_blocks_partial`, `Verif.C03_literal_always_writable`, `Verif.C03_mtf_permutation`, `Verif.C04_bitstream_roundtrip`, `Verif.C05_block_decodes`, `Verif.C05_match_decodes`, `Verif.C06_compress_default_roundtrip`, `Verif.C06_compress_fast_roundtrip`, `Verif.C06_compress_fast_total_partial`, `Verif.C06_fast_crash_counterexample`, `Verif.C06_no_terminator_counterexample`, `Verif.C06_nul_counterexample`, `Verif.C06_old_roundtrip`, `Verif.C06_old_writer_total`, `Verif.C07_nul_never_roundtrips`, `Verif.C07_raw_roundtrip`, `Verif.C07_raw_writable`, `Verif.C07_signature_counterexample`, `Verif.C08_old_size`, `Verif.C08_pxa_size`, `Verif.C08_raw_size`, `Verif.C08_size_keeps_code`, `Verif.C09_area_default_partial`, `Verif.C09_area_fast`, `Verif.C09_area_legacy`, `Verif.C09_area_raw`, `Verif.C09_keep_compression`, `Verif.C09_legacy_full_area_counterexample`, `Verif.C09_rom_roundtrip`, `Verif.C09_rom_roundtrip_fast`, `Verif.C10_accepted_only_if_hash_ok`, `Verif.C10_corruption_detected`, `Verif.C10_short_trailer_rejected`, `Verif.C11_legacy_counterexample`, `Verif.C11_tiny_keep`, `Verif.C11_tiny_roundtrip`, `Verif.C11_tiny_roundtrip_fast`, `Verif.C12_map_addr_inj`, `Verif.C12_set16`, `Verif.C12_set32`, `Verif.C12_set4`, `Verif.C12_sprite_addr_inj`, `Verif.C13_layout`, `Verif.C13_sections_roundtrip`, `Verif.C13_source_roundtrip`, `Verif.C14_lua_only`, `Verif.C14_raw`, `Verif.C14_source_roundtrip`, `Verif.C14_white_space`, `Verif.C15_music_row`, `Verif.C15_note_injective`, `Verif.C15_note_roundtrip`, `Verif.C15_sfx_row`, `Verif.C16_table`, `Verif.C16_to_is_p8str`, `Verif.C17_any_parse`, `Verif.C17_parser_complete`, `Verif.C17_parser_sound`, `Verif.C17_quoted_denotes`, `Verif.C17_quoted_parse`, `Verif.C17_quoted_token`, `Verif.C18_denotes`, `Verif.C18_parse_denotes`, `Verif.C18_roundtrip`, `Verif.C18_shortest`, `Verif.C19_decimal_partial`, `Verif.C19_denotes`, `Verif.C19_parse_denotes`, `Verif.C19_roundtrip`, `Verif.C20_no_error`, `Verif.C20_shorten`, `Verif.C21_binary`, `Verif.C21_call`, `Verif.C21_no_overflow`, `Verif.C21_unary`, `Verif.C22_binary`, `Verif.C22_call`, `Verif.C22_int`, `Verif.C22_string_counterexample`, `Verif.C22_unary`, `Verif.C23_call_partial`, `Verif.C23_terminates_partial`, `Verif.C24_block_partial`, `Verif.C24_count_counterexample`, `Verif.C24_known`, `Verif.C24_value`, `Verif.C24_values_partial`, `Verif.C25_expose_counterexample`, `Verif.C25_gone`, `Verif.C25_marked`, `Verif.C25_marked_only`, `Verif.C25_no_assert`, `Verif.C25_values`, `Verif.C25_values_partial`, `Verif.C26_complete`, `Verif.C26_distinct`, `Verif.C26_is_identifier`, `Verif.C26_lua_name`, `Verif.C26_not_reserved`, `Verif.C26_short_first`, `Verif.C26_valid`, `Verif.C27_after_zero`, `Verif.C27_each_once`, `Verif.C27_ends`, `Verif.C27_globals_distinct`, `Verif.C27_no_clash`, `Verif.C27_preserved`, `Verif.C28_global`, `Verif.C28_globals_distinct`, `Verif.C28_label`, `Verif.C28_label_unique`, `Verif.C28_local`, `Verif.C28_member_counterexample`, `Verif.C29_members`, `Verif.C29_names`, `Verif.C29_negative_name_wins`, `Verif.C29_negative_wins`, `Verif.C29_pattern_order`, `Verif.C29_texts`, `Verif.C30_block_comment`, `Verif.C30_comment_counterexample`, `Verif.C30_identifier`, `Verif.C30_line_comment`, `Verif.C30_long_string`, `Verif.C30_longest_symbol`, `Verif.C30_minified`, `Verif.C30_original_layout`, `Verif.C30_quoted_string`, `Verif.C30_reordered`, `Verif.C30_symbols`, `Verif.C30_with_comments_partial`, `Verif.C36_base64`, `Verif.C36_cart`, `Verif.C36_counterexample`, `Verif.C36_gfx`, `Verif.C36_roundtrip`, `Verif.C43_all_expanded`, `Verif.C43_ends_iff`, `Verif.C43_where`, `Verif.C44_line_col`, `Verif.C44_tab_partial`, `Verif.C44_unique`, `Verif.C45_empty_counterexample`, `Verif.C45_map_file`, `Verif.C45_map_partial`, `Verif.C45_tab_partial`, `Verif.C46_each_once`, `Verif.C46_order`, `Verif.C48_all`, `Verif.C48_merge`, `Verif.C50_count`, `Verif.C51_order`, `Verif.C51_parse`, `Verif.C51_raw`, `Verif.C51_roundtrip`, `Verif.C52_int`, `Verif.C52_nat`, `Verif.C52_nbytes`, `Verif.C52_signed`, `Verif.C52_unsigned`, `Verif.C53_injective`, `Verif.C53_utf8_read`, `Verif.C55_choice`, `Verif.C55_compress_fast`, `Verif.C55_old_reader`, `Verif.C55_old_writer`, `Verif.C55_pxa_reader`, `Verif.C55_pxa_unique`, `Verif.C55_pxa_writer`, `Verif.C55_raw_reader`, `Verif.C71_all`, `Verif.C71_binary`, `Verif.C71_decimal`, `Verif.C71_exponent`, `Verif.C71_hex`, `Verif.C71_hex_exponent`, `Verif.C71_injective`, `Verif.C71_nearest`, `Verif.C71_overflow`, `Verif.C71_roundtrip`, `Verif.CartDir.C77_filter_counterexample`, `Verif.CartDir.C77_inside`, `Verif.CartDir.C77_read`, `Verif.CartDir.C77_round_trip`, `Verif.CartDir.C77_unlisted_counterexample`, `Verif.CartDir.C77_written`, `Verif.CartDir.C78_clash_counterexample`, `Verif.CartDir.C78_filter`, `Verif.CartDir.C78_fits`, `Verif.CartDir.C78_merged`, `Verif.CartTitle.C81_code_title`, `Verif.CartTitle.C81_given`, `Verif.CartTitle.C81_kept`, `Verif.CartTitle.C81_kept_always`, `Verif.CartTitle.C81_nothing_added`, `Verif.CartTitle.C81_saved`, `Verif.Core.C74_expose_counterexample`, `Verif.Core.C74_meaning_partial`, `Verif.Core.C74_scoped`, `Verif.Core.C75_bare_counterexample`, `Verif.Core.C75_meaning_partial`, `Verif.Elab.C76_normal`, `Verif.Elab.C76_pico8_partial`, `Verif.Elab.C76_pico8_text`, `Verif.Elab.C76_picotron_partial`, `Verif.Elab.C76_renamed`, `Verif.Elab.C76_scoped`, `Verif.Elab.C80_call_counterexample`, `Verif.Elab.C80_close_counterexample`, `Verif.Elab.C80_group_counterexample`, `Verif.Elab.C80_minified_partial`, `Verif.Elab.C80_pico8_partial`, `Verif.Elab.C80_picotron_partial`, `Verif.Elab.C80_printed_partial`, `Verif.Elab.C80_program`, `Verif.Elab.C80_renamed_partial`, `Verif.Elab.C80_tree_partial`, `Verif.Embed.C91_code`, `Verif.Embed.C91_contents`, `Verif.EndToEnd.C84_data`, `Verif.EndToEnd.C84_header_counterexample`, `Verif.EndToEnd.C84_minified`, `Verif.EndToEnd.C84_renamed_partial`, `Verif.EndToEnd.C84_rom`, `Verif.EndToEnd.C84_saved`, `Verif.Errors.C97_line`, `Verif.Errors.C97_printed_partial`, `Verif.Errors.C97_tabbed_partial`, `Verif.GivenConst.C90_bnot_counterexample`, `Verif.GivenConst.C90_characters`, `Verif.GivenConst.C90_fails`, `Verif.GivenConst.C90_given`, `Verif.GivenConst.C90_number`, `Verif.GivenConst.C90_read`, `Verif.GivenConst.C90_sound`, `Verif.GivenConst.C90_string`, `Verif.GivenConst.C90_text`, `Verif.Icons.C85_exe_found`, `Verif.Icons.C85_exe_replaced`, `Verif.Icons.C85_icns`, `Verif.Icons.C85_zstr`, `Verif.IncludeOrder.C98_each_once`, `Verif.IncludeOrder.C98_order`, `Verif.JsExport.C40_change`, `Verif.JsExport.C40_create`, `Verif.JsExport.C40_history`, `Verif.JsExport.C40_name_counterexample`, `Verif.JsExport.C40_read`, `Verif.Lint.C70_clean_defined`, `Verif.Lint.C70_clean_distinct`, `Verif.Lint.C70_clean_used`, `Verif.Lint.C70_once`, `Verif.Lint.C70_warnings`, `Verif.LuaStr.C60_ascii_split`, `Verif.LuaStr.C60_bytes`, `Verif.LuaStr.C60_decoded`, `Verif.LuaStr.C60_fails`, `Verif.LuaStr.C60_text`, `Verif.LuaStr.C60_utf8`, `Verif.Lz4.C33_reader`, `Verif.Lz4.C33_reads_blocks`, `Verif.Lz4.C33_roundtrip`, `Verif.Lz4.C33_writer`, `Verif.Main.C88_unchanged`, `Verif.MergeAsg.C32_locals_partial`, `Verif.MergeAsg.C32_merge_partial`, `Verif.MergeAsg.C32_names`, `Verif.Mini.C64_condition_counterexample`, `Verif.Mini.C64_do_counterexample`, `Verif.Mini.C64_else_counterexample`, `Verif.Mini.C64_forin_counterexample`, `Verif.Mini.C64_line_counterexample`, `Verif.Mini.C64_minify`, `Verif.Mini.C64_parser`, `Verif.Mini.C64_pico8`, `Verif.Mini.C64_print_counterexample`, `Verif.Mini.C64_return_counterexample`, `Verif.Mini.C65_known`, `Verif.Mini.C65_operators`, `Verif.Mini.C65_pico8`, `Verif.Mini.C65_possible`, `Verif.Mini.C65_string_counterexample`, `Verif.Mini.C65_tokens`, `Verif.Mini.C65_written`, `Verif.Mini.C66_break_counterexample`, `Verif.Mini.C66_call_counterexample`, `Verif.Mini.C66_do_counterexample`, `Verif.Mini.C66_else_counterexample`, `Verif.Mini.C66_keeps_around`, `Verif.Mini.C66_keeps_around_more`, `Verif.Mini.C66_keeps_around_print`, `Verif.Mini.C66_keeps_before_else`, `Verif.Mini.C66_keeps_before_inner_else`, `Verif.Mini.C66_keeps_before_more`, `Verif.Mini.C66_keeps_inside`, `Verif.Mini.C66_keeps_while_before_more`, `Verif.Mini.C66_next_counterexample`, `Verif.Mini.C66_parser`, `Verif.Mini.C66_pico8`, `Verif.Mini.C66_plain`, `Verif.Mini.C66_print_counterexample`, `Verif.Mini.C66_shorten`, `Verif.Mini.C66_undo`, `Verif.Mini.C69_minified`, `Verif.Mini.C69_pico8`, `Verif.Mini.C72_distinct`, `Verif.Mini.C72_meaning`, `Verif.Mini.C72_picotron`, `Verif.Mini.C72_tokens`, `Verif.Mini.C73_exists`, `Verif.Mini.C73_picotron`, `Verif.Mini.C73_valid`, `Verif.NewExport.C86_boot`, `Verif.NewExport.C86_carts`, `Verif.NewExport.C86_made`, `Verif.NewExport.C86_new`, `Verif.NewExport.C86_pictures`, `Verif.NewExport.C86_resources`, `Verif.NewExport.C86_title_counterexample`, `Verif.P64.C42_b64_counterexample`, `Verif.P64.C42_cr_counterexample`, `Verif.P64.C42_cr_file_counterexample`, `Verif.P64.C42_path_counterexample`, `Verif.P64.C42_raw`, `Verif.P64.C42_roundtrip_partial`, `Verif.P64.C42_text`, `Verif.PodFile.C39_carts`, `Verif.PodFile.C39_carts_history`, `Verif.PodFile.C39_carts_read`, `Verif.PodFile.C39_create`, `Verif.PodFile.C39_edit`, `Verif.PodFile.C39_empty_name_counterexample`, `Verif.PodFile.C39_history`, `Verif.PodFile.C39_name_counterexample`, `Verif.PodFile.C39_palette_counterexample`, `Verif.PodFile.C39_reader`, `Verif.PodFile.C39_tail_counterexample`, `Verif.PodText.C59_big_int_counterexample`, `Verif.PodText.C59_false_key_counterexample`, `Verif.PodText.C59_injective`, `Verif.PodText.C59_roundtrip`, `Verif.PodText.C59_roundtrip_userdata`, `Verif.PodText.C59_text_denotes`, `Verif.PodText.C59_true_key_counterexample`, `Verif.PtFile.C49_cache_counterexample`, `Verif.PtFile.C49_create`, `Verif.PtFile.C49_create_pod`, `Verif.PtFile.C49_escape`, `Verif.PtFile.C49_escape_string`, `Verif.PtFile.C49_history`, `Verif.PtFile.C49_metadata`, `Verif.PtFile.C49_payload`, `Verif.PtFile.C49_payload_counterexample`, `Verif.PtFile.C49_read`, `Verif.PtFile.C49_read_plain`, `Verif.PtFile.C49_remove_metadata`, `Verif.PtFile.C49_set_raw_metadata`, `Verif.PtFile.C49_set_raw_payload`, `Verif.Ptron.C34_nul_path_counterexample`, `Verif.Ptron.C34_reader`, `Verif.Ptron.C34_roundtrip`, `Verif.Ptron.C34_writer`, `Verif.Ptron.C56_counterexample`, `Verif.Ptron.C56_partial`, `Verif.Ptron.C56_size_counterexample`, `Verif.Ptron.C56_smallest`, `Verif.Pxu.C38_counterexample`, `Verif.Pxu.C38_read_plain`, `Verif.Pxu.C38_roundtrip`, `Verif.Pxu.C38_uncompressed`, `Verif.Resolve.C62_labels`, `Verif.Resolve.C62_scopes`, `Verif.Resolve.C62_text`, `Verif.Resolve.C63_env_key_counterexample`, `Verif.Resolve.C63_exists`, `Verif.Resolve.C63_meaning`, `Verif.Resolve.C63_text`, `Verif.Resolve.C63_valid`, `Verif.Sizes.C95_chars_counterexample`, `Verif.Sizes.C95_chars_partial`, `Verif.Sizes.C95_compressed`, `Verif.Sizes.C95_limit_partial`, `Verif.Sizes.C95_report`, `Verif.Sizes.C95_tokens`, `Verif.Sizes.C95_tron_partial`, `Verif.Sizes.C95_url`, `Verif.Sizes.C95_within`, `Verif.SrcFiles.C87_code`, `Verif.SrcFiles.C87_meta_counterexample`, `Verif.SrcFiles.C87_processed`, `Verif.SrcFiles.C87_saved`, `Verif.SrcFiles.C87_sources`, `Verif.SrcFiles.C87_succeeds`, `Verif.Stego.C35_pico_cart`, `Verif.Stego.C35_pico_hide`, `Verif.Stego.C35_pico_read`, `Verif.Stego.C35_pico_write`, `Verif.Stego.C35_ptron_cart`, `Verif.Stego.C35_ptron_hide`, `Verif.Stego.C57_label`, `Verif.Stego.C57_sheet`, `Verif.Stored.C67_codec`, `Verif.Stored.C67_digits_counterexample`, `Verif.Stored.C67_file`, `Verif.Stored.C67_metadata`, `Verif.Stored.C67_not_longer`, `Verif.Stored.C67_roundtrip`, `Verif.Stored.C67_written`, `Verif.Stored.C79_cart`, `Verif.Stored.C79_file`, `Verif.Stored.C79_number_counterexample`, `Verif.Stored.C79_payload_counterexample`, `Verif.Stored.C79_plain`, `Verif.Stored.C79_raw_counterexample`, `Verif.Stored.C79_shown`, `Verif.Stored.C79_version_counterexample`, `Verif.Stored.C89_again`, `Verif.Stored.C89_cart`, `Verif.Stored.C89_file`, `Verif.Stored.C89_label`, `Verif.Stored.C89_metadata`, `Verif.Stored.C89_open_counterexample`, `Verif.Stored.C89_preproc`, `Verif.Stored.C89_succeeds`, `Verif.Stored.C89_unread_counterexample`, `Verif.Stored.C89_which`, `Verif.Syntax.C61_complete`, `Verif.Syntax.C61_fuel`, `Verif.Syntax.C61_precedence`, `Verif.Syntax.C61_rejects`, `Verif.Syntax.C61_return_counterexample`, `Verif.Syntax.C61_sound`, `Verif.Syntax.C61_target_counterexample`, `Verif.Syntax.C61_unambiguous`, `Verif.Syntax.C61_unary`, `Verif.SysRom.C41_cart`, `Verif.SysRom.C41_exact`, `Verif.SysRom.C41_roundtrip`, `Verif.SysRom.C58_cart`, `Verif.SysRom.C58_put`, `Verif.Trace.C94_read`, `Verif.Trace.C94_rows`, `Verif.Trace.C94_trace`, `Verif.TreeEdit.C93_erase`, `Verif.TreeEdit.C93_last`, `Verif.Unmin.C68_bracket_counterexample`, `Verif.Unmin.C68_else_counterexample`, `Verif.Unmin.C68_negative_counterexample`, `Verif.Unmin.C68_pico8`, `Verif.Unmin.C68_semicolon_counterexample`
