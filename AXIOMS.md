# Axioms of each property theorem

Written by `tools/gen_axioms.py` from the output of `#print axioms`.

* 251 theorems: Classical.choice, Quot.sound, propext
* 215 theorems: Quot.sound, propext
* 28 theorems: propext
* 3 theorems: none

| theorem | axioms |
|---|---|
| `Metatab.C01_accepts` | Classical.choice, Quot.sound, propext |
| `Metatab.C01_form` | propext |
| `Metatab.C01_insensitive` | propext |
| `Metatab.C01_idempotent` | Classical.choice, Quot.sound, propext |
| `Metatab.C02_qualified` | Classical.choice, Quot.sound, propext |
| `Metatab.C02_unqualified` | Classical.choice, Quot.sound, propext |
| `Metatab.C02_list` | Classical.choice, Quot.sound, propext |
| `Metatab.C02_case` | Quot.sound, propext |
| `Metatab.C02_blank_pattern_missed` | propext |
| `Metatab.C03_chars` | Quot.sound, propext |
| `Metatab.C03_noDoubleHyphen` | Quot.sound, propext |
| `Metatab.C03_idempotent` | Classical.choice, Quot.sound, propext |
| `Metatab.C03_fixed_iff` | Classical.choice, Quot.sound, propext |
| `Metatab.C04_line` | Quot.sound, propext |
| `Metatab.C04_text` | Quot.sound, propext |
| `Metatab.C04_backslash_witness` | none |
| `Metatab.C05_comment` | Quot.sound, propext |
| `Metatab.C05_count` | Quot.sound, propext |
| `Metatab.C05_section` | Quot.sound, propext |
| `Metatab.C05_section_row` | Quot.sound, propext |
| `Metatab.C06_noise` | Quot.sound, propext |
| `Metatab.C06_declarations` | Quot.sound, propext |
| `Metatab.C07_roundtrip` | Quot.sound, propext |
| `Metatab.C07_injective` | Quot.sound, propext |
| `Metatab.C08_leaf` | Quot.sound, propext |
| `Metatab.C08_groups` | Classical.choice, Quot.sound, propext |
| `Metatab.C08_total` | Classical.choice, Quot.sound, propext |
| `Metatab.C09_scalar` | Quot.sound, propext |
| `Metatab.C09_sequence` | Quot.sound, propext |
| `Metatab.C09_sconcat` | Quot.sound, propext |
| `Metatab.C09_bconcat` | Quot.sound, propext |
| `Metatab.C10_section_partial` | Classical.choice, Quot.sound, propext |
| `Metatab.C10_unaltered` | Classical.choice, Quot.sound, propext |
| `Metatab.C10_combines` | Classical.choice, Quot.sound, propext |
| `Metatab.C10_exception_witness` | Quot.sound, propext |
| `Metatab.C11_qualified` | Classical.choice, Quot.sound, propext |
| `Metatab.C11_unqualified` | Classical.choice, Quot.sound, propext |
| `Metatab.C11_always` | Classical.choice, Quot.sound, propext |
| `Metatab.C11_unsection_witness` | Quot.sound, propext |
| `Metatab.C11_orderly` | Classical.choice, Quot.sound, propext |
| `Metatab.C12_second_load_witness` | Quot.sound, propext |
| `Metatab.C12_derived` | Classical.choice, Quot.sound, propext |
| `Metatab.C12_self_witness` | Quot.sound, propext |
| `Metatab.C12_unqualified_witness` | Quot.sound, propext |
| `Metatab.C12_always` | Classical.choice, Quot.sound, propext |
| `Metatab.C12_declared` | Classical.choice, Quot.sound, propext |
| `Metatab.C12_decl_witness` | Quot.sound, propext |
| `Metatab.C13_first` | Quot.sound, propext |
| `Metatab.C13_default` | propext |
| `Metatab.C13_kw` | Classical.choice, Quot.sound, propext |
| `Metatab.C14_unique` | Classical.choice, Quot.sound, propext |
| `Metatab.C15_agree_partial` | Classical.choice, Quot.sound, propext |
| `Metatab.C15_once_partial` | Classical.choice, Quot.sound, propext |
| `Metatab.C15_own_partial` | Classical.choice, Quot.sound, propext |
| `Metatab.C15_overwrite_witness` | Quot.sound, propext |
| `Metatab.C15_non_root_witness` | Quot.sound, propext |
| `Metatab.C15_delete_case_witness` | Quot.sound, propext |
| `Metatab.C15_section_witness` | Quot.sound, propext |
| `Metatab.C15_deleted_section_witness` | Classical.choice, Quot.sound, propext |
| `Metatab.C15_move_witness` | Quot.sound, propext |
| `Metatab.C15_declare_witness` | Quot.sound, propext |
| `Metatab.C16_removed` | Classical.choice, Quot.sound, propext |
| `Metatab.C16_gone` | Classical.choice, Quot.sound, propext |
| `Metatab.C16_deleted_section_witness` | Quot.sound, propext |
| `Metatab.C17_always` | Classical.choice, Quot.sound, propext |
| `Metatab.C17_new` | Classical.choice, Quot.sound, propext |
| `Metatab.C17_found` | Classical.choice, Quot.sound, propext |
| `Metatab.C18_child` | Classical.choice, Quot.sound, propext |
| `Metatab.C18_value` | Quot.sound, propext |
| `Metatab.C18_value_word` | Quot.sound, propext |
| `Metatab.C18_value_name_witness` | Quot.sound, propext |
| `Metatab.C18_blanks_witness` | Quot.sound, propext |
| `Metatab.C18_self_witness` | Quot.sound, propext |
| `Metatab.C19_found` | Quot.sound, propext |
| `Metatab.C19_new` | Classical.choice, Quot.sound, propext |
| `Metatab.C19_twice` | Classical.choice, Quot.sound, propext |
| `Metatab.C20_absent` | Quot.sound, propext |
| `Metatab.C20_removes` | Classical.choice, Quot.sound, propext |
| `Metatab.C21_alphabetical` | Classical.choice, Quot.sound, propext |
| `Metatab.C21_order_list` | Classical.choice, Quot.sound, propext |
| `Metatab.C21_error` | propext |
| `Metatab.C22_sort_sections` | Classical.choice, Quot.sound, propext |
| `Metatab.C23_add` | Classical.choice, Quot.sound, propext |
| `Metatab.C23_add_idempotent` | Classical.choice, Quot.sound, propext |
| `Metatab.C23_blank_witness` | propext |
| `Metatab.C23_remove` | Quot.sound, propext |
| `Metatab.C24_lower_case_partial` | Quot.sound, propext |
| `Metatab.C24_replaces` | Quot.sound, propext |
| `Metatab.C24_witness` | Quot.sound, propext |
| `Metatab.C25_lower_case_partial` | Classical.choice, Quot.sound, propext |
| `Metatab.C25_terms_stay` | Quot.sound, propext |
| `Metatab.C25_witness` | Quot.sound, propext |
| `Metatab.C25_absent` | Quot.sound, propext |
| `Metatab.C26_coalesce` | Quot.sound, propext |
| `Metatab.C26_append` | Quot.sound, propext |
| `Metatab.C26_lookup` | Quot.sound, propext |
| `Metatab.C26_agree` | Quot.sound, propext |
| `Metatab.C27_attached` | Classical.choice, Quot.sound, propext |
| `Metatab.C28_chains` | Classical.choice, Quot.sound, propext |
| `Metatab.C28_walk` | Classical.choice, Quot.sound, propext |
| `Metatab.C28_self_witness` | Quot.sound, propext |
| `Metatab.C29_below_latest` | Classical.choice, Quot.sound, propext |
| `Metatab.C29_root_level` | Classical.choice, Quot.sound, propext |
| `Metatab.C29_root_name_witness` | Quot.sound, propext |
| `Metatab.C30_elided` | Classical.choice, Quot.sound, propext |
| `Metatab.C30_explicit` | Classical.choice, Quot.sound, propext |
| `Metatab.C30_explicit_witness` | Quot.sound, propext |
| `Metatab.C31_no_new` | Classical.choice, Quot.sound, propext |
| `Metatab.C31_reopens` | Classical.choice, Quot.sound, propext |
| `Metatab.C32_reads` | Classical.choice, Quot.sound, propext |
| `Metatab.C32_spliced` | Classical.choice, Quot.sound, propext |
| `Metatab.C32_elided_witness` | Quot.sound, propext |
| `Metatab.C32_header_witness` | Quot.sound, propext |
| `Metatab.C33_fails` | Classical.choice, Quot.sound, propext |
| `Metatab.C33_total` | Classical.choice, Quot.sound, propext |
| `Metatab.C33_empty_witness` | Quot.sound, propext |
| `Metatab.C34_stable` | Classical.choice, Quot.sound, propext |
| `Metatab.C34_ranked` | Classical.choice, Quot.sound, propext |
| `Metatab.C34_loop_witness` | Classical.choice, Quot.sound, propext |
| `Metatab.C35_rows_partial` | Classical.choice, Quot.sound, propext |
| `Metatab.C35_cells` | Classical.choice, Quot.sound, propext |
| `Metatab.C35_elided_witness` | Quot.sound, propext |
| `Metatab.C36_additive_partial` | Classical.choice, Quot.sound, propext |
| `Metatab.C36_load_witness` | Quot.sound, propext |
| `Metatab.C36_witness` | Quot.sound, propext |
| `Metatab.C37_rows` | Classical.choice, Quot.sound, propext |
| `Metatab.C37_class_witness` | Quot.sound, propext |
| `Metatab.C38_terminates` | Classical.choice, Quot.sound, propext |
| `Metatab.C38_children` | Classical.choice, Quot.sound, propext |
| `Metatab.C38_frame` | Classical.choice, Quot.sound, propext |
| `Metatab.C39_always` | Classical.choice, Quot.sound, propext |
| `Metatab.C39_inverse` | Quot.sound, propext |
| `Metatab.C39_once` | Quot.sound, propext |
| `Metatab.C39_load` | Quot.sound, propext |
| `Metatab.C39_first` | Quot.sound, propext |
| `Metatab.C40_values_partial` | Quot.sound, propext |
| `Metatab.C40_ignored_partial` | propext |
| `Metatab.C40_witness` | Quot.sound, propext |
| `Metatab.C41_calls` | Quot.sound, propext |
| `Metatab.C41_always` | Classical.choice, Quot.sound, propext |
| `Metatab.C41_registry` | Quot.sound, propext |
| `Metatab.C41_parser` | Quot.sound, propext |
| `Metatab.C42_parts` | Classical.choice, Quot.sound, propext |
| `Metatab.C42_plain` | Classical.choice, Quot.sound, propext |
| `Metatab.C42_none` | propext |
| `Metatab.C43_parts` | Quot.sound, propext |
| `Metatab.C43_chars` | Quot.sound, propext |
| `Metatab.C43_version` | Classical.choice, Quot.sound, propext |
| `Metatab.C44_plain_partial` | Classical.choice, Quot.sound, propext |
| `Metatab.C44_refuses` | Classical.choice, Quot.sound, propext |
| `Metatab.C44_patch_partial` | Classical.choice, Quot.sound, propext |
| `Metatab.C44_witness` | Quot.sound, propext |
| `Metatab.C45_stable` | Classical.choice, Quot.sound, propext |
| `Metatab.C45_moving_witness` | Classical.choice, Quot.sound, propext |
| `Metatab.C46_kept` | Quot.sound, propext |
| `Metatab.C46_filled` | Classical.choice, Quot.sound, propext |
| `Metatab.C46_made` | Classical.choice, Quot.sound, propext |
| `Metatab.C47_column` | Quot.sound, propext |
| `Metatab.C47_row` | Classical.choice, Quot.sound, propext |
| `Metatab.C47_nothing_else` | Quot.sound, propext |
| `Metatab.C48_entries` | Quot.sound, propext |
| `Metatab.C48_names` | Quot.sound, propext |
| `Metatab.C48_orphan` | Quot.sound, propext |
| `Metatab.C48_duplicate_witness` | Quot.sound, propext |
| `Metatab.C49_exact` | Quot.sound, propext |
| `Metatab.C49_once` | Classical.choice, Quot.sound, propext |
| `Metatab.C49_total` | Classical.choice, Quot.sound, propext |
| `Metatab.C49_all` | Quot.sound, propext |
| `Metatab.C50_roundtrip_partial` | Classical.choice, Quot.sound, propext |
| `Metatab.C50_stable_partial` | Classical.choice, Quot.sound, propext |
| `Metatab.C50_exact_partial` | Classical.choice, Quot.sound, propext |
| `Metatab.C50_duplicate_witness` | Quot.sound, propext |
| `Metatab.C50_root_suffix_witness` | Quot.sound, propext |
| `Metatab.C50_same_name_witness` | Quot.sound, propext |
| `Metatab.C50_declared_partial` | Classical.choice, Quot.sound, propext |
| `Metatab.C51_props` | Quot.sound, propext |
| `Metatab.C51_args` | Quot.sound, propext |
| `Metatab.C51_all` | Quot.sound, propext |
| `Metatab.C51_no_section` | propext |
| `Metatab.C52_child` | Quot.sound, propext |
| `Metatab.C52_underscore` | Classical.choice, Quot.sound, propext |
| `Metatab.C52_value_name` | Quot.sound, propext |
| `Metatab.C52_absent_partial` | Quot.sound, propext |
| `Metatab.C52_set_column` | Classical.choice, Quot.sound, propext |
| `Metatab.C52_set_value` | Quot.sound, propext |
| `Metatab.C52_set_other` | Classical.choice, Quot.sound, propext |
| `Metatab.C52_section_witness` | Quot.sound, propext |
| `Metatab.C52_shadow_witness` | Quot.sound, propext |
| `Metatab.C53_no_term` | Classical.choice, Quot.sound, propext |
| `Metatab.C53_names` | Classical.choice, Quot.sound, propext |
| `Metatab.C54_write` | Classical.choice, Quot.sound, propext |
| `Metatab.C54_succeeds` | Classical.choice, Quot.sound, propext |
| `Metatab.C54_format` | Classical.choice, Quot.sound, propext |
| `Metatab.C54_mismatch` | Classical.choice, Quot.sound, propext |
| `Metatab.C54_url` | Quot.sound, propext |
| `Metatab.C54_current_partial` | Classical.choice, Quot.sound, propext |
| `Metatab.C54_read_back_partial` | Classical.choice, Quot.sound, propext |
| `Metatab.C54_stale_witness` | Classical.choice, Quot.sound, propext |
| `Metatab.C54_crash_witness` | Quot.sound, propext |
| `Metatab.C55_exists` | Quot.sound, propext |
| `Metatab.C55_new_partial` | Classical.choice, Quot.sound, propext |
| `Metatab.C55_succeeds` | Classical.choice, Quot.sound, propext |
| `Metatab.C55_url_witness` | Quot.sound, propext |
| `Metatab.C55_empty_witness` | Quot.sound, propext |
| `Metatab.C56_resources_partial` | Classical.choice, Quot.sound, propext |
| `Metatab.C56_no_name` | Quot.sound, propext |
| `Metatab.C56_no_schema` | Quot.sound, propext |
| `Metatab.C56_succeeds` | Classical.choice, Quot.sound, propext |
| `Metatab.C56_single_witness` | Quot.sound, propext |
| `Metatab.C56_identifier_witness` | Quot.sound, propext |
| `Metatab.C56_identity_witness` | Quot.sound, propext |
| `Metatab.C57_flatten` | Quot.sound, propext |
| `Metatab.C57_values` | propext |
| `Metatab.C57_empty_key_witness` | none |
| `Metatab.C58_known` | Quot.sound, propext |
| `Metatab.C58_path` | Quot.sound, propext |
| `Metatab.C58_fragment` | Quot.sound, propext |
| `Metatab.C58_idempotent` | Quot.sound, propext |
| `Metatab.C58_target_partial` | Quot.sound, propext |
| `Metatab.C58_target_witness` | propext |
| `Metatab.C58_extension` | Quot.sound, propext |
| `Metatab.C58_no_extension` | Quot.sound, propext |
| `Metatab.C59_reads` | Classical.choice, Quot.sound, propext |
| `Metatab.C59_complete` | Quot.sound, propext |
| `Metatab.C60_contains` | Quot.sound, propext |
| `Metatab.C60_properties_witness` | Quot.sound, propext |
| `Metatab.C61_cleaned` | Classical.choice, Quot.sound, propext |
| `Metatab.C61_used` | Classical.choice, Quot.sound, propext |
| `Metatab.C61_no_empty` | Classical.choice, Quot.sound, propext |
| `Metatab.C61_no_schema` | Quot.sound, propext |
| `Metatab.C61_padded_witness` | Quot.sound, propext |
| `Metatab.C62_no_fallback` | Quot.sound, propext |
| `Metatab.C62_stable` | Classical.choice, Quot.sound, propext |
| `Metatab.C62_slug` | Classical.choice, Quot.sound, propext |
| `Metatab.C62_no_dataset` | Classical.choice, Quot.sound, propext |
| `Metatab.C62_unslugged_witness` | Quot.sound, propext |
| `Metatab.C63_roundtrip_partial` | Classical.choice, Quot.sound, propext |
| `Metatab.C63_stable_partial` | Classical.choice, Quot.sound, propext |
| `Metatab.C63_csv_partial` | Classical.choice, Quot.sound, propext |
| `Metatab.C63_pipe_witness` | Quot.sound, propext |
| `Metatab.C63_break_witness` | Quot.sound, propext |
| `Metatab.C63_csv_keeps` | Quot.sound, propext |
| `Metatab.C63_declared_partial` | Classical.choice, Quot.sound, propext |
| `Metatab.C64_orderly` | Classical.choice, Quot.sound, propext |
| `Metatab.C64_term_partial` | Classical.choice, Quot.sound, propext |
| `Metatab.C64_children` | Quot.sound, propext |
| `Metatab.C64_first_value` | Quot.sound, propext |
| `Metatab.C64_qualified` | propext |
| `Metatab.C64_inside` | Quot.sound, propext |
| `Metatab.C64_section` | Classical.choice, Quot.sound, propext |
| `Metatab.C64_section_values` | propext |
| `Metatab.C64_section_default_witness` | Quot.sound, propext |
| `Metatab.C65_orderly_partial` | Classical.choice, Quot.sound, propext |
| `Metatab.C65_new_partial` | Classical.choice, Quot.sound, propext |
| `Metatab.C65_found` | Classical.choice, Quot.sound, propext |
| `Metatab.C65_map_witness` | Quot.sound, propext |
| `Metatab.C65_blanks_witness` | Quot.sound, propext |
| `Metatab.C65_none_witness` | Quot.sound, propext |
| `Metatab.C66_declared` | propext |
| `Metatab.C66_new` | Quot.sound, propext |
| `Metatab.C66_row_partial` | Quot.sound, propext |
| `Metatab.C66_same_load_witness` | Quot.sound, propext |
| `Metatab.C66_padded_witness` | Quot.sound, propext |
| `Metatab.C67_found` | propext |
| `Metatab.C67_exists` | Quot.sound, propext |
| `Metatab.C67_documented_partial` | propext |
| `Metatab.C67_shadow_witness` | propext |
| `Metatab.C68_new` | Quot.sound, propext |
| `Metatab.C68_mismatch` | Quot.sound, propext |
| `Metatab.C68_properties` | Classical.choice, Quot.sound, propext |
| `Metatab.C68_term` | Classical.choice, Quot.sound, propext |
| `Metatab.C69_sections` | Quot.sound, propext |
| `Metatab.C69_reads_partial` | Classical.choice, Quot.sound, propext |
| `Metatab.C69_stops` | Classical.choice, Quot.sound, propext |
| `Metatab.C69_parent` | Quot.sound, propext |
| `Metatab.C69_mapping` | Quot.sound, propext |
| `Metatab.C69_mapping_witness` | Quot.sound, propext |
| `Metatab.C69_scalars_witness` | Quot.sound, propext |
| `Metatab.C69_unnamed_witness` | Quot.sound, propext |
| `Metatab.C69_bare_witness` | Quot.sound, propext |
| `Metatab.C70_calls` | Quot.sound, propext |
| `Metatab.C70_parse` | Classical.choice, Quot.sound, propext |
| `Metatab.C70_load` | Classical.choice, Quot.sound, propext |
| `Metatab.C70_plain` | Classical.choice, Quot.sound, propext |
| `Metatab.C71_add_partial` | Quot.sound, propext |
| `Metatab.C71_refuse` | Quot.sound, propext |
| `Metatab.C71_move_witness` | Quot.sound, propext |
| `Metatab.C72_fragment` | Quot.sound, propext |
| `Metatab.C72_fails_partial` | Quot.sound, propext |
| `Metatab.C72_readonly` | Quot.sound, propext |
| `Metatab.C72_in_place` | Classical.choice, Quot.sound, propext |
| `Metatab.C72_delivers_partial` | Classical.choice, Quot.sound, propext |
| `Metatab.C72_success` | Quot.sound, propext |
| `Metatab.C72_create` | Classical.choice, Quot.sound, propext |
| `Metatab.C72_find` | Quot.sound, propext |
| `Metatab.C72_missing` | Classical.choice, Quot.sound, propext |
| `Metatab.C72_unreadable` | Quot.sound, propext |
| `Metatab.C72_idempotent_partial` | Classical.choice, Quot.sound, propext |
| `Metatab.C72_convert_partial` | Classical.choice, Quot.sound, propext |
| `Metatab.C72_remote_witness` | Quot.sound, propext |
| `Metatab.C72_declaration_witness` | Quot.sound, propext |
| `Metatab.C72_terms_witness` | Quot.sound, propext |
| `Metatab.C73_always` | Classical.choice, Quot.sound, propext |
| `Metatab.C73_found` | Classical.choice, Quot.sound, propext |
| `Metatab.C73_missing_partial` | Classical.choice, Quot.sound, propext |
| `Metatab.C73_unnamed_witness` | Quot.sound, propext |
| `Metatab.C73_orderly` | Classical.choice, Quot.sound, propext |
| `Metatab.C74_new_child` | Quot.sound, propext |
| `Metatab.C74_get_or_new_child_partial` | Classical.choice, Quot.sound, propext |
| `Metatab.C74_new_term` | Classical.choice, Quot.sound, propext |
| `Metatab.C74_get_or_new_term_partial` | Classical.choice, Quot.sound, propext |
| `Metatab.C74_calls_partial` | Classical.choice, Quot.sound, propext |
| `Metatab.C74_properties_witness` | Quot.sound, propext |
| `Metatab.C74_term_properties_witness` | Quot.sound, propext |
| `Metatab.C74_item_witness` | Quot.sound, propext |
| `Metatab.C74_blank_witness` | Quot.sound, propext |
| `Metatab.C74_parse_witness` | Quot.sound, propext |
| `Metatab.C74_delete_witness` | Quot.sound, propext |
| `Metatab.C74_answers_partial` | Classical.choice, Quot.sound, propext |
| `Metatab.C75_read` | Classical.choice, Quot.sound, propext |
| `Metatab.C75_declarations` | Classical.choice, Quot.sound, propext |
| `Metatab.C75_find` | Classical.choice, Quot.sound, propext |
| `Metatab.C76_made` | Quot.sound, propext |
| `Metatab.C76_blocked` | Classical.choice, Quot.sound, propext |
| `Metatab.C76_again` | Classical.choice, Quot.sound, propext |
| `Metatab.C77_ensure_partial` | Quot.sound, propext |
| `Metatab.C77_file_witness` | propext |
| `Metatab.C78_visits` | Quot.sound, propext |
| `Metatab.C78_refuses` | propext |
| `Metatab.C79_digest_partial` | Classical.choice, Quot.sound, propext |
| `Metatab.C79_through_witness` | propext |
| `Metatab.C80_file` | propext |
| `Metatab.C80_refused` | Quot.sound, propext |
| `Metatab.C80_text_partial` | propext |
| `Metatab.C80_name` | propext |
| `Metatab.C80_text_witness` | propext |
| `Metatab.C80_missing_witness` | propext |
| `Metatab.C81_agree` | Quot.sound, propext |
| `Metatab.C81_list` | Quot.sound, propext |
| `Metatab.C81_absent` | Quot.sound, propext |
| `Metatab.C81_iter` | Classical.choice, Quot.sound, propext |
| `Metatab.C81_name_partial` | Classical.choice, Quot.sound, propext |
| `Metatab.C81_name_witness` | Quot.sound, propext |
| `Metatab.C82_copied_partial` | Classical.choice, Quot.sound, propext |
| `Metatab.C82_same` | Classical.choice, Quot.sound, propext |
| `Metatab.C82_no_source` | Quot.sound, propext |
| `Metatab.C82_refused` | Quot.sound, propext |
| `Metatab.C82_target_witness` | Quot.sound, propext |
| `Metatab.C82_again_witness` | Quot.sound, propext |
| `Metatab.C82_ignore_witness` | Quot.sound, propext |
| `Metatab.C83_frame` | Quot.sound, propext |
| `Metatab.C83_opened` | propext |
| `Metatab.C83_register` | Quot.sound, propext |
| `Metatab.C83_project` | Quot.sound, propext |
| `Metatab.C83_alone` | Classical.choice, Quot.sound, propext |
| `Metatab.C83_orderly` | Classical.choice, Quot.sound, propext |
| `Metatab.C83_shared_witness` | Quot.sound, propext |
| `Metatab.C84_taken_partial` | Quot.sound, propext |
| `Metatab.C84_same_answer` | Classical.choice, Quot.sound, propext |
| `Metatab.C84_new_document` | Quot.sound, propext |
| `Metatab.C84_stolen_witness` | Quot.sound, propext |
| `Metatab.C85_dotted` | Classical.choice, Quot.sound, propext |
| `Metatab.C85_error` | Classical.choice, Quot.sound, propext |
| `Metatab.C85_undotted` | Classical.choice, Quot.sound, propext |
| `Metatab.C85_lookup` | propext |
| `Metatab.C85_resolved` | propext |
| `Metatab.C86_reads` | Classical.choice, Quot.sound, propext |
| `Metatab.C86_stops` | Classical.choice, Quot.sound, propext |
| `Metatab.C86_pieces` | Classical.choice, Quot.sound, propext |
| `Metatab.C86_elided_witness` | Quot.sound, propext |
| `Metatab.C86_parent_witness` | Quot.sound, propext |
| `Metatab.C86_section_witness` | Quot.sound, propext |
| `Metatab.C87_unknown_section` | Quot.sound, propext |
| `Metatab.C87_inherits_without_section` | Quot.sound, propext |
| `Metatab.C87_inherited_witness` | Quot.sound, propext |
| `Metatab.C88_lines` | Classical.choice, Quot.sound, propext |
| `Metatab.C88_listing_partial` | Classical.choice, Quot.sound, propext |
| `Metatab.C88_fronts` | Quot.sound, propext |
| `Metatab.C88_command_partial` | Classical.choice, Quot.sound, propext |
| `Metatab.C88_columns_witness` | Quot.sound, propext |
| `Metatab.C89_same` | Quot.sound, propext |
| `Metatab.C89_rows` | Classical.choice, Quot.sound, propext |
| `Metatab.C89_plain_partial` | Classical.choice, Quot.sound, propext |
| `Metatab.C89_file_ref` | Quot.sound, propext |
| `Metatab.C89_file_ref_plain_partial` | Classical.choice, Quot.sound, propext |
| `Metatab.C89_file_ref_distinct` | Classical.choice, Quot.sound, propext |
| `Metatab.C89_places_distinct` | Quot.sound, propext |
| `Metatab.C89_name_witness` | none |
| `Metatab.C89_section_witness` | Quot.sound, propext |
| `Metatab.C89_include_witness` | Quot.sound, propext |
| `Metatab.C90_same` | Quot.sound, propext |
| `Metatab.C90_message` | Classical.choice, Quot.sound, propext |
| `Metatab.C90_unreadable_partial` | Classical.choice, Quot.sound, propext |
| `Metatab.C90_term` | Classical.choice, Quot.sound, propext |
| `Metatab.C90_dict_partial` | Classical.choice, Quot.sound, propext |
| `Metatab.C90_other_row_witness` | Quot.sound, propext |
| `Metatab.C90_no_term_witness` | Quot.sound, propext |
| `Metatab.C91_template` | Classical.choice, Quot.sound, propext |
| `Metatab.C91_new` | Classical.choice, Quot.sound, propext |
| `Metatab.C91_command` | Classical.choice, Quot.sound, propext |
| `Metatab.C91_again` | Classical.choice, Quot.sound, propext |
| `Metatab.C92_orderly` | Classical.choice, Quot.sound, propext |
| `Metatab.C92_nothing` | Quot.sound, propext |
| `Metatab.C92_absent_partial` | Quot.sound, propext |
| `Metatab.C92_fails` | Classical.choice, Quot.sound, propext |
| `Metatab.C92_witness` | Classical.choice, Quot.sound, propext |
| `Metatab.C92_short_witness` | Quot.sound, propext |
| `Metatab.C93_declare_row_partial` | Classical.choice, Quot.sound, propext |
| `Metatab.C93_tables_partial` | Classical.choice, Quot.sound, propext |
| `Metatab.C93_witness` | Quot.sound, propext |
| `Metatab.C93_builtin_witness` | Quot.sound, propext |
| `Metatab.C94_term` | Classical.choice, Quot.sound, propext |
| `Metatab.C94_section` | Classical.choice, Quot.sound, propext |
| `Metatab.C94_document` | Classical.choice, Quot.sound, propext |
| `Metatab.C94_written` | Classical.choice, Quot.sound, propext |
| `Metatab.C94_lines` | Classical.choice, Quot.sound, propext |
| `Metatab.C95_term` | Classical.choice, Quot.sound, propext |
| `Metatab.C95_section_term` | Classical.choice, Quot.sound, propext |
| `Metatab.C95_child` | Classical.choice, Quot.sound, propext |
| `Metatab.C95_item` | Classical.choice, Quot.sound, propext |
| `Metatab.C95_section` | Classical.choice, Quot.sound, propext |
| `Metatab.C95_answers` | Classical.choice, Quot.sound, propext |
| `Metatab.C95_replaced_witness` | Quot.sound, propext |
| `Metatab.C95_overwritten_witness` | Quot.sound, propext |
| `Metatab.C96_outline` | Classical.choice, Quot.sound, propext |
| `Metatab.C96_csv_partial` | Classical.choice, Quot.sound, propext |
| `Metatab.C96_lines_partial` | Classical.choice, Quot.sound, propext |
| `Metatab.C96_exact_partial` | Classical.choice, Quot.sound, propext |
| `Metatab.C96_calls` | Classical.choice, Quot.sound, propext |
| `Metatab.C96_built` | Classical.choice, Quot.sound, propext |
| `Metatab.C96_duplicate_witness` | Classical.choice, Quot.sound, propext |
| `Metatab.C96_order_witness` | Classical.choice, Quot.sound, propext |
| `Metatab.C97_edits` | Classical.choice, Quot.sound, propext |
| `Metatab.C97_saved` | Classical.choice, Quot.sound, propext |
| `Metatab.C97_new` | Classical.choice, Quot.sound, propext |
| `Metatab.C97_loaded` | Classical.choice, Quot.sound, propext |
| `Metatab.C97_section_column_witness` | Quot.sound, propext |
| `Metatab.C97_dropPart` | Classical.choice, Quot.sound, propext |
| `Metatab.C97_order` | Classical.choice, Quot.sound, propext |
| `Metatab.C97_setChild` | Classical.choice, Quot.sound, propext |
| `Metatab.C97_sort` | Classical.choice, Quot.sound, propext |
| `Metatab.C97_addColumn` | Classical.choice, Quot.sound, propext |
| `Metatab.C97_dropColumn` | Classical.choice, Quot.sound, propext |
| `Metatab.C97_value` | Classical.choice, Quot.sound, propext |
| `Metatab.C97_child` | Classical.choice, Quot.sound, propext |
| `Metatab.C97_dropChild` | Classical.choice, Quot.sound, propext |
| `Metatab.C97_term` | Classical.choice, Quot.sound, propext |
| `Metatab.C97_section` | Classical.choice, Quot.sound, propext |
| `Metatab.C97_dropTerm` | Classical.choice, Quot.sound, propext |
| `Metatab.C98_edited` | Classical.choice, Quot.sound, propext |
| `Metatab.C98_loaded_edited` | Classical.choice, Quot.sound, propext |
| `Metatab.C98_star_witness` | Quot.sound, propext |
| `Metatab.C98_nested` | Classical.choice, Quot.sound, propext |
| `Metatab.C98_root` | Classical.choice, Quot.sound, propext |
| `Metatab.C98_unqualified` | Classical.choice, Quot.sound, propext |
| `Metatab.C98_orderly` | Classical.choice, Quot.sound, propext |
| `Metatab.C98_read` | Classical.choice, Quot.sound, propext |
| `Metatab.C98_saved` | Classical.choice, Quot.sound, propext |
| `Metatab.C99_value` | Classical.choice, Quot.sound, propext |
| `Metatab.C99_property` | Classical.choice, Quot.sound, propext |
| `Metatab.C99_dropChild` | Classical.choice, Quot.sound, propext |
| `Metatab.C99_set` | Classical.choice, Quot.sound, propext |
| `Metatab.C99_set_new` | Classical.choice, Quot.sound, propext |
| `Metatab.C99_term` | Classical.choice, Quot.sound, propext |
| `Metatab.C99_dropTerm` | Classical.choice, Quot.sound, propext |
| `Metatab.C99_section` | Classical.choice, Quot.sound, propext |
| `Metatab.C99_dropPart` | Classical.choice, Quot.sound, propext |
| `Metatab.C99_moved_witness` | Quot.sound, propext |
| `Metatab.C99_value_lines` | Classical.choice, Quot.sound, propext |
| `Metatab.C99_property_lines` | Classical.choice, Quot.sound, propext |
| `Metatab.C99_dropChild_lines` | Classical.choice, Quot.sound, propext |
| `Metatab.C99_term_lines` | Classical.choice, Quot.sound, propext |
| `Metatab.C99_dropTerm_lines` | Classical.choice, Quot.sound, propext |
| `Metatab.C99_section_lines` | Classical.choice, Quot.sound, propext |
| `Metatab.C99_dropPart_lines` | Classical.choice, Quot.sound, propext |
| `Metatab.C100_outline_partial` | Classical.choice, Quot.sound, propext |
| `Metatab.C100_search_partial` | Classical.choice, Quot.sound, propext |
| `Metatab.C100_order_partial` | Classical.choice, Quot.sound, propext |
| `Metatab.C100_parents_partial` | Classical.choice, Quot.sound, propext |
| `Metatab.C100_parent_witness` | Quot.sound, propext |
| `Metatab.C100_order_witness` | Quot.sound, propext |
| `Metatab.C101_declared_root` | Classical.choice, Quot.sound, propext |
| `Metatab.C101_file_terms_witness` | Quot.sound, propext |
| `Metatab.C101_declared` | Classical.choice, Quot.sound, propext |
| `Metatab.C101_declared_search` | Classical.choice, Quot.sound, propext |
| `Metatab.C101_declared_edits` | Classical.choice, Quot.sound, propext |
| `Metatab.C101_declared_saved` | Classical.choice, Quot.sound, propext |
| `Metatab.C101_declared_edited` | Classical.choice, Quot.sound, propext |
| `Metatab.C101_head_witness` | Quot.sound, propext |
| `Metatab.C101_read` | Classical.choice, Quot.sound, propext |
| `Metatab.C101_search` | Classical.choice, Quot.sound, propext |
| `Metatab.C101_dict` | Classical.choice, Quot.sound, propext |
| `Metatab.C101_edits` | Classical.choice, Quot.sound, propext |
| `Metatab.C101_saved` | Classical.choice, Quot.sound, propext |
| `Metatab.C101_one_cell` | Classical.choice, Quot.sound, propext |
| `Metatab.C101_stray_witness` | Quot.sound, propext |
| `Metatab.C101_elided_witness` | Quot.sound, propext |
