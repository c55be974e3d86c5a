# Axioms

Output of `#print axioms` for every theorem named in MANIFEST.json (497 theorems), grouped by result.

## none

`C42_overflow`, `C66_exceeds`

## `propext`

`C02_wraps`, `C05_legal`, `C12_not_reopenable`, `C13_overflow`, `C15_torn`, `C16_silent`, `C19_rewrite`, `C22_witness`, `C22_overlap`, `C27_foreign`, `C30_empty_value`, `C30_blank_dtype`, `C30_foreign`, `C31_not_saved`, `C31_resurrected`, `C32_changes`, `C33_refused`, `C35_regular_file`, `C35_cut`, `C36_needs_no_faults`, `C37_not_listed`, `C39_reraise_race`, `C39_get_race`, `C39_no_exchange`, `C39_percent`, `C40_add`, `C41_buffer_swapped`, `C51_onto_itself`, `C51_small_buffer`, `C51_attrs_lost`, `C60_torn_flush`, `C61_root_open`, `C61_root_create`, `C62_lost`, `C63_no_files`, `C64_aborts`, `C67_more`, `C67_small_buffer`, `C68_alias`, `C68_alias_last`, `C68_no_count`, `C68_no_dtype`, `C68_not_a_number`, `C68_string`, `C70_untouched`, `C70_unflushed`, `C70_flushed`, `C70_retry_loses_attrs`, `C70_retry_useless`, `C70_no_false_success`, `C74_unnoticed`, `C81_division`, `C82_two_writers`, `C83_delete_lost`, `C83_empty_str`, `C89_untouched`, `C89_unflushed`, `C89_one_verdict`, `C89_no_false_success`, `C89_retry_wrong_checksums`, `C93_cases`, `C94_list`, `C94_ls`, `C94_torn`, `C94_setAttr_killed`, `C95_getopt`, `C95_getopt_mixed`, `C95_looks_like_option`, `C95_getAttr`, `C95_ls`, `C95_ls_ignores`, `C95_unknown`, `C95_missing_value`, `C95_no_value`, `C95_negative_example`, `C95_mpi_usage`, `C96_open`, `C96_mpi`, `C96_mpi_leaves_partial`, `C97_stale_partial`, `C97_stale_example`, `C97_state`, `C97_pickle`, `C97_pickle_lost_partial`, `C97_pickle_lost_example`, `C98_closed`, `C98_sets_back_partial`, `C101_same_directory`, `C102_ignored`, `C102_no_false_success`, `C104_ignored`, `C104_no_false_success`, `C105_row_stays`, `C105_size_stays`, `C105_intact`, `C107_row_stays`, `C108_row_stays`, `C109_row_stays`

## `Quot.sound`, `propext`

`C07_hangs`, `C08_out_of_range`, `C14_open_close`, `C14_flush_twice`, `C17_pointers`, `C20_init`, `C24_bytes`, `C24_value`, `C24_round_trip`, `C24_complex`, `C26_normal_form`, `C26_canonical`, `C26_kind_width`, `C29_blank_names`, `C34_meta`, `C39_threads_partial`, `C40_partition`, `C44_segments`, `C49_schedule`, `C50_max`, `C50_min`, `C52_alone`, `C52_small_buffer`, `C52_failure_unnoticed`, `C54_steps`, `C54_assign_beyond`, `C55_default_files`, `C60_terminates`, `C65_other_mode`, `C70_recover_partial`, `C76_one`, `C77_unreadable`, `C77_rewritten`, `C77_torn`, `C79_one_killed`, `C79_nested_lost`, `C79_attrs_lost`, `C85_root_fails`, `C85_no_files`, `C89_retry_checksums`, `C92_early`, `C94_getAttr`, `C94_cat`, `C94_check`, `C94_setAttr`, `C95_iosim_usage`, `C95_iosim_no_file`, `C95_repartition_plain_example`, `C95_rename_rm`, `C95_scripts_usage`, `C99_missing`, `C99_create_waits_partial`, `C100_concat`, `C106_raw`, `C106_path`, `C106_mpi_path`, `C107_opens_partial`, `C107_ignored`, `C107_intact`, `C108_ignored`, `C108_intact`, `C109_ignored`, `C109_intact`

## `Classical.choice`, `Quot.sound`, `propext`

`C01_seek`, `C01_eof`, `C02_seek_rel_partial`, `C02_compose_partial`, `C03_read_back`, `C03_handle`, `C04_only_its_rows`, `C04_other_files`, `C05_rows`, `C05_reads`, `C06_write`, `C06_read`, `C07_terminates_partial`, `C09_interrupted`, `C10_write`, `C10_write_succeeds`, `C10_read`, `C11_reopen_partial`, `C11_too_many`, `C12_create_open_partial`, `C12_meta_partial`, `C13_open_validates_partial`, `C13_dtype`, `C15_flush_may_partial`, `C16_flush_stored_partial`, `C17_grow`, `C17_new_rows`, `C18_checksum`, `C18_once`, `C19_partial`, `C20_row_major`, `C20_every_step`, `C20_default`, `C21_read_frame`, `C22_source_kept_partial`, `C22_foreign`, `C22_set_attr_partial`, `C23_value`, `C23_round_trip`, `C23_stored`, `C24_read_back`, `C25_unsupported`, `C27_finite_map_partial`, `C28_memory_safe`, `C30_survive_partial`, `C30_meta_partial`, `C31_removed_partial`, `C32_get_keeps_partial`, `C33_legacy_partial`, `C33_meta_partial`, `C34_pack_unpack`, `C35_file_partial`, `C35_file_succeeds_partial`, `C35_block_partial`, `C36_list`, `C37_created_is_listed_partial`, `C38_files_distinct`, `C38_other_blocks`, `C39_alone_partial`, `C39_overflow`, `C40_complete`, `C40_unset`, `C40_set_existing`, `C40_set`, `C40_get`, `C41_write`, `C41_read`, `C41_round_trip`, `C42_split_partial`, `C43_once`, `C43_truncate`, `C44_groups`, `C45_collective_write`, `C46_collective_read`, `C47_exchange`, `C47_write_agreement`, `C47_read_agreement`, `C47_flush_reports`, `C47_close_reports`, `C48_created_partial`, `C48_total`, `C48_opened`, `C48_reflush`, `C48_false`, `C49_each_once`, `C49_delivers`, `C49_no_deadlock`, `C51_copy_partial`, `C51_faults_partial`, `C51_opens`, `C52_parallel_copy_partial`, `C52_files_partial`, `C52_files_ends`, `C52_ends`, `C52_leftover`, `C52_failure_status`, `C53_selection`, `C53_work`, `C53_too_many`, `C54_slice_partial`, `C54_scalar_partial`, `C54_assign_partial`, `C54_reversed`, `C54_reversed_by_one`, `C54_minus_one`, `C55_create_from_array_partial`, `C55_reads_back`, `C55_faults_partial`, `C55_small_limit`, `C56_created_partial`, `C56_history_partial`, `C57_concurrent_writers`, `C57_interrupted`, `C58_read_simple_partial`, `C58_negative`, `C58_negative_all`, `C59_nothing_lost`, `C60_refused_partial`, `C60_cut`, `C61_open_partial`, `C61_create_partial`, `C62_all_or_none_partial`, `C63_append_partial`, `C63_faults_partial`, `C64_sample_partial`, `C64_files_partial`, `C64_files_ends`, `C64_faults_partial`, `C64_failure_status`, `C64_all`, `C65_create`, `C65_extend`, `C65_make_reports`, `C65_write_reports`, `C65_read_reports`, `C65_create_write_read`, `C66_bounds_partial`, `C67_cat`, `C67_data`, `C67_cat_partial`, `C67_shown`, `C67_text`, `C68_set_partial`, `C68_set_real_partial`, `C68_get`, `C68_roundtrip_partial`, `C68_count`, `C68_unknown`, `C69_exact`, `C69_toward0`, `C69_bool`, `C69_representable`, `C69_round_trip`, `C69_stored`, `C69_read_back`, `C69_not_representable`, `C70_survives_partial`, `C70_session_partial`, `C70_old_data_partial`, `C70_answers_partial`, `C70_all_well_partial`, `C70_flush_stays_partial`, `C71_history_partial`, `C71_sessions_partial`, `C71_created`, `C71_opened`, `C71_closed`, `C72_create`, `C72_history`, `C72_round_trip`, `C73_open_agrees`, `C73_create_agrees`, `C73_open`, `C73_open_missing`, `C73_create`, `C74_create_partial`, `C74_empty`, `C74_small_buffer`, `C75_open`, `C75_torn`, `C75_content_partial`, `C76_ls`, `C77_check`, `C77_blocks`, `C77_all`, `C77_accepts`, `C77_detects`, `C78_onto_existing`, `C78_rename`, `C78_renamed_block`, `C78_rm`, `C78_others_stay`, `C79_keeps_partial`, `C79_jobs_partial`, `C79_repartition_partial`, `C79_others_stay`, `C79_quiet`, `C79_nested`, `C80_value`, `C80_stored_partial`, `C80_read_back_partial`, `C80_exchanged`, `C81_created`, `C81_history`, `C82_created`, `C82_history`, `C82_undisturbed`, `C83_dict_partial`, `C83_survives_partial`, `C83_long_texts`, `C84_history_partial`, `C84_open`, `C84_unequal`, `C84_reversed`, `C84_minus_one`, `C85_create_from_array_partial`, `C85_small_limit`, `C86_copy_killed`, `C86_copy_success`, `C86_sample_killed`, `C86_sample_success`, `C87_copy_partial`, `C87_sample_partial`, `C87_alone`, `C87_close_reported`, `C88_create`, `C88_update`, `C88_read`, `C88_grow`, `C88_history`, `C88_round_trip`, `C88_false_alarm`, `C88_missing`, `C89_survives_partial`, `C89_session_partial`, `C89_recover_partial`, `C89_old_data_partial`, `C89_answers_partial`, `C89_all_well_partial`, `C89_flush_stays_partial`, `C90_create_partial`, `C90_write_partial`, `C90_read_partial`, `C90_extend_partial`, `C90_outside`, `C91_write`, `C91_read`, `C91_no_effect_false`, `C92_collective_write`, `C92_write_agreement`, `C92_collective_read`, `C92_read_agreement`, `C92_overrun_write`, `C92_overrun_read`, `C92_truncate`, `C93_whole`, `C93_copy_partial`, `C93_faults_partial`, `C94_onlyAttrs`, `C94_copy`, `C94_create`, `C94_others`, `C95_copy`, `C95_cat`, `C95_create`, `C95_setAttr`, `C95_wrong_number`, `C95_negative`, `C95_set_stores_partial`, `C95_copyMpi`, `C95_sampleMpi`, `C95_iosim`, `C95_repartition`, `C95_check`, `C95_check_all`, `C95_repartition_script`, `C95_repartition_plain`, `C96_exists`, `C96_blocks`, `C97_first`, `C97_created`, `C98_moves`, `C98_harmless`, `C99_open`, `C99_create`, `C99_subfile`, `C99_new_block`, `C99_waits_partial`, `C100_format`, `C100_history`, `C100_elsewhere`, `C101_blocks`, `C101_documented`, `C101_new_file`, `C102_session`, `C102_survives`, `C102_kept`, `C102_new_file`, `C102_answers`, `C102_all_well`, `C103_blocks_partial`, `C103_new_file_partial`, `C104_session_partial`, `C104_survives_partial`, `C104_kept_partial`, `C104_new_file_partial`, `C104_answers_partial`, `C104_all_well_partial`, `C105_life_partial`, `C105_visit_partial`, `C105_opens_partial`, `C105_kept_partial`, `C105_happens_partial`, `C106_format`, `C106_attr_text`, `C106_convert`, `C106_data_name`, `C107_life_partial`, `C107_visit_partial`, `C107_kept_partial`, `C107_happens_partial`, `C107_new_file`, `C108_life_partial`, `C108_visit_partial`, `C108_opens_partial`, `C108_kept_partial`, `C108_happens_partial`, `C108_new_file`, `C109_life_partial`, `C109_visit_partial`, `C109_opens_partial`, `C109_kept_partial`, `C109_happens_partial`, `C109_new_file`
