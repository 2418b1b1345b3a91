# Axioms

Output of `#print axioms` for every theorem named in MANIFEST.json. No other axioms occur.

| property | theorem | axioms |
|---|---|---|
| C01 | `Verif.Props.C01_local_path_roundtrip` | propext, Classical.choice, Quot.sound |
| C01 | `Verif.Props.C01_refuted_dot` | propext, Quot.sound |
| C01 | `Verif.Props.C01_refuted_colon` | propext, Quot.sound |
| C01 | `Verif.Props.C01_refuted_backslash` | propext, Quot.sound |
| C01 | `Verif.Props.C01_refuted_inner` | propext, Quot.sound |
| C02 | `Verif.Props.C02_join_appends` | propext, Classical.choice, Quot.sound |
| C02 | `Verif.Props.C02_refuted_root_dot` | propext, Quot.sound |
| C03 | `Verif.Props.C03_join_same_connection` | propext, Classical.choice, Quot.sound |
| C03 | `Verif.Props.C03_refuted_kwarg_username` | propext, Quot.sound |
| C04 | `Verif.Props.C04_split_join` | propext, Classical.choice, Quot.sound |
| C04 | `Verif.Props.C04_refuted_query` | propext, Quot.sound |
| C04 | `Verif.Props.C04_refuted_authority_root` | propext, Quot.sound |
| C05 | `Verif.Props.C05_dirname_levels` | propext, Classical.choice, Quot.sound |
| C05 | `Verif.Props.C05_dirname_authority` | propext, Classical.choice, Quot.sound |
| C05 | `Verif.Props.C05_refuted_authority_root` | propext, Quot.sound |
| C06 | `Verif.Props.C06_multi_join` | propext, Classical.choice, Quot.sound |
| C07 | `Verif.Props.C07_parts` | propext, Classical.choice, Quot.sound |
| C07 | `Verif.Props.C07_netloc` | propext, Quot.sound |
| C07 | `Verif.Props.C07_user_refuted` | propext, Quot.sound |
| C07 | `Verif.Props.C07_archive_refuted` | propext, Quot.sound |
| C07 | `Verif.Props.C07_eq_iff` | propext, Classical.choice, Quot.sound |
| C07 | `Verif.Props.C07_equivalence` | propext, Classical.choice, Quot.sound |
| C07 | `Verif.Props.C07_other` | propext |
| C07 | `Verif.Props.C07_order_independent` | propext, Classical.choice, Quot.sound |
| C08 | `Verif.Props.C08_split_defined` | propext, Classical.choice, Quot.sound |
| C08 | `Verif.Props.C08_split_recomposes_http` | propext, Classical.choice, Quot.sound |
| C08 | `Verif.Props.C08_split_recomposes_other` | propext, Classical.choice, Quot.sound |
| C08 | `Verif.Props.C08_refuted_query_fragment` | propext |
| C08 | `Verif.Props.C08_refuted_newline` | propext |
| C09 | `Verif.Props.C09_connector_verbatim` | propext, Classical.choice, Quot.sound |
| C09 | `Verif.Props.C09_refuted_nested` | propext, Quot.sound |
| C09 | `Verif.Props.C09_cut` | propext |
| C10 | `Verif.Props.C10_truncated` | propext, Classical.choice, Quot.sound |
| C10 | `Verif.Props.C10_bad_byte` | propext, Classical.choice, Quot.sound |
| C10 | `Verif.Props.C10_escape` | propext |
| C10 | `Verif.Props.C10_no_escape` | propext, Quot.sound |
| C10 | `Verif.Props.C10_query_last_value` | propext, Classical.choice, Quot.sound |
| C10 | `Verif.Props.C10_query_rejects` | propext, Classical.choice, Quot.sound |
| C11 | `Verif.Props.C11_quote_plain` | none |
| C11 | `Verif.Props.C11_quote_escaped` | propext, Quot.sound |
| C11 | `Verif.Props.C11_query_roundtrip` | propext, Classical.choice, Quot.sound |
| C11 | `Verif.Props.C11_refuted_keys` | propext |
| C12 | `Verif.Props.C12_fragment` | propext, Quot.sound |
| C12 | `Verif.Props.C12_str_roundtrip` | propext, Classical.choice, Quot.sound |
| C12 | `Verif.Props.C12_str_roundtrip_URI` | propext, Classical.choice, Quot.sound |
| C12 | `Verif.Props.C12_refuted_http` | propext, Quot.sound |
| C12 | `Verif.Props.C12_refuted_at` | propext, Quot.sound |
| C12 | `Verif.Props.C12_refuted_quote` | propext, Quot.sound |
| C12 | `Verif.Props.C12_refuted_digit` | propext, Quot.sound |
| C13 | `Verif.Props.C13_port` | propext, Classical.choice, Quot.sound |
| C13 | `Verif.Props.C13_split_join` | propext |
| C13 | `Verif.Props.C13_join_split` | propext, Quot.sound |
| C13 | `Verif.Props.C13_refuted_empty` | propext |
| C14 | `Verif.Props.C14_windows_drive` | propext, Classical.choice, Quot.sound |
| C14 | `Verif.Props.C14_windows_rooted` | propext, Classical.choice, Quot.sound |
| C14 | `Verif.Props.C14_windows_dot` | propext, Classical.choice, Quot.sound |
| C14 | `Verif.Props.C14_windows_relative` | propext, Classical.choice, Quot.sound |
| C14 | `Verif.Props.C14_one_letter_refuted` | propext, Quot.sound |
| C15 | `Verif.Props.C15_suffix` | propext, Classical.choice, Quot.sound |
| C16 | `Verif.Props.C16_letters` | propext, Quot.sound |
| C16 | `Verif.Props.C16_scheme_dispatch` | propext, Classical.choice, Quot.sound |
| C16 | `Verif.Props.C16_default_file` | propext, Classical.choice, Quot.sound |
| C16 | `Verif.Props.C16_refuted_digits` | propext, Quot.sound |
| C16 | `Verif.Props.C16_refuted_drive` | propext, Quot.sound |
| C16 | `Verif.Props.C16_refuted_double` | propext, Quot.sound |
| C17 | `Verif.Props.C17_fragment` | propext, Classical.choice, Quot.sound |
| C17 | `Verif.Props.C17_fragment_file` | propext, Classical.choice, Quot.sound |
| C18 | `Verif.Props.C18_relative` | propext, Classical.choice, Quot.sound |
| C18 | `Verif.Props.C18_unipath` | propext, Quot.sound |
| C19 | `Verif.Props.C19_last_basename` | propext, Classical.choice, Quot.sound |
| C19 | `Verif.Props.C19_refuted_two_slashes` | propext, Quot.sound |
| C20 | `Verif.Props.C20_relative` | propext, Classical.choice, Quot.sound |
| C20 | `Verif.Props.C20_relative_url` | propext, Classical.choice, Quot.sound |
| C20 | `Verif.Props.C20_root_refuted` | propext, Classical.choice, Quot.sound |
| C20 | `Verif.Props.C20_no_path_refuted` | propext, Quot.sound |
| C20 | `Verif.Props.C20_other_scheme` | propext, Classical.choice, Quot.sound |
| C20 | `Verif.Props.C20_authority_wins` | propext |
| C20 | `Verif.Props.C20_same_scheme_http` | propext, Classical.choice, Quot.sound |
| C20 | `Verif.Props.C20_no_authority_rejected` | propext, Classical.choice, Quot.sound |
| C21 | `Verif.Props.C21_names_distinct` | propext, Classical.choice, Quot.sound |
| C21 | `Verif.Props.C21_one_location` | propext, Classical.choice, Quot.sound |
| C21 | `Verif.Props.C21_no_cycle` | propext, Classical.choice, Quot.sound |
| C21 | `Verif.Props.C21_roots` | propext, Classical.choice, Quot.sound |
| C22 | `Verif.Props.C22_found` | propext, Classical.choice, Quot.sound |
| C22 | `Verif.Props.C22_only` | propext, Classical.choice, Quot.sound |
| C22 | `Verif.Props.C22_loop` | propext, Classical.choice, Quot.sound |
| C22 | `Verif.Props.C22_unbounded` | propext, Classical.choice, Quot.sound |
| C22 | `Verif.Props.C22_functional` | propext, Quot.sound |
| C22 | `Verif.Props.C22_plain` | propext |
| C23 | `Verif.Props.C23_agree` | propext, Classical.choice, Quot.sound |
| C23 | `Verif.Props.C23_meaning` | propext, Classical.choice, Quot.sound |
| C23 | `Verif.Props.C23_missing` | propext, Classical.choice, Quot.sound |
| C23 | `Verif.Props.C23_root` | propext, Classical.choice, Quot.sound |
| C23 | `Verif.Props.C23_plain` | propext, Classical.choice, Quot.sound |
| C23 | `Verif.Props.C23_below_file` | propext, Classical.choice, Quot.sound |
| C24 | `Verif.Props.C24_mkdir` | propext, Classical.choice, Quot.sound |
| C24 | `Verif.Props.C24_symlink` | propext, Classical.choice, Quot.sound |
| C24 | `Verif.Props.C24_open` | propext, Classical.choice, Quot.sound |
| C24 | `Verif.Props.C24_set_info` | propext, Classical.choice, Quot.sound |
| C24 | `Verif.Props.C24_copystat` | propext, Classical.choice, Quot.sound |
| C24 | `Verif.Props.C24_remove` | propext, Classical.choice, Quot.sound |
| C24 | `Verif.Props.C24_queries` | propext, Classical.choice, Quot.sound |
| C25 | `Verif.Props.C25_creates` | propext, Classical.choice, Quot.sound |
| C25 | `Verif.Props.C25_only` | propext, Classical.choice, Quot.sound |
| C25 | `Verif.Props.C25_listing` | propext, Classical.choice, Quot.sound |
| C25 | `Verif.Props.C25_exists` | propext, Classical.choice, Quot.sound |
| C25 | `Verif.Props.C25_no_parent` | propext, Classical.choice, Quot.sound |
| C25 | `Verif.Props.C25_parent_file` | propext, Classical.choice, Quot.sound |
| C26 | `Verif.Props.C26_bytes` | propext, Classical.choice, Quot.sound |
| C26 | `Verif.Props.C26_same_path` | propext, Classical.choice, Quot.sound |
| C27 | `Verif.Props.C27_text` | propext, Classical.choice, Quot.sound |
| C27 | `Verif.Props.C27_binary_refuses` | propext |
| C27 | `Verif.Props.C27_bad_utf8` | propext, Classical.choice, Quot.sound |
| C28 | `Verif.Props.C28_creates` | propext, Classical.choice, Quot.sound |
| C28 | `Verif.Props.C28_truncates` | propext, Classical.choice, Quot.sound |
| C28 | `Verif.Props.C28_directory` | propext, Classical.choice, Quot.sound |
| C28 | `Verif.Props.C28_no_parent` | propext, Classical.choice, Quot.sound |
| C28 | `Verif.Props.C28_root_refuted` | propext, Quot.sound |
| C29 | `Verif.Props.C29_append_partial` | propext, Classical.choice, Quot.sound |
| C29 | `Verif.Props.C29_empty` | propext, Classical.choice, Quot.sound |
| C29 | `Verif.Props.C29_empty_refuted` | propext, Quot.sound |
| C29 | `Verif.Props.C29_missing` | propext, Classical.choice, Quot.sound |
| C30 | `Verif.Props.C30_listdir` | propext, Classical.choice, Quot.sound |
| C30 | `Verif.Props.C30_empty_steps` | propext, Classical.choice, Quot.sound |
| C30 | `Verif.Props.C30_fails` | propext, Classical.choice, Quot.sound |
| C31 | `Verif.Props.C31_file_or_link` | propext, Classical.choice, Quot.sound |
| C31 | `Verif.Props.C31_empty_directory` | propext, Classical.choice, Quot.sound |
| C31 | `Verif.Props.C31_not_empty` | propext, Classical.choice, Quot.sound |
| C31 | `Verif.Props.C31_missing` | propext, Classical.choice, Quot.sound |
| C31 | `Verif.Props.C31_repeated_name_refuted` | propext, Quot.sound |
| C32 | `Verif.Props.C32_creates` | propext, Classical.choice, Quot.sound |
| C32 | `Verif.Props.C32_readlink` | propext, Classical.choice, Quot.sound |
| C32 | `Verif.Props.C32_not_a_link` | propext, Classical.choice, Quot.sound |
| C32 | `Verif.Props.C32_root_not_a_link` | propext |
| C32 | `Verif.Props.C32_denotes` | propext |
| C32 | `Verif.Props.C32_queries` | propext, Classical.choice, Quot.sound |
| C32 | `Verif.Props.C32_exists` | propext, Classical.choice, Quot.sound |
| C32 | `Verif.Props.C32_other_file_system_refuted` | propext, Quot.sound |
| C33 | `Verif.Props.C33_loop` | propext, Classical.choice, Quot.sound |
| C33 | `Verif.Props.C33_open_write` | propext, Classical.choice, Quot.sound |
| C33 | `Verif.Props.C33_self_link` | propext, Quot.sound |
| C33 | `Verif.Props.C33_two_links` | propext, Quot.sound |
| C34 | `Verif.Props.C34_denotes_nothing` | propext, Quot.sound |
| C34 | `Verif.Props.C34_dangling` | propext, Classical.choice, Quot.sound |
| C35 | `Verif.Props.C35_set_get` | propext, Classical.choice, Quot.sound |
| C35 | `Verif.Props.C35_set_one` | propext, Classical.choice, Quot.sound |
| C35 | `Verif.Props.C35_nofollow` | propext, Classical.choice, Quot.sound |
| C35 | `Verif.Props.C35_apply` | propext, Quot.sound |
| C36 | `Verif.Props.C36_arithmetic` | propext, Quot.sound |
| C36 | `Verif.Props.C36_xMask` | propext, Quot.sound |
| C36 | `Verif.Props.C36_set_exec` | propext, Classical.choice, Quot.sound |
| C36 | `Verif.Props.C36_other_bits` | propext, Quot.sound |
| C37 | `Verif.Props.C37_copystat` | propext, Classical.choice, Quot.sound |
| C37 | `Verif.Props.C37_other_file_system_refuted` | propext, Quot.sound |
| C38 | `Verif.Props.C38_unreachable` | propext, Quot.sound |
| C38 | `Verif.Props.C38_removed` | propext, Classical.choice, Quot.sound |
| C38 | `Verif.Props.C38_never_again` | propext, Classical.choice, Quot.sound |
| C38 | `Verif.Props.C38_history` | propext, Classical.choice, Quot.sound |
| C38 | `Verif.Props.C38_still_file` | propext, Classical.choice, Quot.sound |
| C39 | `Verif.Props.C39_lines_text` | propext, Classical.choice, Quot.sound |
| C39 | `Verif.Props.C39_line_bad` | propext, Classical.choice, Quot.sound |
| C39 | `Verif.Props.C39_write` | propext, Quot.sound |
| C39 | `Verif.Props.C39_write_nothing` | propext |
| C39 | `Verif.Props.C39_read` | propext, Quot.sound |
| C39 | `Verif.Props.C39_read_all` | propext |
| C39 | `Verif.Props.C39_read_text` | propext, Quot.sound |
| C39 | `Verif.Props.C39_read_text_iff` | propext, Classical.choice, Quot.sound |
| C39 | `Verif.Props.C39_read_text_refuted` | propext, Quot.sound |
| C39 | `Verif.Props.C39_read_refused` | propext |
| C39 | `Verif.Props.C39_seek_tell` | propext, Quot.sound |
| C39 | `Verif.Props.C39_truncate` | propext, Quot.sound |
| C39 | `Verif.Props.C39_lines` | propext, Classical.choice, Quot.sound |
| C39 | `Verif.Props.C39_shared_position` | propext, Quot.sound |
| C40 | `Verif.Props.C40_md5` | propext, Classical.choice, Quot.sound |
| C41 | `Verif.Props.C41_install` | propext, Classical.choice, Quot.sound |
| C41 | `Verif.Props.C41_fires` | propext |
| C41 | `Verif.Props.C41_methods` | propext, Quot.sound |
| C41 | `Verif.Props.C41_others` | propext, Classical.choice, Quot.sound |
| C41 | `Verif.Props.C41_removal_blocked` | propext, Quot.sound |
| C42 | `Verif.Props.C42_creates` | propext, Classical.choice, Quot.sound |
| C42 | `Verif.Props.C42_only` | propext, Classical.choice, Quot.sound |
| C42 | `Verif.Props.C42_all_or_nothing` | propext, Classical.choice, Quot.sound |
| C42 | `Verif.Props.C42_all_dirs` | propext, Classical.choice, Quot.sound |
| C42 | `Verif.Props.C42_idempotent` | propext, Classical.choice, Quot.sound |
| C43 | `Verif.Props.C43_default` | propext, Quot.sound |
| C43 | `Verif.Props.C43_too_deep` | propext, Classical.choice, Quot.sound |
| C43 | `Verif.Props.C43_depth` | propext, Classical.choice, Quot.sound |
| C43 | `Verif.Props.C43_walk` | propext, Classical.choice, Quot.sound |
| C43 | `Verif.Props.C43_row` | propext, Classical.choice, Quot.sound |
| C43 | `Verif.Props.C43_raises` | propext, Quot.sound |
| C44 | `Verif.Props.C44_walk` | propext, Classical.choice, Quot.sound |
| C44 | `Verif.Props.C44_same_triples` | propext, Classical.choice, Quot.sound |
| C45 | `Verif.Props.C45_no_links` | propext, Classical.choice, Quot.sound |
| C45 | `Verif.Props.C45_no_difference` | propext, Classical.choice, Quot.sound |
| C45 | `Verif.Props.C45_cycle` | propext, Classical.choice, Quot.sound |
| C46 | `Verif.Props.C46_default` | propext, Quot.sound |
| C46 | `Verif.Props.C46_remove` | propext, Classical.choice, Quot.sound |
| C46 | `Verif.Props.C46_root` | propext, Classical.choice, Quot.sound |
| C46 | `Verif.Props.C46_crash` | propext, Classical.choice, Quot.sound |
| C47 | `Verif.Props.C47_copy` | propext, Classical.choice, Quot.sound |
| C47 | `Verif.Props.C47_into` | propext, Classical.choice, Quot.sound |
| C47 | `Verif.Props.C47_into_name` | propext, Classical.choice, Quot.sound |
| C47 | `Verif.Props.C47_onto_itself_refuted` | propext, Quot.sound |
| C47 | `Verif.Props.C47_other_file_system_refuted` | propext, Quot.sound |
| C47 | `Verif.Props.C47_default` | propext, Quot.sound |
| C48 | `Verif.Props.C48_copy` | propext, Classical.choice, Quot.sound |
| C48 | `Verif.Props.C48_into` | propext, Classical.choice, Quot.sound |
| C48 | `Verif.Props.C48_whitespace_refuted` | propext, Quot.sound |
| C48 | `Verif.Props.C48_root_refuted` | propext, Quot.sound |
| C48 | `Verif.Props.C48_dir_mtime_refuted` | propext, Quot.sound |
| C49 | `Verif.Props.C49_ignore` | propext, Classical.choice, Quot.sound |
| C50 | `Verif.Props.C50_file_link` | propext, Classical.choice, Quot.sound |
| C50 | `Verif.Props.C50_dir_link` | propext, Classical.choice, Quot.sound |
| C51 | `Verif.Props.C51_file` | propext, Classical.choice, Quot.sound |
| C51 | `Verif.Props.C51_onto_itself_refuted` | propext, Quot.sound |
| C51 | `Verif.Props.C51_dir` | propext, Classical.choice, Quot.sound |
| C52 | `Verif.Props.C52_missing` | propext, Classical.choice, Quot.sound |
| C52 | `Verif.Props.C52_wrong_kind` | propext, Classical.choice, Quot.sound |
| C53 | `Verif.Props.C53_glob` | propext, Classical.choice, Quot.sound |
| C53 | `Verif.Props.C53_nodup` | propext, Classical.choice, Quot.sound |
| C54 | `Verif.Reg.C54_same` | propext, Classical.choice, Quot.sound |
| C54 | `Verif.Reg.C54_different` | propext, Classical.choice, Quot.sound |
| C54 | `Verif.Reg.C54_key` | propext, Classical.choice, Quot.sound |
| C54 | `Verif.Reg.C54_mem_key` | propext, Classical.choice, Quot.sound |
| C54 | `Verif.Reg.C54_after_cleanup` | propext, Classical.choice, Quot.sound |
| C55 | `Verif.Props.C55_schemes` | propext, Quot.sound |
| C55 | `Verif.Reg.C55_unknown` | propext, Classical.choice, Quot.sound |
| C55 | `Verif.Reg.C55_only` | propext, Classical.choice, Quot.sound |
| C56 | `Verif.Reg.C56_cleanup` | propext, Classical.choice, Quot.sound |
| C56 | `Verif.Reg.C56_once` | propext, Classical.choice, Quot.sound |
| C56 | `Verif.Reg.C56_open` | propext, Classical.choice, Quot.sound |
| C56 | `Verif.Reg.C56_shutdown` | propext, Classical.choice, Quot.sound |
| C56 | `Verif.Reg.C56_in_use` | propext, Classical.choice, Quot.sound |
| C56 | `Verif.Reg.C56_idle` | propext, Classical.choice, Quot.sound |
| C56 | `Verif.Reg.C56_new` | propext, Classical.choice, Quot.sound |
| C57 | `Verif.Reg.Threads.C57_created` | propext, Classical.choice, Quot.sound |
| C57 | `Verif.Reg.Threads.C57_exclusive` | propext, Classical.choice, Quot.sound |
| C57 | `Verif.Reg.Threads.C57_progress` | propext, Classical.choice, Quot.sound |
| C57 | `Verif.Reg.Threads.C57_quiet_returns` | propext, Classical.choice, Quot.sound |
| C57 | `Verif.Reg.Threads.C57_same_refuted` | propext, Classical.choice, Quot.sound |
| C57 | `Verif.Reg.Threads.C57_keyError` | propext, Classical.choice, Quot.sound |
| C57 | `Verif.Reg.Threads.C57_cleanup_twice` | propext, Classical.choice, Quot.sound |
| C57 | `Verif.Reg.Threads.C57_closed` | propext, Classical.choice, Quot.sound |
| C58 | `Verif.Props.C58_kept` | propext, Quot.sound |
| C58 | `Verif.Props.C58_connection` | propext, Classical.choice, Quot.sound |
| C58 | `Verif.Props.C58_read` | propext, Classical.choice, Quot.sound |
| C58 | `Verif.Props.C58_gone` | propext, Classical.choice, Quot.sound |
| C58 | `Verif.Props.C58_forced` | propext, Classical.choice, Quot.sound |
| C58 | `Verif.Props.C58_handles` | propext, Quot.sound |
| C59 | `Verif.Props.C59_lock` | propext, Classical.choice, Quot.sound |
| C59 | `Verif.Props.C59_exclusive` | propext, Classical.choice, Quot.sound |
| C59 | `Verif.Props.C59_fail` | propext, Quot.sound |
| C59 | `Verif.Props.C59_enter` | propext, Classical.choice, Quot.sound |
| C59 | `Verif.Props.C59_new_file_system_refuted` | propext, Quot.sound |
| C59 | `Verif.Props.C59_content_refuted` | propext, Quot.sound |
| C59 | `Verif.Props.C59_cleanup_refuted` | propext, Quot.sound |
| C60 | `Verif.Props.C60_kept` | propext, Classical.choice, Quot.sound |
| C60 | `Verif.Props.C60_removed` | propext, Classical.choice, Quot.sound |
| C60 | `Verif.Props.C60_leave` | propext, Classical.choice, Quot.sound |
| C60 | `Verif.Props.C60_twice` | propext, Quot.sound |
| C60 | `Verif.Props.C60_link_refuted` | propext, Quot.sound |
| C61 | `Verif.Zip.C61_isfile` | propext, Classical.choice, Quot.sound |
| C61 | `Verif.Zip.C61_isdir` | propext, Classical.choice, Quot.sound |
| C61 | `Verif.Zip.C61_exists` | propext, Classical.choice, Quot.sound |
| C61 | `Verif.Zip.C61_root` | propext |
| C61 | `Verif.Zip.C61_unopened_refuted` | propext |
| C62 | `Verif.Zip.C62_listdir` | propext, Classical.choice, Quot.sound |
| C62 | `Verif.Zip.C62_exists` | propext, Classical.choice, Quot.sound |
| C62 | `Verif.Zip.C62_not_dir` | propext, Classical.choice, Quot.sound |
| C62 | `Verif.Zip.C62_missing` | propext |
| C62 | `Verif.Zip.C62_foreign_refuted` | propext |
| C63 | `Verif.Props.C63_read_missing` | propext, Quot.sound |
| C63 | `Verif.Props.C63_read_raw` | propext, Quot.sound |
| C63 | `Verif.Zip.C63_write_read` | propext, Quot.sound |
| C63 | `Verif.Zip.C63_others` | propext, Quot.sound |
| C63 | `Verif.Zip.C63_new` | propext, Quot.sound |
| C63 | `Verif.Zip.C63_writes_others` | propext, Quot.sound |
| C63 | `Verif.Zip.C63_last` | propext, Quot.sound |
| C63 | `Verif.Zip.C63_nested_refuted` | none |
| C63 | `Verif.Zip.C63_read_inside_refuted` | propext |
| C63 | `Verif.Zip.C63_nul_refuted` | none |
| C63 | `Verif.Zip.C63_body_raises` | propext, Quot.sound |
| C63 | `Verif.Zip.C63_append_refused` | propext |
| C63 | `Verif.Zip.C63_append_inside_refuted` | propext |
| C64 | `Verif.Zip.C64_visible` | propext, Classical.choice, Quot.sound |
| C65 | `Verif.Local.C65_restores` | propext, Quot.sound |
| C65 | `Verif.Local.C65_no_dir` | propext |
| C65 | `Verif.Local.C65_no_dir_error` | propext, Quot.sound |
| C65 | `Verif.Local.C65_no_cwd` | propext |
| C65 | `Verif.Local.C65_gone_refuted` | propext, Quot.sound |
| C66 | `Verif.Props.C66_dir_onto_file_error` | propext, Classical.choice, Quot.sound |
| C66 | `Verif.Local.C66_dir_into` | propext, Classical.choice, Quot.sound |
| C66 | `Verif.Local.C66_rename` | propext, Classical.choice, Quot.sound |
| C66 | `Verif.Local.C66_tree` | propext, Quot.sound |
| C66 | `Verif.Local.C66_file_into` | propext, Classical.choice, Quot.sound |
| C66 | `Verif.Local.C66_file_onto_file` | propext, Classical.choice, Quot.sound |
| C66 | `Verif.Local.C66_into_itself` | propext, Classical.choice, Quot.sound |
| C66 | `Verif.Local.C66_file_exists` | propext, Classical.choice, Quot.sound |
| C66 | `Verif.Local.C66_dir_onto_file` | propext, Classical.choice, Quot.sound |
| C66 | `Verif.Local.C66_existing_refuted` | propext, Classical.choice, Quot.sound |
| C67 | `Verif.Props.C67_refuted_parent_relative` | propext, Quot.sound |
| C67 | `Verif.Props.C67_refuted_hidden` | propext, Quot.sound |
| C67 | `Verif.Props.C67_dot_slash` | propext, Quot.sound |
| C68 | `Verif.Props.C68_no_file` | propext, Quot.sound |
| C68 | `Verif.Local.C68_removed` | propext, Quot.sound |
| C68 | `Verif.Local.C68_closed_twice_refuted` | propext, Quot.sound |
| C69 | `Verif.Local.C69_set_exec` | propext, Quot.sound |
| C69 | `Verif.Local.C69_isexec` | propext, Quot.sound |
| C70 | `Verif.Props.C70_isolated` | propext, Classical.choice, Quot.sound |
| C70 | `Verif.Props.C70_isolated_history` | propext, Classical.choice, Quot.sound |
| C70 | `Verif.Props.C70_handle_elsewhere` | propext, Classical.choice, Quot.sound |
| C70 | `Verif.Props.C70_handle_stays_elsewhere` | propext, Classical.choice, Quot.sound |
| C70 | `Verif.Props.C70_disjoint` | propext, Classical.choice, Quot.sound |
| C70 | `Verif.Props.C70_parents` | propext, Classical.choice, Quot.sound |
| C70 | `Verif.Props.C70_copy` | propext, Classical.choice, Quot.sound |
| C70 | `Verif.Props.C70_move` | propext, Classical.choice, Quot.sound |
| C71 | `Verif.Props.C71_names` | propext, Classical.choice, Quot.sound |
| C71 | `Verif.Props.C71_writable` | propext, Classical.choice, Quot.sound |
| C71 | `Verif.Props.C71_walk` | propext, Classical.choice, Quot.sound |
| C71 | `Verif.Props.C71_copyable` | propext, Classical.choice, Quot.sound |
| C71 | `Verif.Props.C71_hidden_refuted` | propext, Classical.choice, Quot.sound |
| C72 | `Verif.Props.C72_parse` | propext, Classical.choice, Quot.sound |
| C72 | `Verif.Props.C72_defaults` | propext, Classical.choice, Quot.sound |
| C72 | `Verif.Props.C72_no_authority` | propext, Classical.choice, Quot.sound |
| C72 | `Verif.Props.C72_dot` | propext, Classical.choice, Quot.sound |
| C72 | `Verif.Props.C72_mailto_refuted` | propext |
| C72 | `Verif.Props.C72_mailto` | propext, Classical.choice, Quot.sound |
| C72 | `Verif.Props.C72_mailto_no_at` | propext, Classical.choice, Quot.sound |
| C72 | `Verif.Props.C72_mailto_unparse` | propext |
| C72 | `Verif.Props.C72_unparse_url` | propext, Classical.choice, Quot.sound |
| C72 | `Verif.Props.C72_unparse_refuted` | propext, Quot.sound |
| C73 | `Verif.Props.C73_part_name` | propext, Quot.sound |
| C73 | `Verif.Props.C73_mode` | propext |
| C73 | `Verif.Props.C73_level` | propext, Quot.sound |
| C73 | `Verif.Props.C73_hidden` | propext, Quot.sound |
| C73 | `Verif.Props.C73_unlink_dir` | propext |
| C73 | `Verif.Props.C73_join_nothing` | propext, Quot.sound |
| C73 | `Verif.Props.C73_part_name_local` | propext, Quot.sound |
| C73 | `Verif.Props.C73_part_name_zip` | propext, Classical.choice, Quot.sound |
| C74 | `Verif.Props.C74_makedirs` | propext, Classical.choice, Quot.sound |
| C74 | `Verif.Props.C74_idempotent` | propext, Classical.choice, Quot.sound |
| C75 | `Verif.Props.C75_walk` | propext, Classical.choice, Quot.sound |
| C75 | `Verif.Props.C75_names` | propext, Quot.sound |
| C76 | `Verif.Props.C76_tree` | propext, Classical.choice, Quot.sound |
| C76 | `Verif.Props.C76_file` | propext, Classical.choice, Quot.sound |
| C77 | `Verif.Props.C77_file` | propext, Classical.choice, Quot.sound |
| C77 | `Verif.Props.C77_between_memories` | propext, Classical.choice, Quot.sound |
| C77 | `Verif.Props.C77_link_refuted` | propext, Classical.choice, Quot.sound |
| C78 | `Verif.Props.C78_tree` | propext, Classical.choice, Quot.sound |
| C79 | `Verif.Props.C79_file` | propext, Classical.choice, Quot.sound |
| C79 | `Verif.Props.C79_tree` | propext, Classical.choice, Quot.sound |
| C80 | `Verif.Props.C80_md5` | propext, Classical.choice, Quot.sound |
| C80 | `Verif.Props.C80_copy` | propext, Classical.choice, Quot.sound |
| C81 | `Verif.Props.C81_glob` | propext, Classical.choice, Quot.sound |
| C82 | `Verif.Props.C82_file` | propext, Classical.choice, Quot.sound |
| C82 | `Verif.Props.C82_tree` | propext, Classical.choice, Quot.sound |
| C83 | `Verif.Props.C83_tree` | propext, Classical.choice, Quot.sound |
| C83 | `Verif.Props.C83_file` | propext, Classical.choice, Quot.sound |
| C84 | `Verif.Props.C84_file` | propext, Classical.choice, Quot.sound |
| C84 | `Verif.Props.C84_tree` | propext, Classical.choice, Quot.sound |
| C85 | `Verif.Props.C85_makedirs` | propext, Classical.choice, Quot.sound |
| C85 | `Verif.Props.C85_again` | propext, Classical.choice, Quot.sound |
| C86 | `Verif.Props.C86_remove` | propext, Classical.choice, Quot.sound |
| C86 | `Verif.Props.C86_copy_file` | propext, Classical.choice, Quot.sound |
| C86 | `Verif.Props.C86_copy_tree_refuted` | propext, Classical.choice, Quot.sound |
| C87 | `Verif.Props.C87_listdir_missing` | propext, Classical.choice, Quot.sound |
| C87 | `Verif.Props.C87_listdir_file` | propext, Classical.choice, Quot.sound |
| C87 | `Verif.Props.C87_mkdir_there` | propext, Classical.choice, Quot.sound |
| C87 | `Verif.Props.C87_mkdir_parent` | propext, Classical.choice, Quot.sound |
| C87 | `Verif.Props.C87_openR_missing` | propext, Classical.choice, Quot.sound |
| C87 | `Verif.Props.C87_openR_dir` | propext, Classical.choice, Quot.sound |
| C87 | `Verif.Props.C87_openW_parent` | propext, Classical.choice, Quot.sound |
| C87 | `Verif.Props.C87_openW_dir` | propext, Classical.choice, Quot.sound |
| C87 | `Verif.Props.C87_remove_missing` | propext, Classical.choice, Quot.sound |
| C87 | `Verif.Props.C87_remove_full` | propext, Classical.choice, Quot.sound |
| C87 | `Verif.Props.C87_copy_missing` | propext, Classical.choice, Quot.sound |
| C87 | `Verif.Props.C87_copy_dir` | propext, Classical.choice, Quot.sound |
| C87 | `Verif.Props.C87_copy_file` | propext, Classical.choice, Quot.sound |
| C88 | `Verif.Props.C88_copy` | propext, Classical.choice, Quot.sound |
| C88 | `Verif.Props.C88_move` | propext, Classical.choice, Quot.sound |
| C88 | `Verif.Props.C88_conflict` | propext, Classical.choice, Quot.sound |
| C89 | `Verif.Props.C89_copy_again` | propext, Classical.choice, Quot.sound |
| C89 | `Verif.Props.C89_move_again` | propext, Classical.choice, Quot.sound |
| C90 | `Verif.Props.C90_order` | propext, Classical.choice, Quot.sound |
| C90 | `Verif.Props.C90_no_move` | propext, Classical.choice, Quot.sound |
| C90 | `Verif.Props.C90_ends` | propext, Classical.choice, Quot.sound |
| C90 | `Verif.Props.C90_alone` | propext, Quot.sound |
| C91 | `Verif.Props.C91_elsewhere` | propext, Classical.choice, Quot.sound |
| C91 | `Verif.Props.C91_alone` | propext, Classical.choice, Quot.sound |
| C91 | `Verif.Props.C91_readers` | propext, Classical.choice, Quot.sound |
| C92 | `Verif.Props.C92_mkdir_race` | propext, Quot.sound |
| C92 | `Verif.Props.C92_remove_race` | propext, Quot.sound |
| C92 | `Verif.Props.C92_keyError_race` | propext, Quot.sound |
| C92 | `Verif.Props.C92_exists_race` | propext, Quot.sound |
| C93 | `Verif.Props.C93_listed` | propext, Classical.choice, Quot.sound |
| C93 | `Verif.Props.C93_dump` | propext, Classical.choice, Quot.sound |
| C93 | `Verif.Props.C93_error` | propext, Classical.choice, Quot.sound |
| C93 | `Verif.Props.C93_changes_nothing` | propext, Classical.choice, Quot.sound |
| C93 | `Verif.Props.C93_shows_rest` | propext, Quot.sound |
| C94 | `Verif.Props.C94_copy` | propext, Classical.choice, Quot.sound |
| C94 | `Verif.Props.C94_move` | propext, Classical.choice, Quot.sound |
| C94 | `Verif.Props.C94_ignore_ends` | propext, Quot.sound |
| C95 | `Verif.Props.C95_islink` | propext, Classical.choice, Quot.sound |
| C95 | `Verif.Props.C95_islink_missing` | propext, Classical.choice, Quot.sound |
| C95 | `Verif.Props.C95_symlink` | propext, Classical.choice, Quot.sound |
| C95 | `Verif.Props.C95_symlink_taken` | propext, Classical.choice, Quot.sound |
| C95 | `Verif.Props.C95_readlink` | propext, Classical.choice, Quot.sound |
| C95 | `Verif.Props.C95_readlink_other` | propext, Classical.choice, Quot.sound |
| C95 | `Verif.Props.C95_follow` | propext, Classical.choice, Quot.sound |
| C95 | `Verif.Props.C95_below` | propext, Classical.choice, Quot.sound |
| C95 | `Verif.Props.C95_too_many` | propext, Classical.choice, Quot.sound |
| C95 | `Verif.Props.C95_circle` | propext, Classical.choice, Quot.sound |
| C96 | `Verif.Props.C96_link` | propext, Classical.choice, Quot.sound |
| C96 | `Verif.Props.C96_tree` | propext, Classical.choice, Quot.sound |
| C97 | `Verif.Props.C97_link` | propext, Classical.choice, Quot.sound |
| C97 | `Verif.Props.C97_content` | propext, Classical.choice, Quot.sound |
| C97 | `Verif.Props.C97_relative_refuted` | propext, Classical.choice, Quot.sound |
| C97 | `Verif.Props.C97_question_refuted` | propext, Classical.choice, Quot.sound |
| C97 | `Verif.Props.C97_itself_refuted` | propext, Classical.choice, Quot.sound |
| C97 | `Verif.Props.C97_target_refuted` | propext, Classical.choice, Quot.sound |
| C97 | `Verif.Props.C97_memory_refuted` | propext, Classical.choice, Quot.sound |
| C98 | `Verif.Props.C98_into` | propext, Classical.choice, Quot.sound |
| C98 | `Verif.Props.C98_rename` | propext, Classical.choice, Quot.sound |
| C98 | `Verif.Props.C98_replace` | propext, Classical.choice, Quot.sound |
| C98 | `Verif.Props.C98_onto_target_refuted` | propext, Classical.choice, Quot.sound |
| C98 | `Verif.Props.C98_dir_onto` | propext, Classical.choice, Quot.sound |
| C98 | `Verif.Props.C98_into_itself` | propext, Classical.choice, Quot.sound |
| C98 | `Verif.Props.C98_twice` | propext, Classical.choice, Quot.sound |
| C98 | `Verif.Props.C98_same_dir` | propext, Classical.choice, Quot.sound |
| C98 | `Verif.Props.C98_taken` | propext, Classical.choice, Quot.sound |
| C98 | `Verif.Props.C98_into_over` | propext, Classical.choice, Quot.sound |
| C98 | `Verif.Props.C98_missing` | propext, Classical.choice, Quot.sound |
| C98 | `Verif.Props.C98_far` | propext, Classical.choice, Quot.sound |
| C98 | `Verif.Props.C98_far_dir` | propext, Classical.choice, Quot.sound |
| C99 | `Verif.Props.C99_walk` | propext, Classical.choice, Quot.sound |
| C99 | `Verif.Props.C99_copy` | propext, Classical.choice, Quot.sound |
| C99 | `Verif.Props.C99_relative_refuted` | propext, Classical.choice, Quot.sound |
| C100 | `Verif.Props.C100_walk` | propext, Classical.choice, Quot.sound |
| C100 | `Verif.Props.C100_copy` | propext, Classical.choice, Quot.sound |
| C100 | `Verif.Props.C100_dangling_refuted` | propext, Classical.choice, Quot.sound |
| C101 | `Verif.Props.C101_walk` | propext, Classical.choice, Quot.sound |
| C101 | `Verif.Props.C101_glob` | propext, Classical.choice, Quot.sound |
| C101 | `Verif.Props.C101_md5` | propext, Classical.choice, Quot.sound |
| C101 | `Verif.Props.C101_copy_file` | propext, Classical.choice, Quot.sound |
| C101 | `Verif.Props.C101_copy_tree` | propext, Classical.choice, Quot.sound |
| C101 | `Verif.Props.C101_unopened_refuted` | propext, Classical.choice, Quot.sound |
| C101 | `Verif.Props.C101_remove` | propext, Classical.choice, Quot.sound |
| C101 | `Verif.Props.C101_move_refuted` | propext, Classical.choice, Quot.sound |
| C101 | `Verif.Props.C101_root_refuted` | propext, Classical.choice, Quot.sound |
| C102 | `Verif.Props.C102_tree` | propext, Quot.sound |
| C102 | `Verif.Props.C102_copy_root` | propext, Classical.choice, Quot.sound |
| C102 | `Verif.Props.C102_copy` | propext, Classical.choice, Quot.sound |
| C102 | `Verif.Props.C102_roundtrip` | propext, Classical.choice, Quot.sound |
| C102 | `Verif.Props.C102_move` | propext, Classical.choice, Quot.sound |
| C102 | `Verif.Props.C102_tree_refuted` | propext, Classical.choice, Quot.sound |
| C102 | `Verif.Props.C102_links` | propext, Classical.choice, Quot.sound |
| C102 | `Verif.Props.C102_between_refuted` | propext, Classical.choice, Quot.sound |
| C103 | `Verif.Props.C103_name` | propext, Classical.choice, Quot.sound |
| C103 | `Verif.Props.C103_splitext` | propext, Classical.choice, Quot.sound |
| C103 | `Verif.Props.C103_port` | propext, Classical.choice, Quot.sound |
| C104 | `Verif.Props.C104_home` | propext, Classical.choice, Quot.sound |
| C104 | `Verif.Props.C104_elsewhere` | propext, Classical.choice, Quot.sound |
| C105 | `Verif.Props.C105_makedirs_race` | propext, Quot.sound |
| C105 | `Verif.Props.C105_remove_race` | propext, Quot.sound |
| C105 | `Verif.Props.C105_walk_race` | propext, Quot.sound |
| C105 | `Verif.Props.C105_md5_race` | propext, Quot.sound |
| C105 | `Verif.Props.C105_copy_race` | propext, Quot.sound |
| C106 | `Verif.Reg.Cleaner.C106_interval` | propext, Classical.choice, Quot.sound |
| C106 | `Verif.Reg.Cleaner.C106_pause` | propext, Classical.choice, Quot.sound |
| C106 | `Verif.Reg.Cleaner.C106_asked` | propext, Classical.choice, Quot.sound |
| C106 | `Verif.Reg.Cleaner.C106_alive` | propext, Classical.choice, Quot.sound |
| C106 | `Verif.Reg.Cleaner.C106_dies` | propext, Classical.choice, Quot.sound |
| C107 | `Verif.Reg.Cleaner.C107_returns` | propext, Classical.choice, Quot.sound |
| C107 | `Verif.Reg.Cleaner.C107_closes` | propext, Classical.choice, Quot.sound |
| C107 | `Verif.Reg.Cleaner.C107_hang` | propext, Classical.choice, Quot.sound |
| C107 | `Verif.Reg.Cleaner.C107_hang_refuted` | propext, Classical.choice, Quot.sound |
| C107 | `Verif.Reg.Cleaner.C107_raises` | propext, Classical.choice, Quot.sound |
| C107 | `Verif.Reg.Cleaner.C107_cleaner_dies` | propext, Classical.choice, Quot.sound |
| C108 | `Verif.Reg.Cleaner.C108_gone` | propext, Classical.choice, Quot.sound |
| C108 | `Verif.Reg.Cleaner.C108_closed` | propext, Classical.choice, Quot.sound |
| C108 | `Verif.Reg.Cleaner.C108_leak` | propext, Classical.choice, Quot.sound |
| C109 | `Verif.Props.C109_exclusive` | propext, Classical.choice, Quot.sound |
| C109 | `Verif.Props.C109_serial` | propext, Classical.choice, Quot.sound |
| C109 | `Verif.Props.C109_lost` | propext, Quot.sound |
| C109 | `Verif.Props.C109_cleanup_race` | propext, Quot.sound |
| C110 | `Verif.Props.C110_end` | propext, Classical.choice, Quot.sound |
| C111 | `Verif.Props.C111_no_error` | propext, Classical.choice, Quot.sound |
| C111 | `Verif.Props.C111_all` | propext, Classical.choice, Quot.sound |
| C111 | `Verif.Props.C111_nowait` | propext, Quot.sound |
| C111 | `Verif.Props.C111_nofile` | propext, Quot.sound |
| C112 | `Verif.Props.C112_plain` | propext, Classical.choice, Quot.sound |
| C112 | `Verif.Props.C112_tree` | propext, Classical.choice, Quot.sound |
| C112 | `Verif.Props.C112_same` | propext, Classical.choice, Quot.sound |
| C112 | `Verif.Props.C112_through_file_refuted` | propext, Quot.sound |
| C112 | `Verif.Props.C112_listdir_file_refuted` | propext, Quot.sound |
| C112 | `Verif.Props.C112_mkdir_root_refuted` | propext, Quot.sound |
| C112 | `Verif.Props.C112_read_dir_refuted` | propext, Quot.sound |
| C112 | `Verif.Props.C112_move_inside_refuted` | propext, Quot.sound |
| C112 | `Verif.Props.C112_move_missing_refuted` | propext, Quot.sound |
| C113 | `Verif.Props.C113_walk` | propext, Classical.choice, Quot.sound |
| C113 | `Verif.Props.C113_copy` | propext, Classical.choice, Quot.sound |
| C113 | `Verif.Props.C113_into` | propext, Classical.choice, Quot.sound |
| C113 | `Verif.Props.C113_move` | propext, Classical.choice, Quot.sound |
| C113 | `Verif.Props.C113_repeated_refuted` | propext, Quot.sound |
| C113 | `Verif.Props.C113_lost_refuted` | propext, Quot.sound |
| C114 | `Verif.Props.C114_path` | propext, Classical.choice, Quot.sound |
| C114 | `Verif.Props.C114_gone` | propext |
| C114 | `Verif.Props.C114_ask` | propext, Quot.sound |
| C114 | `Verif.Props.C114_do` | propext, Quot.sound |
| C114 | `Verif.Props.C114_relative` | propext, Classical.choice, Quot.sound |
| C114 | `Verif.Props.C114_nothing` | propext, Classical.choice, Quot.sound |
| C114 | `Verif.Props.C114_symlink_refuted` | propext, Classical.choice, Quot.sound |
| C115 | `Verif.Props.C115_plain` | propext, Classical.choice, Quot.sound |
| C115 | `Verif.Props.C115_same` | propext, Classical.choice, Quot.sound |
| C116 | `Verif.Props.C116_call` | propext, Classical.choice, Quot.sound |
| C116 | `Verif.Props.C116_program` | propext, Classical.choice, Quot.sound |
| C117 | `Verif.Props.C117_last` | propext, Classical.choice, Quot.sound |
| C117 | `Verif.Props.C117_skip` | propext |
| C117 | `Verif.Props.C117_order` | propext, Classical.choice, Quot.sound |
| C117 | `Verif.Props.C117_stops` | propext, Quot.sound |
| C117 | `Verif.Props.C117_shipped` | propext, Classical.choice, Quot.sound |
| C117 | `Verif.Props.C117_half_refuted` | none |
| C117 | `Verif.Props.C117_takeover_refuted` | none |
| C118 | `Verif.Props.C118_program` | propext, Classical.choice, Quot.sound |
| C118 | `Verif.Props.C118_same` | propext, Classical.choice, Quot.sound |
| C118 | `Verif.Props.C118_write_on_read` | propext, Quot.sound |
| C118 | `Verif.Props.C118_read_on_write` | propext, Quot.sound |
| C118 | `Verif.Props.C118_lines_on_write` | propext, Quot.sound |
| C118 | `Verif.Props.C118_read_moves` | propext, Quot.sound |
| C118 | `Verif.Props.C118_shared` | propext, Quot.sound |
| C118 | `Verif.Props.C118_append_empty` | propext, Quot.sound |
| C118 | `Verif.Props.C118_append_missing` | propext, Quot.sound |
| C118 | `Verif.Props.C118_append_seek` | propext, Quot.sound |
| C118 | `Verif.Props.C118_seek_negative` | propext, Quot.sound |
| C118 | `Verif.Props.C118_grow` | propext, Quot.sound |
| C118 | `Verif.Props.C118_closed` | propext, Quot.sound |
| C118 | `Verif.Props.C118_refused` | propext |
| C118 | `Verif.Props.C118_refused_number` | propext, Classical.choice, Quot.sound |
| C118 | `Verif.Props.C118_link` | propext, Classical.choice, Quot.sound |
| C118 | `Verif.Props.C118_none` | propext |
| C119 | `Verif.Props.C119_sorted` | propext, Classical.choice, Quot.sound |
| C119 | `Verif.Props.C119_onFile` | propext, Quot.sound |
| C119 | `Verif.Props.C119_crossed_refuted` | propext, Quot.sound |
| C119 | `Verif.Props.C119_again_refuted` | propext, Quot.sound |
| C119 | `Verif.Props.C119_twin_refuted` | propext, Quot.sound |
| C119 | `Verif.Props.C119_locks` | propext, Quot.sound |
| C119 | `Verif.Props.C119_step` | propext, Quot.sound |
| C119 | `Verif.Props.C119_circle` | propext, Classical.choice, Quot.sound |
| C119 | `Verif.Props.C119_order` | propext, Classical.choice, Quot.sound |
| C119 | `Verif.Props.C119_end` | propext, Classical.choice, Quot.sound |
| C120 | `Verif.Props.C120_down` | propext, Classical.choice, Quot.sound |
| C120 | `Verif.Props.C120_once` | propext, Classical.choice, Quot.sound |
| C120 | `Verif.Props.C120_steady` | propext, Classical.choice, Quot.sound |
| C120 | `Verif.Props.C120_up` | propext, Classical.choice, Quot.sound |
| C120 | `Verif.Props.C120_prune` | propext, Classical.choice, Quot.sound |
| C120 | `Verif.Props.C120_sweep` | propext, Classical.choice, Quot.sound |
| C120 | `Verif.Props.C120_hollow` | propext, Classical.choice, Quot.sound |
| C120 | `Verif.Props.C120_ahead_refuted` | propext, Quot.sound |
| C120 | `Verif.Props.C120_added_refuted` | propext, Quot.sound |
| C121 | `Verif.Props.C121_program` | propext, Classical.choice, Quot.sound |
| C121 | `Verif.Props.C121_same` | propext, Classical.choice, Quot.sound |
| C121 | `Verif.Props.C121_expected` | propext, Classical.choice, Quot.sound |
| C121 | `Verif.Props.C121_carried` | propext, Classical.choice, Quot.sound |
| C121 | `Verif.Props.C121_stale_refuted` | propext, Classical.choice, Quot.sound |
| C122 | `Verif.Props.C122_program` | propext, Classical.choice, Quot.sound |
| C122 | `Verif.Props.C122_there_and_back` | propext, Classical.choice, Quot.sound |
| C122 | `Verif.Props.C122_unopened_refuted` | propext, Classical.choice, Quot.sound |
| C123 | `Verif.Props.C123_program` | propext, Classical.choice, Quot.sound |
| C123 | `Verif.Props.C123_memory` | propext, Classical.choice, Quot.sound |
| C123 | `Verif.Props.C123_local` | propext, Classical.choice, Quot.sound |
| C123 | `Verif.Props.C123_local_alone` | propext, Classical.choice, Quot.sound |
| C123 | `Verif.Props.C123_memory_alone` | propext, Classical.choice, Quot.sound |
| C123 | `Verif.Props.C123_walk_finds` | propext, Quot.sound |
| C123 | `Verif.Props.C123_glob_finds` | propext, Quot.sound |
| C123 | `Verif.Props.C123_backslash_refuted` | propext, Quot.sound |
| C124 | `Verif.Props.C124_walk` | propext, Classical.choice, Quot.sound |
| C124 | `Verif.Props.C124_glob` | propext, Classical.choice, Quot.sound |
| C124 | `Verif.Props.C124_md5` | propext, Classical.choice, Quot.sound |
| C124 | `Verif.Props.C124_copy_tree` | propext, Classical.choice, Quot.sound |
| C124 | `Verif.Props.C124_remove` | propext, Classical.choice, Quot.sound |
| C124 | `Verif.Props.C124_add` | propext, Classical.choice, Quot.sound |
| C124 | `Verif.Props.C124_pack` | propext, Classical.choice, Quot.sound |
| C124 | `Verif.Props.C124_tree` | propext, Quot.sound |
| C124 | `Verif.Props.C124_pack_unpack` | propext, Classical.choice, Quot.sound |
| C125 | `Verif.Props.C125_step` | propext, Classical.choice, Quot.sound |
| C125 | `Verif.Props.C125_program` | propext, Classical.choice, Quot.sound |
| C125 | `Verif.Props.C125_stored` | propext, Classical.choice, Quot.sound |
| C125 | `Verif.Props.C125_unleft` | propext, Classical.choice, Quot.sound |
| C125 | `Verif.Props.C125_second` | propext, Classical.choice, Quot.sound |
| C125 | `Verif.Props.C125_reading` | propext, Classical.choice, Quot.sound |
| C125 | `Verif.Props.C125_with` | propext, Classical.choice, Quot.sound |
| C125 | `Verif.Props.C125_closed_refuted` | propext |
| C125 | `Verif.Props.C125_read_refuted` | propext |
| C125 | `Verif.Props.C125_again_refuted` | propext |
| C126 | `Verif.Props.C126_program` | propext, Classical.choice, Quot.sound |
| C126 | `Verif.Props.C126_nothing_removed` | propext, Classical.choice, Quot.sound |
| C126 | `Verif.Props.C126_inside_refuted` | propext, Classical.choice, Quot.sound |
| C126 | `Verif.Props.C126_raised_refuted` | propext, Classical.choice, Quot.sound |
| C127 | `Verif.Props.C127_program` | propext, Classical.choice, Quot.sound |
| C127 | `Verif.Props.C127_heals` | propext, Classical.choice, Quot.sound |
| C127 | `Verif.Props.C127_lists` | propext, Classical.choice, Quot.sound |
| C127 | `Verif.Props.C127_refuted` | propext, Classical.choice, Quot.sound |
| C127 | `Verif.Props.C127_stale_refuted` | propext, Classical.choice, Quot.sound |
| C128 | `Verif.Props.C128_isexec` | propext, Classical.choice, Quot.sound |
| C128 | `Verif.Props.C128_missing` | propext, Classical.choice, Quot.sound |
| C128 | `Verif.Props.C128_set_exec` | propext, Classical.choice, Quot.sound |
| C128 | `Verif.Props.C128_links` | propext, Classical.choice, Quot.sound |
| C128 | `Verif.Props.C128_memory` | propext, Quot.sound |
| C128 | `Verif.Props.C128_write` | propext, Classical.choice, Quot.sound |
| C128 | `Verif.Props.C128_copy` | propext, Classical.choice, Quot.sound |
| C128 | `Verif.Props.C128_copy_tree` | propext, Classical.choice, Quot.sound |
| C128 | `Verif.Props.C128_across` | propext, Classical.choice, Quot.sound |
| C128 | `Verif.Props.C128_move_file` | propext, Classical.choice, Quot.sound |
| C128 | `Verif.Props.C128_move_tree` | propext, Classical.choice, Quot.sound |
| C128 | `Verif.Props.C128_move_local` | propext, Classical.choice, Quot.sound |
| C128 | `Verif.Props.C128_others` | propext, Classical.choice, Quot.sound |
| C128 | `Verif.Props.C128_backends_refuted` | propext, Classical.choice, Quot.sound |
| C129 | `Verif.Props.C129_plain` | propext, Classical.choice, Quot.sound |
| C129 | `Verif.Props.C129_tree` | propext, Classical.choice, Quot.sound |
| C129 | `Verif.Props.C129_same` | propext, Classical.choice, Quot.sound |
| C129 | `Verif.Props.C129_write_dangling_refuted` | propext, Quot.sound |
| C129 | `Verif.Props.C129_same_name_refuted` | propext, Quot.sound |
| C129 | `Verif.Props.C129_dangling_middle_refuted` | propext, Quot.sound |
| C129 | `Verif.Props.C129_remove_below_file_refuted` | propext, Quot.sound |
| C129 | `Verif.Props.C129_move_refuted` | propext, Quot.sound |
| C129 | `Verif.Props.C129_many_refuted` | propext, Quot.sound |
| C130 | `Verif.Props.C130_tree` | propext, Quot.sound |
| C130 | `Verif.Props.C130_copy` | propext, Classical.choice, Quot.sound |
| C130 | `Verif.Props.C130_stops` | propext, Classical.choice, Quot.sound |
| C130 | `Verif.Props.C130_refused` | propext, Classical.choice, Quot.sound |
| C130 | `Verif.Props.C130_move` | propext, Classical.choice, Quot.sound |
| C130 | `Verif.Props.C130_move_stops` | propext, Classical.choice, Quot.sound |
| C130 | `Verif.Props.C130_whole_refuted` | propext, Classical.choice, Quot.sound |
| C131 | `Verif.Props.C131_file` | propext, Classical.choice, Quot.sound |
| C131 | `Verif.Props.C131_dir` | propext, Classical.choice, Quot.sound |
| C131 | `Verif.Props.C131_link` | propext, Classical.choice, Quot.sound |
| C131 | `Verif.Props.C131_missing` | propext, Classical.choice, Quot.sound |
| C131 | `Verif.Props.C131_links` | propext, Classical.choice, Quot.sound |
| C131 | `Verif.Props.C131_written` | propext, Classical.choice, Quot.sound |
| C131 | `Verif.Props.C131_set` | propext, Classical.choice, Quot.sound |
| C131 | `Verif.Props.C131_ignored` | propext, Classical.choice, Quot.sound |
| C131 | `Verif.Props.C131_backends_refuted` | propext, Classical.choice, Quot.sound |
| C132 | `Verif.Props.C132_plain` | propext, Classical.choice, Quot.sound |
| C132 | `Verif.Props.C132_same` | propext, Classical.choice, Quot.sound |
