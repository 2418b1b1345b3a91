{
 "claims": [
  {
   "property": "C01",
   "status": "proved",
   "theorems": [
    "Verif.Props.C01_local_path_roundtrip",
    "Verif.Props.C01_refuted_dot",
    "Verif.Props.C01_refuted_colon",
    "Verif.Props.C01_refuted_backslash",
    "Verif.Props.C01_refuted_inner"
   ],
   "note": "refutations show why each excluded character is excluded"
  },
  {
   "property": "C02",
   "status": "proved",
   "theorems": [
    "Verif.Props.C02_join_appends",
    "Verif.Props.C02_refuted_root_dot"
   ],
   "note": "with the exception of names starting with \".\" at the root, which C02_refuted_root_dot refutes"
  },
  {
   "property": "C03",
   "status": "proved",
   "theorems": [
    "Verif.Props.C03_join_same_connection",
    "Verif.Props.C03_refuted_kwarg_username"
   ],
   "note": "C03_refuted_kwarg_username: fails for credentials passed as keyword arguments"
  },
  {
   "property": "C04",
   "status": "proved",
   "theorems": [
    "Verif.Props.C04_split_join",
    "Verif.Props.C04_refuted_query",
    "Verif.Props.C04_refuted_authority_root"
   ],
   "note": "for URIs without query; C04_refuted_query and C04_refuted_authority_root show the claim fails otherwise"
  },
  {
   "property": "C05",
   "status": "proved",
   "theorems": [
    "Verif.Props.C05_dirname_levels",
    "Verif.Props.C05_dirname_authority",
    "Verif.Props.C05_refuted_authority_root"
   ],
   "note": "C05_dirname_authority: URIs with authority; C05_refuted_authority_root: there the root is not a fixed point"
  },
  {
   "property": "C06",
   "status": "proved",
   "theorems": [
    "Verif.Props.C06_multi_join"
   ],
   "note": ""
  },
  {
   "property": "C07",
   "status": "proved",
   "theorems": [
    "Verif.Props.C07_parts",
    "Verif.Props.C07_netloc",
    "Verif.Props.C07_user_refuted",
    "Verif.Props.C07_archive_refuted",
    "Verif.Props.C07_eq_iff",
    "Verif.Props.C07_equivalence",
    "Verif.Props.C07_other",
    "Verif.Props.C07_order_independent"
   ],
   "note": ""
  },
  {
   "property": "C08",
   "status": "proved",
   "theorems": [
    "Verif.Props.C08_split_defined",
    "Verif.Props.C08_split_recomposes_http",
    "Verif.Props.C08_split_recomposes_other",
    "Verif.Props.C08_refuted_query_fragment",
    "Verif.Props.C08_refuted_newline"
   ],
   "note": "C08_refuted_*: a fragment containing a newline, or after a query for non-http schemes, is not kept in place"
  },
  {
   "property": "C09",
   "status": "proved",
   "theorems": [
    "Verif.Props.C09_connector_verbatim",
    "Verif.Props.C09_refuted_nested",
    "Verif.Props.C09_cut"
   ],
   "note": "C09_refuted_nested: nested (( )) are not extracted verbatim"
  },
  {
   "property": "C10",
   "status": "proved",
   "theorems": [
    "Verif.Props.C10_truncated",
    "Verif.Props.C10_bad_byte",
    "Verif.Props.C10_escape",
    "Verif.Props.C10_no_escape",
    "Verif.Props.C10_query_last_value",
    "Verif.Props.C10_query_rejects"
   ],
   "note": ""
  },
  {
   "property": "C11",
   "status": "proved",
   "theorems": [
    "Verif.Props.C11_quote_plain",
    "Verif.Props.C11_quote_escaped",
    "Verif.Props.C11_query_roundtrip",
    "Verif.Props.C11_refuted_keys"
   ],
   "note": "C11_refuted_keys: keys with reserved characters do not survive"
  },
  {
   "property": "C12",
   "status": "proved",
   "theorems": [
    "Verif.Props.C12_fragment",
    "Verif.Props.C12_str_roundtrip",
    "Verif.Props.C12_str_roundtrip_URI",
    "Verif.Props.C12_refuted_http",
    "Verif.Props.C12_refuted_at",
    "Verif.Props.C12_refuted_quote",
    "Verif.Props.C12_refuted_digit"
   ],
   "note": "C12_str_roundtrip for URI objects, C12_str_roundtrip_URI for strings; C12_refuted_*: http without host, '@' in the host after an empty user, escaped query values, schemes with digits"
  },
  {
   "property": "C13",
   "status": "proved",
   "theorems": [
    "Verif.Props.C13_port",
    "Verif.Props.C13_split_join",
    "Verif.Props.C13_join_split",
    "Verif.Props.C13_refuted_empty"
   ],
   "note": "C13_refuted_empty: empty parts are dropped"
  },
  {
   "property": "C14",
   "status": "proved",
   "theorems": [
    "Verif.Props.C14_windows_drive",
    "Verif.Props.C14_windows_rooted",
    "Verif.Props.C14_windows_dot",
    "Verif.Props.C14_windows_relative",
    "Verif.Props.C14_one_letter_refuted"
   ],
   "note": ""
  },
  {
   "property": "C15",
   "status": "proved",
   "theorems": [
    "Verif.Props.C15_suffix"
   ],
   "note": ""
  },
  {
   "property": "C16",
   "status": "proved",
   "theorems": [
    "Verif.Props.C16_letters",
    "Verif.Props.C16_scheme_dispatch",
    "Verif.Props.C16_default_file",
    "Verif.Props.C16_refuted_digits",
    "Verif.Props.C16_refuted_drive",
    "Verif.Props.C16_refuted_double"
   ],
   "note": "C16_refuted_*: schemes with digits, one-letter schemes, and a second :// are not dispatched as one would expect"
  },
  {
   "property": "C17",
   "status": "proved",
   "theorems": [
    "Verif.Props.C17_fragment",
    "Verif.Props.C17_fragment_file"
   ],
   "note": ""
  },
  {
   "property": "C18",
   "status": "proved",
   "theorems": [
    "Verif.Props.C18_relative",
    "Verif.Props.C18_unipath"
   ],
   "note": ""
  },
  {
   "property": "C19",
   "status": "proved",
   "theorems": [
    "Verif.Props.C19_last_basename",
    "Verif.Props.C19_refuted_two_slashes"
   ],
   "note": "C19_refuted_two_slashes: with two trailing slashes they disagree"
  },
  {
   "property": "C20",
   "status": "proved",
   "theorems": [
    "Verif.Props.C20_relative",
    "Verif.Props.C20_relative_url",
    "Verif.Props.C20_root_refuted",
    "Verif.Props.C20_no_path_refuted",
    "Verif.Props.C20_other_scheme",
    "Verif.Props.C20_authority_wins",
    "Verif.Props.C20_same_scheme_http",
    "Verif.Props.C20_no_authority_rejected"
   ],
   "note": ""
  },
  {
   "property": "C21",
   "status": "proved",
   "theorems": [
    "Verif.Props.C21_names_distinct",
    "Verif.Props.C21_one_location",
    "Verif.Props.C21_no_cycle",
    "Verif.Props.C21_roots"
   ],
   "note": ""
  },
  {
   "property": "C22",
   "status": "proved",
   "theorems": [
    "Verif.Props.C22_found",
    "Verif.Props.C22_only",
    "Verif.Props.C22_loop",
    "Verif.Props.C22_unbounded",
    "Verif.Props.C22_functional",
    "Verif.Props.C22_plain"
   ],
   "note": ""
  },
  {
   "property": "C23",
   "status": "proved",
   "theorems": [
    "Verif.Props.C23_agree",
    "Verif.Props.C23_meaning",
    "Verif.Props.C23_missing",
    "Verif.Props.C23_root",
    "Verif.Props.C23_plain",
    "Verif.Props.C23_below_file"
   ],
   "note": "C23_below_file: below a file or a dangling link the queries raise AttributeError instead of answering"
  },
  {
   "property": "C24",
   "status": "proved",
   "theorems": [
    "Verif.Props.C24_mkdir",
    "Verif.Props.C24_symlink",
    "Verif.Props.C24_open",
    "Verif.Props.C24_set_info",
    "Verif.Props.C24_copystat",
    "Verif.Props.C24_remove",
    "Verif.Props.C24_queries"
   ],
   "note": ""
  },
  {
   "property": "C25",
   "status": "proved",
   "theorems": [
    "Verif.Props.C25_creates",
    "Verif.Props.C25_only",
    "Verif.Props.C25_listing",
    "Verif.Props.C25_exists",
    "Verif.Props.C25_no_parent",
    "Verif.Props.C25_parent_file"
   ],
   "note": "C25_parent_file: below a file it is AttributeError, not ENOTDIR"
  },
  {
   "property": "C26",
   "status": "proved",
   "theorems": [
    "Verif.Props.C26_bytes",
    "Verif.Props.C26_same_path"
   ],
   "note": ""
  },
  {
   "property": "C27",
   "status": "proved",
   "theorems": [
    "Verif.Props.C27_text",
    "Verif.Props.C27_binary_refuses",
    "Verif.Props.C27_bad_utf8"
   ],
   "note": ""
  },
  {
   "property": "C28",
   "status": "proved",
   "theorems": [
    "Verif.Props.C28_creates",
    "Verif.Props.C28_truncates",
    "Verif.Props.C28_directory",
    "Verif.Props.C28_no_parent",
    "Verif.Props.C28_root_refuted"
   ],
   "note": "the root is excluded: C28_root_refuted"
  },
  {
   "property": "C29",
   "status": "partial",
   "theorems": [
    "Verif.Props.C29_append_partial",
    "Verif.Props.C29_empty",
    "Verif.Props.C29_empty_refuted",
    "Verif.Props.C29_missing"
   ],
   "note": "holds for non-empty files; fails for empty ones (C29_empty describes what happens, C29_empty_refuted gives a witness), so the full statement is false of the code"
  },
  {
   "property": "C30",
   "status": "proved",
   "theorems": [
    "Verif.Props.C30_listdir",
    "Verif.Props.C30_empty_steps",
    "Verif.Props.C30_fails"
   ],
   "note": ""
  },
  {
   "property": "C31",
   "status": "proved",
   "theorems": [
    "Verif.Props.C31_file_or_link",
    "Verif.Props.C31_empty_directory",
    "Verif.Props.C31_not_empty",
    "Verif.Props.C31_missing",
    "Verif.Props.C31_repeated_name_refuted"
   ],
   "note": "C31_repeated_name_refuted shows why paths repeating their last name after a link are excluded"
  },
  {
   "property": "C32",
   "status": "proved",
   "theorems": [
    "Verif.Props.C32_creates",
    "Verif.Props.C32_readlink",
    "Verif.Props.C32_not_a_link",
    "Verif.Props.C32_root_not_a_link",
    "Verif.Props.C32_denotes",
    "Verif.Props.C32_queries",
    "Verif.Props.C32_exists",
    "Verif.Props.C32_other_file_system_refuted"
   ],
   "note": "C32_other_file_system_refuted"
  },
  {
   "property": "C33",
   "status": "proved",
   "theorems": [
    "Verif.Props.C33_loop",
    "Verif.Props.C33_open_write",
    "Verif.Props.C33_self_link",
    "Verif.Props.C33_two_links"
   ],
   "note": ""
  },
  {
   "property": "C34",
   "status": "proved",
   "theorems": [
    "Verif.Props.C34_denotes_nothing",
    "Verif.Props.C34_dangling"
   ],
   "note": ""
  },
  {
   "property": "C35",
   "status": "proved",
   "theorems": [
    "Verif.Props.C35_set_get",
    "Verif.Props.C35_set_one",
    "Verif.Props.C35_nofollow",
    "Verif.Props.C35_apply"
   ],
   "note": ""
  },
  {
   "property": "C36",
   "status": "proved",
   "theorems": [
    "Verif.Props.C36_arithmetic",
    "Verif.Props.C36_xMask",
    "Verif.Props.C36_set_exec",
    "Verif.Props.C36_other_bits"
   ],
   "note": "both backends use the same arithmetic; C36_arithmetic is about it alone"
  },
  {
   "property": "C37",
   "status": "proved",
   "theorems": [
    "Verif.Props.C37_copystat",
    "Verif.Props.C37_other_file_system_refuted"
   ],
   "note": "C37_other_file_system_refuted"
  },
  {
   "property": "C38",
   "status": "proved",
   "theorems": [
    "Verif.Props.C38_unreachable",
    "Verif.Props.C38_removed",
    "Verif.Props.C38_never_again",
    "Verif.Props.C38_history",
    "Verif.Props.C38_still_file"
   ],
   "note": "for every later history of calls"
  },
  {
   "property": "C39",
   "status": "proved",
   "theorems": [
    "Verif.Props.C39_lines_text",
    "Verif.Props.C39_line_bad",
    "Verif.Props.C39_write",
    "Verif.Props.C39_write_nothing",
    "Verif.Props.C39_read",
    "Verif.Props.C39_read_all",
    "Verif.Props.C39_read_text",
    "Verif.Props.C39_read_text_iff",
    "Verif.Props.C39_read_text_refuted",
    "Verif.Props.C39_read_refused",
    "Verif.Props.C39_seek_tell",
    "Verif.Props.C39_truncate",
    "Verif.Props.C39_lines",
    "Verif.Props.C39_shared_position"
   ],
   "note": "binary handles; the position is shared by all handles of a file (C39_shared_position)"
  },
  {
   "property": "C40",
   "status": "proved",
   "theorems": [
    "Verif.Props.C40_md5"
   ],
   "note": "the hash function is a parameter: the theorem is about the blocks fed to it"
  },
  {
   "property": "C41",
   "status": "proved",
   "theorems": [
    "Verif.Props.C41_install",
    "Verif.Props.C41_fires",
    "Verif.Props.C41_methods",
    "Verif.Props.C41_others",
    "Verif.Props.C41_removal_blocked"
   ],
   "note": "C41_removal_blocked: removing the fault by the documented call is itself hit by the fault"
  },
  {
   "property": "C42",
   "status": "proved",
   "theorems": [
    "Verif.Props.C42_creates",
    "Verif.Props.C42_only",
    "Verif.Props.C42_all_or_nothing",
    "Verif.Props.C42_all_dirs",
    "Verif.Props.C42_idempotent"
   ],
   "note": "C42_all_or_nothing: when it fails nothing was created"
  },
  {
   "property": "C43",
   "status": "proved",
   "theorems": [
    "Verif.Props.C43_default",
    "Verif.Props.C43_too_deep",
    "Verif.Props.C43_depth",
    "Verif.Props.C43_walk",
    "Verif.Props.C43_row",
    "Verif.Props.C43_raises"
   ],
   "note": "assumes isdir answers for every link in the tree; C43_raises: without that the walk raises"
  },
  {
   "property": "C44",
   "status": "proved",
   "theorems": [
    "Verif.Props.C44_walk",
    "Verif.Props.C44_same_triples"
   ],
   "note": "same assumption as C43"
  },
  {
   "property": "C45",
   "status": "proved",
   "theorems": [
    "Verif.Props.C45_no_links",
    "Verif.Props.C45_no_difference",
    "Verif.Props.C45_cycle"
   ],
   "note": "termination is by a depth bound standing for the recursion limit: C45_cycle shows an error for every bound"
  },
  {
   "property": "C46",
   "status": "proved",
   "theorems": [
    "Verif.Props.C46_default",
    "Verif.Props.C46_remove",
    "Verif.Props.C46_root",
    "Verif.Props.C46_crash"
   ],
   "note": "assumes isdir keeps answering for the links in the tree while it is removed (true when there are none, or when their targets are outside: steady_no_links, steady_clear); C46_crash: otherwise it can fail half-way"
  },
  {
   "property": "C47",
   "status": "proved",
   "theorems": [
    "Verif.Props.C47_copy",
    "Verif.Props.C47_into",
    "Verif.Props.C47_into_name",
    "Verif.Props.C47_onto_itself_refuted",
    "Verif.Props.C47_other_file_system_refuted",
    "Verif.Props.C47_default"
   ],
   "note": "source and destination in one file system and different files; C47_onto_itself_refuted, C47_other_file_system_refuted show both are needed"
  },
  {
   "property": "C48",
   "status": "proved",
   "theorems": [
    "Verif.Props.C48_copy",
    "Verif.Props.C48_into",
    "Verif.Props.C48_whitespace_refuted",
    "Verif.Props.C48_root_refuted",
    "Verif.Props.C48_dir_mtime_refuted"
   ],
   "note": "C48_whitespace_refuted, C48_root_refuted, C48_dir_mtime_refuted show the conditions are needed"
  },
  {
   "property": "C49",
   "status": "proved",
   "theorems": [
    "Verif.Props.C49_ignore"
   ],
   "note": ""
  },
  {
   "property": "C50",
   "status": "proved",
   "theorems": [
    "Verif.Props.C50_file_link",
    "Verif.Props.C50_dir_link"
   ],
   "note": ""
  },
  {
   "property": "C51",
   "status": "proved",
   "theorems": [
    "Verif.Props.C51_file",
    "Verif.Props.C51_onto_itself_refuted",
    "Verif.Props.C51_dir"
   ],
   "note": "C51_onto_itself_refuted: moving a file onto itself destroys it"
  },
  {
   "property": "C52",
   "status": "proved",
   "theorems": [
    "Verif.Props.C52_missing",
    "Verif.Props.C52_wrong_kind"
   ],
   "note": ""
  },
  {
   "property": "C53",
   "status": "proved",
   "theorems": [
    "Verif.Props.C53_glob",
    "Verif.Props.C53_nodup"
   ],
   "note": "fnmatch is a parameter of the model"
  },
  {
   "property": "C54",
   "status": "proved",
   "theorems": [
    "Verif.Reg.C54_same",
    "Verif.Reg.C54_different",
    "Verif.Reg.C54_key",
    "Verif.Reg.C54_mem_key",
    "Verif.Reg.C54_after_cleanup"
   ],
   "note": "one thread; C57 is about many"
  },
  {
   "property": "C55",
   "status": "proved",
   "theorems": [
    "Verif.Props.C55_schemes",
    "Verif.Reg.C55_unknown",
    "Verif.Reg.C55_only"
   ],
   "note": ""
  },
  {
   "property": "C56",
   "status": "proved",
   "theorems": [
    "Verif.Reg.C56_cleanup",
    "Verif.Reg.C56_once",
    "Verif.Reg.C56_open",
    "Verif.Reg.C56_shutdown",
    "Verif.Reg.C56_in_use",
    "Verif.Reg.C56_idle",
    "Verif.Reg.C56_new"
   ],
   "note": "one thread; C57_cleanup_twice shows what two clean-ups at a time can do"
  },
  {
   "property": "C57",
   "status": "proved",
   "theorems": [
    "Verif.Reg.Threads.C57_created",
    "Verif.Reg.Threads.C57_exclusive",
    "Verif.Reg.Threads.C57_progress",
    "Verif.Reg.Threads.C57_quiet_returns",
    "Verif.Reg.Threads.C57_same_refuted",
    "Verif.Reg.Threads.C57_keyError",
    "Verif.Reg.Threads.C57_cleanup_twice",
    "Verif.Reg.Threads.C57_closed"
   ],
   "note": "nothing more holds: C57_same_refuted, C57_keyError, C57_cleanup_twice, C57_closed; atomicity of single dictionary operations is assumed"
  },
  {
   "property": "C58",
   "status": "proved",
   "theorems": [
    "Verif.Props.C58_kept",
    "Verif.Props.C58_connection",
    "Verif.Props.C58_read",
    "Verif.Props.C58_gone",
    "Verif.Props.C58_forced",
    "Verif.Props.C58_handles"
   ],
   "note": "a clean-up may drop any set of connections"
  },
  {
   "property": "C59",
   "status": "proved",
   "theorems": [
    "Verif.Props.C59_lock",
    "Verif.Props.C59_exclusive",
    "Verif.Props.C59_fail",
    "Verif.Props.C59_enter",
    "Verif.Props.C59_new_file_system_refuted",
    "Verif.Props.C59_content_refuted",
    "Verif.Props.C59_cleanup_refuted"
   ],
   "note": "one call of the memory file system is one step, the lock statement itself is split into its steps; C59_new_file_system_refuted shows the condition is needed, C59_content_refuted and C59_cleanup_refuted what the lock does not protect"
  },
  {
   "property": "C60",
   "status": "proved",
   "theorems": [
    "Verif.Props.C60_kept",
    "Verif.Props.C60_removed",
    "Verif.Props.C60_leave",
    "Verif.Props.C60_twice",
    "Verif.Props.C60_link_refuted"
   ],
   "note": "C60_link_refuted: of a link, the link is removed"
  },
  {
   "property": "C61",
   "status": "proved",
   "theorems": [
    "Verif.Zip.C61_isfile",
    "Verif.Zip.C61_isdir",
    "Verif.Zip.C61_exists",
    "Verif.Zip.C61_root",
    "Verif.Zip.C61_unopened_refuted"
   ],
   "note": "for a connection that was used before; C61_unopened_refuted is the other case; the contract of zipfile.ZipFile is assumed (Zip/Model)"
  },
  {
   "property": "C62",
   "status": "proved",
   "theorems": [
    "Verif.Zip.C62_listdir",
    "Verif.Zip.C62_exists",
    "Verif.Zip.C62_not_dir",
    "Verif.Zip.C62_missing",
    "Verif.Zip.C62_foreign_refuted"
   ],
   "note": "C62_foreign_refuted: the root of an archive whose names do not begin with a slash"
  },
  {
   "property": "C63",
   "status": "proved",
   "theorems": [
    "Verif.Props.C63_read_missing",
    "Verif.Props.C63_read_raw",
    "Verif.Zip.C63_write_read",
    "Verif.Zip.C63_others",
    "Verif.Zip.C63_new",
    "Verif.Zip.C63_writes_others",
    "Verif.Zip.C63_last",
    "Verif.Zip.C63_nested_refuted",
    "Verif.Zip.C63_read_inside_refuted",
    "Verif.Zip.C63_nul_refuted",
    "Verif.Zip.C63_body_raises",
    "Verif.Zip.C63_append_refused",
    "Verif.Zip.C63_append_inside_refuted"
   ],
   "note": "for statements that do not overlap and names without NUL; C63_nested_refuted, C63_read_inside_refuted, C63_nul_refuted show that this is needed"
  },
  {
   "property": "C64",
   "status": "proved",
   "theorems": [
    "Verif.Zip.C64_visible"
   ],
   "note": ""
  },
  {
   "property": "C65",
   "status": "proved",
   "theorems": [
    "Verif.Local.C65_restores",
    "Verif.Local.C65_no_dir",
    "Verif.Local.C65_no_dir_error",
    "Verif.Local.C65_no_cwd",
    "Verif.Local.C65_gone_refuted"
   ],
   "note": "C65_gone_refuted: if the directory is gone, leaving the block raises"
  },
  {
   "property": "C66",
   "status": "proved",
   "theorems": [
    "Verif.Props.C66_dir_onto_file_error",
    "Verif.Local.C66_dir_into",
    "Verif.Local.C66_rename",
    "Verif.Local.C66_tree",
    "Verif.Local.C66_file_into",
    "Verif.Local.C66_file_onto_file",
    "Verif.Local.C66_into_itself",
    "Verif.Local.C66_file_exists",
    "Verif.Local.C66_dir_onto_file",
    "Verif.Local.C66_existing_refuted"
   ],
   "note": "contracts of os.rename and shutil.move are assumed (Local/Model); C66_existing_refuted: if the name is taken by a directory, the source goes into that"
  },
  {
   "property": "C67",
   "status": "proved",
   "theorems": [
    "Verif.Props.C67_refuted_parent_relative",
    "Verif.Props.C67_refuted_hidden",
    "Verif.Props.C67_dot_slash"
   ],
   "note": "C67_refuted_parent_relative, C67_refuted_hidden: what happens to other names that begin with a dot"
  },
  {
   "property": "C68",
   "status": "proved",
   "theorems": [
    "Verif.Props.C68_no_file",
    "Verif.Local.C68_removed",
    "Verif.Local.C68_closed_twice_refuted"
   ],
   "note": "C68_closed_twice_refuted"
  },
  {
   "property": "C69",
   "status": "proved",
   "theorems": [
    "Verif.Local.C69_set_exec",
    "Verif.Local.C69_isexec"
   ],
   "note": ""
  },
  {
   "property": "C70",
   "status": "proved",
   "theorems": [
    "Verif.Props.C70_isolated",
    "Verif.Props.C70_isolated_history",
    "Verif.Props.C70_handle_elsewhere",
    "Verif.Props.C70_handle_stays_elsewhere",
    "Verif.Props.C70_disjoint",
    "Verif.Props.C70_parents",
    "Verif.Props.C70_copy",
    "Verif.Props.C70_move"
   ],
   "note": "calls other than copy and move without conditions on names; C70_copy and C70_move for clean names"
  },
  {
   "property": "C71",
   "status": "proved",
   "theorems": [
    "Verif.Props.C71_names",
    "Verif.Props.C71_writable",
    "Verif.Props.C71_walk",
    "Verif.Props.C71_copyable",
    "Verif.Props.C71_hidden_refuted"
   ],
   "note": "C71_hidden_refuted: through a link to the root a hidden name can still be made there, after which the root cannot be walked"
  },
  {
   "property": "C72",
   "status": "proved",
   "theorems": [
    "Verif.Props.C72_parse",
    "Verif.Props.C72_defaults",
    "Verif.Props.C72_no_authority",
    "Verif.Props.C72_dot",
    "Verif.Props.C72_mailto_refuted",
    "Verif.Props.C72_mailto",
    "Verif.Props.C72_mailto_no_at",
    "Verif.Props.C72_mailto_unparse",
    "Verif.Props.C72_unparse_url",
    "Verif.Props.C72_unparse_refuted"
   ],
   "note": "C72_unparse_refuted: URIParser.unparse hands all parts to a parser that does not expect the scheme; mailto: addresses in their usual form cannot be parsed (C72_mailto_refuted)"
  },
  {
   "property": "C73",
   "status": "proved",
   "theorems": [
    "Verif.Props.C73_part_name",
    "Verif.Props.C73_mode",
    "Verif.Props.C73_level",
    "Verif.Props.C73_hidden",
    "Verif.Props.C73_unlink_dir",
    "Verif.Props.C73_join_nothing",
    "Verif.Props.C73_part_name_local",
    "Verif.Props.C73_part_name_zip"
   ],
   "note": ""
  },
  {
   "property": "C74",
   "status": "proved",
   "theorems": [
    "Verif.Props.C74_makedirs",
    "Verif.Props.C74_idempotent"
   ],
   "note": ""
  },
  {
   "property": "C75",
   "status": "proved",
   "theorems": [
    "Verif.Props.C75_walk",
    "Verif.Props.C75_names"
   ],
   "note": ""
  },
  {
   "property": "C76",
   "status": "proved",
   "theorems": [
    "Verif.Props.C76_tree",
    "Verif.Props.C76_file"
   ],
   "note": ""
  },
  {
   "property": "C77",
   "status": "proved",
   "theorems": [
    "Verif.Props.C77_file",
    "Verif.Props.C77_between_memories",
    "Verif.Props.C77_link_refuted"
   ],
   "note": "C77_link_refuted: a link copied with followlinks=False is created in the file system of the source"
  },
  {
   "property": "C78",
   "status": "proved",
   "theorems": [
    "Verif.Props.C78_tree"
   ],
   "note": ""
  },
  {
   "property": "C79",
   "status": "proved",
   "theorems": [
    "Verif.Props.C79_file",
    "Verif.Props.C79_tree"
   ],
   "note": "within the local file system move is shutil.move, see C66"
  },
  {
   "property": "C80",
   "status": "proved",
   "theorems": [
    "Verif.Props.C80_md5",
    "Verif.Props.C80_copy"
   ],
   "note": ""
  },
  {
   "property": "C81",
   "status": "proved",
   "theorems": [
    "Verif.Props.C81_glob"
   ],
   "note": ""
  },
  {
   "property": "C82",
   "status": "proved",
   "theorems": [
    "Verif.Props.C82_file",
    "Verif.Props.C82_tree"
   ],
   "note": ""
  },
  {
   "property": "C83",
   "status": "proved",
   "theorems": [
    "Verif.Props.C83_tree",
    "Verif.Props.C83_file"
   ],
   "note": ""
  },
  {
   "property": "C84",
   "status": "proved",
   "theorems": [
    "Verif.Props.C84_file",
    "Verif.Props.C84_tree"
   ],
   "note": "within the local file system move is shutil.move, see C66"
  },
  {
   "property": "C85",
   "status": "proved",
   "theorems": [
    "Verif.Props.C85_makedirs",
    "Verif.Props.C85_again"
   ],
   "note": ""
  },
  {
   "property": "C86",
   "status": "proved",
   "theorems": [
    "Verif.Props.C86_remove",
    "Verif.Props.C86_copy_file",
    "Verif.Props.C86_copy_tree_refuted"
   ],
   "note": "C86_copy_tree_refuted: copying a tree to a new name again copies into the incomplete copy"
  },
  {
   "property": "C87",
   "status": "proved",
   "theorems": [
    "Verif.Props.C87_listdir_missing",
    "Verif.Props.C87_listdir_file",
    "Verif.Props.C87_mkdir_there",
    "Verif.Props.C87_mkdir_parent",
    "Verif.Props.C87_openR_missing",
    "Verif.Props.C87_openR_dir",
    "Verif.Props.C87_openW_parent",
    "Verif.Props.C87_openW_dir",
    "Verif.Props.C87_remove_missing",
    "Verif.Props.C87_remove_full",
    "Verif.Props.C87_copy_missing",
    "Verif.Props.C87_copy_dir",
    "Verif.Props.C87_copy_file"
   ],
   "note": ""
  },
  {
   "property": "C88",
   "status": "proved",
   "theorems": [
    "Verif.Props.C88_copy",
    "Verif.Props.C88_move",
    "Verif.Props.C88_conflict"
   ],
   "note": ""
  },
  {
   "property": "C89",
   "status": "proved",
   "theorems": [
    "Verif.Props.C89_copy_again",
    "Verif.Props.C89_move_again"
   ],
   "note": ""
  },
  {
   "property": "C90",
   "status": "proved",
   "theorems": [
    "Verif.Props.C90_order",
    "Verif.Props.C90_no_move",
    "Verif.Props.C90_ends",
    "Verif.Props.C90_alone"
   ],
   "note": ""
  },
  {
   "property": "C91",
   "status": "proved",
   "theorems": [
    "Verif.Props.C91_elsewhere",
    "Verif.Props.C91_alone",
    "Verif.Props.C91_readers"
   ],
   "note": ""
  },
  {
   "property": "C92",
   "status": "proved",
   "theorems": [
    "Verif.Props.C92_mkdir_race",
    "Verif.Props.C92_remove_race",
    "Verif.Props.C92_keyError_race",
    "Verif.Props.C92_exists_race"
   ],
   "note": "existence of races, each with the proof that no order of the calls has these outcomes"
  },
  {
   "property": "C93",
   "status": "proved",
   "theorems": [
    "Verif.Props.C93_listed",
    "Verif.Props.C93_dump",
    "Verif.Props.C93_error",
    "Verif.Props.C93_changes_nothing",
    "Verif.Props.C93_shows_rest"
   ],
   "note": ""
  },
  {
   "property": "C94",
   "status": "proved",
   "theorems": [
    "Verif.Props.C94_copy",
    "Verif.Props.C94_move",
    "Verif.Props.C94_ignore_ends"
   ],
   "note": ""
  },
  {
   "property": "C95",
   "status": "proved",
   "theorems": [
    "Verif.Props.C95_islink",
    "Verif.Props.C95_islink_missing",
    "Verif.Props.C95_symlink",
    "Verif.Props.C95_symlink_taken",
    "Verif.Props.C95_readlink",
    "Verif.Props.C95_readlink_other",
    "Verif.Props.C95_follow",
    "Verif.Props.C95_below",
    "Verif.Props.C95_too_many",
    "Verif.Props.C95_circle"
   ],
   "note": ""
  },
  {
   "property": "C96",
   "status": "proved",
   "theorems": [
    "Verif.Props.C96_link",
    "Verif.Props.C96_tree"
   ],
   "note": ""
  },
  {
   "property": "C97",
   "status": "proved",
   "theorems": [
    "Verif.Props.C97_link",
    "Verif.Props.C97_content",
    "Verif.Props.C97_relative_refuted",
    "Verif.Props.C97_question_refuted",
    "Verif.Props.C97_itself_refuted",
    "Verif.Props.C97_target_refuted",
    "Verif.Props.C97_memory_refuted"
   ],
   "note": ""
  },
  {
   "property": "C98",
   "status": "proved",
   "theorems": [
    "Verif.Props.C98_into",
    "Verif.Props.C98_rename",
    "Verif.Props.C98_replace",
    "Verif.Props.C98_onto_target_refuted",
    "Verif.Props.C98_dir_onto",
    "Verif.Props.C98_into_itself",
    "Verif.Props.C98_twice",
    "Verif.Props.C98_same_dir",
    "Verif.Props.C98_taken",
    "Verif.Props.C98_into_over",
    "Verif.Props.C98_missing",
    "Verif.Props.C98_far",
    "Verif.Props.C98_far_dir"
   ],
   "note": ""
  },
  {
   "property": "C99",
   "status": "proved",
   "theorems": [
    "Verif.Props.C99_walk",
    "Verif.Props.C99_copy",
    "Verif.Props.C99_relative_refuted"
   ],
   "note": ""
  },
  {
   "property": "C100",
   "status": "proved",
   "theorems": [
    "Verif.Props.C100_walk",
    "Verif.Props.C100_copy",
    "Verif.Props.C100_dangling_refuted"
   ],
   "note": ""
  },
  {
   "property": "C101",
   "status": "proved",
   "theorems": [
    "Verif.Props.C101_walk",
    "Verif.Props.C101_glob",
    "Verif.Props.C101_md5",
    "Verif.Props.C101_copy_file",
    "Verif.Props.C101_copy_tree",
    "Verif.Props.C101_unopened_refuted",
    "Verif.Props.C101_remove",
    "Verif.Props.C101_move_refuted",
    "Verif.Props.C101_root_refuted"
   ],
   "note": ""
  },
  {
   "property": "C102",
   "status": "proved",
   "theorems": [
    "Verif.Props.C102_tree",
    "Verif.Props.C102_copy_root",
    "Verif.Props.C102_copy",
    "Verif.Props.C102_roundtrip",
    "Verif.Props.C102_move",
    "Verif.Props.C102_tree_refuted",
    "Verif.Props.C102_links",
    "Verif.Props.C102_between_refuted"
   ],
   "note": ""
  },
  {
   "property": "C103",
   "status": "proved",
   "theorems": [
    "Verif.Props.C103_name",
    "Verif.Props.C103_splitext",
    "Verif.Props.C103_port"
   ],
   "note": ""
  },
  {
   "property": "C104",
   "status": "proved",
   "theorems": [
    "Verif.Props.C104_home",
    "Verif.Props.C104_elsewhere"
   ],
   "note": ""
  },
  {
   "property": "C105",
   "status": "proved",
   "theorems": [
    "Verif.Props.C105_makedirs_race",
    "Verif.Props.C105_remove_race",
    "Verif.Props.C105_walk_race",
    "Verif.Props.C105_md5_race",
    "Verif.Props.C105_copy_race"
   ],
   "note": ""
  },
  {
   "property": "C106",
   "status": "proved",
   "theorems": [
    "Verif.Reg.Cleaner.C106_interval",
    "Verif.Reg.Cleaner.C106_pause",
    "Verif.Reg.Cleaner.C106_asked",
    "Verif.Reg.Cleaner.C106_alive",
    "Verif.Reg.Cleaner.C106_dies"
   ],
   "note": ""
  },
  {
   "property": "C107",
   "status": "proved",
   "theorems": [
    "Verif.Reg.Cleaner.C107_returns",
    "Verif.Reg.Cleaner.C107_closes",
    "Verif.Reg.Cleaner.C107_hang",
    "Verif.Reg.Cleaner.C107_hang_refuted",
    "Verif.Reg.Cleaner.C107_raises",
    "Verif.Reg.Cleaner.C107_cleaner_dies"
   ],
   "note": ""
  },
  {
   "property": "C108",
   "status": "proved",
   "theorems": [
    "Verif.Reg.Cleaner.C108_gone",
    "Verif.Reg.Cleaner.C108_closed",
    "Verif.Reg.Cleaner.C108_leak"
   ],
   "note": ""
  },
  {
   "property": "C109",
   "status": "proved",
   "theorems": [
    "Verif.Props.C109_exclusive",
    "Verif.Props.C109_serial",
    "Verif.Props.C109_lost",
    "Verif.Props.C109_cleanup_race"
   ],
   "note": ""
  },
  {
   "property": "C110",
   "status": "proved",
   "theorems": [
    "Verif.Props.C110_end"
   ],
   "note": ""
  },
  {
   "property": "C111",
   "status": "proved",
   "theorems": [
    "Verif.Props.C111_no_error",
    "Verif.Props.C111_all",
    "Verif.Props.C111_nowait",
    "Verif.Props.C111_nofile"
   ],
   "note": ""
  },
  {
   "property": "C112",
   "status": "proved",
   "theorems": [
    "Verif.Props.C112_plain",
    "Verif.Props.C112_tree",
    "Verif.Props.C112_same",
    "Verif.Props.C112_through_file_refuted",
    "Verif.Props.C112_listdir_file_refuted",
    "Verif.Props.C112_mkdir_root_refuted",
    "Verif.Props.C112_read_dir_refuted",
    "Verif.Props.C112_move_inside_refuted",
    "Verif.Props.C112_move_missing_refuted"
   ],
   "note": ""
  },
  {
   "property": "C113",
   "status": "proved",
   "theorems": [
    "Verif.Props.C113_walk",
    "Verif.Props.C113_copy",
    "Verif.Props.C113_into",
    "Verif.Props.C113_move",
    "Verif.Props.C113_repeated_refuted",
    "Verif.Props.C113_lost_refuted"
   ],
   "note": ""
  },
  {
   "property": "C114",
   "status": "proved",
   "theorems": [
    "Verif.Props.C114_path",
    "Verif.Props.C114_gone",
    "Verif.Props.C114_ask",
    "Verif.Props.C114_do",
    "Verif.Props.C114_relative",
    "Verif.Props.C114_nothing",
    "Verif.Props.C114_symlink_refuted"
   ],
   "note": ""
  },
  {
   "property": "C115",
   "status": "proved",
   "theorems": [
    "Verif.Props.C115_plain",
    "Verif.Props.C115_same"
   ],
   "note": ""
  },
  {
   "property": "C116",
   "status": "proved",
   "theorems": [
    "Verif.Props.C116_call",
    "Verif.Props.C116_program"
   ],
   "note": ""
  },
  {
   "property": "C117",
   "status": "proved",
   "theorems": [
    "Verif.Props.C117_last",
    "Verif.Props.C117_skip",
    "Verif.Props.C117_order",
    "Verif.Props.C117_stops",
    "Verif.Props.C117_shipped",
    "Verif.Props.C117_half_refuted",
    "Verif.Props.C117_takeover_refuted"
   ],
   "note": ""
  },
  {
   "property": "C118",
   "status": "proved",
   "theorems": [
    "Verif.Props.C118_program",
    "Verif.Props.C118_same",
    "Verif.Props.C118_write_on_read",
    "Verif.Props.C118_read_on_write",
    "Verif.Props.C118_lines_on_write",
    "Verif.Props.C118_read_moves",
    "Verif.Props.C118_shared",
    "Verif.Props.C118_append_empty",
    "Verif.Props.C118_append_missing",
    "Verif.Props.C118_append_seek",
    "Verif.Props.C118_seek_negative",
    "Verif.Props.C118_grow",
    "Verif.Props.C118_closed",
    "Verif.Props.C118_refused",
    "Verif.Props.C118_refused_number",
    "Verif.Props.C118_link",
    "Verif.Props.C118_none"
   ],
   "note": ""
  },
  {
   "property": "C119",
   "status": "proved",
   "theorems": [
    "Verif.Props.C119_sorted",
    "Verif.Props.C119_onFile",
    "Verif.Props.C119_crossed_refuted",
    "Verif.Props.C119_again_refuted",
    "Verif.Props.C119_twin_refuted",
    "Verif.Props.C119_locks",
    "Verif.Props.C119_step",
    "Verif.Props.C119_circle",
    "Verif.Props.C119_order",
    "Verif.Props.C119_end"
   ],
   "note": ""
  },
  {
   "property": "C120",
   "status": "proved",
   "theorems": [
    "Verif.Props.C120_down",
    "Verif.Props.C120_once",
    "Verif.Props.C120_steady",
    "Verif.Props.C120_up",
    "Verif.Props.C120_prune",
    "Verif.Props.C120_sweep",
    "Verif.Props.C120_hollow",
    "Verif.Props.C120_ahead_refuted",
    "Verif.Props.C120_added_refuted"
   ],
   "note": ""
  },
  {
   "property": "C121",
   "status": "proved",
   "theorems": [
    "Verif.Props.C121_program",
    "Verif.Props.C121_same",
    "Verif.Props.C121_expected",
    "Verif.Props.C121_carried",
    "Verif.Props.C121_stale_refuted"
   ],
   "note": ""
  },
  {
   "property": "C122",
   "status": "proved",
   "theorems": [
    "Verif.Props.C122_program",
    "Verif.Props.C122_there_and_back",
    "Verif.Props.C122_unopened_refuted"
   ],
   "note": ""
  },
  {
   "property": "C123",
   "status": "proved",
   "theorems": [
    "Verif.Props.C123_program",
    "Verif.Props.C123_memory",
    "Verif.Props.C123_local",
    "Verif.Props.C123_local_alone",
    "Verif.Props.C123_memory_alone",
    "Verif.Props.C123_walk_finds",
    "Verif.Props.C123_glob_finds",
    "Verif.Props.C123_backslash_refuted"
   ],
   "note": ""
  },
  {
   "property": "C124",
   "status": "proved",
   "theorems": [
    "Verif.Props.C124_walk",
    "Verif.Props.C124_glob",
    "Verif.Props.C124_md5",
    "Verif.Props.C124_copy_tree",
    "Verif.Props.C124_remove",
    "Verif.Props.C124_add",
    "Verif.Props.C124_pack",
    "Verif.Props.C124_tree",
    "Verif.Props.C124_pack_unpack"
   ],
   "note": ""
  },
  {
   "property": "C125",
   "status": "proved",
   "theorems": [
    "Verif.Props.C125_step",
    "Verif.Props.C125_program",
    "Verif.Props.C125_stored",
    "Verif.Props.C125_unleft",
    "Verif.Props.C125_second",
    "Verif.Props.C125_reading",
    "Verif.Props.C125_with",
    "Verif.Props.C125_closed_refuted",
    "Verif.Props.C125_read_refuted",
    "Verif.Props.C125_again_refuted"
   ],
   "note": ""
  },
  {
   "property": "C126",
   "status": "proved",
   "theorems": [
    "Verif.Props.C126_program",
    "Verif.Props.C126_nothing_removed",
    "Verif.Props.C126_inside_refuted",
    "Verif.Props.C126_raised_refuted"
   ],
   "note": ""
  },
  {
   "property": "C127",
   "status": "proved",
   "theorems": [
    "Verif.Props.C127_program",
    "Verif.Props.C127_heals",
    "Verif.Props.C127_lists",
    "Verif.Props.C127_refuted",
    "Verif.Props.C127_stale_refuted"
   ],
   "note": ""
  },
  {
   "property": "C128",
   "status": "proved",
   "theorems": [
    "Verif.Props.C128_isexec",
    "Verif.Props.C128_missing",
    "Verif.Props.C128_set_exec",
    "Verif.Props.C128_links",
    "Verif.Props.C128_memory",
    "Verif.Props.C128_write",
    "Verif.Props.C128_copy",
    "Verif.Props.C128_copy_tree",
    "Verif.Props.C128_across",
    "Verif.Props.C128_move_file",
    "Verif.Props.C128_move_tree",
    "Verif.Props.C128_move_local",
    "Verif.Props.C128_others",
    "Verif.Props.C128_backends_refuted"
   ],
   "note": ""
  },
  {
   "property": "C129",
   "status": "proved",
   "theorems": [
    "Verif.Props.C129_plain",
    "Verif.Props.C129_tree",
    "Verif.Props.C129_same",
    "Verif.Props.C129_write_dangling_refuted",
    "Verif.Props.C129_same_name_refuted",
    "Verif.Props.C129_dangling_middle_refuted",
    "Verif.Props.C129_remove_below_file_refuted",
    "Verif.Props.C129_move_refuted",
    "Verif.Props.C129_many_refuted"
   ],
   "note": ""
  },
  {
   "property": "C130",
   "status": "proved",
   "theorems": [
    "Verif.Props.C130_tree",
    "Verif.Props.C130_copy",
    "Verif.Props.C130_stops",
    "Verif.Props.C130_refused",
    "Verif.Props.C130_move",
    "Verif.Props.C130_move_stops",
    "Verif.Props.C130_whole_refuted"
   ],
   "note": ""
  },
  {
   "property": "C131",
   "status": "proved",
   "theorems": [
    "Verif.Props.C131_file",
    "Verif.Props.C131_dir",
    "Verif.Props.C131_link",
    "Verif.Props.C131_missing",
    "Verif.Props.C131_links",
    "Verif.Props.C131_written",
    "Verif.Props.C131_set",
    "Verif.Props.C131_ignored",
    "Verif.Props.C131_backends_refuted"
   ],
   "note": ""
  },
  {
   "property": "C132",
   "status": "proved",
   "theorems": [
    "Verif.Props.C132_plain",
    "Verif.Props.C132_same"
   ],
   "note": ""
  }
 ]
}