# Axioms per theorem

Written by tools/axioms.py from `#print axioms`. `p` is propext, `c` is Classical.choice, `q` is Quot.sound.

* C01: `C01_parseRaw_exact` (cqp), `C01_parseRaw_unique` (cqp), `C01_parseRaw_fails_iff` (qp)
* C02: `C02_reemit` (cqp), `C02_condition_needed` (p)
* C03: `C03_parse_all_or_nothing` (qp), `C03_one_bad_document` (qp)
* C04: `C04_yaml_kind` (p), `C04_json_kind` (qp), `C04_same_choice` (p)
* C05: `C05_signed_verifies` (cqp), `C05_double_cr_fails` (cqp)
* C06: `C06_sign_idempotent` (cqp), `C06_one_signature_last` (cqp)
* C07: `C07_signature_docs_irrelevant` (qp), `C07_write_then_sign` (cqp)
* C08: `C08_verify_iff` (cqp)
* C09: `C09_same_mac` (cqp), `C09_content_fixed_partial` (cqp), `C09_single_document` (cqp), `C09_boundaries_not_signed` (cqp)
* C10: `C10_short_key` (cqp), `C10_key_error_iff` (cqp)
* C11: `C11_sign_write` (cqp), `C11_fail_together` (cqp), `C11_write_error` (cqp)
* C12: `C12_lint_iff` (cqp)
* C13: `C13_step_graph` (cqp)
* C14: `C14_names` (cqp)
* C15: `C15_manifest_iff` (cqp), `C15_pipeline_graph` (cqp)
* C16: `C16_trust_monotone` (cqp)
* C17: `C17_other_resources` (cqp), `C17_no_panic` (p)
* C18: `C18_match_iff` (qp), `C18_includes_excludes` (qp)
* C19: `C19_skip_iff` (qp), `C19_no_conditions` (qp), `C19_irrelevant` (none)
* C20: `C20_run_policy` (qp), `C20_default` (none)
* C21: `C21_build` (p), `C21_push` (p), `C21_port` (cqp), `C21_variable` (p), `C21_condition` (cqp), `C21_condition_list` (p), `C21_string_list` (p), `C21_variable_roundtrip` (p), `C21_parameter_roundtrip` (cqp), `C21_parameter_secret_map` (p)
* C22: `C22_steps_in_order` (cqp), `C22_metadata` (cqp), `C22_attributes` (cqp)
* C23: `C23_detached` (cqp)
* C24: `C24_run_policy` (cqp)
* C25: `C25_dependencies` (cqp), `C25_waits_for_clone` (cqp)
* C26: `C26_acyclic` (cqp), `C26_service_cycle` (cqp)
* C27: `C27_privileged` (cqp), `C27_untrusted` (cqp)
* C28: `C28_socket_mount` (cqp), `C28_socket_volume` (cqp), `C28_socket_image_partial` (cqp), `C28_socket_hijack` (cqp), `C28_socket_image_iff` (cqp)
* C29: `C29_untrusted_isolated` (cqp)
* C30: `C30_secret_references` (cqp), `C30_secret_iff` (cqp), `C30_provenance` (cqp), `C30_secret_not_plain` (cqp)
* C31: `C31_workspace_variables` (cqp)
* C32: `C32_uids` (cqp), `C32_uids_distinct` (cqp), `C32_namespace_partial` (cqp), `C32_host_volume_namespace` (cqp)
* C33: `C33_working_dir_partial` (cqp), `C33_service_workdir_lost` (cqp)
* C34: `C34_map_order_partial` (cqp), `C34_setting_collision` (cqp), `C34_collision` (cqp)
* C35: `C35_redirect_single` (cqp), `C35_redirect_many` (cqp), `C35_ambiguous_builds` (cqp)
* C36: `C36_mount` (cqp), `C36_credentials_partial` (cqp), `C36_name_clash` (cqp), `C36_mounts_iff` (cqp), `C36_files_exact` (cqp), `C36_credentials_iff` (cqp)
* C37: `C37_posix_script` (cqp), `C37_windows_script` (cqp), `C37_base64_roundtrip` (cqp), `C37_windows_step` (cqp)
* C38: `C38_trace_word_partial` (cqp), `C38_trace_iff` (cqp), `C38_backquote` (cqp)
* C39: `C39_compile_iff` (cqp), `C39_untrusted` (cqp), `C39_trusted_partial` (cqp), `C39_null_port` (cqp)
* C40: `C40_files` (cqp), `C40_mounts_resolve` (cqp), `C40_own_script` (cqp)
* C41: `C41_workspace` (cqp), `C41_host_workspace` (cqp)
* C42: `C42_workspace_path` (cqp), `C42_windows` (cqp)
* C43: `C43_expand_idempotent` (cqp), `C43_matchTag_equivalence` (cqp), `C43_match_equivalence` (cqp), `C43_match_list` (cqp), `C43_match_expand` (cqp), `C43_trim_ignores_tag` (cqp), `C43_invalid_unchanged` (cqp), `C43_hub_host_confusion` (cqp)
* C44: `C44_dind` (cqp), `C44_dind_tag` (cqp)
* C45: `C45_string` (cqp), `C45_chunking` (cqp), `C45_shape` (cqp), `C45_uniform` (cqp), `C45_prompt` (cqp)
* C46: `C46_include` (qp), `C46_exclude` (qp), `C46_resumeAt` (qp), `C46_empty` (p), `C46_resumeAt_unknown` (qp)
* C47: `C47_environ` (cqp), `C47_order` (cqp), `C47_netrc` (cqp), `C47_netrc_off` (none), `C47_proxy` (cqp)
* C48: `C48_labels_partial` (cqp), `C48_labels_panic` (cqp), `C48_host_workspace_panic` (cqp), `C48_compiled_labelled` (cqp), `C48_limits` (qp), `C48_limits_zero` (none), `C48_networks` (qp), `C48_auths` (p), `C48_limits_clobber` (none)
* C49: `C49_secretFunc` (qp), `C49_secrets` (qp), `C49_excluded` (qp)
* C50: `C50_volumes` (qp), `C50_volumeSlice` (cqp)
* C51: `C51_nil` (none), `C51_cons` (none), `C51_flatten` (q)
* C52: `C52_frame` (cqp), `C52_empty` (cqp), `C52_cr_needed` (cqp)
* C53: `C53_order` (cqp)
* C54: `C54_value` (cqp), `C54_tag` (cqp), `C54_container` (cqp), `C54_resource` (cqp)
* C55: `C55_quoted` (cqp), `C55_reader_unique` (p), `C55_plain_iff` (cqp), `C55_plain` (cqp)
* C56: `C56_chunks` (cqp)
* C57: `C57_match` (cqp), `C57_unchanged` (cqp)
* C58: `C58_printed` (cqp), `C58_idempotent` (cqp)
* C59: `C59_product` (cqp), `C59_combination` (qp), `C59_once` (qp), `C59_order` (cqp), `C59_bound` (cqp), `C59_cut` (cqp), `C59_empty_list` (p), `C59_overflow` (p)
* C60: `C60_volumes` (cqp), `C60_mounts_partial` (cqp), `C60_clone_volume` (cqp)
* C61: `C61_names_partial` (cqp), `C61_clash` (p), `C61_names_iff` (cqp)
* C62: `C62_push` (cqp), `C62_pull` (cqp), `C62_tag` (cqp), `C62_other` (cqp)
* C63: `C63_stages` (cqp), `C63_no_stages` (cqp), `C63_panic` (cqp), `C63_limits` (cqp)
* C64: `C64_trimPrefix` (cqp), `C64_selection` (cqp), `C64_deterministic` (cqp), `C64_steps` (cqp), `C64_services` (cqp), `C64_limits` (cqp)
* C65: `C65_failure` (cqp), `C65_format` (cqp), `C65_sign` (cqp), `C65_convert_partial` (cqp), `C65_convert_save_ignored` (cqp), `C65_readers` (cqp)
* C66: `C66_requested` (cqp), `C66_missing` (cqp), `C66_clone` (cqp)
* C67: `C67_trace_string_partial` (cqp), `C67_quote` (cqp), `C67_trace_iff` (cqp), `C67_ends_iff` (cqp)
* C68: `C68_plain_partial` (cqp), `C68_exceptions` (cqp), `C68_types_lost` (cqp), `C68_plain_iff` (cqp)
* C69: `C69_panic` (cqp)
* C70: `C70_copies` (cqp), `C70_filter_partial` (cqp), `C70_or` (none)
* C71: `C71_containers` (cqp)
* C72: `C72_plain` (cqp), `C72_list` (cqp), `C72_product` (cqp), `C72_lost` (cqp), `C72_reported` (cqp), `C72_reported_axis` (cqp)
* C73: `C73_order` (cqp), `C73_matrix_order` (cqp)
* C74: `C74_flags_applied` (cqp), `C74_panics_iff` (cqp)
* C75: `C75_sign_verify` (cqp), `C75_verify_iff` (cqp)
* C76: `C76_lint_iff` (cqp), `C76_manifest_not_checked` (cqp)
* C77: `C77_condition_partial` (cqp), `C77_include_ignored` (cqp), `C77_parts_ignored` (cqp), `C77_read_iff` (cqp)
* C78: `C78_container` (cqp), `C78_pipeline` (cqp), `C78_container_refused` (cqp), `C78_pipeline_refused` (cqp), `C78_key_order` (cqp), `treeLib_typed` (cqp)
* C79: `C79_volume` (cqp), `C79_volume_limits` (cqp), `C79_environment` (cqp), `C79_secrets` (qp)
* C80: `C80_constraint` (cqp), `C80_meant` (cqp), `C80_nested` (cqp)
* C81: `C81_image_partial` (p), `C81_allow_failure_ignored` (cqp)
* C82: `C82_environment_partial` (cqp), `C82_spelling_lost` (cqp), `C82_current_format` (p)
* C83: `C83_stage_partial` (cqp), `C83_parallel_panics` (cqp), `C83_panics_iff` (cqp), `C83_entry_iff` (cqp)
* C84: `C84_read_back_partial` (cqp), `C84_faithful_partial` (cqp), `C85_not_idempotent` (cqp), `C84_string_iff` (cqp)
* C85: `C85_idempotent_partial` (cqp), `C85_second_partial` (cqp), `C85_not_idempotent` (cqp)
* C86: `C86_failure` (cqp), `C86_pull` (cqp), `C86_resources_partial` (cqp), `C86_cpu_error` (cqp), `C86_cpu_exact` (cqp), `C86_cpu_loss` (cqp)
* C87: `C87_environment` (cqp), `C87_settings` (cqp)
* C88: `C88_build` (cqp), `C88_clone` (cqp)
* C89: `C89_transform` (cqp)
* C90: `C90_expand` (cqp), `C90_trim` (cqp), `C90_other` (cqp), `C90_unique` (cqp), `C90_hostname` (cqp), `C90_hostname_lost` (cqp), `C90_hostname_other` (cqp)
* C91: `C91_match` (cqp), `C91_condition` (cqp), `C91_below` (cqp), `C91_star` (cqp), `C91_literal` (cqp), `C91_all` (cqp), `C91_trailing` (cqp), `C91_laws` (cqp), `C91_push` (cqp)
* C92: `C92_accepted` (cqp), `C92_whole` (cqp), `C92_exact` (cqp), `C92_multiple` (cqp), `C92_error` (cqp), `C92_settles` (cqp), `C92_changed` (cqp), `C92_drift` (cqp), `C92_unreadable` (cqp), `C92_survives` (cqp), `C92_negative` (cqp), `C92_error_large` (cqp), `C92_readable_iff` (cqp), `C92_second_unreadable` (cqp), `C92_fits` (cqp), `C92_text` (cqp)
* C93: `C93_domain` (cqp), `C93_map` (cqp), `C93_nested` (cqp), `C93_injective` (cqp), `C93_refused` (cqp), `C93_order` (cqp), `C93_scalars` (cqp), `C93_split` (cqp), `C93_ambiguous` (cqp), `C93_clash` (cqp), `C93_compiled` (cqp)
* C94: `C94_lint_order` (qp), `C94_lint_kept` (cqp), `C94_manifest` (cqp), `C94_compile` (cqp), `C94_fmt_lint_partial` (cqp), `C94_fmt_compile_partial` (cqp), `C94_empty_variable` (cqp), `C94_refused_accepted` (cqp)
* C95: `C95_settles_partial` (cqp), `C95_sharp` (cqp)
* C96: `C96_sign_formatted_partial` (cqp), `C96_format_signed_partial` (cqp), `C96_settled_partial` (cqp), `C96_command_line_partial` (cqp), `C96_format_breaks` (cqp)
* C97: `C97_encode_partial` (cqp), `C97_parsed_partial` (cqp), `C97_same_iff` (cqp), `C97_format_panics_iff` (cqp), `C97_unformattable` (cqp), `C97_scalars` (cqp), `C97_written` (cqp), `C97_library` (cqp)
* C98: `C98_references` (cqp), `C98_axis` (cqp), `C98_good` (cqp), `C98_text_partial` (cqp), `C98_manifest_partial` (cqp), `C98_panics` (cqp), `C98_empty_variable` (cqp), `C98_number` (cqp), `C98_references_quoted` (cqp)
* C99: `C99_refused` (cqp), `C99_json` (cqp), `C99_same_iff` (cqp), `C99_parsed` (cqp), `C99_twice` (cqp), `C99_kind` (cqp), `C99_number` (cqp), `C99_number_lost` (cqp), `C99_variable_iff` (cqp)
* C100: `C100_gitlab_partial` (cqp), `C100_gitlab_no_stages_partial` (cqp), `C100_bitbucket_partial` (cqp)
* C101: `C101_repository` (cqp), `C101_no_host` (cqp), `C101_directory` (cqp), `C101_no_link` (cqp), `C101_kubernetes` (cqp), `C101_kubernetes_compiled` (cqp), `C101_dot` (cqp)
* C102: `C102_legacy_partial` (cqp), `C102_empty_variable` (cqp)
* C103: `C103_formatted_partial` (cqp), `C103_gitlab_partial` (cqp), `C103_bitbucket_partial` (cqp), `C103_legacy_partial` (cqp), `C103_blank_changes` (cqp)
* C104: `C104_slug` (cqp), `C104_slug_other` (cqp), `C104_name_unique` (cqp), `C104_services` (cqp), `C104_lint_iff` (cqp), `C104_clash` (cqp), `C104_not_injective` (cqp)
* C105: `C105_never_stuck_iff` (cqp), `C105_completes` (cqp), `C105_pipeline_iff` (cqp), `C105_runs` (cqp), `C105_clone_first` (cqp), `C105_stuck` (cqp)
* C106: `C106_legacy` (cqp), `C106_legacy_matrix` (cqp), `C106_matrix` (cqp), `C106_axes` (cqp), `C106_axes_iff` (cqp), `C106_gitlab` (cqp), `C106_bitbucket` (cqp), `C106_convert` (cqp), `C106_volumes` (cqp), `C106_secrets` (cqp), `C106_job` (cqp), `C106_parallel` (cqp), `C106_empty_item` (cqp), `C106_empty_job` (cqp)
* C107: `C107_secret_ref` (cqp), `C107_secret_decl` (cqp), `C107_constraints` (cqp), `C107_container` (cqp), `C107_image` (cqp), `C107_gitlab_job` (cqp), `C107_gitlab` (cqp), `C107_bitbucket_step` (cqp), `C107_legacy` (cqp), `C107_bitbucket` (cqp), `C107_container_refused` (cqp), `C107_job_refused` (cqp), `C107_gitlab_refused` (cqp), `C107_step_refused` (cqp), `C107_global_key` (cqp)
* C108: `C108_int` (cqp), `C108_bool` (p), `C108_float` (qp), `C108_string` (qp), `C108_size` (cqp), `C108_unique` (cqp)
* C109: `C109_legacy` (cqp), `C109_names` (cqp), `C109_service_clash` (cqp), `C109_clone` (cqp), `C109_axis` (cqp), `C109_twice` (cqp), `C109_axis_mounts` (cqp), `C109_bitbucket` (cqp)
* C110: `C110_documents` (cqp), `C110_unseen` (cqp), `C110_commands` (cqp), `C110_saved` (cqp), `C110_printed` (cqp), `C110_lost` (cqp)
* C111: `C111_matrix_partial` (cqp), `C111_example` (cqp)
* C112: `C112_accepted_iff` (cqp), `C112_read` (cqp), `C112_determined` (cqp), `C112_failed` (cqp)
* C113: `C113_commute` (cqp), `C113_order` (cqp), `C113_apart_exact` (cqp), `C113_environ` (cqp), `C113_limits` (qp), `C113_labels_first` (qp), `C113_resolve_first` (p)
* C114: `C114_accepted_iff` (cqp), `C114_read` (cqp), `C114_determined` (cqp)
* C115: `C115_legacy` (cqp), `C115_axes` (cqp), `C115_builds` (cqp), `C115_gitlab` (cqp), `C115_bitbucket` (cqp), `C115_repeated` (cqp), `C115_refused` (cqp)
* C116: `C116_reader` (cqp), `C116_file` (cqp), `C116_silent` (cqp), `C116_idle` (cqp), `C116_together` (cqp)
* C117: `C117_sound` (cqp), `C117_iff` (cqp), `C117_unambiguous` (cqp), `C117_slashes` (cqp), `C117_branch` (cqp), `C117_tag` (cqp), `C117_limits` (cqp)
* C118: `C118_runs` (cqp), `C118_stops` (cqp), `C118_status` (cqp), `C118_credentials` (cqp), `C118_step` (cqp), `C118_limits` (cqp)
* C119: `C119_runs` (cqp), `C119_shown` (cqp), `C119_stops` (cqp), `C119_status` (cqp), `C119_credentials` (cqp), `C119_step` (cqp), `C119_apostrophe` (cqp), `C119_limits` (cqp)
* C120: `C120_local` (cqp), `C120_image` (cqp), `C120_others` (cqp), `C120_parallel_leak` (cqp), `C120_image_leak` (cqp)
* C121: `Slices.C121_gitlab` (cqp), `Slices.C121_job` (cqp), `Slices.C121_gitlab_shared` (qp), `Slices.C121_unchanged_iff` (cqp), `Slices.C121_depends` (cqp), `Slices.C121_full` (qp), `Slices.C121_disjoint` (qp), `Slices.C121_again` (cqp), `Slices.C121_compile` (cqp), `Slices.C121_shared` (qp)
* C122: `Sha.C122_hash` (cqp), `Sha.C122_mac` (cqp), `Sha.C122_sign` (cqp), `Sha.C122_length` (qp), `Sha.C122_same_key` (qp), `Sha.C122_zero` (qp), `Sha.C122_long` (qp), `Sha.C122_block_iff` (qp), `Sha.C122_texts` (qp), `Sha.C122_equal` (cqp), `Sha.C122_verify` (cqp), `Sha.C122_other_key` (cqp)
* C123: `C123_nearest` (cqp), `C123_read` (cqp), `C123_injective` (cqp), `C123_shortest` (cqp), `C123_fifteen` (cqp), `C123_exponent_iff` (cqp), `C123_json_exponent_iff` (cqp), `C123_same_iff` (cqp), `C123_number` (cqp), `C123_int_iff` (cqp), `C123_plain` (cqp), `C123_line` (cqp), `C123_reread` (cqp), `C123_setting_ok` (cqp), `C123_cpu` (cqp), `C123_variable_iff` (cqp), `C123_map` (cqp), `C123_nested` (cqp), `C123_compiled` (cqp), `C123_distinct` (cqp), `C123_resolver` (cqp), `C123_differs` (cqp), `C123_tiny` (cqp), `C123_limits_iff` (cqp), `C123_limits_whole` (cqp), `C123_limits_negative` (cqp), `C123_sizes` (cqp)
* C124: `C124_true` (cqp), `C124_accepts_iff` (cqp), `C124_panic` (cqp), `C124_begins` (qp), `C124_begins_services` (qp), `C124_first_step` (cqp), `C124_trust_same` (cqp), `C124_trust_gone` (cqp), `C124_trust_message` (cqp), `C124_cyclical` (cqp), `C124_cycle_of_two` (cqp), `C124_manifest_true` (cqp), `C124_manifest_iff` (cqp), `C124_command` (cqp)
* C125: `C125_expand` (cqp), `C125_unique` (cqp), `C125_plain` (cqp), `C125_refused` (cqp), `C125_copy` (cqp), `C125_list_alias` (cqp), `C125_overlaid` (cqp), `C125_environment` (cqp), `C125_environment_reset` (cqp), `C125_when` (cqp), `C125_merge_first` (cqp), `C125_merge_last` (cqp), `C125_merge_list` (cqp), `C125_written_keys_do_not_count` (cqp), `C125_written_keys_count` (cqp), `C125_exclusions_stay` (cqp), `C125_document` (cqp), `C125_same` (cqp)
* C126: `C126_read_iff` (cqp), `C126_unambiguous` (cqp), `C126_whole_iff` (cqp), `C126_write` (cqp), `C126_indent` (cqp), `C126_same_tree` (cqp), `C126_injective` (cqp), `C126_bytes_iff` (cqp), `C126_safe` (cqp), `C126_marshal` (cqp), `C126_manifest` (cqp), `C126_manifest_iff` (cqp), `C126_accepted_iff` (cqp), `C126_same_text` (cqp), `C126_setting` (cqp)
* C127: `C127_add_step` (cqp), `C127_add_service` (cqp), `C127_remove_step` (cqp), `C127_swap_steps` (cqp), `C127_services` (cqp), `C127_rename` (qp), `C127_looks_at` (qp), `C127_trust_iff` (cqp), `C127_others` (qp), `C127_concat` (cqp), `C127_prefix` (cqp), `C127_remove_pipeline` (cqp), `C127_swap_pipelines` (cqp), `C127_rename_pipelines` (qp)
* C128: `C128_posix_iff` (cqp), `C128_windows_iff` (cqp), `C128_shown_iff` (cqp), `C128_shown_differs` (cqp), `C128_shown_alike` (cqp), `C128_shown_windows` (cqp)
* C129: `C129_same` (cqp), `C129_bare` (cqp), `C129_command` (cqp), `C129_seen` (cqp), `C129_devices` (cqp)
* C130: `C130_lines` (cqp), `C130_signature_iff` (cqp), `C130_transplant` (cqp), `C130_insert` (cqp), `C130_behind` (cqp), `C130_moved` (cqp)
* C131: `C131_confined` (cqp), `C131_steps` (cqp), `C131_places` (cqp)
* C132: `C132_result` (cqp), `C132_again` (cqp), `C132_builds_iff` (cqp), `C132_builds` (cqp), `C132_metadata` (cqp), `C132_directory` (cqp), `C132_no_ref` (cqp), `C132_oss` (cqp), `C132_command` (cqp)
* C133: `C133_variables` (cqp), `C133_commands` (cqp), `C133_windows` (cqp), `C133_precedence` (cqp), `C133_script_replaced` (cqp)
* C134: `C134_same` (cqp), `C134_bare` (cqp), `C134_inert` (cqp), `C134_manifest` (qp), `C134_counts` (p)
* C135: `C135_signature` (cqp), `C135_verified` (cqp), `C135_resources` (cqp), `C135_run` (cqp)
* C136: `C136_renamed` (cqp), `C136_build` (cqp), `C136_blank` (cqp), `C136_alpha` (cqp), `C136_command` (cqp)
* C137: `C137_lint` (qp), `C137_compile` (cqp), `C137_callbacks` (cqp), `C137_command` (cqp)
* C138: `C138_lint` (p), `C138_compile` (cqp), `C138_callbacks` (cqp), `C138_manifest` (qp), `C138_find` (p)
