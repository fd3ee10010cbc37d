import Verif.Advice.Props
import Verif.Again.Props
import Verif.Args.Props
import Verif.Attempt.Props
import Verif.Batch.Props
import Verif.Beside.Props
import Verif.Blocks.Props
import Verif.Budget.Props
import Verif.Calls.Props
import Verif.Capture.Props
import Verif.Client.Props
import Verif.Compare.Props
import Verif.Copy.Props
import Verif.Diff.Props
import Verif.Ends.Props
import Verif.Engine.Props
import Verif.Fields.Props
import Verif.Files.Props
import Verif.Flags.Props
import Verif.Funcs.Props
import Verif.Inject.Props
import Verif.Jumps.Props
import Verif.Keys.Props
import Verif.Leave.Props
import Verif.Lines.Props
import Verif.Locks.Props
import Verif.Look.Props
import Verif.Modes.Props
import Verif.Module.Props
import Verif.Monitor.Props
import Verif.Mutation.Props
import Verif.Nodes.Props
import Verif.Order.Props
import Verif.Outside.Props
import Verif.Panics.Props
import Verif.Pipeline.Props
import Verif.Pkgs.Props
import Verif.Reach.Props
import Verif.Report.Props
import Verif.Result.Props
import Verif.Returns.Props
import Verif.Runs.Props
import Verif.Sched.Props
import Verif.Scope.Props
import Verif.Script.Props
import Verif.Seen.Props
import Verif.Select.Props
import Verif.Serve.Props
import Verif.Stack.Props
import Verif.Static.Props
import Verif.Storage.Props
import Verif.Target.Props
import Verif.Temps.Props
import Verif.Tidy.Props
import Verif.Timing.Props
import Verif.Total.Props
import Verif.Util.Props
import Verif.Verdict.Props
import Verif.Versions.Props
import Verif.Whole.Props
import Verif.Wire.Props
import Verif.Workspace.Props
import Verif.Zero.Props

/-! Prints the axioms of every property theorem (generated). -/

#print axioms Verif.Storage.C01_mem_is_map
#print axioms Verif.Storage.C01_mem_load_last
#print axioms Verif.Storage.C02_mem_isolated
#print axioms Verif.Storage.C03_disk_is_map_partial
#print axioms Verif.Storage.C03_disk_load_last_partial
#print axioms Verif.Storage.C03_disk_agrees_with_mem_partial
#print axioms Verif.Storage.C03_empty_blob_violated
#print axioms Verif.Storage.C03_marker_blob_violated
#print axioms Verif.Storage.C03_reserved_key_violated
#print axioms Verif.Storage.C04_no_orphans_partial
#print axioms Verif.Storage.C04_parts_partial
#print axioms Verif.Storage.C04_hidden_key_violated
#print axioms Verif.Storage.C05_prefix_isolated
#print axioms Verif.Storage.C05_prefix_isolated_mem
#print axioms Verif.Storage.C05_prefix_isolated_disk
#print axioms Verif.Storage.C05_separator_condition_needed
#print axioms Verif.Storage.C05_empty_prefix
#print axioms Verif.Storage.C05_clear_reported
#print axioms Verif.Storage.C06_load_atomic_partial
#print axioms Verif.Storage.C06_torn_read_violated
#print axioms Verif.Storage.C06_delete_error_violated
#print axioms Verif.Wire.C07_varint_roundtrip
#print axioms Verif.Wire.C07_signed_varint_roundtrip
#print axioms Verif.Wire.C07_varint_is_leb128
#print axioms Verif.Wire.C08_point_roundtrip
#print axioms Verif.Wire.C08_state_roundtrip
#print axioms Verif.Wire.C08_panic_roundtrip
#print axioms Verif.Wire.C08_error_roundtrip
#print axioms Verif.Wire.C08_depth_unlimited
#print axioms Verif.Capture.C09_accepted_partial
#print axioms Verif.Capture.C09_text_violated
#print axioms Verif.Wire.C10_cut_point_rejected
#print axioms Verif.Wire.C10_cut_state_rejected
#print axioms Verif.Wire.C10_cut_panic_rejected
#print axioms Verif.Wire.C10_cut_error_rejected
#print axioms Verif.Workspace.C100_relative
#print axioms Verif.Workspace.C100_files_partial
#print axioms Verif.Workspace.C100_absolute_violated
#print axioms Verif.Workspace.C100_patterns
#print axioms Verif.Workspace.C100_error
#print axioms Verif.Workspace.C101_targets
#print axioms Verif.Workspace.C101_prior_partial
#print axioms Verif.Workspace.C101_prior_violated
#print axioms Verif.Fields.C102_last
#print axioms Verif.Fields.C102_exact_partial
#print axioms Verif.Fields.C102_wellformed
#print axioms Verif.Fields.C102_same_name_violated
#print axioms Verif.Fields.C103_order_partial
#print axioms Verif.Fields.C103_order_violated
#print axioms Verif.Fields.C104_distinguishes_partial
#print axioms Verif.Fields.C104_missing
#print axioms Verif.Fields.C104_strings_violated
#print axioms Verif.Fields.C104_empty_violated
#print axioms Verif.Runs.C105_own_messages_partial
#print axioms Verif.Runs.C105_violated
#print axioms Verif.Runs.C106_once
#print axioms Verif.Runs.C106_error
#print axioms Verif.Runs.C106_total_partial
#print axioms Verif.Runs.C106_violated
#print axioms Verif.Runs.C106_reached_partial
#print axioms Verif.Runs.C107_exclusive
#print axioms Verif.Runs.C107_returned
#print axioms Verif.Runs.C107_room
#print axioms Verif.Runs.C107_bounded
#print axioms Verif.Runs.C107_no_deadlock
#print axioms Verif.Runs.C107_completes
#print axioms Verif.Scope.C108_in_scope_partial
#print axioms Verif.Scope.C108_compiles_partial
#print axioms Verif.Scope.C108_end_partial
#print axioms Verif.Scope.C108_type_violated
#print axioms Verif.Scope.C108_const_violated
#print axioms Verif.Scope.C108_brace_violated
#print axioms Verif.Scope.C109_all_partial
#print axioms Verif.Scope.C109_once
#print axioms Verif.Scope.C109_order
#print axioms Verif.Scope.C109_receiver_violated
#print axioms Verif.Wire.C11_reservations_bounded_partial
#print axioms Verif.Wire.C11_struct_violated
#print axioms Verif.Temps.C110_compiles_partial
#print axioms Verif.Temps.C110_hidden_violated
#print axioms Verif.Temps.C110_share_violated
#print axioms Verif.Temps.C110_const_violated
#print axioms Verif.Temps.C111_same
#print axioms Verif.Temps.C111_reported
#print axioms Verif.Temps.C112_names_partial
#print axioms Verif.Temps.C112_texts
#print axioms Verif.Temps.C112_names_violated
#print axioms Verif.Zero.C113_zero_partial
#print axioms Verif.Zero.C113_results_partial
#print axioms Verif.Zero.C113_new_violated
#print axioms Verif.Zero.C113_redeclared_violated
#print axioms Verif.Zero.C113_same_type
#print axioms Verif.Copy.C114_complete
#print axioms Verif.Copy.C114_only
#print axioms Verif.Copy.C115_error
#print axioms Verif.Copy.C115_cause_partial
#print axioms Verif.Copy.C115_wait_partial
#print axioms Verif.Copy.C115_cause_violated
#print axioms Verif.Copy.C115_wait_violated
#print axioms Verif.Copy.C116_bounded
#print axioms Verif.Copy.C116_succeeds
#print axioms Verif.Copy.C116_possible
#print axioms Verif.Copy.C117_paths_partial
#print axioms Verif.Copy.C117_plain_partial
#print axioms Verif.Copy.C117_link_violated
#print axioms Verif.Copy.C117_root_violated
#print axioms Verif.Copy.C118_writable
#print axioms Verif.Copy.C118_keeps
#print axioms Verif.Copy.C118_returns
#print axioms Verif.Client.C119_exactly
#print axioms Verif.Client.C119_delivered_partial
#print axioms Verif.Client.C119_init_violated
#print axioms Verif.Wire.C12_varint_rejects_long_partial
#print axioms Verif.Wire.C12_varint_rejects_incomplete_partial
#print axioms Verif.Wire.C12_overflow_violated
#print axioms Verif.Wire.C12_point_id_violated
#print axioms Verif.Wire.C12_point_id_partial
#print axioms Verif.Client.C120_once
#print axioms Verif.Client.C120_bounded
#print axioms Verif.Client.C120_continues_partial
#print axioms Verif.Client.C120_nil_violated
#print axioms Verif.Client.C121_configured_partial
#print axioms Verif.Client.C121_value_partial
#print axioms Verif.Client.C121_repeat_violated
#print axioms Verif.Client.C121_gap_violated
#print axioms Verif.Select.C122_text
#print axioms Verif.Select.C122_tests_partial
#print axioms Verif.Select.C122_path_violated
#print axioms Verif.Select.C122_package_violated
#print axioms Verif.Select.C123_reproducible
#print axioms Verif.Select.C124_single_partial
#print axioms Verif.Select.C124_violated
#print axioms Verif.Diff.C125_edit_script
#print axioms Verif.Diff.C125_rebuild
#print axioms Verif.Diff.C126_apart_partial
#print axioms Verif.Diff.C126_popular_partial
#print axioms Verif.Diff.C126_violated
#print axioms Verif.Flags.C127_names
#print axioms Verif.Flags.C127_settings_partial
#print axioms Verif.Flags.C127_accepted_partial
#print axioms Verif.Flags.C127_defaults
#print axioms Verif.Flags.C127_violated
#print axioms Verif.Flags.C127_switch_violated
#print axioms Verif.Flags.C128_cache_partial
#print axioms Verif.Flags.C128_violated
#print axioms Verif.Flags.C129_custom_partial
#print axioms Verif.Flags.C129_violated
#print axioms Verif.Capture.C13_depth_and_length
#print axioms Verif.Capture.C13_texts_partial
#print axioms Verif.Capture.C13_returns_partial
#print axioms Verif.Capture.C13_terminates_violated
#print axioms Verif.Capture.C13_names_violated
#print axioms Verif.Capture.C13_cycle_text_violated
#print axioms Verif.Capture.C13_one_object_doubles
#print axioms Verif.Flags.C130_configuration
#print axioms Verif.Flags.C130_values
#print axioms Verif.Pipeline.C131_exact_partial
#print axioms Verif.Pipeline.C131_stored_partial
#print axioms Verif.Pipeline.C131_order_violated
#print axioms Verif.Pipeline.C132_listed_partial
#print axioms Verif.Pipeline.C132_stored_partial
#print axioms Verif.Pipeline.C133_repeat_partial
#print axioms Verif.Pipeline.C133_panic_violated
#print axioms Verif.Reach.C134_run_partial
#print axioms Verif.Reach.C134_only
#print axioms Verif.Reach.C134_direct_violated
#print axioms Verif.Reach.C135_reachable_partial
#print axioms Verif.Pkgs.C136_exact
#print axioms Verif.Pkgs.C136_found_partial
#print axioms Verif.Pkgs.C136_right
#print axioms Verif.Pkgs.C136_documentation_violated
#print axioms Verif.Pkgs.C137_sources_partial
#print axioms Verif.Pkgs.C137_crash_violated
#print axioms Verif.Pkgs.C137_inside_violated
#print axioms Verif.Pkgs.C137_crash_exact
#print axioms Verif.Pkgs.C137_gaveUp_exact
#print axioms Verif.Total.C138_disk_partial
#print axioms Verif.Total.C138_memory_partial
#print axioms Verif.Total.C139_disk_partial
#print axioms Verif.Total.C139_memory_partial
#print axioms Verif.Total.C139_order_partial
#print axioms Verif.Total.C139_reused_violated
#print axioms Verif.Capture.C14_marker_same_address_partial
#print axioms Verif.Capture.C14_full_partial
#print axioms Verif.Capture.C14_sharing_violated
#print axioms Verif.Capture.C14_empty_slices_violated
#print axioms Verif.Sched.C140_serial
#print axioms Verif.Sched.C140_stored
#print axioms Verif.Sched.C140_error
#print axioms Verif.Sched.C140_possible
#print axioms Verif.Sched.C140_disk
#print axioms Verif.Sched.C140_memory
#print axioms Verif.Sched.C140_reports_partial
#print axioms Verif.Verdict.C141_report_partial
#print axioms Verif.Verdict.C141_file_partial
#print axioms Verif.Verdict.C142_table_partial
#print axioms Verif.Verdict.C142_json_partial
#print axioms Verif.Verdict.C142_clean
#print axioms Verif.Timing.C143_times_partial
#print axioms Verif.Timing.C143_file_partial
#print axioms Verif.Timing.C143_steady
#print axioms Verif.Workspace.C144_patterns_partial
#print axioms Verif.Workspace.C144_agree_partial
#print axioms Verif.Workspace.C144_error
#print axioms Verif.Workspace.C144_agree_violated
#print axioms Verif.Whole.C145_tested_partial
#print axioms Verif.Whole.C145_only
#print axioms Verif.Whole.C145_clean_partial
#print axioms Verif.Whole.C146_reachable_partial
#print axioms Verif.Whole.C146_reached
#print axioms Verif.Whole.C146_untracked
#print axioms Verif.Whole.C146_counts
#print axioms Verif.Whole.C146_cover_partial
#print axioms Verif.Seen.C147_delivered_partial
#print axioms Verif.Seen.C147_genuine_partial
#print axioms Verif.Seen.C147_exact_partial
#print axioms Verif.Seen.C147_shared_violated
#print axioms Verif.Seen.C148_listed_partial
#print axioms Verif.Seen.C148_quiet
#print axioms Verif.Seen.C148_number_partial
#print axioms Verif.Seen.C148_text_partial
#print axioms Verif.Seen.C149_report_partial
#print axioms Verif.Wire.C15_short_unchanged
#print axioms Verif.Wire.C15_long_truncated
#print axioms Verif.Wire.C15_captured_text_faithful
#print axioms Verif.Blocks.C150_never_partial
#print axioms Verif.Blocks.C150_unmarked
#print axioms Verif.Blocks.C150_points
#print axioms Verif.Blocks.C150_recover_violated
#print axioms Verif.Blocks.C150_panic_violated
#print axioms Verif.Blocks.C150_calls_violated
#print axioms Verif.Look.C151_table
#print axioms Verif.Look.C151_stable
#print axioms Verif.Look.C151_mutations
#print axioms Verif.Look.C151_cover_partial
#print axioms Verif.Look.C151_time
#print axioms Verif.Look.C151_axis_partial
#print axioms Verif.Look.C151_axis_violated
#print axioms Verif.Look.C151_cover_violated
#print axioms Verif.Advice.C152_told_partial
#print axioms Verif.Advice.C152_dependency_partial
#print axioms Verif.Advice.C152_true_partial
#print axioms Verif.Advice.C152_goes_on
#print axioms Verif.Advice.C152_version_violated
#print axioms Verif.Advice.C152_name_violated
#print axioms Verif.Advice.C152_broken_violated
#print axioms Verif.Budget.C153_opens
#print axioms Verif.Budget.C153_accepted
#print axioms Verif.Budget.C153_memory_partial
#print axioms Verif.Budget.C153_memory_bound
#print axioms Verif.Budget.C153_refused
#print axioms Verif.Budget.C153_memory_violated
#print axioms Verif.Target.C154_skipped
#print axioms Verif.Target.C154_run_partial
#print axioms Verif.Target.C154_reaching
#print axioms Verif.Target.C154_same_name_violated
#print axioms Verif.Tidy.C155_report_partial
#print axioms Verif.Tidy.C155_unchanged_partial
#print axioms Verif.Args.C156_same_partial
#print axioms Verif.Args.C156_compiles_partial
#print axioms Verif.Args.C156_several_violated
#print axioms Verif.Args.C156_constant_violated
#print axioms Verif.Args.C156_big_violated
#print axioms Verif.Args.C156_package_violated
#print axioms Verif.Args.C156_method_violated
#print axioms Verif.Args.C156_scope_violated
#print axioms Verif.Args.C156_shadow_violated
#print axioms Verif.Jumps.C157_returns
#print axioms Verif.Jumps.C157_calls_partial
#print axioms Verif.Jumps.C157_both_partial
#print axioms Verif.Jumps.C157_goto_violated
#print axioms Verif.Stack.C158_frames
#print axioms Verif.Stack.C158_accepted
#print axioms Verif.Stack.C158_path_partial
#print axioms Verif.Stack.C158_prefix
#print axioms Verif.Stack.C158_deep_violated
#print axioms Verif.Beside.C159_genuine
#print axioms Verif.Beside.C159_waits
#print axioms Verif.Beside.C159_crashes
#print axioms Verif.Beside.C159_same_partial
#print axioms Verif.Beside.C159_synchronised_partial
#print axioms Verif.Beside.C159_unlocked_violated
#print axioms Verif.Capture.C16_order_partial
#print axioms Verif.Capture.C16_same_entries_partial
#print axioms Verif.Capture.C16_nan_violated
#print axioms Verif.Capture.C16_type_names_violated
#print axioms Verif.Capture.C16_addresses_violated
#print axioms Verif.Keys.C160_exact
#print axioms Verif.Keys.C160_ends_partial
#print axioms Verif.Keys.C160_quiet_partial
#print axioms Verif.Keys.C160_effects_violated
#print axioms Verif.Keys.C160_endless_violated
#print axioms Verif.Keys.C160_panic_violated
#print axioms Verif.Attempt.C161_regression
#print axioms Verif.Attempt.C161_watched_partial
#print axioms Verif.Attempt.C161_unbuilt
#print axioms Verif.Attempt.C161_unbuilt_violated
#print axioms Verif.Attempt.C161_late_violated
#print axioms Verif.Serve.C162_errors
#print axioms Verif.Serve.C162_stopped
#print axioms Verif.Serve.C162_served_partial
#print axioms Verif.Serve.C162_known
#print axioms Verif.Serve.C162_count
#print axioms Verif.Serve.C162_late_violated
#print axioms Verif.Nodes.C163_found_partial
#print axioms Verif.Nodes.C163_callers_partial
#print axioms Verif.Nodes.C163_generic
#print axioms Verif.Nodes.C163_init
#print axioms Verif.Nodes.C163_report_partial
#print axioms Verif.Nodes.C163_init_violated
#print axioms Verif.Nodes.C163_edges_violated
#print axioms Verif.Locks.C164_ends
#print axioms Verif.Locks.C164_bounded
#print axioms Verif.Locks.C164_progress
#print axioms Verif.Inject.C165_client_violated
#print axioms Verif.Inject.C165_name
#print axioms Verif.Inject.C165_client_partial
#print axioms Verif.Inject.C166_types_violated
#print axioms Verif.Inject.C166_sibling_violated
#print axioms Verif.Inject.C166_types_partial
#print axioms Verif.Inject.C166_untyped
#print axioms Verif.Inject.C166_fields_violated
#print axioms Verif.Inject.C166_report_violated
#print axioms Verif.Versions.C167_complete_partial
#print axioms Verif.Versions.C167_sound_partial
#print axioms Verif.Versions.C167_functions_partial
#print axioms Verif.Versions.C167_listed_partial
#print axioms Verif.Versions.C167_lower_violated
#print axioms Verif.Versions.C167_two_violated
#print axioms Verif.Versions.C167_new_violated
#print axioms Verif.Versions.C167_replaced_violated
#print axioms Verif.Versions.C167_target_violated
#print axioms Verif.Script.C168_quoted
#print axioms Verif.Script.C168_all_partial
#print axioms Verif.Script.C168_abstract
#print axioms Verif.Script.C168_blank
#print axioms Verif.Script.C168_mutant
#print axioms Verif.Script.C168_blank_violated
#print axioms Verif.Script.C168_pattern_violated
#print axioms Verif.Again.C169_once_partial
#print axioms Verif.Again.C169_again
#print axioms Verif.Again.C169_again_violated
#print axioms Verif.Again.C169_shared_violated
#print axioms Verif.Again.C169_given_violated
#print axioms Verif.Again.C169_refused
#print axioms Verif.Again.C169_start_kept
#print axioms Verif.Wire.C17_all_or_nothing
#print axioms Verif.Wire.C17_state_delivered
#print axioms Verif.Wire.C17_cut_state_no_effect
#print axioms Verif.Order.C170_order_partial
#print axioms Verif.Order.C170_direct
#print axioms Verif.Order.C170_order_violated
#print axioms Verif.Order.C170_requests_violated
#print axioms Verif.Modes.C171_restored
#print axioms Verif.Modes.C171_works
#print axioms Verif.Modes.C171_denied
#print axioms Verif.Modes.C171_again
#print axioms Verif.Modes.C171_mode_partial
#print axioms Verif.Modes.C171_mode_violated
#print axioms Verif.Modes.C171_copy
#print axioms Verif.Modes.C171_copied
#print axioms Verif.Modes.C171_exec_violated
#print axioms Verif.Leave.C172_left_partial
#print axioms Verif.Leave.C172_sources_partial
#print axioms Verif.Leave.C172_left_violated
#print axioms Verif.Outside.C173_module_partial
#print axioms Verif.Outside.C173_places_partial
#print axioms Verif.Outside.C173_std_violated
#print axioms Verif.Outside.C173_std_meant
#print axioms Verif.Outside.C173_std_slash
#print axioms Verif.Outside.C173_cache_violated
#print axioms Verif.Result.C18_roundtrip_partial
#print axioms Verif.Result.C18_roundtrip_flat_partial
#print axioms Verif.Result.C18_roundtrip_violated
#print axioms Verif.Result.C18_reused_receiver_violated
#print axioms Verif.Result.C19_order_independent
#print axioms Verif.Result.C19_distinguishes_partial
#print axioms Verif.Result.C19_distinguishes_flat_partial
#print axioms Verif.Result.C19_node
#print axioms Verif.Result.C19_empty
#print axioms Verif.Result.C19_short
#print axioms Verif.Result.C19_nesting_violated
#print axioms Verif.Result.C19_inner_value_violated
#print axioms Verif.Result.C20_flatten_partial
#print axioms Verif.Result.C20_flatten_sound
#print axioms Verif.Result.C20_compare_partial
#print axioms Verif.Result.C20_dot_in_name_violated
#print axioms Verif.Result.C21_encoded_data_decodes
#print axioms Verif.Result.C21_bad_reference_rejected
#print axioms Verif.Result.C21_cyclic_data_never_decodes
#print axioms Verif.Monitor.C22_ids_consecutive
#print axioms Verif.Monitor.C22_ids_distinct
#print axioms Verif.Monitor.C22_error_only_when_exhausted
#print axioms Verif.Monitor.C22_retry_means_progress
#print axioms Verif.Monitor.C23_result_complete
#print axioms Verif.Monitor.C23_arrival_order
#print axioms Verif.Monitor.C23_completes
#print axioms Verif.Monitor.C23_no_deadlock
#print axioms Verif.Monitor.C23_every_step_uses_work
#print axioms Verif.Monitor.C23_exclusive
#print axioms Verif.Monitor.C23_unknown_point_hangs_violated
#print axioms Verif.Monitor.C24_fields
#print axioms Verif.Monitor.C24_sorted
#print axioms Verif.Monitor.C24_frames
#print axioms Verif.Monitor.C24_result
#print axioms Verif.Monitor.C24_self
#print axioms Verif.Monitor.C25_panics
#print axioms Verif.Monitor.C25_panics_order
#print axioms Verif.Monitor.C25_no_empty_entry
#print axioms Verif.Monitor.C25_result
#print axioms Verif.Monitor.C26_lines_ignored
#print axioms Verif.Monitor.C26_keys_identify_partial
#print axioms Verif.Monitor.C26_colon_violated
#print axioms Verif.Monitor.C26_frames_merged_violated
#print axioms Verif.Monitor.C26_callers_foreign
#print axioms Verif.Monitor.C26_callers_partial
#print axioms Verif.Monitor.C26_extensions_partial
#print axioms Verif.Monitor.C27_relative_partial
#print axioms Verif.Monitor.C27_checkout_independent_partial
#print axioms Verif.Monitor.C27_external_never_project
#print axioms Verif.Monitor.C27_kept_partial
#print axioms Verif.Monitor.C27_dotdot_name_violated
#print axioms Verif.Monitor.C27_no_panic_partial
#print axioms Verif.Monitor.C27_goroot_slice_violated
#print axioms Verif.Compare.C28_self_compare
#print axioms Verif.Compare.C29_counts
#print axioms Verif.Compare.C29_leaf_counts_partial
#print axioms Verif.Compare.C29_totals
#print axioms Verif.Compare.C29_zero_iff
#print axioms Verif.Compare.C29_zero_iff_partial
#print axioms Verif.Compare.C29_empty_frame_violated
#print axioms Verif.Compare.C29_order_irrelevant
#print axioms Verif.Compare.C30_symmetric_difference
#print axioms Verif.Compare.C30_symmetric
#print axioms Verif.Compare.C30_order_irrelevant
#print axioms Verif.Compare.C30_zero_iff
#print axioms Verif.Compare.C31_regression_iff
#print axioms Verif.Compare.C31_own_report
#print axioms Verif.Compare.C31_ghost_entry_violated
#print axioms Verif.Compare.C32_exact_partial
#print axioms Verif.Compare.C32_overflow_violated
#print axioms Verif.Compare.C32_reported_partial
#print axioms Verif.Compare.C32_hidden_regression_violated
#print axioms Verif.Compare.C33_diff_iff_partial
#print axioms Verif.Compare.C33_fallback_shows_values
#print axioms Verif.Compare.C33_large
#print axioms Verif.Compare.C33_large_violated
#print axioms Verif.Diff.C33_lines_partial
#print axioms Verif.Diff.C33_text_determines
#print axioms Verif.Diff.C33_hash_violated
#print axioms Verif.Module.C34_exact
#print axioms Verif.Module.C34_once
#print axioms Verif.Module.C34_workspace
#print axioms Verif.Module.C35_oldest
#print axioms Verif.Module.C35_order
#print axioms Verif.Module.C35_numeric
#print axioms Verif.Module.C35_minimum_partial
#print axioms Verif.Module.C35_missing
#print axioms Verif.Module.C35_violated
#print axioms Verif.Module.C36_extreme
#print axioms Verif.Module.C37_precedence
#print axioms Verif.Module.C37_total
#print axioms Verif.Module.C37_equal
#print axioms Verif.Module.C37_text
#print axioms Verif.Module.C37_prerelease
#print axioms Verif.Module.C38_terminates
#print axioms Verif.Module.C38_succeeds
#print axioms Verif.Module.C38_once
#print axioms Verif.Module.C38_names
#print axioms Verif.Module.C38_complete_partial
#print axioms Verif.Module.C38_violated
#print axioms Verif.Module.C38_workspace_violated
#print axioms Verif.Diff.C39_unmarked_same
#print axioms Verif.Module.C39_length
#print axioms Verif.Module.C39_complete
#print axioms Verif.Module.C39_complete_new
#print axioms Verif.Module.C39_sound
#print axioms Verif.Module.C39_radius
#print axioms Verif.Module.C39_radius_new
#print axioms Verif.Module.C39_kept
#print axioms Verif.Module.C40_partition
#print axioms Verif.Module.C41_distinct
#print axioms Verif.Module.C41_folded_partial
#print axioms Verif.Module.C41_violated
#print axioms Verif.Module.C41_written
#print axioms Verif.Static.C42_terminates
#print axioms Verif.Static.C42_visits
#print axioms Verif.Static.C42_callers_partial
#print axioms Verif.Static.C42_error
#print axioms Verif.Static.C42_violated
#print axioms Verif.Static.C43_tests_partial
#print axioms Verif.Static.C43_terminates
#print axioms Verif.Static.C43_violated
#print axioms Verif.Static.C44_unique
#print axioms Verif.Static.C44_short
#print axioms Verif.Static.C44_short_flat
#print axioms Verif.Static.C45_merge
#print axioms Verif.Files.C46_restore_partial
#print axioms Verif.Files.C46_loop_violated
#print axioms Verif.Files.C46_restore_violated
#print axioms Verif.Files.C46_others_partial
#print axioms Verif.Files.C46_copy
#print axioms Verif.Files.C47_crash_partial
#print axioms Verif.Files.C47_failed_backup
#print axioms Verif.Files.C47_crash_violated
#print axioms Verif.Files.C48_gomod_partial
#print axioms Verif.Files.C48_gomod_violated
#print axioms Verif.Returns.C49_same_any
#print axioms Verif.Returns.C49_same
#print axioms Verif.Returns.C49_same_late
#print axioms Verif.Returns.C49_reports_partial
#print axioms Verif.Returns.C49_end
#print axioms Verif.Returns.C49_panic
#print axioms Verif.Returns.C49_ids
#print axioms Verif.Returns.C49_elseif_violated
#print axioms Verif.Returns.C49_select_violated
#print axioms Verif.Returns.C49_label_violated
#print axioms Verif.Returns.C49_end_violated
#print axioms Verif.Returns.C49_order_violated
#print axioms Verif.Calls.C50_calls_partial
#print axioms Verif.Calls.C50_loop_violated
#print axioms Verif.Calls.C50_condition_violated
#print axioms Verif.Calls.C50_order_violated
#print axioms Verif.Calls.C50_selector_violated
#print axioms Verif.Calls.C50_init_violated
#print axioms Verif.Calls.C50_init_kept
#print axioms Verif.Calls.C50_defer_violated
#print axioms Verif.Calls.C50_recover_violated
#print axioms Verif.Calls.C50_receiver_violated
#print axioms Verif.Lines.C51_lines
#print axioms Verif.Lines.C51_remove
#print axioms Verif.Lines.C51_outside
#print axioms Verif.Batch.C52_once
#print axioms Verif.Batch.C52_one_worker
#print axioms Verif.Batch.C52_schedule
#print axioms Verif.Batch.C52_clients
#print axioms Verif.Batch.C52_both_partial
#print axioms Verif.Batch.C52_both_violated
#print axioms Verif.Util.C53_at_most_limit
#print axioms Verif.Util.C53_join_waits
#print axioms Verif.Util.C53_no_deadlock
#print axioms Verif.Util.C53_take_after_join_hangs
#print axioms Verif.Util.C54_exclusion
#print axioms Verif.Util.C54_free_lock_available
#print axioms Verif.Util.C55_tail
#print axioms Verif.Util.C55_bounded
#print axioms Verif.Util.C55_small_limit
#print axioms Verif.Util.C55_fits
#print axioms Verif.Util.C56_write_partial
#print axioms Verif.Util.C56_uneven_noticed
#print axioms Verif.Util.C56_close_partial
#print axioms Verif.Util.C56_no_writer_violated
#print axioms Verif.Util.C57_no_ld
#print axioms Verif.Util.C57_value
#print axioms Verif.Util.C57_requested
#print axioms Verif.Util.C57_others_unchanged
#print axioms Verif.Util.C58_within_partial
#print axioms Verif.Util.C58_outside_rejected
#print axioms Verif.Util.C58_dotdot_name_violated
#print axioms Verif.Util.C59_short
#print axioms Verif.Util.C59_head
#print axioms Verif.Util.C59_tail
#print axioms Verif.Util.C59_zero
#print axioms Verif.Engine.C60_valid_partial
#print axioms Verif.Engine.C60_result
#print axioms Verif.Engine.C60_once
#print axioms Verif.Engine.C60_failed_partial
#print axioms Verif.Engine.C60_charts_violated
#print axioms Verif.Engine.C60_charttype_violated
#print axioms Verif.Engine.C60_retry_violated
#print axioms Verif.Engine.C61_single_partial
#print axioms Verif.Engine.C61_list
#print axioms Verif.Engine.C61_unique
#print axioms Verif.Engine.C61_plain_violated
#print axioms Verif.Engine.C61_twice_violated
#print axioms Verif.Engine.C62_cleanup
#print axioms Verif.Engine.C62_order
#print axioms Verif.Engine.C62_report_partial
#print axioms Verif.Engine.C62_silent_violated
#print axioms Verif.Engine.C62_failing_violated
#print axioms Verif.Report.C63_functions
#print axioms Verif.Report.C63_tests_partial
#print axioms Verif.Report.C63_details_partial
#print axioms Verif.Report.C63_twice_violated
#print axioms Verif.Report.C63_times_violated
#print axioms Verif.Report.C63_texts
#print axioms Verif.Report.C63_generated
#print axioms Verif.Report.C64_saved_partial
#print axioms Verif.Report.C64_merged_violated
#print axioms Verif.Report.C64_charts_partial
#print axioms Verif.Report.C64_twice_violated
#print axioms Verif.Report.C64_text_violated
#print axioms Verif.Report.C64_count_violated
#print axioms Verif.Report.C65_order
#print axioms Verif.Report.C65_stable
#print axioms Verif.Report.C65_complete
#print axioms Verif.Report.C65_rows
#print axioms Verif.Report.C65_riskiest_partial
#print axioms Verif.Report.C65_generated_violated
#print axioms Verif.Report.C66_fields
#print axioms Verif.Report.C66_mutations
#print axioms Verif.Report.C66_exact
#print axioms Verif.Report.C66_close
#print axioms Verif.Mutation.C67_restored_partial
#print axioms Verif.Mutation.C67_kept
#print axioms Verif.Mutation.C67_verdict
#print axioms Verif.Mutation.C67_between_violated
#print axioms Verif.Mutation.C67_back_violated
#print axioms Verif.Mutation.C67_next_violated
#print axioms Verif.Mutation.C67_compile_violated
#print axioms Verif.Mutation.C68_selected
#print axioms Verif.Mutation.C68_lines
#print axioms Verif.Mutation.C68_scope_partial
#print axioms Verif.Mutation.C68_aligned_violated
#print axioms Verif.Mutation.C68_beyond_violated
#print axioms Verif.Mutation.C68_match_partial
#print axioms Verif.Mutation.C68_match_violated
#print axioms Verif.Engine.C69_paths_partial
#print axioms Verif.Engine.C69_apart
#print axioms Verif.Engine.C69_disposable_partial
#print axioms Verif.Engine.C69_modcache_violated
#print axioms Verif.Engine.C69_leak_violated
#print axioms Verif.Monitor.C70_max_point_id_violated
#print axioms Verif.Monitor.C70_max_point_id_partial
#print axioms Verif.Monitor.C71_filter
#print axioms Verif.Monitor.C71_no_baseline
#print axioms Verif.Compare.C72_field_changes
#print axioms Verif.Compare.C72_texts_not_empty
#print axioms Verif.Static.C73_edges_partial
#print axioms Verif.Static.C73_violated
#print axioms Verif.Static.C74_terminates
#print axioms Verif.Static.C74_created
#print axioms Verif.Static.C75_tests_partial
#print axioms Verif.Static.C75_violated
#print axioms Verif.Files.C76_sources_partial
#print axioms Verif.Files.C76_gomod_partial
#print axioms Verif.Files.C76_rerun_violated
#print axioms Verif.Files.C77_commit
#print axioms Verif.Lines.C78_between_partial
#print axioms Verif.Lines.C78_between_violated
#print axioms Verif.Mutation.C79_counts_partial
#print axioms Verif.Mutation.C79_unknown
#print axioms Verif.Mutation.C79_at_most
#print axioms Verif.Mutation.C79_score_violated
#print axioms Verif.Mutation.C80_restored_partial
#print axioms Verif.Mutation.C80_early_violated
#print axioms Verif.Engine.C81_counts_partial
#print axioms Verif.Engine.C81_unreachable_violated
#print axioms Verif.Report.C82_root
#print axioms Verif.Report.C83_impact_partial
#print axioms Verif.Report.C83_cover_partial
#print axioms Verif.Report.C83_rounding_violated
#print axioms Verif.Report.C83_untracked_violated
#print axioms Verif.Report.C84_unit
#print axioms Verif.Report.C84_faster_partial
#print axioms Verif.Report.C84_slower_violated
#print axioms Verif.Report.C85_summary_partial
#print axioms Verif.Report.C85_count_violated
#print axioms Verif.Report.C85_order_violated
#print axioms Verif.Capture.C86_not_unrolled_partial
#print axioms Verif.Capture.C86_violated
#print axioms Verif.Calls.C87_reports_partial
#print axioms Verif.Calls.C87_uncalled_violated
#print axioms Verif.Calls.C88_every_call_partial
#print axioms Verif.Calls.C88_count_partial
#print axioms Verif.Calls.C88_missed_violated
#print axioms Verif.Calls.C89_twice_partial
#print axioms Verif.Calls.C89_inner_violated
#print axioms Verif.Calls.C90_numbers
#print axioms Verif.Panics.C91_same_partial
#print axioms Verif.Panics.C91_nil_violated
#print axioms Verif.Panics.C92_places
#print axioms Verif.Panics.C92_panics
#print axioms Verif.Panics.C92_nil_violated
#print axioms Verif.Panics.C93_entry_count
#print axioms Verif.Panics.C93_finish_count
#print axioms Verif.Panics.C93_entry
#print axioms Verif.Panics.C93_finish
#print axioms Verif.Ends.C94_never_partial
#print axioms Verif.Ends.C94_unmarked
#print axioms Verif.Ends.C94_recover_violated
#print axioms Verif.Ends.C94_marked
#print axioms Verif.Funcs.C95_watched_partial
#print axioms Verif.Funcs.C95_only
#print axioms Verif.Funcs.C95_init_violated
#print axioms Verif.Funcs.C96_exact
#print axioms Verif.Funcs.C96_ids
#print axioms Verif.Funcs.C96_disjoint
#print axioms Verif.Funcs.C96_sides
#print axioms Verif.Funcs.C97_changed_partial
#print axioms Verif.Funcs.C97_init_violated
#print axioms Verif.Funcs.C97_print_violated
#print axioms Verif.Funcs.C97_error
#print axioms Verif.Workspace.C98_exact_partial
#print axioms Verif.Workspace.C98_once_partial
#print axioms Verif.Workspace.C98_error
#print axioms Verif.Workspace.C98_absolute_violated
#print axioms Verif.Workspace.C98_twice_violated
#print axioms Verif.Workspace.C99_exact_partial
#print axioms Verif.Workspace.C99_error
#print axioms Verif.Workspace.C99_blind_violated
#print axioms Verif.Workspace.C99_ellipsis_violated
