{
 "claims": [
  {
   "property": "C01",
   "status": "proved",
   "theorems": [
    "Verif.Storage.C01_mem_is_map",
    "Verif.Storage.C01_mem_load_last"
   ],
   "note": "Simulation of the abstract map for all histories."
  },
  {
   "property": "C02",
   "status": "proved",
   "theorems": [
    "Verif.Storage.C02_mem_isolated"
   ],
   "note": "Heap-of-buffers model; invariant that storage buffers are never reachable by the caller."
  },
  {
   "property": "C03",
   "status": "partial",
   "theorems": [
    "Verif.Storage.C03_disk_is_map_partial",
    "Verif.Storage.C03_disk_load_last_partial",
    "Verif.Storage.C03_disk_agrees_with_mem_partial",
    "Verif.Storage.C03_empty_blob_violated",
    "Verif.Storage.C03_marker_blob_violated",
    "Verif.Storage.C03_reserved_key_violated"
   ],
   "note": "Proved for all thresholds and histories over non-empty, non-marker-shaped blobs and non-reserved keys; each exclusion is a proved violation (empty blob loads as not found, marker-shaped blob errors, reserved keys collide)."
  },
  {
   "property": "C04",
   "status": "partial",
   "theorems": [
    "Verif.Storage.C04_no_orphans_partial",
    "Verif.Storage.C04_parts_partial",
    "Verif.Storage.C04_hidden_key_violated"
   ],
   "note": "Same exclusions as C03; hidden reserved keys are a proved violation."
  },
  {
   "property": "C05",
   "status": "proved",
   "theorems": [
    "Verif.Storage.C05_prefix_isolated",
    "Verif.Storage.C05_prefix_isolated_mem",
    "Verif.Storage.C05_prefix_isolated_disk",
    "Verif.Storage.C05_separator_condition_needed",
    "Verif.Storage.C05_empty_prefix",
    "Verif.Storage.C05_clear_reported"
   ],
   "note": "Proved for any map-like backing storage, instantiated for the in-memory and disk storages. The empty prefix is the storage itself; clearing reports exactly whether all deletions succeeded, for any storage."
  },
  {
   "property": "C06",
   "status": "partial",
   "theorems": [
    "Verif.Storage.C06_load_atomic_partial",
    "Verif.Storage.C06_torn_read_violated",
    "Verif.Storage.C06_delete_error_violated"
   ],
   "note": "Violated: torn reads and spurious errors for split values. Proved for unsplit values and equal-length overwrites."
  },
  {
   "property": "C07",
   "status": "proved",
   "theorems": [
    "Verif.Wire.C07_varint_roundtrip",
    "Verif.Wire.C07_signed_varint_roundtrip",
    "Verif.Wire.C07_varint_is_leb128"
   ],
   "note": "Round trip for all 2^64 values, exact consumption, ten byte bound, and agreement with an independent LEB128 definition."
  },
  {
   "property": "C08",
   "status": "proved",
   "theorems": [
    "Verif.Wire.C08_point_roundtrip",
    "Verif.Wire.C08_state_roundtrip",
    "Verif.Wire.C08_panic_roundtrip",
    "Verif.Wire.C08_error_roundtrip",
    "Verif.Wire.C08_depth_unlimited"
   ],
   "note": "Round trip for all four messages and all field trees within the protocol limits (strings up to 4 GiB, containers up to the configured limit, 2048 frames); decoder recursion proved independent of the depth allowance."
  },
  {
   "property": "C09",
   "status": "partial",
   "theorems": [
    "Verif.Capture.C09_accepted_partial",
    "Verif.Capture.C09_text_violated"
   ],
   "note": "For all values and heaps that fit (names, paths and type names below 4 GiB, texts below 2^64 bytes) the message the client builds is decoded to the captured fields. Messages of panics of 4 GiB or more are rejected (violated). Captures that do not return are C13."
  },
  {
   "property": "C10",
   "status": "proved",
   "theorems": [
    "Verif.Wire.C10_cut_point_rejected",
    "Verif.Wire.C10_cut_state_rejected",
    "Verif.Wire.C10_cut_panic_rejected",
    "Verif.Wire.C10_cut_error_rejected"
   ],
   "note": "Every strict prefix of every exactly-consumed message is rejected, for all four messages."
  },
  {
   "property": "C11",
   "status": "partial",
   "theorems": [
    "Verif.Wire.C11_reservations_bounded_partial",
    "Verif.Wire.C11_struct_violated"
   ],
   "note": "Violated for struct field counts (20 byte message reserving 2^40 entries); all other reservations proved bounded for every input."
  },
  {
   "property": "C12",
   "status": "partial",
   "theorems": [
    "Verif.Wire.C12_varint_rejects_long_partial",
    "Verif.Wire.C12_varint_rejects_incomplete_partial",
    "Verif.Wire.C12_overflow_violated",
    "Verif.Wire.C12_point_id_violated",
    "Verif.Wire.C12_point_id_partial"
   ],
   "note": "Violated: ten-byte numbers above 2^64 and point ids above 2^32 are silently truncated. Exact characterisation of what is accepted is proved; numbers longer than ten bytes are rejected."
  },
  {
   "property": "C13",
   "status": "partial",
   "theorems": [
    "Verif.Capture.C13_depth_and_length",
    "Verif.Capture.C13_texts_partial",
    "Verif.Capture.C13_returns_partial",
    "Verif.Capture.C13_terminates_violated",
    "Verif.Capture.C13_names_violated",
    "Verif.Capture.C13_cycle_text_violated",
    "Verif.Capture.C13_one_object_doubles"
   ],
   "note": "Depth and length bounds hold in full; texts are bounded except cycle markers; captures return unless a pointer or interface leads to itself directly. Violations proved: x = &x never returns, map key names and cycle markers are not limited. A heap with one object can give 2^depth fields."
  },
  {
   "property": "C14",
   "status": "partial",
   "theorems": [
    "Verif.Capture.C14_marker_same_address_partial",
    "Verif.Capture.C14_full_partial",
    "Verif.Capture.C14_sharing_violated",
    "Verif.Capture.C14_empty_slices_violated"
   ],
   "note": "Markers name a part at the same address; values whose addresses are all different are captured in full. Violations proved: shared acyclic pointers and separate empty slices are reported as cycles."
  },
  {
   "property": "C15",
   "status": "proved",
   "theorems": [
    "Verif.Wire.C15_short_unchanged",
    "Verif.Wire.C15_long_truncated",
    "Verif.Wire.C15_captured_text_faithful"
   ],
   "note": "Exact shape of the truncation and injectivity on (length, first limit bytes) for all strings and limits."
  },
  {
   "property": "C16",
   "status": "partial",
   "theorems": [
    "Verif.Capture.C16_order_partial",
    "Verif.Capture.C16_same_entries_partial",
    "Verif.Capture.C16_nan_violated",
    "Verif.Capture.C16_type_names_violated",
    "Verif.Capture.C16_addresses_violated"
   ],
   "note": "Same entries for any iteration order when keys contain no NaN and type names identify types. Violations proved for NaN, equal type names and (between runs) addresses."
  },
  {
   "property": "C17",
   "status": "proved",
   "theorems": [
    "Verif.Wire.C17_all_or_nothing",
    "Verif.Wire.C17_state_delivered",
    "Verif.Wire.C17_cut_state_no_effect"
   ],
   "note": "Decision table of the handlers for all requests, combined with the decoder (delivered exactly once / no effect when cut short). net/http itself is not modelled."
  },
  {
   "property": "C18",
   "status": "partial",
   "theorems": [
    "Verif.Result.C18_roundtrip_partial",
    "Verif.Result.C18_roundtrip_flat_partial",
    "Verif.Result.C18_roundtrip_violated",
    "Verif.Result.C18_reused_receiver_violated"
   ],
   "note": "Round trip proved for every result, every dictionary choice and every listing order, assuming no hash collision and that maps writing the same bytes have the same content; full round trip for field maps without nesting. Violated in general: nested maps are not terminated in the hashed stream, so two differently nested trees share a key and one replaces the other; a reused receiver keeps stale extension frames. msgpack itself is modelled as identity up to omitempty."
  },
  {
   "property": "C19",
   "status": "partial",
   "theorems": [
    "Verif.Result.C19_order_independent",
    "Verif.Result.C19_distinguishes_partial",
    "Verif.Result.C19_distinguishes_flat_partial",
    "Verif.Result.C19_node",
    "Verif.Result.C19_empty",
    "Verif.Result.C19_short",
    "Verif.Result.C19_nesting_violated",
    "Verif.Result.C19_inner_value_violated"
   ],
   "note": "Order independence, distinction of trees of the same shape and of flat maps from everything, and node keys proved (hash collisions excluded by hypothesis). Violated for nested trees: {a:{b,c}} and {a:{b},c} have one key; a value on a node with children is not hashed."
  },
  {
   "property": "C20",
   "status": "partial",
   "theorems": [
    "Verif.Result.C20_flatten_partial",
    "Verif.Result.C20_flatten_sound",
    "Verif.Result.C20_compare_partial",
    "Verif.Result.C20_dot_in_name_violated"
   ],
   "note": "Exact (one entry per leaf, dotted path, order independent) if names are non-empty and dot-free; soundness for all non-empty names. Violated with a dot in a name (possible for captured map keys)."
  },
  {
   "property": "C21",
   "status": "proved",
   "theorems": [
    "Verif.Result.C21_encoded_data_decodes",
    "Verif.Result.C21_bad_reference_rejected",
    "Verif.Result.C21_cyclic_data_never_decodes"
   ],
   "note": "Encoder output always decodes and all references, also indirect ones, are in range (no hash collisions); data with a bad reference anywhere reachable are rejected; cyclic data make the decoder recurse without end (proved as a separate theorem)."
  },
  {
   "property": "C22",
   "status": "proved",
   "theorems": [
    "Verif.Monitor.C22_ids_consecutive",
    "Verif.Monitor.C22_ids_distinct",
    "Verif.Monitor.C22_error_only_when_exhausted",
    "Verif.Monitor.C22_retry_means_progress"
   ],
   "note": "Any number of goroutines, any interleaving of the atomic loads and compare-and-swaps of nextPointId."
  },
  {
   "property": "C23",
   "status": "partial",
   "theorems": [
    "Verif.Monitor.C23_result_complete",
    "Verif.Monitor.C23_arrival_order",
    "Verif.Monitor.C23_completes",
    "Verif.Monitor.C23_no_deadlock",
    "Verif.Monitor.C23_every_step_uses_work",
    "Verif.Monitor.C23_exclusive",
    "Verif.Monitor.C23_unknown_point_hangs_violated"
   ],
   "note": "Handlers, striped locks, background goroutines and the wait group as a state machine. Proved: exact frames per key, arrival order for a client that waits for each reply (the generated client does), no deadlock, termination. The code violates the waiting part: a message with an unknown point id makes the result wait forever (C23_unknown_point_hangs_violated)."
  },
  {
   "property": "C24",
   "status": "proved",
   "theorems": [
    "Verif.Monitor.C24_fields",
    "Verif.Monitor.C24_sorted",
    "Verif.Monitor.C24_frames",
    "Verif.Monitor.C24_result",
    "Verif.Monitor.C24_self"
   ],
   "note": "Exact on leaves, frames and identifiers. Field trees are well formed (distinct names), as Go maps are."
  },
  {
   "property": "C25",
   "status": "proved",
   "theorems": [
    "Verif.Monitor.C25_panics",
    "Verif.Monitor.C25_panics_order",
    "Verif.Monitor.C25_no_empty_entry",
    "Verif.Monitor.C25_result"
   ],
   "note": "Listings of maps with distinct keys."
  },
  {
   "property": "C26",
   "status": "partial",
   "theorems": [
    "Verif.Monitor.C26_lines_ignored",
    "Verif.Monitor.C26_keys_identify_partial",
    "Verif.Monitor.C26_colon_violated",
    "Verif.Monitor.C26_frames_merged_violated",
    "Verif.Monitor.C26_callers_foreign",
    "Verif.Monitor.C26_callers_partial",
    "Verif.Monitor.C26_extensions_partial"
   ],
   "note": "Violated for file names with ':' or function names with '|'; the partial theorem states the exact condition and assumes that SHA-1 does not collide on the two texts."
  },
  {
   "property": "C27",
   "status": "partial",
   "theorems": [
    "Verif.Monitor.C27_relative_partial",
    "Verif.Monitor.C27_checkout_independent_partial",
    "Verif.Monitor.C27_external_never_project",
    "Verif.Monitor.C27_kept_partial",
    "Verif.Monitor.C27_dotdot_name_violated",
    "Verif.Monitor.C27_no_panic_partial",
    "Verif.Monitor.C27_goroot_slice_violated"
   ],
   "note": "Violated for top-level names starting with '..' (same cause as C58) and, by a panic, for an unclean GOROOT longer than the file path; everything else exact. Unix paths, symbolic links not resolved."
  },
  {
   "property": "C28",
   "status": "proved",
   "theorems": [
    "Verif.Compare.C28_self_compare"
   ],
   "note": "compareLoop on equal stores; holds for all multipliers and also when the 32-bit products overflow"
  },
  {
   "property": "C29",
   "status": "partial",
   "theorems": [
    "Verif.Compare.C29_counts",
    "Verif.Compare.C29_leaf_counts_partial",
    "Verif.Compare.C29_totals",
    "Verif.Compare.C29_zero_iff",
    "Verif.Compare.C29_zero_iff_partial",
    "Verif.Compare.C29_empty_frame_violated",
    "Verif.Compare.C29_order_irrelevant"
   ],
   "note": "sums, totals, order irrelevance and zero-iff proved; frames without fields that vanish are not counted (violation), leaf count needs plain names"
  },
  {
   "property": "C30",
   "status": "proved",
   "theorems": [
    "Verif.Compare.C30_symmetric_difference",
    "Verif.Compare.C30_symmetric",
    "Verif.Compare.C30_order_irrelevant",
    "Verif.Compare.C30_zero_iff"
   ],
   "note": "proved over multisets of (function, message)"
  },
  {
   "property": "C31",
   "status": "partial",
   "theorems": [
    "Verif.Compare.C31_regression_iff",
    "Verif.Compare.C31_own_report",
    "Verif.Compare.C31_ghost_entry_violated"
   ],
   "note": "proved per position of the test list; a test only present after the update leaves a nameless entry (violation)"
  },
  {
   "property": "C32",
   "status": "partial",
   "theorems": [
    "Verif.Compare.C32_exact_partial",
    "Verif.Compare.C32_overflow_violated",
    "Verif.Compare.C32_reported_partial",
    "Verif.Compare.C32_hidden_regression_violated"
   ],
   "note": "exact while products fit 32 bits; overflow and a hidden regression are shown as violations"
  },
  {
   "property": "C33",
   "status": "partial",
   "theorems": [
    "Verif.Compare.C33_diff_iff_partial",
    "Verif.Compare.C33_fallback_shows_values",
    "Verif.Compare.C33_large",
    "Verif.Compare.C33_large_violated",
    "Verif.Diff.C33_lines_partial",
    "Verif.Diff.C33_text_determines",
    "Verif.Diff.C33_hash_violated"
   ],
   "note": "Empty iff equal for any diff library; with the library, applying the text to the old value gives the new one. Violated for values replaced by a hash: both sides can look the same."
  },
  {
   "property": "C34",
   "status": "proved",
   "theorems": [
    "Verif.Module.C34_exact",
    "Verif.Module.C34_once",
    "Verif.Module.C34_workspace"
   ],
   "note": "Reading go.mod and go.work text is the library's job and not modelled; the theorems are about the parsed requirements."
  },
  {
   "property": "C35",
   "status": "partial",
   "theorems": [
    "Verif.Module.C35_oldest",
    "Verif.Module.C35_order",
    "Verif.Module.C35_numeric",
    "Verif.Module.C35_minimum_partial",
    "Verif.Module.C35_missing",
    "Verif.Module.C35_violated"
   ],
   "note": "Holds for numeric versions. A release candidate directive such as 1.21rc1 is not a valid semantic version once prefixed with v, so it compares as older than everything and its module is skipped (C35_violated)."
  },
  {
   "property": "C36",
   "status": "proved",
   "theorems": [
    "Verif.Module.C36_extreme"
   ],
   "note": "Version comparison is golang.org/x/mod/semver, modelled from its documentation."
  },
  {
   "property": "C37",
   "status": "proved",
   "theorems": [
    "Verif.Module.C37_precedence",
    "Verif.Module.C37_total",
    "Verif.Module.C37_equal",
    "Verif.Module.C37_text",
    "Verif.Module.C37_prerelease"
   ],
   "note": "semver.Compare of golang.org/x/mod is modelled function by function from its documented grammar and precedence rules."
  },
  {
   "property": "C38",
   "status": "partial",
   "theorems": [
    "Verif.Module.C38_terminates",
    "Verif.Module.C38_succeeds",
    "Verif.Module.C38_once",
    "Verif.Module.C38_names",
    "Verif.Module.C38_complete_partial",
    "Verif.Module.C38_violated",
    "Verif.Module.C38_workspace_violated"
   ],
   "note": "Holds for names requested at most once. A name requested twice loses all its changed functions, which a go.work update of a shared dependency triggers (C38_violated, C38_workspace_violated)."
  },
  {
   "property": "C39",
   "status": "proved",
   "theorems": [
    "Verif.Diff.C39_unmarked_same",
    "Verif.Module.C39_length",
    "Verif.Module.C39_complete",
    "Verif.Module.C39_complete_new",
    "Verif.Module.C39_sound",
    "Verif.Module.C39_radius",
    "Verif.Module.C39_radius_new",
    "Verif.Module.C39_kept"
   ],
   "note": "Proved for any operations that cover both texts (hypothesis Covers), which C125 shows for the library; with it the unmarked lines of both definitions are the same."
  },
  {
   "property": "C40",
   "status": "proved",
   "theorems": [
    "Verif.Module.C40_partition"
   ],
   "note": "Exact split, in order."
  },
  {
   "property": "C41",
   "status": "partial",
   "theorems": [
    "Verif.Module.C41_distinct",
    "Verif.Module.C41_folded_partial",
    "Verif.Module.C41_violated",
    "Verif.Module.C41_written"
   ],
   "note": "Distinct for a file system that distinguishes case. Without, only for versions without capital letters, because the version is not escaped (C41_violated)."
  },
  {
   "property": "C42",
   "status": "partial",
   "theorems": [
    "Verif.Static.C42_terminates",
    "Verif.Static.C42_visits",
    "Verif.Static.C42_callers_partial",
    "Verif.Static.C42_error",
    "Verif.Static.C42_violated"
   ],
   "note": "Termination, exact visits (each once), error condition and exact callers for every order of the workers' locked updates. Partial: if two nodes share the identifier of a change and have reportable callers, only one of them is searched (C42_violated); identifiers of declared functions are unique by C44 except for package initialisers, which the theorem covers. Paths stop at main and init, also when the changed function is one."
  },
  {
   "property": "C43",
   "status": "partial",
   "theorems": [
    "Verif.Static.C43_tests_partial",
    "Verif.Static.C43_terminates",
    "Verif.Static.C43_violated"
   ],
   "note": "Exact for call paths that pass through no other test or entry point, with any schedule. Violated for tests that reach a caller through another test or through main."
  },
  {
   "property": "C44",
   "status": "proved",
   "theorems": [
    "Verif.Static.C44_unique",
    "Verif.Static.C44_short",
    "Verif.Static.C44_short_flat"
   ],
   "note": "For package paths without ':' and names without '.'; the receiver may be any type expression."
  },
  {
   "property": "C45",
   "status": "proved",
   "theorems": [
    "Verif.Static.C45_merge"
   ],
   "note": "The sort is any list sorted by line with the same entries; call counts are 32-bit sums as in the code; the in-place aliasing is modelled."
  },
  {
   "property": "C46",
   "status": "partial",
   "theorems": [
    "Verif.Files.C46_restore_partial",
    "Verif.Files.C46_loop_violated",
    "Verif.Files.C46_restore_violated",
    "Verif.Files.C46_others_partial",
    "Verif.Files.C46_copy"
   ],
   "note": "Proved exactly (file system equal to the initial one) for any operations on a tree without leftover backups, with regular source files and no failing backup copies or generated files. Violated with stale .bkp (also one that is a looping link), symlinked source, failed second generated file, failed backup copy, and after a Restore with an error."
  },
  {
   "property": "C47",
   "status": "partial",
   "theorems": [
    "Verif.Files.C47_crash_partial",
    "Verif.Files.C47_failed_backup",
    "Verif.Files.C47_crash_violated"
   ],
   "note": "Proved for every state between steps including partial writes, with any failing writes/removals/renames. Violated when a backup copy fails part way, and for symlinked sources."
  },
  {
   "property": "C48",
   "status": "partial",
   "theorems": [
    "Verif.Files.C48_gomod_partial",
    "Verif.Files.C48_gomod_violated"
   ],
   "note": "Proved for content of go.mod and existing go.sum with any failing backup copy and any effect of the update. Violated: go.sum created by the update stays, failed go.sum copy leaves go.mod.bkp, failed go.mod rename skips go.sum."
  },
  {
   "property": "C49",
   "status": "partial",
   "theorems": [
    "Verif.Returns.C49_same_any",
    "Verif.Returns.C49_same",
    "Verif.Returns.C49_same_late",
    "Verif.Returns.C49_reports_partial",
    "Verif.Returns.C49_end",
    "Verif.Returns.C49_panic",
    "Verif.Returns.C49_ids",
    "Verif.Returns.C49_elseif_violated",
    "Verif.Returns.C49_select_violated",
    "Verif.Returns.C49_label_violated",
    "Verif.Returns.C49_end_violated",
    "Verif.Returns.C49_order_violated"
   ],
   "note": "Same results and effects proved for every body, with the read order Go leaves open fixed as the instrumented code fixes it (and for any order that agrees). Reports proved for bodies whose returns are all found; returns after else-if, in select, behind labels and the implicit end beside other returns are not reported (violations proved)."
  },
  {
   "property": "C50",
   "status": "partial",
   "theorems": [
    "Verif.Calls.C50_calls_partial",
    "Verif.Calls.C50_loop_violated",
    "Verif.Calls.C50_condition_violated",
    "Verif.Calls.C50_order_violated",
    "Verif.Calls.C50_selector_violated",
    "Verif.Calls.C50_init_violated",
    "Verif.Calls.C50_init_kept",
    "Verif.Calls.C50_defer_violated",
    "Verif.Calls.C50_recover_violated",
    "Verif.Calls.C50_receiver_violated"
   ],
   "note": "Same end, variables and calls for bodies where the picked call is evaluated first, outside loop conditions and not deferred. False otherwise: nine shapes are shown."
  },
  {
   "property": "C51",
   "status": "proved",
   "theorems": [
    "Verif.Lines.C51_lines",
    "Verif.Lines.C51_remove",
    "Verif.Lines.C51_outside"
   ],
   "note": "For every text, token layout and callback, which may keep state: the new file is the old one with lines inserted, exactly those the callback asked for, directly before code lines of the body; taking them out gives the old file back. Scanner and positions are inputs."
  },
  {
   "property": "C52",
   "status": "partial",
   "theorems": [
    "Verif.Batch.C52_once",
    "Verif.Batch.C52_one_worker",
    "Verif.Batch.C52_schedule",
    "Verif.Batch.C52_clients",
    "Verif.Batch.C52_both_partial",
    "Verif.Batch.C52_both_violated"
   ],
   "note": "For every result the unstable sort may give and every interleaving of the workers. Partial: project callers and module changes are grouped apart, so a file in both lists is given to two workers (C52_both_violated); disjoint lists are covered by C52_both_partial."
  },
  {
   "property": "C53",
   "status": "proved",
   "theorems": [
    "Verif.Util.C53_at_most_limit",
    "Verif.Util.C53_join_waits",
    "Verif.Util.C53_no_deadlock",
    "Verif.Util.C53_take_after_join_hangs"
   ],
   "note": "State machine over tokens, goroutines and the joiner; any number of goroutines and schedules. Liveness assumes the documented use (no Take after Join starts) and a positive limit; C53_take_after_join_hangs shows the assumption is needed."
  },
  {
   "property": "C54",
   "status": "proved",
   "theorems": [
    "Verif.Util.C54_exclusion",
    "Verif.Util.C54_free_lock_available"
   ],
   "note": "For every hash function and number of stripes; state machine over mutexes and goroutines. sync.Mutex itself is trusted to exclude."
  },
  {
   "property": "C55",
   "status": "proved",
   "theorems": [
    "Verif.Util.C55_tail",
    "Verif.Util.C55_bounded",
    "Verif.Util.C55_small_limit",
    "Verif.Util.C55_fits"
   ],
   "note": "Proved for all write sequences; the size bound holds from a limit of five bytes and C55_small_limit shows it fails below."
  },
  {
   "property": "C56",
   "status": "partial",
   "theorems": [
    "Verif.Util.C56_write_partial",
    "Verif.Util.C56_uneven_noticed",
    "Verif.Util.C56_close_partial",
    "Verif.Util.C56_no_writer_violated"
   ],
   "note": "Partial: a list without any non-nil writer gives a tee that panics on the first write (C56_no_writer_violated); everything else is proved for all lists and failure patterns."
  },
  {
   "property": "C57",
   "status": "proved",
   "theorems": [
    "Verif.Util.C57_no_ld",
    "Verif.Util.C57_value",
    "Verif.Util.C57_requested",
    "Verif.Util.C57_others_unchanged"
   ],
   "note": "Effective value = last entry for a key, as exec.Cmd documents. Variables with an empty name are outside the claim."
  },
  {
   "property": "C58",
   "status": "partial",
   "theorems": [
    "Verif.Util.C58_within_partial",
    "Verif.Util.C58_outside_rejected",
    "Verif.Util.C58_dotdot_name_violated"
   ],
   "note": "Partial: names starting with .. directly below the directory are reported as outside (C58_dotdot_name_violated). The lexical filepath.Clean/Abs/Rel are modelled on component lists. Nothing outside is ever reported inside, without condition."
  },
  {
   "property": "C59",
   "status": "proved",
   "theorems": [
    "Verif.Util.C59_short",
    "Verif.Util.C59_head",
    "Verif.Util.C59_tail",
    "Verif.Util.C59_zero"
   ],
   "note": "Negative counts panic in Go and are outside the model."
  },
  {
   "property": "C60",
   "status": "partial",
   "theorems": [
    "Verif.Engine.C60_valid_partial",
    "Verif.Engine.C60_result",
    "Verif.Engine.C60_once",
    "Verif.Engine.C60_failed_partial",
    "Verif.Engine.C60_charts_violated",
    "Verif.Engine.C60_charttype_violated",
    "Verif.Engine.C60_retry_violated"
   ],
   "note": "Success is characterised exactly; violated: the chart file is not checked when a JSON file is given, chart types are not checked, and a failed Prepare keeps the parsed modules so a retry duplicates them."
  },
  {
   "property": "C61",
   "status": "partial",
   "theorems": [
    "Verif.Engine.C61_single_partial",
    "Verif.Engine.C61_list",
    "Verif.Engine.C61_unique",
    "Verif.Engine.C61_plain_violated",
    "Verif.Engine.C61_twice_violated"
   ],
   "note": "Accepted arguments characterised exactly; violated: module paths without dot or slash are rejected, a second @ is accepted."
  },
  {
   "property": "C62",
   "status": "partial",
   "theorems": [
    "Verif.Engine.C62_cleanup",
    "Verif.Engine.C62_order",
    "Verif.Engine.C62_report_partial",
    "Verif.Engine.C62_silent_violated",
    "Verif.Engine.C62_failing_violated"
   ],
   "note": "Cleanup and order proved for all outcomes; report exactly once except when no module changed; an analysis that fails is not cleaned up."
  },
  {
   "property": "C63",
   "status": "partial",
   "theorems": [
    "Verif.Report.C63_functions",
    "Verif.Report.C63_tests_partial",
    "Verif.Report.C63_details_partial",
    "Verif.Report.C63_twice_violated",
    "Verif.Report.C63_times_violated",
    "Verif.Report.C63_texts",
    "Verif.Report.C63_generated"
   ],
   "note": "Function lists proved; tests found twice are listed twice, time changes are in map iteration order."
  },
  {
   "property": "C64",
   "status": "partial",
   "theorems": [
    "Verif.Report.C64_saved_partial",
    "Verif.Report.C64_merged_violated",
    "Verif.Report.C64_charts_partial",
    "Verif.Report.C64_twice_violated",
    "Verif.Report.C64_text_violated",
    "Verif.Report.C64_count_violated"
   ],
   "note": "Proved for distinct test identifiers, valid text and counts up to 2^53, for the charts and for the saved times and fields; each condition is shown to be needed."
  },
  {
   "property": "C65",
   "status": "partial",
   "theorems": [
    "Verif.Report.C65_order",
    "Verif.Report.C65_stable",
    "Verif.Report.C65_complete",
    "Verif.Report.C65_rows",
    "Verif.Report.C65_riskiest_partial",
    "Verif.Report.C65_generated_violated"
   ],
   "note": "Proved within tests written by hand and within generated ones; generated tests always come last, so a regression of one can be cut off."
  },
  {
   "property": "C66",
   "status": "proved",
   "theorems": [
    "Verif.Report.C66_fields",
    "Verif.Report.C66_mutations",
    "Verif.Report.C66_exact",
    "Verif.Report.C66_close"
   ],
   "note": "For every computed percentage, so independent of floating point errors; exactness with rational arithmetic."
  },
  {
   "property": "C67",
   "status": "partial",
   "theorems": [
    "Verif.Mutation.C67_restored_partial",
    "Verif.Mutation.C67_kept",
    "Verif.Mutation.C67_verdict",
    "Verif.Mutation.C67_between_violated",
    "Verif.Mutation.C67_back_violated",
    "Verif.Mutation.C67_next_violated",
    "Verif.Mutation.C67_compile_violated"
   ],
   "note": "Commands of the script with every failure and signal. Partial: a signal between moving the file and setting the trap, or a failing move back, leaves the mutant or no file; the next script then destroys the original. A mutant that does not compile counts as killed (go test ends with 1 in both cases, trusted)."
  },
  {
   "property": "C68",
   "status": "partial",
   "theorems": [
    "Verif.Mutation.C68_selected",
    "Verif.Mutation.C68_lines",
    "Verif.Mutation.C68_scope_partial",
    "Verif.Mutation.C68_aligned_violated",
    "Verif.Mutation.C68_beyond_violated",
    "Verif.Mutation.C68_match_partial",
    "Verif.Mutation.C68_match_violated"
   ],
   "note": "Selection is exact and directives stand exactly before unmarked code lines. Partial: marks are per line of the printed definition, without comments, but are applied to lines of the source, so comments shift them (C68_aligned_violated), and lines beyond the definition stay enabled; --match is not anchored."
  },
  {
   "property": "C69",
   "status": "partial",
   "theorems": [
    "Verif.Engine.C69_paths_partial",
    "Verif.Engine.C69_apart",
    "Verif.Engine.C69_disposable_partial",
    "Verif.Engine.C69_modcache_violated",
    "Verif.Engine.C69_leak_violated"
   ],
   "note": "Proved for the usual module cache places; violated for a cache elsewhere in GOPATH and when a copy fails. Contents of copies are modelled as pairs of source and destination."
  },
  {
   "property": "C70",
   "status": "partial",
   "theorems": [
    "Verif.Monitor.C70_max_point_id_violated",
    "Verif.Monitor.C70_max_point_id_partial"
   ],
   "note": "The function returns the next id, one more than documented."
  },
  {
   "property": "C71",
   "status": "proved",
   "theorems": [
    "Verif.Monitor.C71_filter",
    "Verif.Monitor.C71_no_baseline"
   ],
   "note": "The key function is a parameter (the code uses the key of the project frames)."
  },
  {
   "property": "C72",
   "status": "proved",
   "theorems": [
    "Verif.Compare.C72_field_changes",
    "Verif.Compare.C72_texts_not_empty"
   ],
   "note": "exact in both directions"
  },
  {
   "property": "C73",
   "status": "partial",
   "theorems": [
    "Verif.Static.C73_edges_partial",
    "Verif.Static.C73_violated"
   ],
   "note": "Exact when no two declared functions share the identifier; violated by several init functions of one package, of which only one keeps its edges."
  },
  {
   "property": "C74",
   "status": "proved",
   "theorems": [
    "Verif.Static.C74_terminates",
    "Verif.Static.C74_created"
   ],
   "note": "The recursion is modelled as an explicit stack of packages still to create."
  },
  {
   "property": "C75",
   "status": "partial",
   "theorems": [
    "Verif.Static.C75_tests_partial",
    "Verif.Static.C75_violated"
   ],
   "note": "Everything go test runs is recognised; methods and names such as Testify are recognised too although go test does not run them (violated). Names starting with non-ASCII small letters after Test are outside the statement."
  },
  {
   "property": "C76",
   "status": "partial",
   "theorems": [
    "Verif.Files.C76_sources_partial",
    "Verif.Files.C76_gomod_partial",
    "Verif.Files.C76_rerun_violated"
   ],
   "note": "Proved: go.mod/go.sum kept at every crash point; sources kept by a later run if the backup is complete or missing. Violated: partial backup taken for a backup by the next run; next run overwrites the backup of go.mod."
  },
  {
   "property": "C77",
   "status": "proved",
   "theorems": [
    "Verif.Files.C77_commit"
   ],
   "note": "On file systems without symbolic links; files handled one after the other instead of concurrently (they are different files)."
  },
  {
   "property": "C78",
   "status": "partial",
   "theorems": [
    "Verif.Lines.C78_between_partial",
    "Verif.Lines.C78_between_violated"
   ],
   "note": "Partial: holds when the line before which it is inserted is not the last line of a literal spanning several lines. The automatic semicolon after a raw string marks its last line as code, so a line is inserted inside the string (C78_between_violated)."
  },
  {
   "property": "C79",
   "status": "partial",
   "theorems": [
    "Verif.Mutation.C79_counts_partial",
    "Verif.Mutation.C79_unknown",
    "Verif.Mutation.C79_at_most",
    "Verif.Mutation.C79_score_violated"
   ],
   "note": "Violated: the count taken for killed mutants is the tool's \"failed\", which is exit code 1, the script's code for mutants the tests did not notice. The tool's counting of exit codes is trusted (as in the comments of the script)."
  },
  {
   "property": "C80",
   "status": "partial",
   "theorems": [
    "Verif.Mutation.C80_restored_partial",
    "Verif.Mutation.C80_early_violated"
   ],
   "note": "Every interleaving of workers followed by Restore. Partial: on the error for missing marks the function returns and restores without waiting for workers already started (C80_early_violated). File operations succeed here; failing ones are in C46/C47."
  },
  {
   "property": "C81",
   "status": "partial",
   "theorems": [
    "Verif.Engine.C81_counts_partial",
    "Verif.Engine.C81_unreachable_violated"
   ],
   "note": "Proved except for changed functions without callers, which are reported as zero."
  },
  {
   "property": "C82",
   "status": "proved",
   "theorems": [
    "Verif.Report.C82_root"
   ],
   "note": ""
  },
  {
   "property": "C83",
   "status": "partial",
   "theorems": [
    "Verif.Report.C83_impact_partial",
    "Verif.Report.C83_cover_partial",
    "Verif.Report.C83_rounding_violated",
    "Verif.Report.C83_untracked_violated"
   ],
   "note": "Exact condition for showing 100%; violated by rounding and by untracked functions counting as covered."
  },
  {
   "property": "C84",
   "status": "partial",
   "theorems": [
    "Verif.Report.C84_unit",
    "Verif.Report.C84_faster_partial",
    "Verif.Report.C84_slower_violated"
   ],
   "note": "Faster is right; slower is always shown with a negative number."
  },
  {
   "property": "C85",
   "status": "partial",
   "theorems": [
    "Verif.Report.C85_summary_partial",
    "Verif.Report.C85_count_violated",
    "Verif.Report.C85_order_violated"
   ],
   "note": "Proved for up to two callers with short texts; the stated number counts callers, and the choice depends on map iteration."
  },
  {
   "property": "C86",
   "status": "partial",
   "theorems": [
    "Verif.Capture.C86_not_unrolled_partial",
    "Verif.Capture.C86_violated"
   ],
   "note": "No value is expanded inside a value with the same address. Violation proved: pointers behind interfaces are not looked at, such cycles are unrolled to the depth limit."
  },
  {
   "property": "C87",
   "status": "partial",
   "theorems": [
    "Verif.Calls.C87_reports_partial",
    "Verif.Calls.C87_uncalled_violated"
   ],
   "note": "For the bodies of C50. A report is sent for `a && f()` although f is not called."
  },
  {
   "property": "C88",
   "status": "partial",
   "theorems": [
    "Verif.Calls.C88_every_call_partial",
    "Verif.Calls.C88_count_partial",
    "Verif.Calls.C88_missed_violated"
   ],
   "note": "For the bodies of C50 with one selected call per statement. Inner calls, else-if conditions, labelled statements and repeated loop conditions are not reported."
  },
  {
   "property": "C89",
   "status": "partial",
   "theorems": [
    "Verif.Calls.C89_twice_partial",
    "Verif.Calls.C89_inner_violated"
   ],
   "note": "With at most one selected call in each searched part; `f(f(1))` is instrumented again."
  },
  {
   "property": "C90",
   "status": "proved",
   "theorems": [
    "Verif.Calls.C90_numbers"
   ],
   "note": "Without the wrap-around check of nextPointId; function literals are not modelled."
  },
  {
   "property": "C91",
   "status": "partial",
   "theorems": [
    "Verif.Panics.C91_same_partial",
    "Verif.Panics.C91_nil_violated"
   ],
   "note": "For language versions from Go 1.21 on and for programs without panic(nil); older programs with panic(nil) have the panic swallowed (shown)."
  },
  {
   "property": "C92",
   "status": "partial",
   "theorems": [
    "Verif.Panics.C92_places",
    "Verif.Panics.C92_panics",
    "Verif.Panics.C92_nil_violated"
   ],
   "note": "Under the same hypothesis; messages are placed exactly (C92_places). Fails for panic(nil) before Go 1.21."
  },
  {
   "property": "C93",
   "status": "proved",
   "theorems": [
    "Verif.Panics.C93_entry_count",
    "Verif.Panics.C93_finish_count",
    "Verif.Panics.C93_entry",
    "Verif.Panics.C93_finish"
   ],
   "note": "Counts hold for all programs (C93_entry_count, C93_finish_count); the comparison with the program without points needs the hypothesis of C91."
  },
  {
   "property": "C94",
   "status": "partial",
   "theorems": [
    "Verif.Ends.C94_never_partial",
    "Verif.Ends.C94_unmarked",
    "Verif.Ends.C94_recover_violated",
    "Verif.Ends.C94_marked"
   ],
   "note": "Proved for all bodies without goto and without a deferred recovery; a function that recovers in a deferred call is marked although it returns (violated). Go's rule on terminating statements is part of the specification."
  },
  {
   "property": "C95",
   "status": "partial",
   "theorems": [
    "Verif.Funcs.C95_watched_partial",
    "Verif.Funcs.C95_only",
    "Verif.Funcs.C95_init_violated"
   ],
   "note": "Proved for files with distinct identifiers; two functions init in a file are violated (all points go into the last). That nothing else gets a point is proved for all files. Workers for the project have different files (C52)."
  },
  {
   "property": "C96",
   "status": "proved",
   "theorems": [
    "Verif.Funcs.C96_exact",
    "Verif.Funcs.C96_ids",
    "Verif.Funcs.C96_disjoint",
    "Verif.Funcs.C96_sides"
   ],
   "note": "All interleavings of workers; ids are any numbers not given before (C22). The user's extension maps are not modelled."
  },
  {
   "property": "C97",
   "status": "partial",
   "theorems": [
    "Verif.Funcs.C97_changed_partial",
    "Verif.Funcs.C97_init_violated",
    "Verif.Funcs.C97_print_violated",
    "Verif.Funcs.C97_error"
   ],
   "note": "Proved for packages with distinct identifiers whose functions can be printed; violated for the first of two init functions and for a function whose printing fails before another is printed."
  },
  {
   "property": "C98",
   "status": "partial",
   "theorems": [
    "Verif.Workspace.C98_exact_partial",
    "Verif.Workspace.C98_once_partial",
    "Verif.Workspace.C98_error",
    "Verif.Workspace.C98_absolute_violated",
    "Verif.Workspace.C98_twice_violated"
   ],
   "note": "Proved for workspaces without absolute \"...\" entries (exact), listing once for relative entries, and exactly when expansion fails; violated for absolute \"...\" entries and for a directory given both ways."
  },
  {
   "property": "C99",
   "status": "partial",
   "theorems": [
    "Verif.Workspace.C99_exact_partial",
    "Verif.Workspace.C99_error",
    "Verif.Workspace.C99_blind_violated",
    "Verif.Workspace.C99_ellipsis_violated"
   ],
   "note": "Proved for relative entries without \"...\"; violated for \"...\" and absolute entries, whose go.mod files are compared with themselves."
  },
  {
   "property": "C100",
   "status": "partial",
   "theorems": [
    "Verif.Workspace.C100_relative",
    "Verif.Workspace.C100_files_partial",
    "Verif.Workspace.C100_absolute_violated",
    "Verif.Workspace.C100_patterns",
    "Verif.Workspace.C100_error"
   ],
   "note": "Files proved for workspaces without absolute \"...\" entries (violated with one); patterns and the error case proved for all."
  },
  {
   "property": "C101",
   "status": "partial",
   "theorems": [
    "Verif.Workspace.C101_targets",
    "Verif.Workspace.C101_prior_partial",
    "Verif.Workspace.C101_prior_violated"
   ],
   "note": "Proved that the targets are exactly the required ones, in order; the prior version is right when all go.mod files agree on it, violated when they differ."
  },
  {
   "property": "C102",
   "status": "partial",
   "theorems": [
    "Verif.Fields.C102_last",
    "Verif.Fields.C102_exact_partial",
    "Verif.Fields.C102_wellformed",
    "Verif.Fields.C102_same_name_violated"
   ],
   "note": "Characterised for all messages (the last of several fields with one name counts); exact for distinct names; violated when two map keys have the same text."
  },
  {
   "property": "C103",
   "status": "partial",
   "theorems": [
    "Verif.Fields.C103_order_partial",
    "Verif.Fields.C103_order_violated"
   ],
   "note": "Proved for distinct names at every level; violated when two map keys have the same text."
  },
  {
   "property": "C104",
   "status": "partial",
   "theorems": [
    "Verif.Fields.C104_distinguishes_partial",
    "Verif.Fields.C104_missing",
    "Verif.Fields.C104_strings_violated",
    "Verif.Fields.C104_empty_violated"
   ],
   "note": "Proved for leaves of the same type and kind with numbers that are not NaN and slices of words, absent hash collisions; violated for slices of strings ([\"a b\"] and [\"a\",\"b\"]) and for nil and empty containers, from the captured value to the recorded text."
  },
  {
   "property": "C105",
   "status": "partial",
   "theorems": [
    "Verif.Runs.C105_own_messages_partial",
    "Verif.Runs.C105_violated"
   ],
   "note": "Partial: proved for processes that end only after the answers to all their messages. C105_violated: otherwise a message on its way when the process ends is recorded for the next run or test on the same server."
  },
  {
   "property": "C106",
   "status": "partial",
   "theorems": [
    "Verif.Runs.C106_once",
    "Verif.Runs.C106_error",
    "Verif.Runs.C106_total_partial",
    "Verif.Runs.C106_violated",
    "Verif.Runs.C106_reached_partial"
   ],
   "note": "C106_once and C106_error hold for all schedules; the totals are proved for processes that end only after the answers to their messages and violated otherwise: a late message is in no total."
  },
  {
   "property": "C107",
   "status": "proved",
   "theorems": [
    "Verif.Runs.C107_exclusive",
    "Verif.Runs.C107_returned",
    "Verif.Runs.C107_room",
    "Verif.Runs.C107_bounded",
    "Verif.Runs.C107_no_deadlock",
    "Verif.Runs.C107_completes"
   ],
   "note": "All schedules, with any failures; number of servers as computed from processors and tests."
  },
  {
   "property": "C108",
   "status": "partial",
   "theorems": [
    "Verif.Scope.C108_in_scope_partial",
    "Verif.Scope.C108_compiles_partial",
    "Verif.Scope.C108_end_partial",
    "Verif.Scope.C108_type_violated",
    "Verif.Scope.C108_const_violated",
    "Verif.Scope.C108_brace_violated"
   ],
   "note": "Proved at returns outside select clauses and function literals (no others are rewritten) and at the end of the body, if no name in scope is declared both as a type and otherwise, constants fit their default type and the last brace does not follow the end of a statement at once. Each of these is violated otherwise. Not modelled: generic types and package names hidden by locals."
  },
  {
   "property": "C109",
   "status": "partial",
   "theorems": [
    "Verif.Scope.C109_all_partial",
    "Verif.Scope.C109_once",
    "Verif.Scope.C109_order",
    "Verif.Scope.C109_receiver_violated"
   ],
   "note": "Proved for all names but the receiver, which is never reported (violated), if no name in scope is declared both as a type and otherwise. Each name is reported once and in the order of the declarations in scope."
  },
  {
   "property": "C110",
   "status": "partial",
   "theorems": [
    "Verif.Temps.C110_compiles_partial",
    "Verif.Temps.C110_hidden_violated",
    "Verif.Temps.C110_share_violated",
    "Verif.Temps.C110_const_violated"
   ],
   "note": "Holds if a result whose type mentions a name hidden by a local one is either returned as it is or shares a name with the type and is neither a literal nor nil, no untyped expression shares an identifier with its result type unless the type is its default type, and reported constants fit their default types; counterexamples for each condition. Types are an abstract system with assignability laws; that identifiers are resolved as in Go, and that the blank identifier is not a value, is part of the specification."
  },
  {
   "property": "C111",
   "status": "proved",
   "theorems": [
    "Verif.Temps.C111_same",
    "Verif.Temps.C111_reported"
   ],
   "note": "For all returns whose block compiles (C110). Reported: every result under its number or name, except untyped constants and nil returned by name. Names of the program beginning with lenSynthetic are excluded by hypothesis of C111_reported."
  },
  {
   "property": "C112",
   "status": "partial",
   "theorems": [
    "Verif.Temps.C112_names_partial",
    "Verif.Temps.C112_texts",
    "Verif.Temps.C112_names_violated"
   ],
   "note": "Holds if no program name begins with lenSynthetic or is ret or rec followed by a number; counterexample: a variable ret0."
  },
  {
   "property": "C113",
   "status": "partial",
   "theorems": [
    "Verif.Zero.C113_zero_partial",
    "Verif.Zero.C113_results_partial",
    "Verif.Zero.C113_new_violated",
    "Verif.Zero.C113_redeclared_violated",
    "Verif.Zero.C113_same_type"
   ],
   "note": "Holds if the predeclared types have their usual meaning and nil, false, new and the identifiers of the types are not hidden; counterexamples: a parameter called new, a type called error."
  },
  {
   "property": "C114",
   "status": "proved",
   "theorems": [
    "Verif.Copy.C114_complete",
    "Verif.Copy.C114_only"
   ],
   "note": "For a destination that does not exist before and does not lie inside the source, and a source that does not change. Modes and times are not modelled (they are not copied)."
  },
  {
   "property": "C115",
   "status": "partial",
   "theorems": [
    "Verif.Copy.C115_error",
    "Verif.Copy.C115_cause_partial",
    "Verif.Copy.C115_wait_partial",
    "Verif.Copy.C115_cause_violated",
    "Verif.Copy.C115_wait_violated"
   ],
   "note": "Error exactly on failure: proved. The cause is lost when the walk sees the canceled context first, and running copies are not waited for when the walk ends with an error; counterexamples for both."
  },
  {
   "property": "C116",
   "status": "proved",
   "theorems": [
    "Verif.Copy.C116_bounded",
    "Verif.Copy.C116_succeeds",
    "Verif.Copy.C116_possible"
   ],
   "note": "Destination not existing before. Operations on files always return."
  },
  {
   "property": "C117",
   "status": "partial",
   "theorems": [
    "Verif.Copy.C117_paths_partial",
    "Verif.Copy.C117_plain_partial",
    "Verif.Copy.C117_link_violated",
    "Verif.Copy.C117_root_violated"
   ],
   "note": "Holds for paths that stay inside the source through relative links, and for sources without links. Counterexamples: an absolute link in the source; a project directory or GOPATH that is itself a link."
  },
  {
   "property": "C118",
   "status": "proved",
   "theorems": [
    "Verif.Copy.C118_writable",
    "Verif.Copy.C118_keeps",
    "Verif.Copy.C118_returns"
   ],
   "note": "Paths are those of the walk; d.Info and Chmod in one step."
  },
  {
   "property": "C119",
   "status": "partial",
   "theorems": [
    "Verif.Client.C119_exactly",
    "Verif.Client.C119_delivered_partial",
    "Verif.Client.C119_init_violated"
   ],
   "note": "Holds for messages sent once init of the client has run (C119_exactly says which messages arrive); messages sent while variables of the package get their values, or by init functions of files whose names sort before xx_lens_client_gen.go, are lost. Go's initialization order, the go command's order of files, the HTTP client's treatment of URLs and ServeMux are modelled from their documentation."
  },
  {
   "property": "C120",
   "status": "partial",
   "theorems": [
    "Verif.Client.C120_once",
    "Verif.Client.C120_bounded",
    "Verif.Client.C120_continues_partial",
    "Verif.Client.C120_nil_violated"
   ],
   "note": "The protocol holds for every run. The program goes on unless a message is sent before the client's variables have their values, which Go's initialization order allows for calls through interfaces (counterexample). Timeouts are not modelled."
  },
  {
   "property": "C121",
   "status": "partial",
   "theorems": [
    "Verif.Client.C121_configured_partial",
    "Verif.Client.C121_value_partial",
    "Verif.Client.C121_repeat_violated",
    "Verif.Client.C121_gap_violated"
   ],
   "note": "For templates in which each configured name has a value of its own that no other constant repeats, as in astclient.go; counterexamples for other templates. Parsing and printing are not modelled; that a configured name is declared at all is a hypothesis of C121_value_partial."
  },
  {
   "property": "C122",
   "status": "partial",
   "theorems": [
    "Verif.Select.C122_text",
    "Verif.Select.C122_tests_partial",
    "Verif.Select.C122_path_violated",
    "Verif.Select.C122_package_violated"
   ],
   "note": "proved for identifiers, paths without the characters special in double quotes, and package patterns that are single words; violated for paths with $ and for package directories with a blank. Bash is modelled for the constructs used."
  },
  {
   "property": "C123",
   "status": "proved",
   "theorems": [
    "Verif.Select.C123_reproducible"
   ],
   "note": ""
  },
  {
   "property": "C124",
   "status": "partial",
   "theorems": [
    "Verif.Select.C124_single_partial",
    "Verif.Select.C124_violated"
   ],
   "note": "proved if test names are unique within the directory; violated if a package and its external test package share a name."
  },
  {
   "property": "C125",
   "status": "proved",
   "theorems": [
    "Verif.Diff.C125_edit_script",
    "Verif.Diff.C125_rebuild"
   ],
   "note": "The library (go-difflib v1.0.0) is modelled from its published source, which is not part of /repo."
  },
  {
   "property": "C126",
   "status": "partial",
   "theorems": [
    "Verif.Diff.C126_apart_partial",
    "Verif.Diff.C126_popular_partial",
    "Verif.Diff.C126_violated"
   ],
   "note": "Proved for new texts of fewer than 200 lines; from 200 lines on only lines above one in a hundred can be on both sides; violated for such lines."
  },
  {
   "property": "C127",
   "status": "partial",
   "theorems": [
    "Verif.Flags.C127_names",
    "Verif.Flags.C127_settings_partial",
    "Verif.Flags.C127_accepted_partial",
    "Verif.Flags.C127_defaults",
    "Verif.Flags.C127_violated",
    "Verif.Flags.C127_switch_violated"
   ],
   "note": "A returned configuration agrees with the settings up to the first argument that is not a flag; lists of settings are never refused as wrong usage. Violated: what follows an argument that is not a flag is dropped without a word, e.g. after -tmpcopy false."
  },
  {
   "property": "C128",
   "status": "partial",
   "theorems": [
    "Verif.Flags.C128_cache_partial",
    "Verif.Flags.C128_violated"
   ],
   "note": "Proved for a GOPATH of one directory; violated for several."
  },
  {
   "property": "C129",
   "status": "partial",
   "theorems": [
    "Verif.Flags.C129_custom_partial",
    "Verif.Flags.C129_violated"
   ],
   "note": "Proved for the types string, int and bool; a custom flag of another type is left out without an error."
  },
  {
   "property": "C130",
   "status": "proved",
   "theorems": [
    "Verif.Flags.C130_configuration",
    "Verif.Flags.C130_values"
   ],
   "note": "Exact condition, also for help."
  },
  {
   "property": "C131",
   "status": "partial",
   "theorems": [
    "Verif.Pipeline.C131_exact_partial",
    "Verif.Pipeline.C131_stored_partial",
    "Verif.Pipeline.C131_order_violated"
   ],
   "note": "Proved from the messages of all runs to the report, without and with storage in between. Excluded: field names with dots, colliding keys. Violated: calls of one function that arrive out of the order of their times are compared with the wrong calls, so identical runs differ."
  },
  {
   "property": "C132",
   "status": "partial",
   "theorems": [
    "Verif.Pipeline.C132_listed_partial",
    "Verif.Pipeline.C132_stored_partial"
   ],
   "note": "Both directions, for every function and field, without and with storage in between, under the conditions of C131."
  },
  {
   "property": "C133",
   "status": "partial",
   "theorems": [
    "Verif.Pipeline.C133_repeat_partial",
    "Verif.Pipeline.C133_panic_violated"
   ],
   "note": "Proved if the two runs before the update had the same panics, under the conditions of C131. Violated: a panic in one of the two runs before the update and again after it is reported as a difference."
  },
  {
   "property": "C134",
   "status": "partial",
   "theorems": [
    "Verif.Reach.C134_run_partial",
    "Verif.Reach.C134_only",
    "Verif.Reach.C134_direct_violated"
   ],
   "note": "Only such tests are run (all graphs). They are run if a project function outside of test files is on the way and the way passes no other test or entry point. Violated: a test that calls the module itself, or through helpers in test files, is never run."
  },
  {
   "property": "C135",
   "status": "partial",
   "theorems": [
    "Verif.Reach.C135_reachable_partial"
   ],
   "note": "Exact for identifiers that belong to one function, along calls that pass no entry point; for shared identifiers see C42_violated."
  },
  {
   "property": "C136",
   "status": "partial",
   "theorems": [
    "Verif.Pkgs.C136_exact",
    "Verif.Pkgs.C136_found_partial",
    "Verif.Pkgs.C136_right",
    "Verif.Pkgs.C136_documentation_violated"
   ],
   "note": "C136_exact characterises the result; C136_found_partial gives the go command's package when no source file is of package documentation (C136_documentation_violated otherwise)."
  },
  {
   "property": "C137",
   "status": "partial",
   "theorems": [
    "Verif.Pkgs.C137_sources_partial",
    "Verif.Pkgs.C137_crash_violated",
    "Verif.Pkgs.C137_inside_violated",
    "Verif.Pkgs.C137_crash_exact",
    "Verif.Pkgs.C137_gaveUp_exact"
   ],
   "note": "C137_sources_partial for non-test files that fit the build; C137_crash_exact says exactly when a nil pointer is dereferenced; violated for tests."
  },
  {
   "property": "C138",
   "status": "partial",
   "theorems": [
    "Verif.Total.C138_disk_partial",
    "Verif.Total.C138_memory_partial"
   ],
   "note": "Partial: the per-test conditions of C131 (calls in time order, no dots in names, no hash collisions)."
  },
  {
   "property": "C139",
   "status": "partial",
   "theorems": [
    "Verif.Total.C139_disk_partial",
    "Verif.Total.C139_memory_partial",
    "Verif.Total.C139_order_partial",
    "Verif.Total.C139_reused_violated"
   ],
   "note": "Violated when a storage is used for a second update, or holds results of an interrupted one: old tests are reported again. Holds for an empty storage under the conditions of C131."
  },
  {
   "property": "C140",
   "status": "partial",
   "theorems": [
    "Verif.Sched.C140_serial",
    "Verif.Sched.C140_stored",
    "Verif.Sched.C140_error",
    "Verif.Sched.C140_possible",
    "Verif.Sched.C140_disk",
    "Verif.Sched.C140_memory",
    "Verif.Sched.C140_reports_partial"
   ],
   "note": "Serial equivalence, stored results and errors hold for all interleavings without further hypotheses; that the report is the one the runs call for (C140_reports_partial) has the hypotheses of C138: runs as the monitor makes them and distinct identifiers. Each storage call is one atomic step."
  },
  {
   "property": "C141",
   "status": "partial",
   "theorems": [
    "Verif.Verdict.C141_report_partial",
    "Verif.Verdict.C141_file_partial"
   ],
   "note": "Partial: the conditions of C131 on each test (Orderly) and distinct identifiers are needed; for the JSON file also strings that are text. What is missing is violated, see C131 and C64."
  },
  {
   "property": "C142",
   "status": "partial",
   "theorems": [
    "Verif.Verdict.C142_table_partial",
    "Verif.Verdict.C142_json_partial",
    "Verif.Verdict.C142_clean"
   ],
   "note": "Partial: conditions as in C141; from the JSON file also counts up to 2^53. For the order between written and generated tests see C65."
  },
  {
   "property": "C143",
   "status": "partial",
   "theorems": [
    "Verif.Timing.C143_times_partial",
    "Verif.Timing.C143_file_partial",
    "Verif.Timing.C143_steady"
   ],
   "note": "Partial: the conditions of C131 on each test (Orderly), distinct identifiers, and times that fit into 32 bits; changes both ways in one function hide one another, see C32."
  },
  {
   "property": "C144",
   "status": "partial",
   "theorems": [
    "Verif.Workspace.C144_patterns_partial",
    "Verif.Workspace.C144_agree_partial",
    "Verif.Workspace.C144_error",
    "Verif.Workspace.C144_agree_violated"
   ],
   "note": "Partial: absolute entries with \"...\" are excluded (see C98), and a directory named in go.work that has no go.mod file is loaded for the analysis but its tests are left out (C144_agree_violated; the go command itself refuses such a workspace)."
  },
  {
   "property": "C145",
   "status": "partial",
   "theorems": [
    "Verif.Whole.C145_tested_partial",
    "Verif.Whole.C145_only",
    "Verif.Whole.C145_clean_partial"
   ],
   "note": "Partial: the conditions of C134 on the way from test to changed function (no test file below the project function, unique identifiers) and of C131 on the runs; C145_only needs only the latter."
  },
  {
   "property": "C146",
   "status": "partial",
   "theorems": [
    "Verif.Whole.C146_reachable_partial",
    "Verif.Whole.C146_reached",
    "Verif.Whole.C146_untracked",
    "Verif.Whole.C146_counts",
    "Verif.Whole.C146_cover_partial"
   ],
   "note": "Partial: identifiers that belong to several functions (C146_reachable_partial); the chart label counts functions of too old modules as covered and rounds (C146_cover_partial, see C83)."
  },
  {
   "property": "C147",
   "status": "partial",
   "theorems": [
    "Verif.Seen.C147_delivered_partial",
    "Verif.Seen.C147_genuine_partial",
    "Verif.Seen.C147_exact_partial",
    "Verif.Seen.C147_shared_violated"
   ],
   "note": "Delivered and recorded exactly for values in which no address is met twice and names are distinct; in general every recorded text is that of the value or a note. Violated for values that share a part: the second occurrence is replaced by a note."
  },
  {
   "property": "C148",
   "status": "partial",
   "theorems": [
    "Verif.Seen.C148_listed_partial",
    "Verif.Seen.C148_quiet",
    "Verif.Seen.C148_number_partial",
    "Verif.Seen.C148_text_partial"
   ],
   "note": "Proved on the conditions of C131 (calls in order, no collisions) and C147 (no shared parts, distinct names)."
  },
  {
   "property": "C149",
   "status": "partial",
   "theorems": [
    "Verif.Seen.C149_report_partial"
   ],
   "note": "Proved on the conditions of C131 (calls in order, no collisions) and C147 (no shared parts, distinct names); messages are taken in the order of handling."
  },
  {
   "property": "C150",
   "status": "partial",
   "theorems": [
    "Verif.Blocks.C150_never_partial",
    "Verif.Blocks.C150_unmarked",
    "Verif.Blocks.C150_points",
    "Verif.Blocks.C150_recover_violated",
    "Verif.Blocks.C150_panic_violated",
    "Verif.Blocks.C150_calls_violated"
   ],
   "note": "Violated for functions that recover from their own panic, for the lines of panics and for returned calls with several results; the rest is proved, with what package ssa guarantees of its functions as hypothesis."
  },
  {
   "property": "C151",
   "status": "partial",
   "theorems": [
    "Verif.Look.C151_table",
    "Verif.Look.C151_stable",
    "Verif.Look.C151_mutations",
    "Verif.Look.C151_cover_partial",
    "Verif.Look.C151_time",
    "Verif.Look.C151_axis_partial",
    "Verif.Look.C151_axis_violated",
    "Verif.Look.C151_cover_violated"
   ],
   "note": "Violated for the coverage gauge (label and colour count different things) and for axes above 20000; the rest is proved."
  },
  {
   "property": "C152",
   "status": "partial",
   "theorems": [
    "Verif.Advice.C152_told_partial",
    "Verif.Advice.C152_dependency_partial",
    "Verif.Advice.C152_true_partial",
    "Verif.Advice.C152_goes_on",
    "Verif.Advice.C152_version_violated",
    "Verif.Advice.C152_name_violated",
    "Verif.Advice.C152_broken_violated"
   ],
   "note": "Names and versions are searched in the text of the error, so a version that begins like another, a module whose path is part of another, and a directory without go.mod file lead to wrong answers (proved). Holds where names and versions are not parts of each other."
  },
  {
   "property": "C153",
   "status": "partial",
   "theorems": [
    "Verif.Budget.C153_opens",
    "Verif.Budget.C153_accepted",
    "Verif.Budget.C153_memory_partial",
    "Verif.Budget.C153_memory_bound",
    "Verif.Budget.C153_refused",
    "Verif.Budget.C153_memory_violated"
   ],
   "note": "Budgets below 64 MB are not kept: the least memory is 34 MB (proved). The limits of the database library are part of the trusted base."
  },
  {
   "property": "C154",
   "status": "partial",
   "theorems": [
    "Verif.Target.C154_skipped",
    "Verif.Target.C154_run_partial",
    "Verif.Target.C154_reaching",
    "Verif.Target.C154_same_name_violated"
   ],
   "note": "Tests are selected by name in all packages, so a test of another package with the same name is run as well (proved)."
  },
  {
   "property": "C155",
   "status": "partial",
   "theorems": [
    "Verif.Tidy.C155_report_partial",
    "Verif.Tidy.C155_unchanged_partial"
   ],
   "note": "Partial: `Fine` (values are transported, C147) and absence of hash collisions remain as conditions."
  },
  {
   "property": "C156",
   "status": "partial",
   "theorems": [
    "Verif.Args.C156_same_partial",
    "Verif.Args.C156_compiles_partial",
    "Verif.Args.C156_several_violated",
    "Verif.Args.C156_constant_violated",
    "Verif.Args.C156_big_violated",
    "Verif.Args.C156_package_violated",
    "Verif.Args.C156_method_violated",
    "Verif.Args.C156_scope_violated",
    "Verif.Args.C156_shadow_violated"
   ],
   "note": "Partial: calls that use a name declared by their own statement are excluded; the exact condition under which other calls compile is proved, and calls that do not meet it are shown."
  },
  {
   "property": "C157",
   "status": "partial",
   "theorems": [
    "Verif.Jumps.C157_returns",
    "Verif.Jumps.C157_calls_partial",
    "Verif.Jumps.C157_both_partial",
    "Verif.Jumps.C157_goto_violated"
   ],
   "note": "Returns: proved. Calls: proved exactly for bodies without a goto that leads forward over a reported call with variables; others are shown to break."
  },
  {
   "property": "C158",
   "status": "partial",
   "theorems": [
    "Verif.Stack.C158_frames",
    "Verif.Stack.C158_accepted",
    "Verif.Stack.C158_path_partial",
    "Verif.Stack.C158_prefix",
    "Verif.Stack.C158_deep_violated"
   ],
   "note": "runtime.Callers and CallersFrames are modelled as documented; paths are exact up to 2048 frames, and C158_deep_violated shows that beyond that different paths are taken to be the same."
  },
  {
   "property": "C159",
   "status": "partial",
   "theorems": [
    "Verif.Beside.C159_genuine",
    "Verif.Beside.C159_waits",
    "Verif.Beside.C159_crashes",
    "Verif.Beside.C159_same_partial",
    "Verif.Beside.C159_synchronised_partial",
    "Verif.Beside.C159_unlocked_violated"
   ],
   "note": "C159_crashes says exactly when the instrumented program can crash; C159_same_partial covers reports of maps that are not shared or whose mutex is held, C159_unlocked_violated is a program free of races that crashes once instrumented. Mutexes and maps are modelled, writes being two steps; other kinds of shared memory are not."
  },
  {
   "property": "C160",
   "status": "partial",
   "theorems": [
    "Verif.Keys.C160_exact",
    "Verif.Keys.C160_ends_partial",
    "Verif.Keys.C160_quiet_partial",
    "Verif.Keys.C160_effects_violated",
    "Verif.Keys.C160_endless_violated",
    "Verif.Keys.C160_panic_violated"
   ],
   "note": "C160_exact gives what is noticed of a report: what the printing methods of the reported keys do. Quiet without such methods, ending if these do not come back to themselves; both conditions are needed (C160_effects_violated, C160_endless_violated, C160_panic_violated)."
  },
  {
   "property": "C161",
   "status": "partial",
   "theorems": [
    "Verif.Attempt.C161_regression",
    "Verif.Attempt.C161_watched_partial",
    "Verif.Attempt.C161_unbuilt",
    "Verif.Attempt.C161_unbuilt_violated",
    "Verif.Attempt.C161_late_violated"
   ],
   "note": "Regressions are characterised for all endings; for attempts that are built and run to their end the report is exact under the conditions of C131. Violated for packages that do not build once instrumented and for tests that take more than 30 s: nothing is reported."
  },
  {
   "property": "C162",
   "status": "partial",
   "theorems": [
    "Verif.Serve.C162_errors",
    "Verif.Serve.C162_stopped",
    "Verif.Serve.C162_served_partial",
    "Verif.Serve.C162_known",
    "Verif.Serve.C162_count",
    "Verif.Serve.C162_late_violated"
   ],
   "note": "Proved for all orders of steps in which each goroutine has tried to listen within the 100 ms waited for; violated if it is later."
  },
  {
   "property": "C163",
   "status": "partial",
   "theorems": [
    "Verif.Nodes.C163_found_partial",
    "Verif.Nodes.C163_callers_partial",
    "Verif.Nodes.C163_generic",
    "Verif.Nodes.C163_init",
    "Verif.Nodes.C163_report_partial",
    "Verif.Nodes.C163_init_violated",
    "Verif.Nodes.C163_edges_violated"
   ],
   "note": "Proved for all changed functions with a name of their own, generic or not. Violated for init functions (nothing is ever reported, proved for all programs; which node is taken depends on the order of a map) and for exported calls of generic functions of one name."
  },
  {
   "property": "C164",
   "status": "proved",
   "theorems": [
    "Verif.Locks.C164_ends",
    "Verif.Locks.C164_bounded",
    "Verif.Locks.C164_progress"
   ],
   "note": "All operations of ASTModifier as lock instructions; every schedule ends with all done. Work between the instructions is taken to end."
  },
  {
   "property": "C165",
   "status": "partial",
   "theorems": [
    "Verif.Inject.C165_client_violated",
    "Verif.Inject.C165_name",
    "Verif.Inject.C165_client_partial"
   ],
   "note": "Violated: the package is looked for while files of the directory are truncated and written (C165_client_violated). Proved: what is put in is right in all schedules (C165_name); the full statement if no file is cut meanwhile."
  },
  {
   "property": "C166",
   "status": "partial",
   "theorems": [
    "Verif.Inject.C166_types_violated",
    "Verif.Inject.C166_sibling_violated",
    "Verif.Inject.C166_types_partial",
    "Verif.Inject.C166_untyped",
    "Verif.Inject.C166_fields_violated",
    "Verif.Inject.C166_report_violated"
   ],
   "note": "Violated: types known depends on the schedule (C166_types_violated, C166_sibling_violated), and with it the fields and the differences counted. Proved: the same in all orderly schedules (C166_types_partial); never known in packages that fail the check, at most one answer per function, in all schedules (C166_untyped)."
  },
  {
   "property": "C167",
   "status": "partial",
   "theorems": [
    "Verif.Versions.C167_complete_partial",
    "Verif.Versions.C167_sound_partial",
    "Verif.Versions.C167_functions_partial",
    "Verif.Versions.C167_listed_partial",
    "Verif.Versions.C167_lower_violated",
    "Verif.Versions.C167_two_violated",
    "Verif.Versions.C167_new_violated",
    "Verif.Versions.C167_replaced_violated",
    "Verif.Versions.C167_target_violated"
   ],
   "note": "Violated in five ways (lower versions, two versions, new modules, requested modules raised further, replaced modules). Proved: complete if no touched module is new and each is touched in one version; sound if besides none is lower and none replaced; exact for an updated go.mod file that stays tidy."
  },
  {
   "property": "C168",
   "status": "partial",
   "theorems": [
    "Verif.Script.C168_quoted",
    "Verif.Script.C168_all_partial",
    "Verif.Script.C168_abstract",
    "Verif.Script.C168_blank",
    "Verif.Script.C168_mutant",
    "Verif.Script.C168_blank_violated",
    "Verif.Script.C168_pattern_violated"
   ],
   "note": "With targeted tests for all paths; with all tests for paths without blanks and pattern characters (partial). Proved negations: a blank skips every mutant, brackets can destroy two files."
  },
  {
   "property": "C169",
   "status": "partial",
   "theorems": [
    "Verif.Again.C169_once_partial",
    "Verif.Again.C169_again",
    "Verif.Again.C169_again_violated",
    "Verif.Again.C169_shared_violated",
    "Verif.Again.C169_given_violated",
    "Verif.Again.C169_refused",
    "Verif.Again.C169_start_kept"
   ],
   "note": "For engines run once each with default providers, in any interleaving. Proved negations: an engine run again, run twice at a time, and a provider with a directory that has files."
  },
  {
   "property": "C170",
   "status": "partial",
   "theorems": [
    "Verif.Order.C170_order_partial",
    "Verif.Order.C170_direct",
    "Verif.Order.C170_order_violated",
    "Verif.Order.C170_requests_violated"
   ],
   "note": "For modules requested once, if no other module comes up in two versions; without transitive dependencies always. Proved negations: two versions at one level, a module requested twice."
  },
  {
   "property": "C171",
   "status": "partial",
   "theorems": [
    "Verif.Modes.C171_restored",
    "Verif.Modes.C171_works",
    "Verif.Modes.C171_denied",
    "Verif.Modes.C171_again",
    "Verif.Modes.C171_mode_partial",
    "Verif.Modes.C171_mode_violated",
    "Verif.Modes.C171_copy",
    "Verif.Modes.C171_copied",
    "Verif.Modes.C171_exec_violated"
   ],
   "note": "C171_restored: content, no backup, nothing else changed, permissions those of a new file. C171_mode_partial: the permissions come back exactly if they were those of a new file. C171_mode_violated: a private file becomes readable by all. C171_copy, C171_exec_violated: copies have the content; no copied file may be executed."
  },
  {
   "property": "C172",
   "status": "partial",
   "theorems": [
    "Verif.Leave.C172_left_partial",
    "Verif.Leave.C172_sources_partial",
    "Verif.Leave.C172_left_violated"
   ],
   "note": "C172_left_partial: the whole file system is as before if there are no leftovers, links or failing copies and renames and the go command makes no new go.sum. C172_sources_partial: sources also if the copies and renames of go.mod and go.sum fail. C172_left_violated: a new go.sum stays; a source that cannot be put back after the first tests stays changed although nothing fails afterwards."
  },
  {
   "property": "C173",
   "status": "partial",
   "theorems": [
    "Verif.Outside.C173_module_partial",
    "Verif.Outside.C173_places_partial",
    "Verif.Outside.C173_std_violated",
    "Verif.Outside.C173_std_meant",
    "Verif.Outside.C173_std_slash",
    "Verif.Outside.C173_cache_violated"
   ],
   "note": "C173_module_partial, C173_places_partial: modules in a cache at its usual place below any GOPATH. C173_std_violated: every file outside of project, GOPATH and caches is reported with its full path, because GOPATH is passed for GOROOT; C173_std_meant: it would be relative with GOROOT. C173_cache_violated: caches at other places."
  }
 ]
}