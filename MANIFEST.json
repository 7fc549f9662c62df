{"claims": [
 {"property": "C01", "status": "proved", "theorems": ["Verif.Etag.C01_etag_of_any_feeding", "Verif.Etag.C01_etag_spec_unique", "Verif.Etag.C01_etag_split_independent"], "note": ""},
 {"property": "C02", "status": "proved", "theorems": ["Verif.Etag.C02_digest_stable", "Verif.Etag.C02_hexdigest_stable", "Verif.Etag.C02_hexdigest_read", "Verif.Etag.C02_hexdigest_iff", "Verif.Etag.C02_hexdigest_of_any_feeding"], "note": ""},
 {"property": "C03", "status": "partial", "theorems": ["Verif.Etag.C03_early_digest_counterexample", "Verif.Etag.C03_early_digest_partial", "Verif.Etag.C03_parts_only_grow", "Verif.Etag.C03_early_digest_iff"], "note": "False of the code in general (counterexample theorem). Proved exactly when it holds (C03_early_digest_iff): for every hash function if and only if each early digest is on a block boundary or followed by no bytes."},
 {"property": "C04", "status": "proved", "theorems": ["Verif.Etag.C04_calls_terminate", "Verif.Etag.C04_bound_adequate", "Verif.Etag.C04_chunksize_zero_diverges"], "note": "for chunksize > 0; for chunksize 0 non-termination is proved"},
 {"property": "C05", "status": "proved", "theorems": ["Verif.Data.C05_checksum_is_hash_of_content", "Verif.Data.C05_checksum_read_size_irrelevant", "Verif.Data.C05_file_etag"], "note": ""},
 {"property": "C06", "status": "partial", "theorems": ["Verif.Data.C06_requested_cypher_counterexample", "Verif.Data.C06_requested_cypher_partial", "Verif.Data.C06_validation_counterexample"], "note": "False of the code when the default cypher is requested explicitly on an instance with another cypher, see counterexample; proved otherwise."},
 {"property": "C07", "status": "proved", "theorems": ["Verif.Data.C07_data_yields_content"], "note": ""},
 {"property": "C08", "status": "partial", "theorems": ["Verif.Data.C08_ranges_counterexample", "Verif.Data.C08_ranges_stale_counterexample", "Verif.Data.C08_reversed_range_counterexample", "Verif.Data.C08_ranges_partial", "Verif.Data.C08_law", "Verif.Data.C08_no_ranges", "Verif.Data.C08_law_all"], "note": "False of the code for ranges that are exactly one chunk long and for reversed ranges (counterexamples); proved for all other valid ranges, and what valid ranges of any length yield is proved too (C08_law)."},
 {"property": "C09", "status": "partial", "theorems": ["Verif.Data.C09_write_fails_before_first_chunk", "Verif.Data.C09_write_delivers", "Verif.Data.C09_empty_stream_counterexample", "Verif.Data.C09_write_stream_partial", "Verif.Data.C09_ntfs_same", "Verif.Data.C09_chained_setter", "Verif.Data.C09_chained_empty"], "note": "False for the empty stream (counterexample); proved for non-empty streams and for failing streams."},
 {"property": "C10", "status": "partial", "theorems": ["Verif.FS.C10_no_clobber", "Verif.FS.C10_no_clobber_shutil", "Verif.FS.C10_no_clobber_outto", "Verif.FS.C10_copied", "Verif.FS.C10_copied_outto", "Verif.FS.C10_existing", "Verif.FS.C10_forced_partial", "Verif.FS.C10_forced_shutil_partial", "Verif.FS.C10_returns", "Verif.FS.C10_empty_counterexample", "Verif.FS.C10_self_counterexample", "Verif.FS.C10_directory_counterexample", "Verif.FS.C10_replaces", "Verif.FS.C10_onto_directory", "Verif.FS.C10_refused", "Verif.FS.C10_onto_itself", "Verif.FS.C10_from_directory", "Verif.FS.C10_outto_refused"], "note": "Proved for both kinds of copy_to and for copy_outto: no clobbering for every state and failing call (full), exact bytes and nothing else changed without force (full), liveness. With force the claim fails for a file onto itself and for a directory target, and an empty local file cannot be copied (counterexamples)."},
 {"property": "C11", "status": "partial", "theorems": ["Verif.Data.C11_stale_request_counterexample", "Verif.Data.C11_created_counterexample", "Verif.Data.C11_stale_request_counterexample2", "Verif.Data.C11_raised_counterexample", "Verif.Data.C11_request_partial", "Verif.Data.C11_law"], "note": "False for a memo filled by a request of another kind, and after a request that raised (counterexamples: the change tuple is stored before the metadata is made, so that the metadata of the old file is returned from then on); proved for the remaining histories, and the answer in every history is proved too (C11_law)."},
 {"property": "C12", "status": "partial", "theorems": ["Verif.Xattrs.C12_xattrs_read_back", "Verif.Xattrs.C12_xattrs_round_trip_partial", "Verif.Xattrs.C12_xattrs_counterexample", "Verif.Xattrs.C12_encode_refuses", "Verif.Xattrs.C12_decode_raises", "Verif.Xattrs.C12_number_iff"], "note": "False for some values (counterexample); proved for exactly the metadata whose values survive (iff)."},
 {"property": "C13", "status": "partial", "theorems": ["Verif.Xattrs.C13_prefix_isolation_partial", "Verif.Xattrs.C13_prefix_isolation_counterexample", "Verif.Xattrs.C13_written_under", "Verif.Xattrs.C13_other_names", "Verif.Xattrs.C13_names", "Verif.Xattrs.C13_prefix_isolation_iff"], "note": "False when an attribute name outside the prefix is not UTF-8 (counterexample); proved when all names are. Exact condition in C13_prefix_isolation_iff."},
 {"property": "C14", "status": "proved", "theorems": ["Verif.Xattrs.C14_timestamp_text"], "note": ""},
 {"property": "C15", "status": "partial", "theorems": ["Verif.Symlink.C15_symlink_round_trip_partial", "Verif.Symlink.C15_symlink_round_trip_iff"], "note": "Proved exactly when each field meets its guard (an if and only if); values outside it are corrupted (see C16)."},
 {"property": "C16", "status": "partial", "theorems": ["Verif.Symlink.C16_rejected_iff", "Verif.Symlink.C16_rejected_or_survives_partial", "Verif.Symlink.C16_corrupted_counterexample"], "note": "False (corrupted values, counterexample). Which metadata is rejected and which survives is characterised exactly (iff)."},
 {"property": "C17", "status": "partial", "theorems": ["Verif.Symlink.C17_three_components_partial", "Verif.Symlink.C17_name_checked", "Verif.Symlink.C17_three_components_counterexample", "Verif.Symlink.C17_name_unchecked_counterexample", "Verif.Symlink.C17_three_components_iff"], "note": "Proved exactly when it holds: the id is not empty and no error has a slash (an if and only if; counterexamples for the rest). The name check on reading is proved."},
 {"property": "C18", "status": "partial", "theorems": ["Verif.Symlink.C18_versions_partial", "Verif.Symlink.C18_columns", "Verif.Symlink.C18_texts", "Verif.Symlink.C18_meta_counterexample", "Verif.Symlink.C18_checksum"], "note": "False for the version tag meta (counterexample); proved for all numbered versions."},
 {"property": "C19", "status": "partial", "theorems": ["Verif.FS.C19_never_resolves", "Verif.FS.C19_metadata_link", "Verif.FS.C19_empty_id_counterexample"], "note": "proved for every link whose text starts with its own name, which is what the library writes whenever a local name is given, the id is not the empty text and no error message has a slash; counterexample for the empty id"},
 {"property": "C20", "status": "partial", "theorems": ["Verif.C20_equality_counterexample", "Verif.C20_asymmetry_counterexample", "Verif.C20_equality_refl", "Verif.C20_equal_means_same_fields", "Verif.C20_equality_partial", "Verif.C20_points_in_time", "Verif.C20_equivalence_partial", "Verif.C20_next_day", "Verif.C20_order", "Verif.C20_equal_means_same_extras"], "note": "False for objects whose timestamps are in different parse states and for unexpected keyword arguments (counterexamples). Reflexivity and soundness of a positive answer are proved for all objects, the full claim for objects built from parsed values. Equal objects have the same extra keyword arguments (C20_equal_means_same_extras), and times are compared as on the calendar (C20_next_day, C20_order)."},
 {"property": "C21", "status": "proved", "theorems": ["Verif.C21_truth_value"], "note": ""},
 {"property": "C22", "status": "partial", "theorems": ["Verif.C22_checksum_decides", "Verif.C22_size_or_time_partial", "Verif.C22_no_time_counterexample", "Verif.C22_answer_iff"], "note": "Checksum half proved. The other half is false when an update time is missing (counterexample), proved for comparable times. When there is an answer at all, and which one, for every pair: C22_answer_iff."},
 {"property": "C23", "status": "partial", "theorems": ["Verif.C23_items", "Verif.C23_getitem_counterexample", "Verif.C23_timestamps", "Verif.C23_refused"], "note": "Mapping access is false of the code, meta[key] always gives None (counterexample). items() is proved."},
 {"property": "C24", "status": "partial", "theorems": ["Verif.C24_different_iff", "Verif.C24_merge", "Verif.C24_old_id_partial", "Verif.C24_old_id_counterexample", "Verif.C24_merge_with_nothing", "Verif.C24_merge_constructs"], "note": "Recognition of a different file and every field except old_id are proved in full. For old_id the claim is false in two cases (counterexample theorem) and proved otherwise."},
 {"property": "C25", "status": "partial", "theorems": ["Verif.C25_nothing_stale_partial", "Verif.C25_stale_errors_counterexample"], "note": "False for errors and other empty collections (counterexample); the exact law is proved."},
 {"property": "C26", "status": "partial", "theorems": ["Verif.C26_converges_partial", "Verif.C26_converges_counterexample", "Verif.C26_self", "Verif.C26_converges_iff"], "note": "False for an empty id (counterexample); proved for every other id. Self merge proved. Exact condition in C26_converges_iff."},
 {"property": "C27", "status": "partial", "theorems": ["Verif.Cache.C27_replaced_partial", "Verif.Cache.C27_returned", "Verif.Cache.C27_accepted", "Verif.Cache.C27_read_back", "Verif.Cache.C27_sequence_counterexample", "Verif.Cache.C27_broken_trash_counterexample", "Verif.Cache.C27_first", "Verif.Cache.C27_first_read_back", "Verif.Cache.C27_asked", "Verif.Cache.C27_unknown", "Verif.Cache.C27_unknown_only"], "note": "Holds for every failing call and every metadata while the trash directory is there; if the trash is itself a broken link the previous version is unlinked instead, and over several calls the cache may go back in time (same id, then another)."},
 {"property": "C28", "status": "partial", "theorems": ["Verif.Cache.C28_raised_partial", "Verif.Cache.C28_exists_refused", "Verif.Cache.C28_encodable_partial", "Verif.Cache.C28_not_encodable_counterexample"], "note": "A call that raises changed nothing if the metadata can be encoded and no call fails; otherwise the path is empty and the old link is in the trash."},
 {"property": "C29", "status": "partial", "theorems": ["Verif.Cache.C29_latest_partial", "Verif.Cache.C29_history_partial", "Verif.Cache.C29_move_partial", "Verif.Cache.C29_failed_partial", "Verif.Cache.C29_collision_counterexample", "Verif.Cache.C29_again_counterexample", "Verif.Cache.C29_long_counterexample", "Verif.Cache.C29_move_new_partial", "Verif.Cache.C29_no_name_partial", "Verif.Cache.C29_made", "Verif.Cache.C29_no_id_partial"], "note": "Each returned path holds what the latest move that returned it moved there; ids with the same safe form overwrite each other, and for an id that is too long the returned path does not exist."},
 {"property": "C30", "status": "proved", "theorems": ["Verif.C30_fs_safe_id", "Verif.C30_fs_safe_id_idempotent"], "note": ""},
 {"property": "C31", "status": "partial", "theorems": ["Verif.Cache.C31_overlay_partial", "Verif.Cache.C31_reads_back_partial", "Verif.Cache.C31_returns_partial", "Verif.Cache.C31_torn_partial", "Verif.Cache.C31_stale_counterexample", "Verif.Cache.C31_memory_counterexample", "Verif.Cache.C31_symlink_refused", "Verif.Cache.C31_symlink_refused_always", "Verif.Cache.C31_symlink_reads"], "note": "Reading back gives the overlay of the new fields over the old ones; fields that the new metadata does not have stay from before. What is read through a symlink: C31_symlink_reads."},
 {"property": "C32", "status": "partial", "theorems": ["Verif.Cache.C32_raises_partial", "Verif.Cache.C32_content_partial", "Verif.Cache.C32_no_remote_counterexample"], "note": "Proved for every failing call and every content and metadata when a checksum was recorded or the remote can be asked and the content is not the offered one; counterexample when no checksum is recorded and the remote has no such file."},
 {"property": "C33", "status": "partial", "theorems": ["Verif.Cache.C33_restored_partial", "Verif.Cache.C33_returned_partial", "Verif.Cache.C33_recorded", "Verif.Cache.C33_long_counterexample", "Verif.Cache.C33_directory_counterexample"], "note": "Proved for every failing call, every remote behaviour and every metadata when the id can be a file name and the remote is not a directory; counterexamples for long ids and remotes that became directories. If the rename back itself is refused the file is in the trash."},
 {"property": "C34", "status": "partial", "theorems": ["Verif.Cache.C34_verified", "Verif.Cache.C34_fetched", "Verif.Cache.C34_not_fetched", "Verif.Cache.C34_boundary_counterexample", "Verif.Cache.C34_empty_counterexample"], "note": "The verification part is proved for every run; a size equal to the limit is not fetched and an empty remote raises StopIteration (counterexamples)."},
 {"property": "C35", "status": "partial", "theorems": ["Verif.Cache.C35_existing_partial", "Verif.Cache.C35_crash_counterexample", "Verif.Cache.C35_link_partial"], "note": "Proved at every crash point for a path that is already a file; counterexample for a link, where the link is removed before the attributes are written. For a link every state that can be left is described: the link, nothing, an empty file with part of the record, or a file with the whole record (C35_link_partial)."},
 {"property": "C36", "status": "partial", "theorems": ["Verif.Cache.C36_raises_partial", "Verif.Cache.C36_cast_counterexample", "Verif.Cache.C36_unnamed_counterexample", "Verif.Cache.C36_remote_counterexample", "Verif.Cache.C36_which"], "note": "Proved for every failing call when the target is a cache already or no metadata is given. Counterexamples: a target given as a local path with metadata, and a target that is found from the remote (move(remote=...)), are rewritten with the metadata before the ids are compared. A third counterexample: two files that have no id, one because it has no metadata, count as the same and one takes the place of the other."},
 {"property": "C37", "status": "partial", "theorems": ["Verif.Cache.C37_restored_partial", "Verif.Cache.C37_moved_partial", "Verif.Cache.C37_moves_partial", "Verif.Cache.C37_clobber_counterexample", "Verif.Cache.C37_lost_counterexample", "Verif.Cache.C37_silent_counterexample", "Verif.Cache.C37_link_counterexample", "Verif.Cache.C37_never_lost", "Verif.Cache.C37_link_merged"], "note": "Proved for every run in which at most one call fails and the name of the temporary link is free; counterexamples for a taken name and for a second failure; also shown: a failed rename is not reported."},
 {"property": "C38", "status": "partial", "theorems": ["Verif.Dedupe.C38_one_of_the_two", "Verif.Dedupe.C38_later_wins", "Verif.Dedupe.C38_symmetric_partial", "Verif.Dedupe.C38_local_later_wins", "Verif.Dedupe.C38_size_wins", "Verif.Dedupe.C38_tie_counterexample", "Verif.Dedupe.C38_missing_time_counterexample", "Verif.Dedupe.C38_symmetric_iff"], "note": "The later copy is chosen whichever way it is asked, for all pairs with known times. For equal times order independence holds exactly when a local time or size tells the copies apart; ties and missing times are counterexamples. All pairs: C38_symmetric_iff."},
 {"property": "C39", "status": "partial", "theorems": ["Verif.Bootstrap.C39_filtered_partial", "Verif.Bootstrap.C39_below_accepted", "Verif.Bootstrap.C39_root_kept", "Verif.Bootstrap.C39_refused", "Verif.Bootstrap.C39_flat", "Verif.Bootstrap.C39_skip_below_counterexample", "Verif.Bootstrap.C39_only_below_root_counterexample"], "note": "The filter on the bootstrapped object itself is exact, and everything below an accepted one is bootstrapped. False below it: the recursion ignores skip and only. An object that is neither a directory nor a file (an empty file on an ssh remote) is refused unless it is here already (C39_refused)."},
 {"property": "C40", "status": "partial", "theorems": ["Verif.Bootstrap.C40_mark_iff", "Verif.Bootstrap.C40_sparse_partial", "Verif.Bootstrap.C40_unlisted_counterexample", "Verif.Bootstrap.C40_root_counterexample", "Verif.Bootstrap.C40_made_iff", "Verif.Bootstrap.C40_all"], "note": "Listed objects are sparse, with an empty list everything is full, the mark is exact for non-roots. False: with any non-empty list unlisted objects are sparse too, and the root is never marked."},
 {"property": "C41", "status": "partial", "theorems": ["Verif.FS.C41_inherited", "Verif.FS.C41_mark", "Verif.FS.C41_clear", "Verif.FS.C41_other_value_counterexample", "Verif.FS.C41_relative_counterexample", "Verif.FS.C41_cache_counterexample", "Verif.FS.C41_cache_iff", "Verif.FS.C41_cache_mark", "Verif.FS.C41_nearest", "Verif.FS.C41_cache_root_law", "Verif.FS.C41_never_the_root", "Verif.FS.C41_cache_disturbed"], "note": "exact for absolute paths with marks as the library sets them, with mark and clear laws; counterexamples: another attribute value, relative paths, and caches without extended attributes, which answer True, or raise because the marker is missing or has no metadata, but never False (with the exact conditions, and what marking and clearing change)"},
 {"property": "C42", "status": "partial", "theorems": ["Verif.FS.C42_topmost_partial", "Verif.FS.C42_broken_link", "Verif.FS.C42_root_counterexample", "Verif.FS.C42_gap_counterexample", "Verif.FS.C42_spellings_counterexample", "Verif.FS.C42_run", "Verif.FS.C42_fail"], "note": "exact for absolute symlink free paths when the root directory is not cached; counterexamples: cached root directory, gap with a raising cache class, several spellings With a raising cache class the answer is the top of the lowest run, which is the topmost exactly without a gap (C42_run, C42_fail)."},
 {"property": "C43", "status": "partial", "theorems": ["Verif.Anchor.C43_second_refused", "Verif.Anchor.C43_success", "Verif.Anchor.C43_once_at_a_time", "Verif.Anchor.C43_again", "Verif.Anchor.C43_failure_partial", "Verif.Anchor.C43_half_anchored_counterexample", "Verif.Anchor.C43_weigh_again_counterexample", "Verif.Anchor.C43_mismatch_counterexample", "Verif.Anchor.C43_replaced_counterexample", "Verif.Anchor.C43_data_dir_counterexample", "Verif.Anchor.C43_ok_iff", "Verif.Anchor.C43_exceptions", "Verif.Anchor.C43_split", "Verif.Anchor.C43_split_once_partial"], "note": "For instances that belong to the class itself (from python 3.12 on without extended attributes): refusal, single anchoring between weighings and re-anchoring proved for all histories. Otherwise C43_split and C43_split_once_partial: the remote class keeps its anchor, that of the cache class is replaced. False: failed attempts leave the cache class anchored or the api bound, and weighing the cache leaves the remote anchored."},
 {"property": "C44", "status": "partial", "theorems": ["Verif.FS.C44_relative", "Verif.FS.C44_straight_partial", "Verif.FS.C44_not_refused", "Verif.FS.C44_dotdot_counterexample", "Verif.FS.C44_cwd_symlink_counterexample", "Verif.FS.C44_other_home_counterexample", "Verif.FS.C44_refusal_not_ignored", "Verif.FS.C44_refused_iff"], "note": "Relative paths always, and every straightly written path (no dot-dot, no symlink before the last component) that names the root, a top level object, a directory in /home or the working directory, are refused with nothing changed. False for other spellings, proved: /x/../top is removed; the working directory reached through a symlink is removed; homes outside /home are not protected. Exactly which spellings are refused: C44_refused_iff."},
 {"property": "C45", "status": "proved", "theorems": ["Verif.FS.C45_outside_unchanged", "Verif.FS.C45_only_removes"], "note": "For every disk with symlinks anywhere, every spelling of the path, every set of failing calls, both values of ignore_errors and DANGERZONE, every handler and recursion depth: outside the named location nothing changes, inside objects only disappear."},
 {"property": "C46", "status": "proved", "theorems": ["Verif.FS.C46_removed", "Verif.FS.C46_handler_counterexample", "Verif.FS.C46_returns", "Verif.FS.C46_missing"], "note": "If it returns without ignore_errors (and without a handler that returns, for which the counterexample is proved) lstat of the path fails and every location at and below it is empty; and in the absence of failures it does return, removing exactly the tree."},
 {"property": "C47", "status": "proved", "theorems": ["Verif.FS.Rmdirtree.C47_only_hollow", "Verif.FS.Rmdirtree.C47_exactly_hollow", "Verif.FS.Rmdirtree.C47_symlink", "Verif.FS.Rmdirtree.C47_unreadable_counterexample", "Verif.FS.Rmdirtree.C47_file_ignored", "Verif.FS.Rmdirtree.C47_versions_agree"], "note": "For every disk and both implementations of the walk. Limits shown beside it: a directory that cannot be scanned is skipped without an exception, a path that is a file is ignored, a path that is a symlink is refused."},
 {"property": "C48", "status": "partial", "theorems": ["Verif.FS.Swap.C48_exchanged_partial", "Verif.FS.Swap.C48_nothing_lost_partial", "Verif.FS.Swap.C48_returns", "Verif.FS.Swap.C48_moved_counterexample", "Verif.FS.Swap.C48_relative_counterexample", "Verif.FS.Swap.C48_refuses", "Verif.FS.Swap.C48_linux"], "note": "For absolute paths, and relative ones that do not lead to directories: if it returns the contents are exchanged and nothing else differs; at every failure or crash point both contents are on the disk; without failures it returns. Counterexamples proved: with a missing source it raises although the target was moved into a temporary directory; for relative paths to directories the call exchanges x/x and y/y instead of x and y."},
 {"property": "C49", "status": "partial", "theorems": ["Verif.FS.C49_denotes_partial", "Verif.FS.C49_resolves_partial", "Verif.FS.C49_ancestor_counterexample", "Verif.FS.C49_symlink_counterexample", "Verif.FS.C49_to"], "note": "exact condition under which the result denotes self, and the same in every file system with real directories above other; counterexamples: other is an ancestor of self, symlinked directories"},
 {"property": "C50", "status": "partial", "theorems": ["Verif.FS.C50_balanced", "Verif.FS.C50_short_stack_partial", "Verif.FS.C50_empty_stack_counterexample", "Verif.FS.C50_failed_pushd_counterexample", "Verif.FS.C50_popd_nth", "Verif.FS.C50_pushd", "Verif.FS.C50_removed", "Verif.FS.C50_failed_popd_counterexample", "Verif.FS.C50_popd"], "note": "balanced sequences proved; pushd works exactly for paths to a directory that may be searched and otherwise says which exception and what changed (C50_pushd); popd(N) proved; counterexamples: empty stack only warns, failed pushd leaves an entry, failed popd loses one; from a working directory that has been removed pushd raises and changes nothing"},
 {"property": "C51", "status": "partial", "theorems": ["Verif.FS.C51_restores_partial", "Verif.FS.C51_failed_enter", "Verif.FS.C51_reentry_counterexample", "Verif.FS.C51_removed", "Verif.FS.C51_cache", "Verif.FS.C51_not_directory"], "note": "proved for every body that does not enter the same object again; counterexample for re-entry; from a working directory that has been removed a directory cannot be entered (C51_removed); a cache that is not a directory is a TypeError (C51_cache)"},
 {"property": "C52", "status": "partial", "theorems": ["Verif.FS.C52_exists_iff", "Verif.FS.C52_is_file_iff", "Verif.FS.C52_is_dir_iff", "Verif.FS.C52_false_partial", "Verif.FS.C52_exceptions", "Verif.FS.C52_denied_counterexample", "Verif.FS.C52_is_broken_symlink_iff", "Verif.FS.C52_exists_not_symlink_iff", "Verif.FS.C52_is_symlink_exceptions"], "note": "exact characterisation of true, false and raise for every file system and path; counterexample: paths below unsearchable directories and overlong names raise"},
 {"property": "C53", "status": "partial", "theorems": ["Verif.FS.Listing.C53_children", "Verif.FS.Listing.C53_elsewhere", "Verif.FS.Listing.C53_anchor_exact", "Verif.FS.Listing.C53_anchor_partial", "Verif.FS.Listing.C53_stem_counterexample", "Verif.FS.Listing.C53_symlink_counterexample", "Verif.FS.Listing.C53_stem", "Verif.FS.Listing.C53_stem_whole", "Verif.FS.Listing.C53_bookkeeping_names", "Verif.FS.Listing.C53_skip_cache"], "note": "Elsewhere every descendant, each once, proved. At the anchor the exact set is proved for every tree; it is the claimed set when no top level entry is a symlink to a directory or has only its stem on the ignore list (.git.txt). Counterexamples for both proved."},
 {"property": "C54", "status": "partial", "theorems": ["Verif.Ssh.C54_access_partial", "Verif.Ssh.C54_access_iff", "Verif.Ssh.C54_no_false_denial", "Verif.Ssh.C54_grant_backed", "Verif.Ssh.C54_unreachable", "Verif.Ssh.C54_class_precedence_counterexample", "Verif.Ssh.C54_superuser_counterexample"], "note": "False in general: the code unions the owner, group and other bits instead of stopping at the first matching class, and does not know the superuser (counterexamples). Right for everybody but the superuser if and only if the triples of the mode are ordered, owner >= group >= others (C54_access_iff); never a false denial for non-superusers; every grant is backed by a bit."},
 {"property": "C55", "status": "partial", "theorems": ["Verif.Ssh.C55_format", "Verif.Ssh.C55_sent_partial", "Verif.Ssh.C55_parse_partial", "Verif.Ssh.C55_law", "Verif.Ssh.C55_parse_iff", "Verif.Ssh.C55_double_space_counterexample", "Verif.Ssh.C55_trailing_space_counterexample", "Verif.Ssh.C55_before_epoch_counterexample"], "note": "Exactly characterised (C55_parse_iff): right if and only if the name has no two spaces in a row and no space at its end, times before 1970 are whole seconds and the birth is not in the first second of 1970; for all other times what is read is proved too (C55_law). Counterexamples for double and trailing spaces and for times before 1970."},
 {"property": "C56", "status": "proved", "theorems": ["Verif.Ssh.C56_ssh_id", "Verif.Ssh.C56_local_id", "Verif.Ssh.C56_path_text"], "note": "For every host without a colon and every path text."},
 {"property": "C57", "status": "partial", "theorems": ["Verif.Parts.C57_parts_uncached_partial", "Verif.Parts.C57_parts_child", "Verif.Parts.C57_unanchored_counterexample", "Verif.Parts.C57_no_parent", "Verif.Parts.C57_parts_self", "Verif.Parts.C57_outside_reported", "Verif.Parts.C57_cached_counterexample", "Verif.Parts.C57_repeated_name_counterexample", "Verif.Parts.C57_stale_counterexample", "Verif.Parts.C57_first", "Verif.Parts.C57_cached_iff", "Verif.Parts.C57_cached_law", "Verif.Parts.C57_cache_raises", "Verif.Parts.C57_relative_self"], "note": "Without cached information exact for every tree with distinct ids; objects directly below the ancestor and the ancestor itself are right with cached information too. Two or more levels down, with accurate cached information, the parts are right exactly if the topmost directory in between and no other is named like the anchor (C57_cached_iff). Objects of a class that has no anchor raise an AttributeError, as do objects without a parent; once asked for, the parts are remembered and are wrong after a move (C57_stale_counterexample)."},
 {"property": "C58", "status": "partial", "theorems": ["Verif.FS.C58_innermost", "Verif.FS.C58_relative_path", "Verif.FS.C58_dotdot_counterexample", "Verif.FS.C58_outside"], "note": "proved for every path on its text; counterexample: dot-dot spellings"},
 {"property": "C59", "status": "partial", "theorems": ["Verif.FS.C59_no_nesting", "Verif.FS.C59_raises", "Verif.FS.C59_symlink_counterexample"], "note": "proved for the textual ancestors; counterexample: an ancestor reached through a symlink"},
 {"property": "C60", "status": "partial", "theorems": ["Verif.Git.C60_restored_partial", "Verif.Git.C60_index_partial", "Verif.Git.C60_kept_partial", "Verif.Git.C60_refused", "Verif.Git.C60_staged_counterexample", "Verif.Git.C60_tag_counterexample", "Verif.Git.C60_body_counterexample", "Verif.Git.C60_index_iff", "Verif.Git.C60_gentle_partial"], "note": "Restored branch, files and stash for every state, ref that can be checked out and body that leaves the stash and the original branch alone; nothing lost for every failing command. The index is not restored (counterexample), tags raise and leave the changes stashed, a body that stashes breaks it. Exactly when the index is restored: C60_index_iff."},
 {"property": "C61", "status": "partial", "theorems": ["Verif.Git.C61_commit_partial", "Verif.Git.C61_index_partial", "Verif.Git.C61_kept_partial", "Verif.Git.C61_working_tree_partial", "Verif.Git.C61_working_tree_index_partial", "Verif.Git.C61_detached", "Verif.Git.C61_missing_counterexample", "Verif.Git.C61_staged_counterexample", "Verif.Git.C61_old_stash_counterexample", "Verif.Git.C61_first_counterexample", "Verif.Git.C61_silent_counterexample", "Verif.Git.C61_index_iff"], "note": "Commit differs only at the path and the files and the stash come back, for every state with tracked changes or an empty stash; nothing lost for every failing command. Untracked and deleted files are silently left out, staged changes elsewhere are unstaged, an old stash entry is committed when nothing is changed, the first commit takes the whole index (counterexamples). Exactly when the index elsewhere is as before: C61_index_iff."},
 {"property": "C62", "status": "partial", "theorems": ["Verif.Url.C62_same_address_partial", "Verif.Url.C62_machine_partial", "Verif.Url.C62_undotted_partial", "Verif.Url.C62_address_injective", "Verif.Url.C62_clone_name_partial", "Verif.Url.C62_dotted_counterexample", "Verif.Url.C62_ssh_url_counterexample", "Verif.Url.C62_without_git_iff"], "note": "Both forms give the same, exact address when the remote ends in .git; without .git they give the same address, which is right if and only if the repository name has no inner last dot (C62_without_git_iff). False for ssh:// urls."},
 {"property": "C63", "status": "proved", "theorems": ["Verif.Pep440.C63_next_greater", "Verif.Pep440.C63_component_counterexample"], "note": "For every version with a release and every component of the four; with any other word in place of the component the result can be smaller (counterexample)."},
 {"property": "C64", "status": "partial", "theorems": ["Verif.Pep440.C64_asked_for", "Verif.Pep440.C64_pre_next", "Verif.Pep440.C64_no_going_back", "Verif.Pep440.C64_release_drops", "Verif.Pep440.C64_release_kept_partial", "Verif.Pep440.C64_stage_bumps_release_counterexample", "Verif.Pep440.C64_release_kept_iff"], "note": "Refusal of earlier stages and dropping of markers proved for all versions. The release number is kept except when a stage is requested explicitly from a pre-release (counterexample: alpha to beta of 1.0 gives 1.1b). Exact condition in C64_release_kept_iff."},
 {"property": "C65", "status": "proved", "theorems": ["Verif.Zip.C65_exists_iff", "Verif.Zip.C65_ancestor_dir", "Verif.Zip.C65_file_iff", "Verif.Zip.C65_children_iff", "Verif.Zip.C65_rchildren_closure"], "note": "For every list of entry names."},
 {"property": "C66", "status": "partial", "theorems": ["Verif.Zip.C66_exists_partial", "Verif.Zip.C66_missing_raises_counterexample", "Verif.Zip.C66_looks_like_zip_counterexample", "Verif.Zip.C66_empty_archive_counterexample", "Verif.Zip.C66_exists_iff"], "note": "The exact condition is C66_exists_iff: right if and only if nothing on the way only looks like an archive, the path is on disk or inside an archive, and it is not an archive without entries. Outside: raises for missing paths and for things that only look like archives, says no for empty archives."},
 {"property": "C67", "status": "partial", "theorems": ["Verif.C67_unit_partial", "Verif.C67_unit_double", "Verif.C67_unit_counterexample", "Verif.C67_no_separator", "Verif.C67_nearest_double", "Verif.C67_unit_iff", "Verif.C67_exact_partial"], "note": "False for sizes that are not exactly representable as a double (counterexample). Below the yobi range the unit is right if and only if the size is not just below an exbi-, zebi- or yobibyte (C67_unit_iff, with the exact distance); unit and number are right for every size that a double represents (C67_exact_partial), and for every size up to rounding to the nearest double (C67_unit_double, C67_nearest_double). The separator part is proved for every size."},
 {"property": "C68", "status": "partial", "theorems": ["Verif.Attrs.C68_get_exact", "Verif.Attrs.C68_list_exact", "Verif.Attrs.C68_frame", "Verif.Attrs.C68_delete_missing", "Verif.Attrs.C68_windows_list_partial", "Verif.Attrs.C68_windows_namespace_counterexample", "Verif.Attrs.C68_dotted_namespace_counterexample", "Verif.Attrs.C68_windows_list_iff"], "note": "Exact on posix for namespaces without a dot; on windows a namespace that continues another leaks into its listing (counterexample). Exact listing on windows: C68_windows_list_iff."},
 {"property": "C69", "status": "proved", "theorems": ["Verif.Pretty.C69_table", "Verif.Pretty.C69_no_field_hidden", "Verif.Pretty.C69_any", "Verif.Pretty.C69_no_table", "Verif.Pretty.C69_faithful", "Verif.Pretty.C69_user_id_counterexample"], "note": "For every object with values of the right types; the rows shown are exact for objects with values of any type too. The exception for user ids is shown to be needed."},
 {"property": "C70", "status": "partial", "theorems": ["Verif.Pretty.C70_shown_is_right", "Verif.Pretty.C70_longer_side_shown", "Verif.Pretty.C70_comparison_partial", "Verif.Pretty.C70_lost_field_counterexample", "Verif.Pretty.C70_twice_counterexample", "Verif.Pretty.C70_raises_counterexample", "Verif.Pretty.C70_nested_iff", "Verif.Pretty.C70_wrapped_counterexample"], "note": "False of the code (fields lost, shown twice, IndexError: counterexamples). Proved: whatever is shown is right; all fields of the object with more fields are shown; if one object has all fields of the other, the whole claim holds exactly if the first fields agree (C70_nested_iff)."},
 {"property": "C71", "status": "partial", "theorems": ["Verif.Ssh.C71_stat_partial", "Verif.Ssh.C71_type_partial", "Verif.Ssh.C71_data_partial", "Verif.Ssh.C71_checksum_partial", "Verif.Ssh.C71_children_partial", "Verif.Ssh.C71_checksum_space_counterexample", "Verif.Ssh.C71_children_command_counterexample", "Verif.Ssh.C71_data_command_counterexample", "Verif.Ssh.C71_stat_dollar_counterexample", "Verif.Ssh.C71_repr", "Verif.Ssh.C71_data_injective", "Verif.Ssh.C71_children_iff", "Verif.Ssh.C71_checksum_iff", "Verif.Ssh.C71_repr_literal"], "note": "Exact characterisations (iff) of the paths for which stat, the type question, reading the content, the checksum and the listing are right. False in general: no shell quoting is used, so spaces split a path and other characters run commands."},
 {"property": "C72", "status": "partial", "theorems": ["Verif.Ssh.C72_reply", "Verif.Ssh.C72_too_long", "Verif.Ssh.C72_listing_partial", "Verif.Ssh.C72_empty_counterexample", "Verif.Ssh.C72_directory_name_counterexample", "Verif.Ssh.C72_backslash_counterexample", "Verif.Ssh.C72_unreadable_counterexample"], "note": "Proved for directories with at least one plain name, if the names are not confusing; false for empty directories, unreadable files, and some names."},
 {"property": "C73", "status": "partial", "theorems": ["Verif.Ssh.C73_found_partial", "Verif.Ssh.C73_missing", "Verif.Ssh.C73_denied", "Verif.Ssh.C73_types_partial", "Verif.Ssh.C73_types_missing", "Verif.Ssh.C73_empty_file_counterexample", "Verif.Ssh.C73_found_iff"], "note": "Errors are classified correctly for every path; the types are right except that an empty file is not a file; stat results exactly under the conditions of C55 (C73_found_iff)."},
 {"property": "C74", "status": "partial", "theorems": ["Verif.Splitroot.C74_nothing_lost_partial", "Verif.Splitroot.C74_extended_counterexample", "Verif.Splitroot.C74_letter", "Verif.Splitroot.C74_hive", "Verif.Splitroot.C74_share", "Verif.Splitroot.C74_nothing_lost_iff"], "note": "Nothing is lost if and only if the path is not a network path with two separators after the prefix for extended paths (C74_nothing_lost_iff)."},
 {"property": "C75", "status": "proved", "theorems": ["Verif.Anchor.C75_nothing_lost", "Verif.Anchor.C75_success", "Verif.Anchor.C75_refused", "Verif.Anchor.C75_works", "Verif.Anchor.C75_mark_left", "Verif.Anchor.C75_content", "Verif.Anchor.C75_no_data_dir"], "note": "C75_mark_left shows in addition that an attempt that fails after the metadata was written leaves the mark."},
 {"property": "C76", "status": "partial", "theorems": ["Verif.Anchor.C76_nothing_lost", "Verif.Anchor.C76_success", "Verif.Anchor.C76_again", "Verif.Anchor.C76_right_root_partial", "Verif.Anchor.C76_other_root_counterexample", "Verif.Anchor.C76_cache_class_counterexample", "Verif.Anchor.C76_anchorTo"], "note": "False of the code in two ways: a marked directory is taken whatever its id (C76_other_root_counterexample), and the cache class is not anchored to it (C76_cache_class_counterexample). C76_right_root_partial needs the mark to have the right id. The rest is proved in full."},
 {"property": "C77", "status": "proved", "theorems": ["Verif.Pep440.C77_greater_than_all", "Verif.Pep440.C77_never_released", "Verif.Pep440.C77_answers"], "note": "The release component must be one of release, major, minor, micro, as for C63. The order the model sorts by is proved to be the order of PEP 440 (vlt_iff)."},
 {"property": "C78", "status": "partial", "theorems": ["Verif.Pep440.C78_nearest_partial", "Verif.Pep440.C78_github_partial", "Verif.Pep440.C78_none", "Verif.Pep440.C78_plain", "Verif.Pep440.C78_github_counterexample", "Verif.Pep440.C78_nearest_counterexample", "Verif.Pep440.C78_nearest_law", "Verif.Pep440.C78_github_law"], "note": "False where the name of the package is in a tag of another one (C78_github_counterexample) or the name and a dash begin it (C78_nearest_counterexample); proved otherwise, and for packages without a prefix (C78_plain). What is returned for any tags: C78_nearest_law, C78_github_law."},
 {"property": "C79", "status": "proved", "theorems": ["Verif.Pep440.C79_nearest", "Verif.Pep440.C79_folder"], "note": ""},
 {"property": "C80", "status": "proved", "theorems": ["Verif.SysId.C80_stable", "Verif.SysId.C80_existing", "Verif.SysId.C80_answers", "Verif.SysId.C80_refuses", "Verif.SysId.C80_unbound", "Verif.SysId.C80_bound_once", "Verif.SysId.C80_unreadable"], "note": "As long as nobody else changes the two files. Beside it: a file that can be written but not read is overwritten at each attempt (C80_unreadable)."},
 {"property": "C81", "status": "proved", "theorems": ["Verif.SysId.C81_id_iff", "Verif.SysId.C81_text", "Verif.SysId.C81_bound"], "note": ""},
 {"property": "C82", "status": "partial", "theorems": ["Verif.SysId.C82_windows_partial", "Verif.SysId.C82_cut_counterexample", "Verif.SysId.C82_windows_iff"], "note": "Exactly for digests whose length leaves one byte over after groups of three (blake2b, md5) the ids tell digests apart (C82_windows_iff). False for others such as sha256: the two characters that are cut off are not only padding."},
 {"property": "C83", "status": "partial", "theorems": ["Verif.Versions.C83_getRef", "Verif.Versions.C83_name_partial", "Verif.Versions.C83_not_counted", "Verif.Versions.C83_tag_counterexample", "Verif.Versions.C83_remote_counterexample", "Verif.Versions.C83_branch_counterexample", "Verif.Versions.C83_nowhere", "Verif.Versions.C83_own_name_iff", "Verif.Versions.C83_no_name_iff"], "note": "Proved on branches, at tags and at branches with a slash, and counting back from branches. False for tags that are counted back from or annotated, for branches of remotes, and for detached heads at branches without a slash (counterexamples). Exactly when a detached head has the name of its ref, and when it has none: C83_own_name_iff, C83_no_name_iff."},
 {"property": "C84", "status": "partial", "theorems": ["Verif.Versions.C84_points", "Verif.Versions.C84_show_partial", "Verif.Versions.C84_missing", "Verif.Versions.C84_newline_counterexample", "Verif.Versions.C84_text", "Verif.Versions.C84_escape", "Verif.Versions.C84_refused"], "note": "Proved exactly (iff) for content that does not end in a newline, which includes that decoding and encoding with surrogateescape gives all bytes back. False otherwise: one newline is lost."},
 {"property": "C85", "status": "partial", "theorems": ["Verif.Versions.C85_changes_partial", "Verif.Versions.C85_uncommitted", "Verif.Versions.C85_undone_counterexample", "Verif.Versions.C85_deleted_counterexample", "Verif.Versions.C85_uncached_counterexample", "Verif.Versions.C85_changes_iff"], "note": "Right if and only if the file is there and is in the index (C85_changes_iff); uncommitted implies indexed or modified, and the converse holds unless what was added was taken back. False for deleted files (raises), files that were not added, files taken out of the index, and changes that were added and then undone."},
 {"property": "C86", "status": "proved", "theorems": ["Verif.Zip.C86_content", "Verif.Zip.C86_no_content"], "note": "The error for directories is the `BaseException` of `close`, not the `IsADirectoryError` of `open`."},
 {"property": "C87", "status": "partial", "theorems": ["Verif.Zip.C87_undisturbed_partial", "Verif.Zip.C87_alone_partial", "Verif.Zip.C87_two_readers_counterexample", "Verif.Zip.C87_ends_iff"], "note": "False in general: the object closes the file it opened last, whichever reader that belongs to. Proved exactly when a reader ends (C87_ends_iff): if and only if no other reader stopped while this one's file was the one opened last; otherwise it fails the next time it is asked."},
 {"property": "C88", "status": "proved", "theorems": ["Verif.Zip.C88_below", "Verif.Zip.C88_read", "Verif.Zip.C88_refused"], "note": ""},
 {"property": "C89", "status": "proved", "theorems": ["Verif.FS.C89_nothing_lost", "Verif.FS.C89_ready", "Verif.FS.C89_fresh", "Verif.FS.C89_linked", "Verif.FS.C89_again", "Verif.FS.C89_relative_counterexample", "Verif.FS.C89_trash_counterexample", "Verif.FS.C89_objects_kept", "Verif.FS.C89_outcome"], "note": "Counterexamples: a target that is not absolute makes a link that leads elsewhere and is refused the second time; the early return leaves the trash unmade."},
 {"property": "C90", "status": "proved", "theorems": ["Verif.FS.C90_straight", "Verif.FS.C90_idempotent", "Verif.FS.C90_agrees"], "note": "A symlink loop is a resolution that follows more than a budget of symlinks, as for walk."},
 {"property": "C91", "status": "partial", "theorems": ["Verif.Cache.C91_unchanged", "Verif.Cache.C91_accepts_partial", "Verif.Cache.C91_size", "Verif.Cache.C91_bootstrap_partial", "Verif.Cache.C91_etag_counterexample", "Verif.Cache.C91_mark_counterexample", "Verif.Cache.C91_never_marked", "Verif.Cache.C91_any_etag_counterexample", "Verif.Cache.C91_link", "Verif.Cache.C91_odd_etag"], "note": "Proved except for recorded etags, which are computed but never acted on (C91_any_etag_counterexample, for every file), and for noting a wrong checksum, which always raises since the metadata of a primary cache has no setter (C91_never_marked). Files that were not fetched are refused (C91_link)."},
 {"property": "C92", "status": "partial", "theorems": ["Verif.Cache.C92_kept_partial", "Verif.Cache.C92_moved", "Verif.Cache.C92_half_counterexample", "Verif.Cache.C92_overwritten_counterexample", "Verif.Cache.C92_trash_counterexample", "Verif.Cache.C92_directory_counterexample", "Verif.Cache.C92_two_caches", "Verif.Cache.C92_refused", "Verif.Cache.C92_stays"], "note": "The first claim (C92_kept_partial) needs what is at the path that the remote asks for to be recorded under another id: C92_trash_counterexample, where a symlink of the same id is put in the trash over the local content. The rest is proved. Further counterexamples to what one might expect: the update is not all or nothing (C92_half_counterexample); a file of another id at the target is overwritten (C92_overwritten_counterexample), because it gets the metadata of the remote before the ids are compared; a directory at the target gets the metadata of the file and nothing is moved, without an error (C92_directory_counterexample)."},
 {"property": "C93", "status": "proved", "theorems": ["Verif.Cache.C93_mirrored", "Verif.Cache.C93_only", "Verif.Cache.C93_failed", "Verif.Cache.C93_refused", "Verif.Cache.C93_works", "Verif.Cache.C93_silent_counterexample", "Verif.Cache.C93_orphan_counterexample", "Verif.Cache.C93_stale_counterexample", "Verif.Cache.C93_init_absent", "Verif.Cache.C93_init_again", "Verif.Cache.C93_init_empty"], "note": "Not part of the claim, because it is false: with parents and no cached ancestor nothing is done and None is returned (C93_silent_counterexample); a file in the way is noticed only after the directory is on the remote, again each time (C93_orphan_counterexample); a directory whose remote is gone gets a second remote directory before CacheExistsError (C93_stale_counterexample)."},
 {"property": "C94", "status": "proved", "theorems": ["Verif.Cache.C94_done", "Verif.Cache.C94_failed", "Verif.Cache.C94_kept", "Verif.Cache.C94_works", "Verif.Cache.C94_bare_counterexample", "Verif.Cache.C94_file_counterexample"], "note": "Not part of the claim, because it is false: a directory that exists without metadata, as an interrupted run leaves it, never gets any (C94_bare_counterexample), and a file on the way counts as a directory that is there (C94_file_counterexample)."},
 {"property": "C95", "status": "proved", "theorems": ["Verif.Cache.C95_read", "Verif.Cache.C95_unreadable", "Verif.Cache.C95_store", "Verif.Cache.C95_fetch", "Verif.Cache.C95_update", "Verif.Cache.C95_move", "Verif.Cache.C95_legible", "Verif.Cache.C95_fetched", "Verif.Cache.C95_lost_counterexample", "Verif.Cache.C95_update_cache", "Verif.Cache.C95_validate", "Verif.Cache.C95_bootstrap_data", "Verif.Cache.C95_cache_init", "Verif.Cache.C95_mkdir_cache", "Verif.Cache.C95_legible_more", "Verif.Cache.C95_validate_unchanged", "Verif.Cache.C95_validated", "Verif.Cache.C95_bootstrapped", "Verif.Cache.C95_restored", "Verif.Cache.C95_returned", "Verif.Cache.C95_kept", "Verif.Cache.C95_made"], "note": "A refinement: the models of fetching, updating, moving, updating from a remote, validating, bootstrapping data and making directories, in which metadata is part of the objects, are implemented by the encoded form. Metadata that does not survive (C95_lost_counterexample) is excluded by hypothesis."},
 {"property": "C96", "status": "proved", "theorems": ["Verif.Graph.C96_cache_remote", "Verif.Graph.C96_same_remote", "Verif.Graph.C96_new_remote", "Verif.Graph.C96_open", "Verif.Graph.C96_child", "Verif.Graph.C96_refused_move", "Verif.Graph.C96_set_meta", "Verif.Graph.C96_id_kept", "Verif.Graph.C96_bootstrapping_id", "Verif.Graph.C96_stale_id_counterexample", "Verif.Graph.C96_stale_remote_counterexample", "Verif.Graph.C96_remote_cache_counterexample", "Verif.Graph.C96_failed_setter_counterexample", "Verif.Graph.C96_mkdir_remote_counterexample", "Verif.Graph.C96_mkdir_unanchored_counterexample", "Verif.Graph.C96_mkdir_cache_counterexample", "Verif.Graph.C96_setter_counterexample"], "note": "C96_cache_remote, C96_same_remote, C96_new_remote, C96_open, C96_child, C96_refused_move, C96_set_meta, C96_id_kept and C96_bootstrapping_id prove the statement. What the library does outside of it is shown by counterexamples: the other direction is false after a second child or a failed update (C96_remote_cache_counterexample, C96_failed_setter_counterexample), mkdir_remote and mkdir_cache without an anchor leave one-sided links (C96_mkdir_remote_counterexample, C96_mkdir_unanchored_counterexample, C96_mkdir_cache_counterexample), a used cache can be given away (C96_setter_counterexample), ids and remotes go stale when others change the metadata (C96_stale_id_counterexample, C96_stale_remote_counterexample)."},
 {"property": "C97", "status": "partial", "theorems": ["Verif.Ssh.C97_init", "Verif.Ssh.C97_place", "Verif.Ssh.C97_outside", "Verif.Ssh.C97_injective", "Verif.Ssh.C97_surjective", "Verif.Ssh.C97_parent", "Verif.Ssh.C97_from_id", "Verif.Ssh.C97_inside", "Verif.Ssh.C97_escape_counterexample", "Verif.Ssh.C97_dotdot_counterexample", "Verif.Ssh.C97_relative_counterexample", "Verif.Ssh.C97_relative_anchor_counterexample", "Verif.Ssh.C97_place_new", "Verif.Ssh.C97_anchor_new", "Verif.Ssh.C97_outside_new", "Verif.Ssh.C97_injective_new", "Verif.Ssh.C97_id_new", "Verif.Ssh.C97_from_id_new", "Verif.Ssh.C97_parent_new", "Verif.Ssh.C97_relative_new", "Verif.Ssh.C97_anchor_counterexample", "Verif.Ssh.C97_relative_id_counterexample", "Verif.Ssh.C97_slashes_counterexample", "Verif.Ssh.C97_anchor_text_counterexample", "Verif.Ssh.C97_init_refused"], "note": "Before python 3.12: C97_init, C97_place, C97_outside, C97_injective, C97_surjective, C97_parent, C97_from_id and C97_inside prove the statement. From python 3.12 on the same is proved for absolute paths (C97_place_new, C97_outside_new, C97_injective_new, C97_id_new, C97_from_id_new, C97_parent_new), but the full claim is false: the remote anchor itself has no place (C97_anchor_new, TypeError), the id of every relative path has the host in the middle of the path (C97_relative_new), and two slashes at the front are kept by the older versions only (C97_slashes_counterexample). Further counterexamples show what lies outside of the statement: names with '..' lead out of the local anchor (C97_escape_counterexample) and give one file two ids (C97_dotdot_counterexample); a relative remote equals an absolute one but has no place before python 3.12 (C97_relative_counterexample); with a relative anchor ids do not read back (C97_relative_anchor_counterexample); with a slash in the host nothing works from python 3.12 on (C97_anchor_text_counterexample)."},
 {"property": "C98", "status": "proved", "theorems": ["Verif.RepoMemo.C98_dir", "Verif.RepoMemo.C98_raises", "Verif.RepoMemo.C98_kept", "Verif.RepoMemo.C98_same", "Verif.RepoMemo.C98_fresh", "Verif.RepoMemo.C98_init", "Verif.RepoMemo.C98_rmtree", "Verif.RepoMemo.C98_parent_counterexample", "Verif.RepoMemo.C98_relative_counterexample", "Verif.RepoMemo.C98_missing_counterexample", "Verif.RepoMemo.C98_refused_counterexample", "Verif.RepoMemo.C98_cwd", "Verif.RepoMemo.C98_sound", "Verif.RepoMemo.C98_not_made"], "note": "C98_dir, C98_raises, C98_kept, C98_same, C98_fresh, C98_init and C98_rmtree. The conditions are needed: C98_parent_counterexample (a directory above is removed and another program clones there), C98_relative_counterexample (init of a relative path keeps the object where repo does not look). Also shown: init of a missing path inside a repository is an AssertionError (C98_missing_counterexample) and a refused rmtree closes the object (C98_refused_counterexample). No symlinks."},
 {"property": "C99", "status": "proved", "theorems": ["Verif.Sweep.C99_stuck", "Verif.Sweep.C99_decided", "Verif.Sweep.C99_only", "Verif.Sweep.C99_all", "Verif.Sweep.C99_tracked", "Verif.Sweep.C99_parents_first", "Verif.Sweep.C99_untracked_counterexample", "Verif.Sweep.C99_prefix_counterexample", "Verif.Sweep.C99_order"], "note": "C99_only, C99_all, C99_decided, C99_stuck, C99_tracked and C99_parents_first. That the loop always ends is false: C99_untracked_counterexample (one local directory without a cache). That only directories in a refreshed one are left out is false: C99_prefix_counterexample (texts are compared). What a refresh does is a parameter."},
 {"property": "C100", "status": "partial", "theorems": ["Verif.Cache.C100_existing", "Verif.Cache.C100_torn", "Verif.Cache.C100_nothing_there", "Verif.Cache.C100_nothing_lost", "Verif.Cache.C100_link", "Verif.Cache.C100_link_raised", "Verif.Cache.C100_empty", "Verif.Cache.C100_read", "Verif.Cache.C100_returns", "Verif.Cache.C100_directory_counterexample", "Verif.Cache.C100_discarded_counterexample"], "note": "False for a symlink at a path where the remote has a directory by now: the metadata cannot be set (C100_directory_counterexample). The old link is deleted instead of kept when the trash says that something exists already, for instance because the trash is a symlink that leads to nothing (C100_discarded_counterexample). Proved for everything else, with these cases in the statements."},
 {"property": "C101", "status": "partial", "theorems": ["Verif.Ads.C101_init", "Verif.Ads.C101_history_partial", "Verif.Ads.C101_failures_partial", "Verif.Ads.C101_read", "Verif.Ads.C101_delete_iff", "Verif.Ads.C101_directory_counterexample", "Verif.Ads.C101_case_counterexample", "Verif.Ads.C101_blind_counterexample"], "note": "True of names without separators and colons, for which the file system ignores no differences, while the questions whether a stream exists do not fail; counterexamples show that a name with a directory is listed whole and cannot be deleted, that deleting a name in another case removes the stream but answers no and keeps it listed, and that a question that fails overwrites the stream and lists it twice."},
 {"property": "C102", "status": "partial", "theorems": ["Verif.Yields.C102_order", "Verif.Yields.C102_each_partial", "Verif.Yields.C102_exact_partial", "Verif.Yields.C102_elsewhere", "Verif.Yields.C102_attributes", "Verif.Yields.C102_moved_counterexample", "Verif.Yields.C102_replaced_counterexample", "Verif.Yields.C102_stale_counterexample", "Verif.Yields.C102_gone_counterexample", "Verif.Yields.C102_mark_counterexample"], "note": "True if no path belongs to two objects and the local files are still where they were found; counterexamples show that a file moved and changed on the remote is there twice, that a file whose place is taken by another one is yielded with the id of the other one and none has its id, that metadata of a file that is where it belongs are not updated, that a file removed together with an old directory ends the bootstrap with an AttributeError, and that a failure to mark hides the exception of the bootstrap."},
 {"property": "C103", "status": "partial", "theorems": ["Verif.Git.C103_commits", "Verif.Git.C103_head", "Verif.Git.C103_latest", "Verif.Git.C103_never", "Verif.Git.C103_modified_partial", "Verif.Git.C103_modified_file_iff", "Verif.Git.C103_diff_partial", "Verif.Git.C103_swapped_counterexample", "Verif.Git.C103_index_counterexample", "Verif.Git.C103_deleted_counterexample", "Verif.Git.C103_untracked_counterexample"], "note": "The statements about commits are proved in full for histories without merges; those about differences hold for paths that exist and for files in the index, and not if the index is the second version: counterexamples show that indexed() always raises, that a diff from the working directory has its sides swapped, that deleted files raise and that new files are no change. What GitPython does with a given pair of objects is assumed (DESIGN.md section 1)."},
 {"property": "C104", "status": "partial", "theorems": ["Verif.Classes.C104_is_instance", "Verif.Classes.C104_bound_iff", "Verif.Classes.C104_concrete", "Verif.Classes.C104_bind_iff", "Verif.Classes.C104_same_class", "Verif.Classes.C104_shares", "Verif.Classes.C104_remote_partial", "Verif.Classes.C104_remote_concrete", "Verif.Classes.C104_remote_counterexample", "Verif.Classes.C104_same_class_counterexample", "Verif.Classes.C104_flavoured_counterexample", "Verif.Classes.C104_remote_unbound"], "note": "the full claim is false: remotes of a class that was not bound are of the flavour of its parent, a class made below a bound one replaces its flavour at the next binding, and binding a class that has a flavour makes a windows class with the wrong flavour"},
 {"property": "C105", "status": "partial", "theorems": ["Verif.Classes.C105_tied_partial", "Verif.Classes.C105_only", "Verif.Classes.C105_outcome", "Verif.Classes.C105_anchored", "Verif.Classes.C105_weighed_partial", "Verif.Classes.C105_api", "Verif.Classes.C105_shared_counterexample", "Verif.Classes.C105_inherited_counterexample", "Verif.Classes.C105_unbound_counterexample", "Verif.Classes.C105_api_counterexample"], "note": "the full claim is false: a second remote with the same local class takes it away from the first, the anchor of a parent is found after the own anchor is gone, and a cache class that was not bound loses the anchor of its parent"},
 {"property": "C106", "status": "partial", "theorems": ["Verif.Ssh.C106_law", "Verif.Ssh.C106_stat_iff", "Verif.Ssh.C106_command", "Verif.Ssh.C106_missing", "Verif.Ssh.C106_size_partial", "Verif.Ssh.C106_size_followed", "Verif.Ssh.C106_gap_counterexample", "Verif.Ssh.C106_quote_counterexample"], "note": "Holds exactly for paths that do not start with a quote or a dash, without two spaces in a row or a space at the end, and with times that can be read; the condition is shown to be necessary and sufficient (`C106_stat_iff`, `C106_command`). Elsewhere false: see the counterexamples."},
 {"property": "C107", "status": "partial", "theorems": ["Verif.Zip.C107_answer", "Verif.Zip.C107_opened_once", "Verif.Zip.C107_frozen", "Verif.Zip.C107_fresh_partial", "Verif.Zip.C107_again", "Verif.Zip.C107_stale_counterexample", "Verif.Zip.C107_exception_counterexample"], "note": "The answers about changed archives are stale by construction, which is stated exactly. The first part holds for the first answer of an object and for any later one after an answer; after an exception it is false: see the counterexample."},
 {"property": "C108", "status": "proved", "theorems": ["Verif.Pep440.C108_component", "Verif.Pep440.C108_new_cycle", "Verif.Pep440.C108_development", "Verif.Pep440.C108_prerelease", "Verif.Pep440.C108_stage_again", "Verif.Pep440.C108_release", "Verif.Pep440.C108_post", "Verif.Pep440.C108_local"], "note": "One theorem per group of phases; C63 and C64 have the order and the stages."},
 {"property": "C109", "status": "partial", "theorems": ["Verif.RunSetup.C109_restored", "Verif.RunSetup.C109_told_partial", "Verif.RunSetup.C109_only_told_partial", "Verif.RunSetup.C109_last_call", "Verif.RunSetup.C109_rerun_counterexample"], "note": "Restoring holds for all files. The rest holds for files that do not call `run_setup` themselves; for those it is false: see the counterexample."},
 {"property": "C110", "status": "partial", "theorems": ["Verif.Kind.C110_suffix", "Verif.Kind.C110_encoded", "Verif.Kind.C110_short", "Verif.Kind.C110_no_suffix", "Verif.Kind.C110_directory", "Verif.Kind.C110_absolute", "Verif.Kind.C110_relative", "Verif.Kind.C110_same_partial", "Verif.Kind.C110_broken", "Verif.Kind.C110_link_counterexample", "Verif.Kind.C110_broken_counterexample", "Verif.Kind.C110_quoted_counterexample", "Verif.Kind.C110_extra", "Verif.Kind.C110_quoted"], "note": "Holds for files that are there and are no symlinks, and names of letters, digits and `_.-~`. False for symlinks (the relative path is resolved, the absolute one is not), for broken ones (mimetype and encoding look at different names, and encoding raises for a loop) and for suffixes with other characters: see the counterexamples."},
 {"property": "C111", "status": "partial", "theorems": ["Verif.Cache.C111_law", "Verif.Cache.C111_named_partial", "Verif.Cache.C111_unknown", "Verif.Cache.C111_local_partial", "Verif.Cache.C111_own", "Verif.Cache.C111_fetch_partial", "Verif.Cache.C111_default_counterexample", "Verif.Cache.C111_validate_counterexample", "Verif.Cache.C111_own_cypher_counterexample", "Verif.Cache.C111_local_law"], "note": "False when the metadata names the default cypher and the class has another one: the file is checked with that of the class, and right data is marked as wrong (C111_default_counterexample, C111_validate_counterexample). Also false if the class of local paths has a cypher of its own. C111_law says which cypher is used in all cases."},
 {"property": "C112", "status": "partial", "theorems": ["Verif.Git.C112_one", "Verif.Git.C112_own", "Verif.Git.C112_same_counterexample", "Verif.Git.C112_own_body", "Verif.Git.C112_never_entered"], "note": "false when two of the nested blocks have the same ref object: __enter__ of the inner one writes over what the outer one keeps (C112_same_counterexample, for every branch and every depth from two on). Blocks with objects of their own come back (C112_own), for a body that leaves the repository as it is, without tags (see C60) and without failing commands. The index is what C60 says."},
 {"property": "C113", "status": "partial", "theorems": ["Verif.Classes.C113_instance", "Verif.Classes.C113_shared", "Verif.Classes.C113_type", "Verif.Classes.C113_move_partial", "Verif.Classes.C113_move_counterexample"], "note": "Instances and shared attributes are proved for all sequences. `EatPath.__new__` makes a class for every call, so two paths have the same class exactly if they go back to the same call, and `move` without a target raises TypeError otherwise; the full claim is refuted for every class."},
 {"property": "C114", "status": "partial", "theorems": ["Verif.Attrs.C114_get", "Verif.Attrs.C114_missing", "Verif.Attrs.C114_faithful_partial", "Verif.Attrs.C114_linux_counterexample", "Verif.Attrs.C114_del", "Verif.Attrs.C114_del_linux", "Verif.Attrs.C114_del_counterexample", "Verif.Attrs.C114_sparse", "Verif.Attrs.C114_sparse_counterexample", "Verif.Attrs.C114_sparse_mac"], "note": "Proved where the errno module has both ENODATA and ENOATTR (macOS) and for missing attributes everywhere; on Linux every other failure becomes AttributeError since errno.ENOATTR does not exist there, and on macOS deleting a missing attribute raises since 61 is tested literally."},
 {"property": "C115", "status": "partial", "theorems": ["Verif.RemoteEq.C115_eq", "Verif.RemoteEq.C115_equivalence", "Verif.RemoteEq.C115_other", "Verif.RemoteEq.C115_raises", "Verif.RemoteEq.C115_symmetric_partial", "Verif.RemoteEq.C115_symmetric_counterexample", "Verif.RemoteEq.C115_meta_counterexample", "Verif.RemoteEq.C115_hash", "Verif.RemoteEq.C115_unhashable", "Verif.RemoteEq.C115_sweep_partial", "Verif.RemoteEq.C115_sweep_counterexample", "Verif.RemoteEq.C115_metadata", "Verif.RemoteEq.C115_neither", "Verif.RemoteEq.C115_paths_hashable"], "note": "Equality among remotes and which other objects are equal are proved for all inputs. Symmetry holds for remotes that are no paths and objects that are no metadata, and fails for the others. RemotePath defines __eq__ without __hash__, so that remotes have no hash unless a subclass defines one, and the clearing of a recursive bootstrap raises TypeError as soon as both sides have a directory."},
 {"property": "C116", "status": "partial", "theorems": ["Verif.Refresh.C116_refresh", "Verif.Refresh.C116_refused", "Verif.Refresh.C116_limit", "Verif.Refresh.C116_limit_partial", "Verif.Refresh.C116_limit_counterexample", "Verif.Refresh.C116_here_counterexample"], "note": "What is asked and what is done with the answer is proved for every remote. The limit is only enough for files smaller than the one that was given: the limit that is computed is never passed on. The remotes in the repository take none of the keywords, so that refreshing raises TypeError."},
 {"property": "C117", "status": "partial", "theorems": ["Verif.Graph.C117_children", "Verif.Graph.C117_failed", "Verif.Graph.C117_twice_counterexample", "Verif.Graph.C117_ssh_counterexample"], "note": "Proved for all lists in which no object and no place occurs twice. With an object twice the first cache is not the cache of its remote. SshRemote.children gives no remotes, so that the children of a cache of an ssh remote cannot be listed."},
 {"property": "C118", "status": "partial", "theorems": ["Verif.Access.C118_unique", "Verif.Access.C118_local", "Verif.Access.C118_refused", "Verif.Access.C118_remote_partial", "Verif.Access.C118_remote_counterexample"], "note": "Proved for local paths. A remote answers that it may not be used to every other argument, os.F_OK included, where a local path raises."},
 {"property": "C119", "status": "partial", "theorems": ["Verif.Zip.C119_read_iff", "Verif.Zip.C119_errors", "Verif.Zip.C119_spoiled_counterexample", "Verif.Zip.C119_outside", "Verif.Zip.C119_modes_counterexample", "Verif.Zip.C119_missing_counterexample"], "note": "The exact condition for reading and the exact exceptions are proved for every history of openings (C119_read_iff, C119_errors). That a refused attempt to write makes the path unreadable, that rb is refused and that r gives bytes are proved as counterexamples, and so is that missing paths are called directories."},
 {"property": "C120", "status": "partial", "theorems": ["Verif.Zip.C120_outside_partial", "Verif.Zip.C120_opens_iff", "Verif.Zip.C120_inside_counterexample", "Verif.Zip.C120_archive_counterexample", "Verif.Zip.C120_internal_counterexample", "Verif.Zip.C120_refused", "Verif.Zip.C120_refused_inside"], "note": "Opening is exact (C120_opens_iff; listing is C88); away from archives all of it holds (C120_outside_partial); in archives is_file and is_dir are always false, proved as counterexamples, with the archive itself and the internal paths."},
 {"property": "C121", "status": "partial", "theorems": ["Verif.Data.C121_taken", "Verif.Data.C121_whole_partial", "Verif.Data.C121_silent_counterexample", "Verif.Data.C121_written", "Verif.Data.C121_written_counterexample", "Verif.Data.C121_size", "Verif.Data.C121_no_program", "Verif.Data.C121_left_counterexample"], "note": "Proved: C121_taken, C121_whole_partial, C121_written, C121_size, C121_no_program. Disproved: that failures are reported (C121_silent_counterexample, C121_written_counterexample) and that the process is always waited for (C121_left_counterexample)."},
 {"property": "C122", "status": "partial", "theorems": ["Verif.Cache.C122_restored_partial", "Verif.Cache.C122_wiped_partial", "Verif.Cache.C122_not_asked", "Verif.Cache.C122_nothing_kept", "Verif.Cache.C122_sqlite_counterexample", "Verif.Cache.C122_recreates_partial"], "note": "Proved for every backup that keeps what is put in, also when calls fail. SqliteCache, the backup of SshCache, keeps nothing. With a backup that works, reading the metadata of a path that was removed puts a link there."},
 {"property": "C123", "status": "partial", "theorems": ["Verif.Setup.C123_line_iff", "Verif.Setup.C123_found_partial", "Verif.Setup.C123_comment_counterexample", "Verif.Setup.C123_missed_counterexample", "Verif.Setup.C123_text_counterexample", "Verif.Setup.C123_last"], "note": "Proved for modules with any number of assignments that are written in the usual way. What one line says is characterised exactly (C123_line_iff), as is the choice among lines (C123_last). False for comments with quotes after the value, for assignments that are indented or without spaces, and for texts that look like an assignment."},
 {"property": "C124", "status": "partial", "theorems": ["Verif.Cache.C124_mirrors", "Verif.Cache.C124_interrupted", "Verif.Cache.C124_resumes", "Verif.Cache.C124_sparse_partial", "Verif.Cache.C124_sparse_counterexample", "Verif.Cache.C124_moved"], "note": "Proved for bootstraps that are not sparse, with metadata that are not replaced by themselves (C124_mirrors, C124_interrupted, C124_resumes). False of sparse bootstraps, which go through the objects in the order of the remote (counterexample); proved for those if directories are listed before what is in them."},
 {"property": "C125", "status": "partial", "theorems": ["Verif.Cache.C125_content", "Verif.Cache.C125_directories", "Verif.Cache.C125_same_id_counterexample"], "note": "Proved for every run in a tree in which two recorded objects at paths of remote objects do not have the same id, recorded ids can be used as file names and are not too long, and what is in the trash is not counted (Placed; C125_content, C125_directories). False when two local files have the same recorded id: both go to the same place in the trash (C125_same_id_counterexample)."},
 {"property": "C126", "status": "partial", "theorems": ["Verif.Race.C126_content", "Verif.Race.C126_file", "Verif.Race.C126_window_counterexample", "Verif.Race.C126_size_counterexample", "Verif.Race.C126_mark_counterexample", "Verif.Race.C126_readlink_counterexample", "Verif.Race.C126_neither_counterexample", "Verif.Race.C126_removed_counterexample", "Verif.Race.C126_lost_counterexample", "Verif.Race.C126_link", "Verif.Race.C126_alone"], "note": "Proved for any number of processes and any interleaving; that every fetch succeeds, that the mark is right and that a file stays where it was fetched are false in the code. C126_window_counterexample is the race that the comment in the code suspects."},
 {"property": "C127", "status": "partial", "theorems": ["Verif.Torn.C127_fields", "Verif.Torn.C127_one", "Verif.Torn.C127_store", "Verif.Torn.C127_quiet", "Verif.Torn.C127_torn_counterexample", "Verif.Torn.C127_mix_counterexample", "Verif.Torn.C127_alone_sets", "Verif.Torn.C127_alone_reads"], "note": "Proved for each field by itself (C127_fields, C127_store, C127_quiet), and that there is no mixture if the metadata differ in one field (C127_one). The last sentence is false in the code: attributes are set one by one (C127_torn_counterexample, C127_mix_counterexample)."},
 {"property": "C128", "status": "partial", "theorems": ["Verif.FS.C128_elsewhere", "Verif.FS.C128_returns", "Verif.FS.C128_outside", "Verif.FS.C128_gone", "Verif.FS.C128_alone", "Verif.FS.C128_counterexample"], "note": "C128_outside and C128_gone hold for absolute paths without dots and without symlinks above the tree, if the others keep the disk sound (every name is one, everything is in a directory) and make no symlinks on the way to the tree or in it. Without the last condition the claim is false (C128_counterexample): a process that replaces a directory of the tree by a symlink between is_symlink and iterdir makes rmtree remove the files that the symlink leads to. If the others do nothing in the tree, and there is no handler, it goes as alone: C128_elsewhere, and C128_returns says that it then returns with the tree gone when no call fails. C128_alone relates the model to that of C44 to C46."},
 {"property": "C129", "status": "partial", "theorems": ["Verif.FS.GlobDirs.C129_yields", "Verif.FS.GlobDirs.C129_all", "Verif.FS.GlobDirs.C129_error", "Verif.FS.GlobDirs.C129_counterexample", "Verif.FS.GlobDirs.C129_entered", "Verif.FS.GlobDirs.C129_start"], "note": "C129_yields and C129_error hold as stated. C129_all shows that all directories are yielded if they can be read and searched and no symlink among them leads through a directory that must not be searched. Without the last condition the claim is false (C129_counterexample): the PermissionError of such a symlink ends the listing of the directory that it is in, and the directories that are listed after it are left out silently. The code is for pythons before 3.7."},
 {"property": "C130", "status": "proved", "theorems": ["Verif.Cache.C130_pulled", "Verif.Cache.C130_moved", "Verif.Cache.C130_again", "Verif.Cache.C130_twice"], "note": "Termination with success and the exact state after it (C92 and C33 say what holds in every run). C130_pulled: the cache belongs where it is; C130_moved: it goes to a free place; C130_again and C130_twice: a repeated update finds nothing to do. Hypotheses name when the code refuses instead: local changes, a directory in the trash under the id, an empty stream, a recorded size that differs."},
 {"property": "C131", "status": "partial", "theorems": ["Verif.Cache.C131_fetch_partial", "Verif.Cache.C131_update_partial", "Verif.Cache.C131_refetch_counterexample", "Verif.Cache.C131_stale_counterexample"], "note": "False as stated: a file that was marked before is not checked again (caches.py 912-915), so that the mark stays when the remote sends the right data (C131_refetch_counterexample), and the mark of the previous version survives an update to a new one whose checksum is right (C131_stale_counterexample, because _update_meta skips an empty errors tuple). Proved for metadata that were not marked before."},
 {"property": "C132", "status": "proved", "theorems": ["Verif.Cache.C132_touched", "Verif.Cache.C132_returned", "Verif.Cache.C132_useless", "Verif.Cache.C132_works", "Verif.Cache.C132_plain", "Verif.Cache.C132_parents_counterexample", "Verif.Cache.C132_repeated", "Verif.Cache.C132_orphan_counterexample"], "note": "C132_parents_counterexample and C132_orphan_counterexample hold for every case of their hypotheses: they show that parents=True does not do what it says"},
 {"property": "C133", "status": "partial", "theorems": ["Verif.AdsHelper.C133_cleaned", "Verif.AdsHelper.C133_content_left_out", "Verif.AdsHelper.C133_agrees_partial", "Verif.AdsHelper.C133_unnameable", "Verif.AdsHelper.C133_missing", "Verif.AdsHelper.C133_bytes", "Verif.AdsHelper.C133_fail", "Verif.AdsHelper.C133_streamname", "Verif.AdsHelper.C133_case_counterexample", "Verif.AdsHelper.C133_alias_counterexample", "Verif.AdsHelper.C133_torn_counterexample", "Verif.AdsHelper.C133_alias", "Verif.AdsHelper.C133_refused", "Verif.AdsHelper.C133_no_directory", "Verif.AdsHelper.C133_untyped", "Verif.AdsHelper.C133_streamname_file", "Verif.AdsHelper.C133_type_alias", "Verif.AdsHelper.C133_other_type"], "note": "Proved for every history on a file that is there, with a path whose streams can be named and names that the file system tells apart. Laws and counterexamples for the rest: a file that is not there is made by setting an attribute; no attribute of Path('.') or of a relative path that is a single letter can be set or read; keys that are bytes cannot be read back; another exception when deleting what must be there; keys that differ in case, or contain a separator or a colon; a write that fails."},
 {"property": "C134", "status": "partial", "theorems": ["Verif.Pep440.C134_since_partial", "Verif.Pep440.C134_never", "Verif.Pep440.C134_never_counterexample", "Verif.Pep440.C134_other_counterexample", "Verif.Pep440.C134_raises"], "note": "False before the first release, where nothing is listed (C134_never, C134_never_counterexample), and where the tag of another package begins with the name of the package and a dash (C134_other_counterexample); proved otherwise. What is printed is always read back, quotes included."},
 {"property": "C135", "status": "partial", "theorems": ["Verif.Pep440.C135_iff", "Verif.Pep440.C135_never_released_partial", "Verif.Pep440.C135_unreleased", "Verif.Pep440.C135_late_counterexample"], "note": "The branch for a released version is reached if the index answers only the last of the requests (C135_late_counterexample); if it answers the first one it is not (C135_never_released_partial). When bump ends normally: C135_iff. Nothing is written by the code."},
 {"property": "C136", "status": "partial", "theorems": ["Verif.Pep440.C136_words_partial", "Verif.Pep440.C136_space_counterexample", "Verif.Pep440.C136_dotted_counterexample", "Verif.Pep440.C136_fragment_counterexample"], "note": "Proved for remotes that end in .git and names without spaces. False for folders with a space (C136_space_counterexample) and, as for C62, for remotes without .git whose repository has a dot in its name (C136_dotted_counterexample)."},
 {"property": "C137", "status": "partial", "theorems": ["Verif.CloneUrl.C137_same", "Verif.CloneUrl.C137_address", "Verif.CloneUrl.C137_branch_counterexample", "Verif.CloneUrl.C137_bare_counterexample", "Verif.CloneUrl.C137_nested_counterexample", "Verif.CloneUrl.C137_api_counterexample", "Verif.CloneUrl.C137_cycle", "Verif.CloneUrl.C137_outside", "Verif.CloneUrl.C137_gone"], "note": "The address is proved to be the same for every chain (C137_same, C137_address) of repositories with working directories. The branch is that of the original (C137_branch_counterexample); clones of bare repositories have no address, or that of a repository around it (C137_bare_counterexample); the api address is made of the path on the disk (C137_api_counterexample); repositories that are each other's remote have none (C137_cycle)."},
 {"property": "C138", "status": "partial", "theorems": ["Verif.MetaRace.C138_right", "Verif.MetaRace.C138_growing", "Verif.MetaRace.C138_answers", "Verif.MetaRace.C138_alone", "Verif.MetaRace.C138_mixed_counterexample", "Verif.MetaRace.C138_never_counterexample", "Verif.MetaRace.C138_vanishing", "Verif.MetaRace.C138_stale_counterexample", "Verif.MetaRace.C138_raises"], "note": "The last sentence is false in the code: size and checksum can be of different moments (C138_mixed_counterexample) and the checksum that of a content which the file never had (C138_never_counterexample). The rest is proved; that the times tell is needed (C138_stale_counterexample). When the path leads to nothing for a moment: C138_vanishing. Without other processes it is the function of C11 (C138_alone)."},
 {"property": "C139", "status": "partial", "theorems": ["Verif.CopyRace.C139_late", "Verif.CopyRace.C139_existing", "Verif.CopyRace.C139_same", "Verif.CopyRace.C139_bytes", "Verif.CopyRace.C139_mixture_counterexample", "Verif.CopyRace.C139_stopped_counterexample", "Verif.CopyRace.C139_empty", "Verif.CopyRace.C139_ends", "Verif.CopyRace.C139_alone"], "note": "The last sentence is false in the code: the test and opening the target are separate, so that several return and the target is a mixture, with zeros even (C139_mixture_counterexample). What is there is characterised byte by byte (C139_bytes). Copies of the same content need all writers to end: if one is stopped another one returns with zeros at the beginning of the target (C139_stopped_counterexample). The rest is proved."},
 {"property": "C140", "status": "partial", "theorems": ["Verif.LinkRace.C140_whole", "Verif.LinkRace.C140_there", "Verif.LinkRace.C140_made", "Verif.LinkRace.C140_first", "Verif.LinkRace.C140_alone", "Verif.LinkRace.C140_ends", "Verif.LinkRace.C140_back_counterexample", "Verif.LinkRace.C140_lost_counterexample", "Verif.LinkRace.C140_moment_counterexample"], "note": "The last sentence is false in the code: the comparison, the lookup of the id for the trash, the move and the new link are separate system calls. Two processes that both return can leave the older metadata (C140_back_counterexample), what was there before can be overwritten in the trash by what another process stored meanwhile (C140_lost_counterexample), and there is a moment without metadata (C140_moment_counterexample). The rest is proved for all interleavings."},
 {"property": "C141", "status": "partial", "theorems": ["Verif.SwapRace.C141_kept", "Verif.SwapRace.C141_parity", "Verif.SwapRace.C141_native", "Verif.SwapRace.C141_ends", "Verif.SwapRace.C141_gone_counterexample", "Verif.SwapRace.C141_stuck_counterexample", "Verif.SwapRace.C141_moment_counterexample", "Verif.SwapRace.C141_raises", "Verif.SwapRace.C141_alone", "Verif.SwapRace.C141_alone_missing"], "note": "The last sentence is false in the code: in opposite orders both processes raise and nothing is at either path (C141_gone_counterexample); in the same order one returns while the other raises with a content left in its temporary directory (C141_stuck_counterexample); a process that begins between two renamings of another one raises (C141_moment_counterexample). The rest is proved for all interleavings."},
 {"property": "C142", "status": "proved", "theorems": ["Verif.SysIdRace.C142_whole", "Verif.SysIdRace.C142_agree", "Verif.SysIdRace.C142_existing", "Verif.SysIdRace.C142_first", "Verif.SysIdRace.C142_empty", "Verif.SysIdRace.C142_ends", "Verif.SysIdRace.C142_alone", "Verif.SysIdRace.C142_differ_counterexample", "Verif.SysIdRace.C142_empty_counterexample"], "note": "The processes may read and write the files, nobody else changes them, and a file is read by one system call. Beside it: two processes that begin together on a machine without an id may be told different ones, one of which no later process is told (C142_differ_counterexample), and a process may be told the id of an empty file, the same on every machine (C142_empty_counterexample)."},
 {"property": "C143", "status": "proved", "theorems": ["Verif.MoveRace.C143_ways", "Verif.MoveRace.C143_clear", "Verif.MoveRace.C143_lost_iff", "Verif.MoveRace.C143_late", "Verif.MoveRace.C143_alone", "Verif.MoveRace.C143_ends", "Verif.MoveRace.C143_lost_counterexample", "Verif.MoveRace.C143_back_counterexample", "Verif.MoveRace.C143_beside_counterexample", "Verif.MoveRace.C143_returns", "Verif.MoveRace.C143_single", "Verif.MoveRace.C143_raises", "Verif.MoveRace.C143_raises_only"], "note": "The target is a cache already, its parent is there, and no system call fails except because of what is missing. Beside it: with a symlink at the target two processes that overlap may both return and the file and the symlink are both gone (C143_lost_counterexample), only the symlink is left (C143_back_counterexample), or the file is beside the target (C143_beside_counterexample)."},
 {"property": "C144", "status": "proved", "theorems": ["Verif.WithRace.C144_nested", "Verif.WithRace.C144_inside", "Verif.WithRace.C144_left", "Verif.WithRace.C144_last", "Verif.WithRace.C144_body", "Verif.WithRace.C144_stays_counterexample", "Verif.WithRace.C144_body_counterexample"], "note": "All paths are absolute and lead to directories that stay, and each block has a path object of its own. Beside it: blocks of two threads that overlap leave the working directory of one of them behind (C144_stays_counterexample), and a body runs in another directory than its own (C144_body_counterexample)."},
 {"property": "C145", "status": "proved", "theorems": ["Verif.MkdirRace.C145_made", "Verif.MkdirRace.C145_whole", "Verif.MkdirRace.C145_returned", "Verif.MkdirRace.C145_raised", "Verif.MkdirRace.C145_wins", "Verif.MkdirRace.C145_one_returns", "Verif.MkdirRace.C145_ends", "Verif.MkdirRace.C145_alone", "Verif.MkdirRace.C145_again", "Verif.MkdirRace.C145_raises_counterexample", "Verif.MkdirRace.C145_bare_counterexample"], "note": "Nobody removes directories meanwhile and setting an attribute does not fail. Beside it: a process may raise FileExistsError although another one does the same work (C145_raises_counterexample), and a process may return while a directory has no metadata yet (C145_bare_counterexample)."},
 {"property": "C146", "status": "proved", "theorems": ["Verif.CrumpleRace.C146_kept", "Verif.CrumpleRace.C146_other", "Verif.CrumpleRace.C146_once", "Verif.CrumpleRace.C146_raised", "Verif.CrumpleRace.C146_one_returns", "Verif.CrumpleRace.C146_ends", "Verif.CrumpleRace.C146_alone", "Verif.CrumpleRace.C146_raises_counterexample", "Verif.CrumpleRace.C146_same_id_counterexample", "Verif.CrumpleRace.C146_single"], "note": "The trash is on the file system of the files, nobody else changes them, and the name of a file is not too long. Beside it: a process may raise FileExistsError although its file is there, and it stays there (C146_raises_counterexample), and of two files with the same id only the one thrown away last remains (C146_same_id_counterexample)."},
 {"property": "C147", "status": "proved", "theorems": ["Verif.AnchorRace.C147_agree", "Verif.AnchorRace.C147_stored", "Verif.AnchorRace.C147_raised", "Verif.AnchorRace.C147_there", "Verif.AnchorRace.C147_one_returns", "Verif.AnchorRace.C147_ends", "Verif.AnchorRace.C147_alone", "Verif.AnchorRace.C147_raises_counterexample", "Verif.AnchorRace.C147_twice_counterexample"], "note": "All processes have the same id for the root, nobody else changes the directory, and each process anchors for the first time. Beside it: smartAnchor may raise FileExistsError although another process anchors the same and returns (C147_raises_counterexample), and two dropAnchor may both return although the second is to raise (C147_twice_counterexample)."},
 {"property": "C148", "status": "partial", "theorems": ["Verif.PushdRace.C148_quiet", "Verif.PushdRace.C148_below", "Verif.PushdRace.C148_stack", "Verif.PushdRace.C148_where", "Verif.PushdRace.C148_once", "Verif.PushdRace.C148_returned", "Verif.PushdRace.C148_serial", "Verif.PushdRace.C148_alone", "Verif.PushdRace.C148_ends", "Verif.PushdRace.C148_lost_counterexample", "Verif.PushdRace.C148_raises_counterexample", "Verif.PushdRace.C148_elsewhere_counterexample", "Verif.PushdRace.C148_single"], "note": "All but the last sentence is proved, for every interleaving. The last sentence is false in the code: taking an entry and chdir are separate steps, so that the last one to call chdir may be the one that took another entry (C148_elsewhere_counterexample). Two calls of pushd that overlap keep the same directory (C148_lost_counterexample), and with more calls of popd than entries IndexError is possible instead of a warning (C148_raises_counterexample)."},
 {"property": "C149", "status": "partial", "theorems": ["Verif.Git.VisitRace.C149_kept_partial", "Verif.Git.VisitRace.C149_refs", "Verif.Git.VisitRace.C149_conflict", "Verif.Git.VisitRace.C149_alone", "Verif.Git.VisitRace.C149_ends", "Verif.Git.VisitRace.C149_serial_partial", "Verif.Git.VisitRace.C149_together_counterexample", "Verif.Git.VisitRace.C149_failing"], "note": "Nothing is ever lost, in any interleaving and whatever fails; refs never change; one after the other everything is restored; alone it is the single process model; it ends after seven steps. False when visits overlap: the second of two processes has the wrong files in its block, and the user's changes end up in the stash with nobody to bring them back (counterexample for every repository with changes)."},
 {"property": "C150", "status": "partial", "theorems": ["Verif.Git.CommitRace.C150_kept_partial", "Verif.Git.CommitRace.C150_others_partial", "Verif.Git.CommitRace.C150_history", "Verif.Git.CommitRace.C150_conflict", "Verif.Git.CommitRace.C150_alone", "Verif.Git.CommitRace.C150_ends", "Verif.Git.CommitRace.C150_mixed_counterexample", "Verif.Git.CommitRace.C150_overwritten_counterexample", "Verif.Git.CommitRace.C150_failing"], "note": "No commit is lost and histories only grow; nothing in the working directory is lost unless an older stash entry has another content of a file that is committed; git is in conflict only after a merge that failed; alone it is the single process model; it ends after seven steps. False: the commit of one process may have the changes of another one's path (for every repository), and with an older stash entry a change is overwritten and lost (counterexamples)."},
 {"property": "C151", "status": "partial", "theorems": ["Verif.Git.C151_commit_partial", "Verif.Git.C151_unchanged_counterexample", "Verif.Git.C151_kept_partial", "Verif.Git.C151_same_partial", "Verif.Git.C151_conflict_counterexample"], "note": "For every repository, stash, change in the block and path, when the block leaves something changed at the path (files that the block deletes stay in the commit); whatever commands fail nothing of the user is lost (C151_kept_partial). When nothing is changed at the path the stash of commit puts nothing aside, and the checkout from stash@{0} takes the changes that __enter__ put aside for the user: they are committed to the other branch, gone from the working directory, and __exit__ raises (counterexample, for every such repository and path). At the current branch: the same, and the changes of the user come back, when they are not at the path (C151_same_partial); if the user has changed a file that the block commits with other contents the pop is a conflict and the block raises (counterexample)."},
 {"property": "C152", "status": "partial", "theorems": ["Verif.PackMemo.C152_once", "Verif.PackMemo.C152_pypi", "Verif.PackMemo.C152_github", "Verif.PackMemo.C152_same", "Verif.PackMemo.C152_next", "Verif.PackMemo.C152_apart", "Verif.PackMemo.C152_bump", "Verif.PackMemo.C152_appears_counterexample", "Verif.PackMemo.C152_stale_counterexample"], "note": "All but the last part is proved for every history; version_next and bump are shown to be those of C77 and C135 for the first good reply. The last part is false: the version that follows the first good reply is proposed for ever, also when it was released since, and bump does not find that (C152_stale_counterexample, for every index); and if the package appears between the two requests of version_next it is an AssertionError (C152_appears_counterexample)."},
 {"property": "C153", "status": "partial", "theorems": ["Verif.DataDirRace.C153_kept", "Verif.DataDirRace.C153_returned", "Verif.DataDirRace.C153_agree", "Verif.DataDirRace.C153_same_partial", "Verif.DataDirRace.C153_there", "Verif.DataDirRace.C153_plain", "Verif.DataDirRace.C153_alone", "Verif.DataDirRace.C153_same_counterexample", "Verif.DataDirRace.C153_replaced_counterexample", "Verif.DataDirRace.C153_vanished_counterexample", "Verif.DataDirRace.C153_trash_counterexample", "Verif.DataDirRace.C153_single"], "note": "All but the last part is proved. With no target nobody raises (C153_plain); with the same target one returns and makes the link and the trash, the others may raise one of three exceptions (C153_same_partial), each of which happens (C153_same_counterexample), unless the link was there before they began (C153_there). A process alone does what the model of one process on the whole file system does (C153_single). Counterexamples also: a directory that a process returned with is replaced by a link that leads nowhere; FileExistsError where nothing is; returning before the trash is made."},
 {"property": "C154", "status": "partial", "theorems": ["Verif.InitRace.C154_created", "Verif.InitRace.C154_refused", "Verif.InitRace.C154_not_inside", "Verif.InitRace.C154_nested_overlap", "Verif.InitRace.C154_clone", "Verif.InitRace.C154_apart", "Verif.InitRace.C154_ends", "Verif.InitRace.C154_nested_counterexample", "Verif.InitRace.C154_twice_counterexample", "Verif.InitRace.C154_alone", "Verif.InitRace.C154_single"], "note": "All but the last part is proved. The last part is false when calls overlap: all look before they create (C154_nested_counterexample, C154_twice_counterexample). A process alone does what C59 says of one process (C154_alone, and C154_single for the whole file system)."},
 {"property": "C155", "status": "partial", "theorems": ["Verif.FS.C155_content", "Verif.FS.C155_outside", "Verif.FS.C155_elsewhere", "Verif.FS.C155_exactly_hollow", "Verif.FS.C155_links_counterexample", "Verif.FS.C155_gone_counterexample", "Verif.FS.C155_filled_counterexample"], "note": "Content is safe without any condition (C155_content). That directories outside are left alone (C155_outside) and that it goes as alone (C155_elsewhere, C155_exactly_hollow) is for absolute paths without dots and without symlinks above the tree, in the latter case with directories that may be searched and names that are not too long. C155_outside needs that the others make no symlinks in the tree: otherwise an empty directory elsewhere is removed (C155_links_counterexample). If others do something in the tree it may raise and leave the rest there: when one of them removes the same directory (C155_gone_counterexample) or fills it (C155_filled_counterexample)."},
 {"property": "C156", "status": "partial", "theorems": ["Verif.Git.MixedRace.C156_history_partial", "Verif.Git.MixedRace.C156_others_partial", "Verif.Git.MixedRace.C156_ends", "Verif.Git.MixedRace.C156_detached_counterexample", "Verif.Git.MixedRace.C156_branch_counterexample", "Verif.Git.MixedRace.C156_visits", "Verif.Git.MixedRace.C156_commits", "Verif.Git.MixedRace.C156_lost_counterexample", "Verif.Git.MixedRace.C156_serial_partial"], "note": "If no branch of a remote is visited, refs only move forward, HEAD is at a branch and every commit that was made is in the history of some branch (C156_history_partial), and of the files that nobody commits nothing is lost (C156_others_partial), in any interleaving and whatever fails; every process ends after seven steps; one after the other with an empty stash and nothing failing it is all true (C156_serial_partial); with one kind of processes only it is C149 and C150. False otherwise: while another branch is visited the commit goes to that one (C156_branch_counterexample); while a branch of a remote is visited it goes to none, and the change is lost (C156_detached_counterexample); and even if only the current branch is visited, nothing is in the stash, no command fails and all return, a change of a file that is committed may be lost (C156_lost_counterexample); each for every repository of a simple shape."},
 {"property": "C157", "status": "partial", "theorems": ["Verif.MakeChild.C157_join_iff", "Verif.MakeChild.C157_one", "Verif.MakeChild.C157_joinpath_partial", "Verif.MakeChild.C157_names", "Verif.MakeChild.C157_none_counterexample", "Verif.MakeChild.C157_empty_counterexample", "Verif.MakeChild.C157_absolute_counterexample", "Verif.MakeChild.C157_rooted_counterexample", "Verif.MakeChild.C157_drive_counterexample", "Verif.MakeChild.C157_other_counterexample", "Verif.MakeChild.C157_names_any", "Verif.MakeChild.C157_separators", "Verif.MakeChild.C157_list_counterexample", "Verif.MakeChild.C157_ssh"], "note": "On posix a single part of any text is joined like pathlib does (C157_one), and so are several parts if the first has something besides slashes and no other one is absolute (C157_joinpath_partial); for names, which is what remotes give, the child is at these names below the cache, as with older versions (C157_names), and for ssh remotes this is the path of C97 (C157_ssh). On every system names are put below the cache (C157_names_any). With drives C157_join_iff says exactly when the copied join_parsed_parts agrees. False otherwise: without parts there is a TypeError (C157_none_counterexample), and so there is if the first of several parts has a drive (C157_list_counterexample); an empty first part moves the child to the root (C157_empty_counterexample); an absolute later part is put below the cache (C157_absolute_counterexample); on windows a component is lost (C157_rooted_counterexample, C157_drive_counterexample), and for another drive the missing method casefold is reported as an AugPathlibError (C157_other_counterexample)."},
 {"property": "C158", "status": "partial", "theorems": ["Verif.ReadOnly.C158_removed_partial", "Verif.ReadOnly.C158_removed_iff", "Verif.ReadOnly.C158_directory_counterexample", "Verif.ReadOnly.C158_without", "Verif.ReadOnly.C158_again", "Verif.ReadOnly.C158_only", "Verif.ReadOnly.C158_stops"], "note": "Exactly: it returns, and nothing is left, if and only if no directory is read-only (C158_removed_partial, C158_removed_iff). False for a read-only directory, since the helper removes files only (C158_directory_counterexample): then PermissionError is raised, the entries before are gone and those after are as before (C158_stops). What is left is part of what was there (C158_only). Calling it once more often than there are read-only directories removes the tree (C158_again). Without the helper nothing may be read-only (C158_without)."}
]}
