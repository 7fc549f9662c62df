import Verif.Props.Access
import Verif.Props.Ads
import Verif.Props.AdsHelper
import Verif.Props.Ancestors
import Verif.Props.Anchor
import Verif.Props.AnchorDrop
import Verif.Props.AnchorRace
import Verif.Props.AttrFail
import Verif.Props.Attrs
import Verif.Props.Backup
import Verif.Props.Bootstrap
import Verif.Props.CacheInit
import Verif.Props.Children
import Verif.Props.Classes
import Verif.Props.CloneUrl
import Verif.Props.CommitRace
import Verif.Props.Copy
import Verif.Props.CopyRace
import Verif.Props.Crumple
import Verif.Props.CrumpleRace
import Verif.Props.Cyphers
import Verif.Props.Data
import Verif.Props.DataDir
import Verif.Props.DataDirRace
import Verif.Props.Dedupe
import Verif.Props.Dirs
import Verif.Props.EatCache
import Verif.Props.Etag
import Verif.Props.EtagHex
import Verif.Props.Exists
import Verif.Props.Fetch
import Verif.Props.FreshClasses
import Verif.Props.Git
import Verif.Props.GitNest
import Verif.Props.GlobDirs
import Verif.Props.Graph
import Verif.Props.History
import Verif.Props.InitRace
import Verif.Props.Kept
import Verif.Props.Kind
import Verif.Props.LinkRace
import Verif.Props.Listing
import Verif.Props.LocalStat
import Verif.Props.MakeChild
import Verif.Props.Merge
import Verif.Props.MetaObj
import Verif.Props.MetaRace
import Verif.Props.Mirror
import Verif.Props.MixedRace
import Verif.Props.MixedRaceLost
import Verif.Props.MixedRaceSerial
import Verif.Props.MkdirCache
import Verif.Props.MkdirRace
import Verif.Props.MkdirRemote
import Verif.Props.MoveCache
import Verif.Props.MoveRace
import Verif.Props.PackMemo
import Verif.Props.Package
import Verif.Props.Parts
import Verif.Props.Pep440
import Verif.Props.Pretty
import Verif.Props.PrimaryMeta
import Verif.Props.Pull
import Verif.Props.PullDone
import Verif.Props.PushdRace
import Verif.Props.Race
import Verif.Props.RaceAlone
import Verif.Props.ReadOnly
import Verif.Props.Refresh
import Verif.Props.Relative
import Verif.Props.Release
import Verif.Props.Remote
import Verif.Props.RemoteEq
import Verif.Props.RemoteList
import Verif.Props.RepoMemo
import Verif.Props.Rmdirtree
import Verif.Props.RmdirtreeRace
import Verif.Props.Rmtree
import Verif.Props.RmtreeElsewhere
import Verif.Props.RmtreeRace
import Verif.Props.RunSetup
import Verif.Props.SetupVersion
import Verif.Props.Splitroot
import Verif.Props.Ssh
import Verif.Props.SshData
import Verif.Props.SshPath
import Verif.Props.Stored
import Verif.Props.StoredMore
import Verif.Props.Swap
import Verif.Props.SwapRace
import Verif.Props.Sweep
import Verif.Props.Symlink
import Verif.Props.SymlinkCache
import Verif.Props.SysId
import Verif.Props.SysIdRace
import Verif.Props.Tags
import Verif.Props.Torn
import Verif.Props.UpdateCache
import Verif.Props.Updater
import Verif.Props.Url
import Verif.Props.Utils
import Verif.Props.Validate
import Verif.Props.Versions
import Verif.Props.VisitCommit
import Verif.Props.VisitRace
import Verif.Props.WithRace
import Verif.Props.Xattrs
import Verif.Props.Yields
import Verif.Props.Zip
import Verif.Props.ZipKind
import Verif.Props.ZipMemo
import Verif.Props.ZipOpen
import Verif.Props.ZipRead

/-! The axioms every property theorem depends on (printed during the build). -/

#print axioms Verif.Etag.C01_etag_of_any_feeding
#print axioms Verif.Etag.C01_etag_spec_unique
#print axioms Verif.Etag.C01_etag_split_independent
#print axioms Verif.Etag.C02_digest_stable
#print axioms Verif.Etag.C02_hexdigest_stable
#print axioms Verif.Etag.C02_hexdigest_read
#print axioms Verif.Etag.C02_hexdigest_iff
#print axioms Verif.Etag.C02_hexdigest_of_any_feeding
#print axioms Verif.Etag.C03_early_digest_counterexample
#print axioms Verif.Etag.C03_early_digest_partial
#print axioms Verif.Etag.C03_parts_only_grow
#print axioms Verif.Etag.C03_early_digest_iff
#print axioms Verif.Etag.C04_calls_terminate
#print axioms Verif.Etag.C04_bound_adequate
#print axioms Verif.Etag.C04_chunksize_zero_diverges
#print axioms Verif.Data.C05_checksum_is_hash_of_content
#print axioms Verif.Data.C05_checksum_read_size_irrelevant
#print axioms Verif.Data.C05_file_etag
#print axioms Verif.Data.C06_requested_cypher_counterexample
#print axioms Verif.Data.C06_requested_cypher_partial
#print axioms Verif.Data.C06_validation_counterexample
#print axioms Verif.Data.C07_data_yields_content
#print axioms Verif.Data.C08_ranges_counterexample
#print axioms Verif.Data.C08_ranges_stale_counterexample
#print axioms Verif.Data.C08_reversed_range_counterexample
#print axioms Verif.Data.C08_ranges_partial
#print axioms Verif.Data.C08_law
#print axioms Verif.Data.C08_no_ranges
#print axioms Verif.Data.C08_law_all
#print axioms Verif.Data.C09_write_fails_before_first_chunk
#print axioms Verif.Data.C09_write_delivers
#print axioms Verif.Data.C09_empty_stream_counterexample
#print axioms Verif.Data.C09_write_stream_partial
#print axioms Verif.Data.C09_ntfs_same
#print axioms Verif.Data.C09_chained_setter
#print axioms Verif.Data.C09_chained_empty
#print axioms Verif.FS.C10_no_clobber
#print axioms Verif.FS.C10_no_clobber_shutil
#print axioms Verif.FS.C10_no_clobber_outto
#print axioms Verif.FS.C10_copied
#print axioms Verif.FS.C10_copied_outto
#print axioms Verif.FS.C10_existing
#print axioms Verif.FS.C10_forced_partial
#print axioms Verif.FS.C10_forced_shutil_partial
#print axioms Verif.FS.C10_returns
#print axioms Verif.FS.C10_empty_counterexample
#print axioms Verif.FS.C10_self_counterexample
#print axioms Verif.FS.C10_directory_counterexample
#print axioms Verif.FS.C10_replaces
#print axioms Verif.FS.C10_onto_directory
#print axioms Verif.FS.C10_refused
#print axioms Verif.FS.C10_onto_itself
#print axioms Verif.FS.C10_from_directory
#print axioms Verif.FS.C10_outto_refused
#print axioms Verif.Data.C11_stale_request_counterexample
#print axioms Verif.Data.C11_created_counterexample
#print axioms Verif.Data.C11_stale_request_counterexample2
#print axioms Verif.Data.C11_raised_counterexample
#print axioms Verif.Data.C11_request_partial
#print axioms Verif.Data.C11_law
#print axioms Verif.Xattrs.C12_xattrs_read_back
#print axioms Verif.Xattrs.C12_xattrs_round_trip_partial
#print axioms Verif.Xattrs.C12_xattrs_counterexample
#print axioms Verif.Xattrs.C12_encode_refuses
#print axioms Verif.Xattrs.C12_decode_raises
#print axioms Verif.Xattrs.C12_number_iff
#print axioms Verif.Xattrs.C13_prefix_isolation_partial
#print axioms Verif.Xattrs.C13_prefix_isolation_counterexample
#print axioms Verif.Xattrs.C13_written_under
#print axioms Verif.Xattrs.C13_other_names
#print axioms Verif.Xattrs.C13_names
#print axioms Verif.Xattrs.C13_prefix_isolation_iff
#print axioms Verif.Xattrs.C14_timestamp_text
#print axioms Verif.Symlink.C15_symlink_round_trip_partial
#print axioms Verif.Symlink.C15_symlink_round_trip_iff
#print axioms Verif.Symlink.C16_rejected_iff
#print axioms Verif.Symlink.C16_rejected_or_survives_partial
#print axioms Verif.Symlink.C16_corrupted_counterexample
#print axioms Verif.Symlink.C17_three_components_partial
#print axioms Verif.Symlink.C17_name_checked
#print axioms Verif.Symlink.C17_three_components_counterexample
#print axioms Verif.Symlink.C17_name_unchecked_counterexample
#print axioms Verif.Symlink.C17_three_components_iff
#print axioms Verif.Symlink.C18_versions_partial
#print axioms Verif.Symlink.C18_columns
#print axioms Verif.Symlink.C18_texts
#print axioms Verif.Symlink.C18_meta_counterexample
#print axioms Verif.Symlink.C18_checksum
#print axioms Verif.FS.C19_never_resolves
#print axioms Verif.FS.C19_metadata_link
#print axioms Verif.FS.C19_empty_id_counterexample
#print axioms Verif.C20_equality_counterexample
#print axioms Verif.C20_asymmetry_counterexample
#print axioms Verif.C20_equality_refl
#print axioms Verif.C20_equal_means_same_fields
#print axioms Verif.C20_equality_partial
#print axioms Verif.C20_points_in_time
#print axioms Verif.C20_equivalence_partial
#print axioms Verif.C20_next_day
#print axioms Verif.C20_order
#print axioms Verif.C20_equal_means_same_extras
#print axioms Verif.C21_truth_value
#print axioms Verif.C22_checksum_decides
#print axioms Verif.C22_size_or_time_partial
#print axioms Verif.C22_no_time_counterexample
#print axioms Verif.C22_answer_iff
#print axioms Verif.C23_items
#print axioms Verif.C23_getitem_counterexample
#print axioms Verif.C23_timestamps
#print axioms Verif.C23_refused
#print axioms Verif.C24_different_iff
#print axioms Verif.C24_merge
#print axioms Verif.C24_old_id_partial
#print axioms Verif.C24_old_id_counterexample
#print axioms Verif.C24_merge_with_nothing
#print axioms Verif.C24_merge_constructs
#print axioms Verif.C25_nothing_stale_partial
#print axioms Verif.C25_stale_errors_counterexample
#print axioms Verif.C26_converges_partial
#print axioms Verif.C26_converges_counterexample
#print axioms Verif.C26_self
#print axioms Verif.C26_converges_iff
#print axioms Verif.Cache.C27_replaced_partial
#print axioms Verif.Cache.C27_returned
#print axioms Verif.Cache.C27_accepted
#print axioms Verif.Cache.C27_read_back
#print axioms Verif.Cache.C27_sequence_counterexample
#print axioms Verif.Cache.C27_broken_trash_counterexample
#print axioms Verif.Cache.C27_first
#print axioms Verif.Cache.C27_first_read_back
#print axioms Verif.Cache.C27_asked
#print axioms Verif.Cache.C27_unknown
#print axioms Verif.Cache.C27_unknown_only
#print axioms Verif.Cache.C28_raised_partial
#print axioms Verif.Cache.C28_exists_refused
#print axioms Verif.Cache.C28_encodable_partial
#print axioms Verif.Cache.C28_not_encodable_counterexample
#print axioms Verif.Cache.C29_latest_partial
#print axioms Verif.Cache.C29_history_partial
#print axioms Verif.Cache.C29_move_partial
#print axioms Verif.Cache.C29_failed_partial
#print axioms Verif.Cache.C29_collision_counterexample
#print axioms Verif.Cache.C29_again_counterexample
#print axioms Verif.Cache.C29_long_counterexample
#print axioms Verif.Cache.C29_move_new_partial
#print axioms Verif.Cache.C29_no_name_partial
#print axioms Verif.Cache.C29_made
#print axioms Verif.Cache.C29_no_id_partial
#print axioms Verif.C30_fs_safe_id
#print axioms Verif.C30_fs_safe_id_idempotent
#print axioms Verif.Cache.C31_overlay_partial
#print axioms Verif.Cache.C31_reads_back_partial
#print axioms Verif.Cache.C31_returns_partial
#print axioms Verif.Cache.C31_torn_partial
#print axioms Verif.Cache.C31_stale_counterexample
#print axioms Verif.Cache.C31_memory_counterexample
#print axioms Verif.Cache.C31_symlink_refused
#print axioms Verif.Cache.C31_symlink_refused_always
#print axioms Verif.Cache.C31_symlink_reads
#print axioms Verif.Cache.C32_raises_partial
#print axioms Verif.Cache.C32_content_partial
#print axioms Verif.Cache.C32_no_remote_counterexample
#print axioms Verif.Cache.C33_restored_partial
#print axioms Verif.Cache.C33_returned_partial
#print axioms Verif.Cache.C33_recorded
#print axioms Verif.Cache.C33_long_counterexample
#print axioms Verif.Cache.C33_directory_counterexample
#print axioms Verif.Cache.C34_verified
#print axioms Verif.Cache.C34_fetched
#print axioms Verif.Cache.C34_not_fetched
#print axioms Verif.Cache.C34_boundary_counterexample
#print axioms Verif.Cache.C34_empty_counterexample
#print axioms Verif.Cache.C35_existing_partial
#print axioms Verif.Cache.C35_crash_counterexample
#print axioms Verif.Cache.C35_link_partial
#print axioms Verif.Cache.C36_raises_partial
#print axioms Verif.Cache.C36_cast_counterexample
#print axioms Verif.Cache.C36_unnamed_counterexample
#print axioms Verif.Cache.C36_remote_counterexample
#print axioms Verif.Cache.C36_which
#print axioms Verif.Cache.C37_restored_partial
#print axioms Verif.Cache.C37_moved_partial
#print axioms Verif.Cache.C37_moves_partial
#print axioms Verif.Cache.C37_clobber_counterexample
#print axioms Verif.Cache.C37_lost_counterexample
#print axioms Verif.Cache.C37_silent_counterexample
#print axioms Verif.Cache.C37_link_counterexample
#print axioms Verif.Cache.C37_never_lost
#print axioms Verif.Cache.C37_link_merged
#print axioms Verif.Dedupe.C38_one_of_the_two
#print axioms Verif.Dedupe.C38_later_wins
#print axioms Verif.Dedupe.C38_symmetric_partial
#print axioms Verif.Dedupe.C38_local_later_wins
#print axioms Verif.Dedupe.C38_size_wins
#print axioms Verif.Dedupe.C38_tie_counterexample
#print axioms Verif.Dedupe.C38_missing_time_counterexample
#print axioms Verif.Dedupe.C38_symmetric_iff
#print axioms Verif.Bootstrap.C39_filtered_partial
#print axioms Verif.Bootstrap.C39_below_accepted
#print axioms Verif.Bootstrap.C39_root_kept
#print axioms Verif.Bootstrap.C39_refused
#print axioms Verif.Bootstrap.C39_flat
#print axioms Verif.Bootstrap.C39_skip_below_counterexample
#print axioms Verif.Bootstrap.C39_only_below_root_counterexample
#print axioms Verif.Bootstrap.C40_mark_iff
#print axioms Verif.Bootstrap.C40_sparse_partial
#print axioms Verif.Bootstrap.C40_unlisted_counterexample
#print axioms Verif.Bootstrap.C40_root_counterexample
#print axioms Verif.Bootstrap.C40_made_iff
#print axioms Verif.Bootstrap.C40_all
#print axioms Verif.FS.C41_inherited
#print axioms Verif.FS.C41_mark
#print axioms Verif.FS.C41_clear
#print axioms Verif.FS.C41_other_value_counterexample
#print axioms Verif.FS.C41_relative_counterexample
#print axioms Verif.FS.C41_cache_counterexample
#print axioms Verif.FS.C41_cache_iff
#print axioms Verif.FS.C41_cache_mark
#print axioms Verif.FS.C41_nearest
#print axioms Verif.FS.C41_cache_root_law
#print axioms Verif.FS.C41_never_the_root
#print axioms Verif.FS.C41_cache_disturbed
#print axioms Verif.FS.C42_topmost_partial
#print axioms Verif.FS.C42_broken_link
#print axioms Verif.FS.C42_root_counterexample
#print axioms Verif.FS.C42_gap_counterexample
#print axioms Verif.FS.C42_spellings_counterexample
#print axioms Verif.FS.C42_run
#print axioms Verif.FS.C42_fail
#print axioms Verif.Anchor.C43_second_refused
#print axioms Verif.Anchor.C43_success
#print axioms Verif.Anchor.C43_once_at_a_time
#print axioms Verif.Anchor.C43_again
#print axioms Verif.Anchor.C43_failure_partial
#print axioms Verif.Anchor.C43_half_anchored_counterexample
#print axioms Verif.Anchor.C43_weigh_again_counterexample
#print axioms Verif.Anchor.C43_mismatch_counterexample
#print axioms Verif.Anchor.C43_replaced_counterexample
#print axioms Verif.Anchor.C43_data_dir_counterexample
#print axioms Verif.Anchor.C43_ok_iff
#print axioms Verif.Anchor.C43_exceptions
#print axioms Verif.Anchor.C43_split
#print axioms Verif.Anchor.C43_split_once_partial
#print axioms Verif.FS.C44_relative
#print axioms Verif.FS.C44_straight_partial
#print axioms Verif.FS.C44_not_refused
#print axioms Verif.FS.C44_dotdot_counterexample
#print axioms Verif.FS.C44_cwd_symlink_counterexample
#print axioms Verif.FS.C44_other_home_counterexample
#print axioms Verif.FS.C44_refusal_not_ignored
#print axioms Verif.FS.C44_refused_iff
#print axioms Verif.FS.C45_outside_unchanged
#print axioms Verif.FS.C45_only_removes
#print axioms Verif.FS.C46_removed
#print axioms Verif.FS.C46_handler_counterexample
#print axioms Verif.FS.C46_returns
#print axioms Verif.FS.C46_missing
#print axioms Verif.FS.Rmdirtree.C47_only_hollow
#print axioms Verif.FS.Rmdirtree.C47_exactly_hollow
#print axioms Verif.FS.Rmdirtree.C47_symlink
#print axioms Verif.FS.Rmdirtree.C47_unreadable_counterexample
#print axioms Verif.FS.Rmdirtree.C47_file_ignored
#print axioms Verif.FS.Rmdirtree.C47_versions_agree
#print axioms Verif.FS.Swap.C48_exchanged_partial
#print axioms Verif.FS.Swap.C48_nothing_lost_partial
#print axioms Verif.FS.Swap.C48_returns
#print axioms Verif.FS.Swap.C48_moved_counterexample
#print axioms Verif.FS.Swap.C48_relative_counterexample
#print axioms Verif.FS.Swap.C48_refuses
#print axioms Verif.FS.Swap.C48_linux
#print axioms Verif.FS.C49_denotes_partial
#print axioms Verif.FS.C49_resolves_partial
#print axioms Verif.FS.C49_ancestor_counterexample
#print axioms Verif.FS.C49_symlink_counterexample
#print axioms Verif.FS.C49_to
#print axioms Verif.FS.C50_balanced
#print axioms Verif.FS.C50_short_stack_partial
#print axioms Verif.FS.C50_empty_stack_counterexample
#print axioms Verif.FS.C50_failed_pushd_counterexample
#print axioms Verif.FS.C50_popd_nth
#print axioms Verif.FS.C50_pushd
#print axioms Verif.FS.C50_removed
#print axioms Verif.FS.C50_failed_popd_counterexample
#print axioms Verif.FS.C50_popd
#print axioms Verif.FS.C51_restores_partial
#print axioms Verif.FS.C51_failed_enter
#print axioms Verif.FS.C51_reentry_counterexample
#print axioms Verif.FS.C51_removed
#print axioms Verif.FS.C51_cache
#print axioms Verif.FS.C51_not_directory
#print axioms Verif.FS.C52_exists_iff
#print axioms Verif.FS.C52_is_file_iff
#print axioms Verif.FS.C52_is_dir_iff
#print axioms Verif.FS.C52_false_partial
#print axioms Verif.FS.C52_exceptions
#print axioms Verif.FS.C52_denied_counterexample
#print axioms Verif.FS.C52_is_broken_symlink_iff
#print axioms Verif.FS.C52_exists_not_symlink_iff
#print axioms Verif.FS.C52_is_symlink_exceptions
#print axioms Verif.FS.Listing.C53_children
#print axioms Verif.FS.Listing.C53_elsewhere
#print axioms Verif.FS.Listing.C53_anchor_exact
#print axioms Verif.FS.Listing.C53_anchor_partial
#print axioms Verif.FS.Listing.C53_stem_counterexample
#print axioms Verif.FS.Listing.C53_symlink_counterexample
#print axioms Verif.FS.Listing.C53_stem
#print axioms Verif.FS.Listing.C53_stem_whole
#print axioms Verif.FS.Listing.C53_bookkeeping_names
#print axioms Verif.FS.Listing.C53_skip_cache
#print axioms Verif.Ssh.C54_access_partial
#print axioms Verif.Ssh.C54_access_iff
#print axioms Verif.Ssh.C54_no_false_denial
#print axioms Verif.Ssh.C54_grant_backed
#print axioms Verif.Ssh.C54_unreachable
#print axioms Verif.Ssh.C54_class_precedence_counterexample
#print axioms Verif.Ssh.C54_superuser_counterexample
#print axioms Verif.Ssh.C55_format
#print axioms Verif.Ssh.C55_sent_partial
#print axioms Verif.Ssh.C55_parse_partial
#print axioms Verif.Ssh.C55_law
#print axioms Verif.Ssh.C55_parse_iff
#print axioms Verif.Ssh.C55_double_space_counterexample
#print axioms Verif.Ssh.C55_trailing_space_counterexample
#print axioms Verif.Ssh.C55_before_epoch_counterexample
#print axioms Verif.Ssh.C56_ssh_id
#print axioms Verif.Ssh.C56_local_id
#print axioms Verif.Ssh.C56_path_text
#print axioms Verif.Parts.C57_parts_uncached_partial
#print axioms Verif.Parts.C57_parts_child
#print axioms Verif.Parts.C57_unanchored_counterexample
#print axioms Verif.Parts.C57_no_parent
#print axioms Verif.Parts.C57_parts_self
#print axioms Verif.Parts.C57_outside_reported
#print axioms Verif.Parts.C57_cached_counterexample
#print axioms Verif.Parts.C57_repeated_name_counterexample
#print axioms Verif.Parts.C57_stale_counterexample
#print axioms Verif.Parts.C57_first
#print axioms Verif.Parts.C57_cached_iff
#print axioms Verif.Parts.C57_cached_law
#print axioms Verif.Parts.C57_cache_raises
#print axioms Verif.Parts.C57_relative_self
#print axioms Verif.FS.C58_innermost
#print axioms Verif.FS.C58_relative_path
#print axioms Verif.FS.C58_dotdot_counterexample
#print axioms Verif.FS.C58_outside
#print axioms Verif.FS.C59_no_nesting
#print axioms Verif.FS.C59_raises
#print axioms Verif.FS.C59_symlink_counterexample
#print axioms Verif.Git.C60_restored_partial
#print axioms Verif.Git.C60_index_partial
#print axioms Verif.Git.C60_kept_partial
#print axioms Verif.Git.C60_refused
#print axioms Verif.Git.C60_staged_counterexample
#print axioms Verif.Git.C60_tag_counterexample
#print axioms Verif.Git.C60_body_counterexample
#print axioms Verif.Git.C60_index_iff
#print axioms Verif.Git.C60_gentle_partial
#print axioms Verif.Git.C61_commit_partial
#print axioms Verif.Git.C61_index_partial
#print axioms Verif.Git.C61_kept_partial
#print axioms Verif.Git.C61_working_tree_partial
#print axioms Verif.Git.C61_working_tree_index_partial
#print axioms Verif.Git.C61_detached
#print axioms Verif.Git.C61_missing_counterexample
#print axioms Verif.Git.C61_staged_counterexample
#print axioms Verif.Git.C61_old_stash_counterexample
#print axioms Verif.Git.C61_first_counterexample
#print axioms Verif.Git.C61_silent_counterexample
#print axioms Verif.Git.C61_index_iff
#print axioms Verif.Url.C62_same_address_partial
#print axioms Verif.Url.C62_machine_partial
#print axioms Verif.Url.C62_undotted_partial
#print axioms Verif.Url.C62_address_injective
#print axioms Verif.Url.C62_clone_name_partial
#print axioms Verif.Url.C62_dotted_counterexample
#print axioms Verif.Url.C62_ssh_url_counterexample
#print axioms Verif.Url.C62_without_git_iff
#print axioms Verif.Pep440.C63_next_greater
#print axioms Verif.Pep440.C63_component_counterexample
#print axioms Verif.Pep440.C64_asked_for
#print axioms Verif.Pep440.C64_pre_next
#print axioms Verif.Pep440.C64_no_going_back
#print axioms Verif.Pep440.C64_release_drops
#print axioms Verif.Pep440.C64_release_kept_partial
#print axioms Verif.Pep440.C64_stage_bumps_release_counterexample
#print axioms Verif.Pep440.C64_release_kept_iff
#print axioms Verif.Zip.C65_exists_iff
#print axioms Verif.Zip.C65_ancestor_dir
#print axioms Verif.Zip.C65_file_iff
#print axioms Verif.Zip.C65_children_iff
#print axioms Verif.Zip.C65_rchildren_closure
#print axioms Verif.Zip.C66_exists_partial
#print axioms Verif.Zip.C66_missing_raises_counterexample
#print axioms Verif.Zip.C66_looks_like_zip_counterexample
#print axioms Verif.Zip.C66_empty_archive_counterexample
#print axioms Verif.Zip.C66_exists_iff
#print axioms Verif.C67_unit_partial
#print axioms Verif.C67_unit_double
#print axioms Verif.C67_unit_counterexample
#print axioms Verif.C67_no_separator
#print axioms Verif.C67_nearest_double
#print axioms Verif.C67_unit_iff
#print axioms Verif.C67_exact_partial
#print axioms Verif.Attrs.C68_get_exact
#print axioms Verif.Attrs.C68_list_exact
#print axioms Verif.Attrs.C68_frame
#print axioms Verif.Attrs.C68_delete_missing
#print axioms Verif.Attrs.C68_windows_list_partial
#print axioms Verif.Attrs.C68_windows_namespace_counterexample
#print axioms Verif.Attrs.C68_dotted_namespace_counterexample
#print axioms Verif.Attrs.C68_windows_list_iff
#print axioms Verif.Pretty.C69_table
#print axioms Verif.Pretty.C69_no_field_hidden
#print axioms Verif.Pretty.C69_any
#print axioms Verif.Pretty.C69_no_table
#print axioms Verif.Pretty.C69_faithful
#print axioms Verif.Pretty.C69_user_id_counterexample
#print axioms Verif.Pretty.C70_shown_is_right
#print axioms Verif.Pretty.C70_longer_side_shown
#print axioms Verif.Pretty.C70_comparison_partial
#print axioms Verif.Pretty.C70_lost_field_counterexample
#print axioms Verif.Pretty.C70_twice_counterexample
#print axioms Verif.Pretty.C70_raises_counterexample
#print axioms Verif.Pretty.C70_nested_iff
#print axioms Verif.Pretty.C70_wrapped_counterexample
#print axioms Verif.Ssh.C71_stat_partial
#print axioms Verif.Ssh.C71_type_partial
#print axioms Verif.Ssh.C71_data_partial
#print axioms Verif.Ssh.C71_checksum_partial
#print axioms Verif.Ssh.C71_children_partial
#print axioms Verif.Ssh.C71_checksum_space_counterexample
#print axioms Verif.Ssh.C71_children_command_counterexample
#print axioms Verif.Ssh.C71_data_command_counterexample
#print axioms Verif.Ssh.C71_stat_dollar_counterexample
#print axioms Verif.Ssh.C71_repr
#print axioms Verif.Ssh.C71_data_injective
#print axioms Verif.Ssh.C71_children_iff
#print axioms Verif.Ssh.C71_checksum_iff
#print axioms Verif.Ssh.C71_repr_literal
#print axioms Verif.Ssh.C72_reply
#print axioms Verif.Ssh.C72_too_long
#print axioms Verif.Ssh.C72_listing_partial
#print axioms Verif.Ssh.C72_empty_counterexample
#print axioms Verif.Ssh.C72_directory_name_counterexample
#print axioms Verif.Ssh.C72_backslash_counterexample
#print axioms Verif.Ssh.C72_unreadable_counterexample
#print axioms Verif.Ssh.C73_found_partial
#print axioms Verif.Ssh.C73_missing
#print axioms Verif.Ssh.C73_denied
#print axioms Verif.Ssh.C73_types_partial
#print axioms Verif.Ssh.C73_types_missing
#print axioms Verif.Ssh.C73_empty_file_counterexample
#print axioms Verif.Ssh.C73_found_iff
#print axioms Verif.Splitroot.C74_nothing_lost_partial
#print axioms Verif.Splitroot.C74_extended_counterexample
#print axioms Verif.Splitroot.C74_letter
#print axioms Verif.Splitroot.C74_hive
#print axioms Verif.Splitroot.C74_share
#print axioms Verif.Splitroot.C74_nothing_lost_iff
#print axioms Verif.Anchor.C75_nothing_lost
#print axioms Verif.Anchor.C75_success
#print axioms Verif.Anchor.C75_refused
#print axioms Verif.Anchor.C75_works
#print axioms Verif.Anchor.C75_mark_left
#print axioms Verif.Anchor.C75_content
#print axioms Verif.Anchor.C75_no_data_dir
#print axioms Verif.Anchor.C76_nothing_lost
#print axioms Verif.Anchor.C76_success
#print axioms Verif.Anchor.C76_again
#print axioms Verif.Anchor.C76_right_root_partial
#print axioms Verif.Anchor.C76_other_root_counterexample
#print axioms Verif.Anchor.C76_cache_class_counterexample
#print axioms Verif.Anchor.C76_anchorTo
#print axioms Verif.Pep440.C77_greater_than_all
#print axioms Verif.Pep440.C77_never_released
#print axioms Verif.Pep440.C77_answers
#print axioms Verif.Pep440.C78_nearest_partial
#print axioms Verif.Pep440.C78_github_partial
#print axioms Verif.Pep440.C78_none
#print axioms Verif.Pep440.C78_plain
#print axioms Verif.Pep440.C78_github_counterexample
#print axioms Verif.Pep440.C78_nearest_counterexample
#print axioms Verif.Pep440.C78_nearest_law
#print axioms Verif.Pep440.C78_github_law
#print axioms Verif.Pep440.C79_nearest
#print axioms Verif.Pep440.C79_folder
#print axioms Verif.SysId.C80_stable
#print axioms Verif.SysId.C80_existing
#print axioms Verif.SysId.C80_answers
#print axioms Verif.SysId.C80_refuses
#print axioms Verif.SysId.C80_unbound
#print axioms Verif.SysId.C80_bound_once
#print axioms Verif.SysId.C80_unreadable
#print axioms Verif.SysId.C81_id_iff
#print axioms Verif.SysId.C81_text
#print axioms Verif.SysId.C81_bound
#print axioms Verif.SysId.C82_windows_partial
#print axioms Verif.SysId.C82_cut_counterexample
#print axioms Verif.SysId.C82_windows_iff
#print axioms Verif.Versions.C83_getRef
#print axioms Verif.Versions.C83_name_partial
#print axioms Verif.Versions.C83_not_counted
#print axioms Verif.Versions.C83_tag_counterexample
#print axioms Verif.Versions.C83_remote_counterexample
#print axioms Verif.Versions.C83_branch_counterexample
#print axioms Verif.Versions.C83_nowhere
#print axioms Verif.Versions.C83_own_name_iff
#print axioms Verif.Versions.C83_no_name_iff
#print axioms Verif.Versions.C84_points
#print axioms Verif.Versions.C84_show_partial
#print axioms Verif.Versions.C84_missing
#print axioms Verif.Versions.C84_newline_counterexample
#print axioms Verif.Versions.C84_text
#print axioms Verif.Versions.C84_escape
#print axioms Verif.Versions.C84_refused
#print axioms Verif.Versions.C85_changes_partial
#print axioms Verif.Versions.C85_uncommitted
#print axioms Verif.Versions.C85_undone_counterexample
#print axioms Verif.Versions.C85_deleted_counterexample
#print axioms Verif.Versions.C85_uncached_counterexample
#print axioms Verif.Versions.C85_changes_iff
#print axioms Verif.Zip.C86_content
#print axioms Verif.Zip.C86_no_content
#print axioms Verif.Zip.C87_undisturbed_partial
#print axioms Verif.Zip.C87_alone_partial
#print axioms Verif.Zip.C87_two_readers_counterexample
#print axioms Verif.Zip.C87_ends_iff
#print axioms Verif.Zip.C88_below
#print axioms Verif.Zip.C88_read
#print axioms Verif.Zip.C88_refused
#print axioms Verif.FS.C89_nothing_lost
#print axioms Verif.FS.C89_ready
#print axioms Verif.FS.C89_fresh
#print axioms Verif.FS.C89_linked
#print axioms Verif.FS.C89_again
#print axioms Verif.FS.C89_relative_counterexample
#print axioms Verif.FS.C89_trash_counterexample
#print axioms Verif.FS.C89_objects_kept
#print axioms Verif.FS.C89_outcome
#print axioms Verif.FS.C90_straight
#print axioms Verif.FS.C90_idempotent
#print axioms Verif.FS.C90_agrees
#print axioms Verif.Cache.C91_unchanged
#print axioms Verif.Cache.C91_accepts_partial
#print axioms Verif.Cache.C91_size
#print axioms Verif.Cache.C91_bootstrap_partial
#print axioms Verif.Cache.C91_etag_counterexample
#print axioms Verif.Cache.C91_mark_counterexample
#print axioms Verif.Cache.C91_never_marked
#print axioms Verif.Cache.C91_any_etag_counterexample
#print axioms Verif.Cache.C91_link
#print axioms Verif.Cache.C91_odd_etag
#print axioms Verif.Cache.C92_kept_partial
#print axioms Verif.Cache.C92_moved
#print axioms Verif.Cache.C92_half_counterexample
#print axioms Verif.Cache.C92_overwritten_counterexample
#print axioms Verif.Cache.C92_trash_counterexample
#print axioms Verif.Cache.C92_directory_counterexample
#print axioms Verif.Cache.C92_two_caches
#print axioms Verif.Cache.C92_refused
#print axioms Verif.Cache.C92_stays
#print axioms Verif.Cache.C93_mirrored
#print axioms Verif.Cache.C93_only
#print axioms Verif.Cache.C93_failed
#print axioms Verif.Cache.C93_refused
#print axioms Verif.Cache.C93_works
#print axioms Verif.Cache.C93_silent_counterexample
#print axioms Verif.Cache.C93_orphan_counterexample
#print axioms Verif.Cache.C93_stale_counterexample
#print axioms Verif.Cache.C93_init_absent
#print axioms Verif.Cache.C93_init_again
#print axioms Verif.Cache.C93_init_empty
#print axioms Verif.Cache.C94_done
#print axioms Verif.Cache.C94_failed
#print axioms Verif.Cache.C94_kept
#print axioms Verif.Cache.C94_works
#print axioms Verif.Cache.C94_bare_counterexample
#print axioms Verif.Cache.C94_file_counterexample
#print axioms Verif.Cache.C95_read
#print axioms Verif.Cache.C95_unreadable
#print axioms Verif.Cache.C95_store
#print axioms Verif.Cache.C95_fetch
#print axioms Verif.Cache.C95_update
#print axioms Verif.Cache.C95_move
#print axioms Verif.Cache.C95_legible
#print axioms Verif.Cache.C95_fetched
#print axioms Verif.Cache.C95_lost_counterexample
#print axioms Verif.Cache.C95_update_cache
#print axioms Verif.Cache.C95_validate
#print axioms Verif.Cache.C95_bootstrap_data
#print axioms Verif.Cache.C95_cache_init
#print axioms Verif.Cache.C95_mkdir_cache
#print axioms Verif.Cache.C95_legible_more
#print axioms Verif.Cache.C95_validate_unchanged
#print axioms Verif.Cache.C95_validated
#print axioms Verif.Cache.C95_bootstrapped
#print axioms Verif.Cache.C95_restored
#print axioms Verif.Cache.C95_returned
#print axioms Verif.Cache.C95_kept
#print axioms Verif.Cache.C95_made
#print axioms Verif.Graph.C96_cache_remote
#print axioms Verif.Graph.C96_same_remote
#print axioms Verif.Graph.C96_new_remote
#print axioms Verif.Graph.C96_open
#print axioms Verif.Graph.C96_child
#print axioms Verif.Graph.C96_refused_move
#print axioms Verif.Graph.C96_set_meta
#print axioms Verif.Graph.C96_id_kept
#print axioms Verif.Graph.C96_bootstrapping_id
#print axioms Verif.Graph.C96_stale_id_counterexample
#print axioms Verif.Graph.C96_stale_remote_counterexample
#print axioms Verif.Graph.C96_remote_cache_counterexample
#print axioms Verif.Graph.C96_failed_setter_counterexample
#print axioms Verif.Graph.C96_mkdir_remote_counterexample
#print axioms Verif.Graph.C96_mkdir_unanchored_counterexample
#print axioms Verif.Graph.C96_mkdir_cache_counterexample
#print axioms Verif.Graph.C96_setter_counterexample
#print axioms Verif.Ssh.C97_init
#print axioms Verif.Ssh.C97_place
#print axioms Verif.Ssh.C97_outside
#print axioms Verif.Ssh.C97_injective
#print axioms Verif.Ssh.C97_surjective
#print axioms Verif.Ssh.C97_parent
#print axioms Verif.Ssh.C97_from_id
#print axioms Verif.Ssh.C97_inside
#print axioms Verif.Ssh.C97_escape_counterexample
#print axioms Verif.Ssh.C97_dotdot_counterexample
#print axioms Verif.Ssh.C97_relative_counterexample
#print axioms Verif.Ssh.C97_relative_anchor_counterexample
#print axioms Verif.Ssh.C97_place_new
#print axioms Verif.Ssh.C97_anchor_new
#print axioms Verif.Ssh.C97_outside_new
#print axioms Verif.Ssh.C97_injective_new
#print axioms Verif.Ssh.C97_id_new
#print axioms Verif.Ssh.C97_from_id_new
#print axioms Verif.Ssh.C97_parent_new
#print axioms Verif.Ssh.C97_relative_new
#print axioms Verif.Ssh.C97_anchor_counterexample
#print axioms Verif.Ssh.C97_relative_id_counterexample
#print axioms Verif.Ssh.C97_slashes_counterexample
#print axioms Verif.Ssh.C97_anchor_text_counterexample
#print axioms Verif.Ssh.C97_init_refused
#print axioms Verif.RepoMemo.C98_dir
#print axioms Verif.RepoMemo.C98_raises
#print axioms Verif.RepoMemo.C98_kept
#print axioms Verif.RepoMemo.C98_same
#print axioms Verif.RepoMemo.C98_fresh
#print axioms Verif.RepoMemo.C98_init
#print axioms Verif.RepoMemo.C98_rmtree
#print axioms Verif.RepoMemo.C98_parent_counterexample
#print axioms Verif.RepoMemo.C98_relative_counterexample
#print axioms Verif.RepoMemo.C98_missing_counterexample
#print axioms Verif.RepoMemo.C98_refused_counterexample
#print axioms Verif.RepoMemo.C98_cwd
#print axioms Verif.RepoMemo.C98_sound
#print axioms Verif.RepoMemo.C98_not_made
#print axioms Verif.Sweep.C99_stuck
#print axioms Verif.Sweep.C99_decided
#print axioms Verif.Sweep.C99_only
#print axioms Verif.Sweep.C99_all
#print axioms Verif.Sweep.C99_tracked
#print axioms Verif.Sweep.C99_parents_first
#print axioms Verif.Sweep.C99_untracked_counterexample
#print axioms Verif.Sweep.C99_prefix_counterexample
#print axioms Verif.Sweep.C99_order
#print axioms Verif.Cache.C100_existing
#print axioms Verif.Cache.C100_torn
#print axioms Verif.Cache.C100_nothing_there
#print axioms Verif.Cache.C100_nothing_lost
#print axioms Verif.Cache.C100_link
#print axioms Verif.Cache.C100_link_raised
#print axioms Verif.Cache.C100_empty
#print axioms Verif.Cache.C100_read
#print axioms Verif.Cache.C100_returns
#print axioms Verif.Cache.C100_directory_counterexample
#print axioms Verif.Cache.C100_discarded_counterexample
#print axioms Verif.Ads.C101_init
#print axioms Verif.Ads.C101_history_partial
#print axioms Verif.Ads.C101_failures_partial
#print axioms Verif.Ads.C101_read
#print axioms Verif.Ads.C101_delete_iff
#print axioms Verif.Ads.C101_directory_counterexample
#print axioms Verif.Ads.C101_case_counterexample
#print axioms Verif.Ads.C101_blind_counterexample
#print axioms Verif.Yields.C102_order
#print axioms Verif.Yields.C102_each_partial
#print axioms Verif.Yields.C102_exact_partial
#print axioms Verif.Yields.C102_elsewhere
#print axioms Verif.Yields.C102_attributes
#print axioms Verif.Yields.C102_moved_counterexample
#print axioms Verif.Yields.C102_replaced_counterexample
#print axioms Verif.Yields.C102_stale_counterexample
#print axioms Verif.Yields.C102_gone_counterexample
#print axioms Verif.Yields.C102_mark_counterexample
#print axioms Verif.Git.C103_commits
#print axioms Verif.Git.C103_head
#print axioms Verif.Git.C103_latest
#print axioms Verif.Git.C103_never
#print axioms Verif.Git.C103_modified_partial
#print axioms Verif.Git.C103_modified_file_iff
#print axioms Verif.Git.C103_diff_partial
#print axioms Verif.Git.C103_swapped_counterexample
#print axioms Verif.Git.C103_index_counterexample
#print axioms Verif.Git.C103_deleted_counterexample
#print axioms Verif.Git.C103_untracked_counterexample
#print axioms Verif.Classes.C104_is_instance
#print axioms Verif.Classes.C104_bound_iff
#print axioms Verif.Classes.C104_concrete
#print axioms Verif.Classes.C104_bind_iff
#print axioms Verif.Classes.C104_same_class
#print axioms Verif.Classes.C104_shares
#print axioms Verif.Classes.C104_remote_partial
#print axioms Verif.Classes.C104_remote_concrete
#print axioms Verif.Classes.C104_remote_counterexample
#print axioms Verif.Classes.C104_same_class_counterexample
#print axioms Verif.Classes.C104_flavoured_counterexample
#print axioms Verif.Classes.C104_remote_unbound
#print axioms Verif.Classes.C105_tied_partial
#print axioms Verif.Classes.C105_only
#print axioms Verif.Classes.C105_outcome
#print axioms Verif.Classes.C105_anchored
#print axioms Verif.Classes.C105_weighed_partial
#print axioms Verif.Classes.C105_api
#print axioms Verif.Classes.C105_shared_counterexample
#print axioms Verif.Classes.C105_inherited_counterexample
#print axioms Verif.Classes.C105_unbound_counterexample
#print axioms Verif.Classes.C105_api_counterexample
#print axioms Verif.Ssh.C106_law
#print axioms Verif.Ssh.C106_stat_iff
#print axioms Verif.Ssh.C106_command
#print axioms Verif.Ssh.C106_missing
#print axioms Verif.Ssh.C106_size_partial
#print axioms Verif.Ssh.C106_size_followed
#print axioms Verif.Ssh.C106_gap_counterexample
#print axioms Verif.Ssh.C106_quote_counterexample
#print axioms Verif.Zip.C107_answer
#print axioms Verif.Zip.C107_opened_once
#print axioms Verif.Zip.C107_frozen
#print axioms Verif.Zip.C107_fresh_partial
#print axioms Verif.Zip.C107_again
#print axioms Verif.Zip.C107_stale_counterexample
#print axioms Verif.Zip.C107_exception_counterexample
#print axioms Verif.Pep440.C108_component
#print axioms Verif.Pep440.C108_new_cycle
#print axioms Verif.Pep440.C108_development
#print axioms Verif.Pep440.C108_prerelease
#print axioms Verif.Pep440.C108_stage_again
#print axioms Verif.Pep440.C108_release
#print axioms Verif.Pep440.C108_post
#print axioms Verif.Pep440.C108_local
#print axioms Verif.RunSetup.C109_restored
#print axioms Verif.RunSetup.C109_told_partial
#print axioms Verif.RunSetup.C109_only_told_partial
#print axioms Verif.RunSetup.C109_last_call
#print axioms Verif.RunSetup.C109_rerun_counterexample
#print axioms Verif.Kind.C110_suffix
#print axioms Verif.Kind.C110_encoded
#print axioms Verif.Kind.C110_short
#print axioms Verif.Kind.C110_no_suffix
#print axioms Verif.Kind.C110_directory
#print axioms Verif.Kind.C110_absolute
#print axioms Verif.Kind.C110_relative
#print axioms Verif.Kind.C110_same_partial
#print axioms Verif.Kind.C110_broken
#print axioms Verif.Kind.C110_link_counterexample
#print axioms Verif.Kind.C110_broken_counterexample
#print axioms Verif.Kind.C110_quoted_counterexample
#print axioms Verif.Kind.C110_extra
#print axioms Verif.Kind.C110_quoted
#print axioms Verif.Cache.C111_law
#print axioms Verif.Cache.C111_named_partial
#print axioms Verif.Cache.C111_unknown
#print axioms Verif.Cache.C111_local_partial
#print axioms Verif.Cache.C111_own
#print axioms Verif.Cache.C111_fetch_partial
#print axioms Verif.Cache.C111_default_counterexample
#print axioms Verif.Cache.C111_validate_counterexample
#print axioms Verif.Cache.C111_own_cypher_counterexample
#print axioms Verif.Cache.C111_local_law
#print axioms Verif.Git.C112_one
#print axioms Verif.Git.C112_own
#print axioms Verif.Git.C112_same_counterexample
#print axioms Verif.Git.C112_own_body
#print axioms Verif.Git.C112_never_entered
#print axioms Verif.Classes.C113_instance
#print axioms Verif.Classes.C113_shared
#print axioms Verif.Classes.C113_type
#print axioms Verif.Classes.C113_move_partial
#print axioms Verif.Classes.C113_move_counterexample
#print axioms Verif.Attrs.C114_get
#print axioms Verif.Attrs.C114_missing
#print axioms Verif.Attrs.C114_faithful_partial
#print axioms Verif.Attrs.C114_linux_counterexample
#print axioms Verif.Attrs.C114_del
#print axioms Verif.Attrs.C114_del_linux
#print axioms Verif.Attrs.C114_del_counterexample
#print axioms Verif.Attrs.C114_sparse
#print axioms Verif.Attrs.C114_sparse_counterexample
#print axioms Verif.Attrs.C114_sparse_mac
#print axioms Verif.RemoteEq.C115_eq
#print axioms Verif.RemoteEq.C115_equivalence
#print axioms Verif.RemoteEq.C115_other
#print axioms Verif.RemoteEq.C115_raises
#print axioms Verif.RemoteEq.C115_symmetric_partial
#print axioms Verif.RemoteEq.C115_symmetric_counterexample
#print axioms Verif.RemoteEq.C115_meta_counterexample
#print axioms Verif.RemoteEq.C115_hash
#print axioms Verif.RemoteEq.C115_unhashable
#print axioms Verif.RemoteEq.C115_sweep_partial
#print axioms Verif.RemoteEq.C115_sweep_counterexample
#print axioms Verif.RemoteEq.C115_metadata
#print axioms Verif.RemoteEq.C115_neither
#print axioms Verif.RemoteEq.C115_paths_hashable
#print axioms Verif.Refresh.C116_refresh
#print axioms Verif.Refresh.C116_refused
#print axioms Verif.Refresh.C116_limit
#print axioms Verif.Refresh.C116_limit_partial
#print axioms Verif.Refresh.C116_limit_counterexample
#print axioms Verif.Refresh.C116_here_counterexample
#print axioms Verif.Graph.C117_children
#print axioms Verif.Graph.C117_failed
#print axioms Verif.Graph.C117_twice_counterexample
#print axioms Verif.Graph.C117_ssh_counterexample
#print axioms Verif.Access.C118_unique
#print axioms Verif.Access.C118_local
#print axioms Verif.Access.C118_refused
#print axioms Verif.Access.C118_remote_partial
#print axioms Verif.Access.C118_remote_counterexample
#print axioms Verif.Zip.C119_read_iff
#print axioms Verif.Zip.C119_errors
#print axioms Verif.Zip.C119_spoiled_counterexample
#print axioms Verif.Zip.C119_outside
#print axioms Verif.Zip.C119_modes_counterexample
#print axioms Verif.Zip.C119_missing_counterexample
#print axioms Verif.Zip.C120_outside_partial
#print axioms Verif.Zip.C120_opens_iff
#print axioms Verif.Zip.C120_inside_counterexample
#print axioms Verif.Zip.C120_archive_counterexample
#print axioms Verif.Zip.C120_internal_counterexample
#print axioms Verif.Zip.C120_refused
#print axioms Verif.Zip.C120_refused_inside
#print axioms Verif.Data.C121_taken
#print axioms Verif.Data.C121_whole_partial
#print axioms Verif.Data.C121_silent_counterexample
#print axioms Verif.Data.C121_written
#print axioms Verif.Data.C121_written_counterexample
#print axioms Verif.Data.C121_size
#print axioms Verif.Data.C121_no_program
#print axioms Verif.Data.C121_left_counterexample
#print axioms Verif.Cache.C122_restored_partial
#print axioms Verif.Cache.C122_wiped_partial
#print axioms Verif.Cache.C122_not_asked
#print axioms Verif.Cache.C122_nothing_kept
#print axioms Verif.Cache.C122_sqlite_counterexample
#print axioms Verif.Cache.C122_recreates_partial
#print axioms Verif.Setup.C123_line_iff
#print axioms Verif.Setup.C123_found_partial
#print axioms Verif.Setup.C123_comment_counterexample
#print axioms Verif.Setup.C123_missed_counterexample
#print axioms Verif.Setup.C123_text_counterexample
#print axioms Verif.Setup.C123_last
#print axioms Verif.Cache.C124_mirrors
#print axioms Verif.Cache.C124_interrupted
#print axioms Verif.Cache.C124_resumes
#print axioms Verif.Cache.C124_sparse_partial
#print axioms Verif.Cache.C124_sparse_counterexample
#print axioms Verif.Cache.C124_moved
#print axioms Verif.Cache.C125_content
#print axioms Verif.Cache.C125_directories
#print axioms Verif.Cache.C125_same_id_counterexample
#print axioms Verif.Race.C126_content
#print axioms Verif.Race.C126_file
#print axioms Verif.Race.C126_window_counterexample
#print axioms Verif.Race.C126_size_counterexample
#print axioms Verif.Race.C126_mark_counterexample
#print axioms Verif.Race.C126_readlink_counterexample
#print axioms Verif.Race.C126_neither_counterexample
#print axioms Verif.Race.C126_removed_counterexample
#print axioms Verif.Race.C126_lost_counterexample
#print axioms Verif.Race.C126_link
#print axioms Verif.Race.C126_alone
#print axioms Verif.Torn.C127_fields
#print axioms Verif.Torn.C127_one
#print axioms Verif.Torn.C127_store
#print axioms Verif.Torn.C127_quiet
#print axioms Verif.Torn.C127_torn_counterexample
#print axioms Verif.Torn.C127_mix_counterexample
#print axioms Verif.Torn.C127_alone_sets
#print axioms Verif.Torn.C127_alone_reads
#print axioms Verif.FS.C128_elsewhere
#print axioms Verif.FS.C128_returns
#print axioms Verif.FS.C128_outside
#print axioms Verif.FS.C128_gone
#print axioms Verif.FS.C128_alone
#print axioms Verif.FS.C128_counterexample
#print axioms Verif.FS.GlobDirs.C129_yields
#print axioms Verif.FS.GlobDirs.C129_all
#print axioms Verif.FS.GlobDirs.C129_error
#print axioms Verif.FS.GlobDirs.C129_counterexample
#print axioms Verif.FS.GlobDirs.C129_entered
#print axioms Verif.FS.GlobDirs.C129_start
#print axioms Verif.Cache.C130_pulled
#print axioms Verif.Cache.C130_moved
#print axioms Verif.Cache.C130_again
#print axioms Verif.Cache.C130_twice
#print axioms Verif.Cache.C131_fetch_partial
#print axioms Verif.Cache.C131_update_partial
#print axioms Verif.Cache.C131_refetch_counterexample
#print axioms Verif.Cache.C131_stale_counterexample
#print axioms Verif.Cache.C132_touched
#print axioms Verif.Cache.C132_returned
#print axioms Verif.Cache.C132_useless
#print axioms Verif.Cache.C132_works
#print axioms Verif.Cache.C132_plain
#print axioms Verif.Cache.C132_parents_counterexample
#print axioms Verif.Cache.C132_repeated
#print axioms Verif.Cache.C132_orphan_counterexample
#print axioms Verif.AdsHelper.C133_cleaned
#print axioms Verif.AdsHelper.C133_content_left_out
#print axioms Verif.AdsHelper.C133_agrees_partial
#print axioms Verif.AdsHelper.C133_unnameable
#print axioms Verif.AdsHelper.C133_missing
#print axioms Verif.AdsHelper.C133_bytes
#print axioms Verif.AdsHelper.C133_fail
#print axioms Verif.AdsHelper.C133_streamname
#print axioms Verif.AdsHelper.C133_case_counterexample
#print axioms Verif.AdsHelper.C133_alias_counterexample
#print axioms Verif.AdsHelper.C133_torn_counterexample
#print axioms Verif.AdsHelper.C133_alias
#print axioms Verif.AdsHelper.C133_refused
#print axioms Verif.AdsHelper.C133_no_directory
#print axioms Verif.AdsHelper.C133_untyped
#print axioms Verif.AdsHelper.C133_streamname_file
#print axioms Verif.AdsHelper.C133_type_alias
#print axioms Verif.AdsHelper.C133_other_type
#print axioms Verif.Pep440.C134_since_partial
#print axioms Verif.Pep440.C134_never
#print axioms Verif.Pep440.C134_never_counterexample
#print axioms Verif.Pep440.C134_other_counterexample
#print axioms Verif.Pep440.C134_raises
#print axioms Verif.Pep440.C135_iff
#print axioms Verif.Pep440.C135_never_released_partial
#print axioms Verif.Pep440.C135_unreleased
#print axioms Verif.Pep440.C135_late_counterexample
#print axioms Verif.Pep440.C136_words_partial
#print axioms Verif.Pep440.C136_space_counterexample
#print axioms Verif.Pep440.C136_dotted_counterexample
#print axioms Verif.Pep440.C136_fragment_counterexample
#print axioms Verif.CloneUrl.C137_same
#print axioms Verif.CloneUrl.C137_address
#print axioms Verif.CloneUrl.C137_branch_counterexample
#print axioms Verif.CloneUrl.C137_bare_counterexample
#print axioms Verif.CloneUrl.C137_nested_counterexample
#print axioms Verif.CloneUrl.C137_api_counterexample
#print axioms Verif.CloneUrl.C137_cycle
#print axioms Verif.CloneUrl.C137_outside
#print axioms Verif.CloneUrl.C137_gone
#print axioms Verif.MetaRace.C138_right
#print axioms Verif.MetaRace.C138_growing
#print axioms Verif.MetaRace.C138_answers
#print axioms Verif.MetaRace.C138_alone
#print axioms Verif.MetaRace.C138_mixed_counterexample
#print axioms Verif.MetaRace.C138_never_counterexample
#print axioms Verif.MetaRace.C138_vanishing
#print axioms Verif.MetaRace.C138_stale_counterexample
#print axioms Verif.MetaRace.C138_raises
#print axioms Verif.CopyRace.C139_late
#print axioms Verif.CopyRace.C139_existing
#print axioms Verif.CopyRace.C139_same
#print axioms Verif.CopyRace.C139_bytes
#print axioms Verif.CopyRace.C139_mixture_counterexample
#print axioms Verif.CopyRace.C139_stopped_counterexample
#print axioms Verif.CopyRace.C139_empty
#print axioms Verif.CopyRace.C139_ends
#print axioms Verif.CopyRace.C139_alone
#print axioms Verif.LinkRace.C140_whole
#print axioms Verif.LinkRace.C140_there
#print axioms Verif.LinkRace.C140_made
#print axioms Verif.LinkRace.C140_first
#print axioms Verif.LinkRace.C140_alone
#print axioms Verif.LinkRace.C140_ends
#print axioms Verif.LinkRace.C140_back_counterexample
#print axioms Verif.LinkRace.C140_lost_counterexample
#print axioms Verif.LinkRace.C140_moment_counterexample
#print axioms Verif.SwapRace.C141_kept
#print axioms Verif.SwapRace.C141_parity
#print axioms Verif.SwapRace.C141_native
#print axioms Verif.SwapRace.C141_ends
#print axioms Verif.SwapRace.C141_gone_counterexample
#print axioms Verif.SwapRace.C141_stuck_counterexample
#print axioms Verif.SwapRace.C141_moment_counterexample
#print axioms Verif.SwapRace.C141_raises
#print axioms Verif.SwapRace.C141_alone
#print axioms Verif.SwapRace.C141_alone_missing
#print axioms Verif.SysIdRace.C142_whole
#print axioms Verif.SysIdRace.C142_agree
#print axioms Verif.SysIdRace.C142_existing
#print axioms Verif.SysIdRace.C142_first
#print axioms Verif.SysIdRace.C142_empty
#print axioms Verif.SysIdRace.C142_ends
#print axioms Verif.SysIdRace.C142_alone
#print axioms Verif.SysIdRace.C142_differ_counterexample
#print axioms Verif.SysIdRace.C142_empty_counterexample
#print axioms Verif.MoveRace.C143_ways
#print axioms Verif.MoveRace.C143_clear
#print axioms Verif.MoveRace.C143_lost_iff
#print axioms Verif.MoveRace.C143_late
#print axioms Verif.MoveRace.C143_alone
#print axioms Verif.MoveRace.C143_ends
#print axioms Verif.MoveRace.C143_lost_counterexample
#print axioms Verif.MoveRace.C143_back_counterexample
#print axioms Verif.MoveRace.C143_beside_counterexample
#print axioms Verif.MoveRace.C143_returns
#print axioms Verif.MoveRace.C143_single
#print axioms Verif.MoveRace.C143_raises
#print axioms Verif.MoveRace.C143_raises_only
#print axioms Verif.WithRace.C144_nested
#print axioms Verif.WithRace.C144_inside
#print axioms Verif.WithRace.C144_left
#print axioms Verif.WithRace.C144_last
#print axioms Verif.WithRace.C144_body
#print axioms Verif.WithRace.C144_stays_counterexample
#print axioms Verif.WithRace.C144_body_counterexample
#print axioms Verif.MkdirRace.C145_made
#print axioms Verif.MkdirRace.C145_whole
#print axioms Verif.MkdirRace.C145_returned
#print axioms Verif.MkdirRace.C145_raised
#print axioms Verif.MkdirRace.C145_wins
#print axioms Verif.MkdirRace.C145_one_returns
#print axioms Verif.MkdirRace.C145_ends
#print axioms Verif.MkdirRace.C145_alone
#print axioms Verif.MkdirRace.C145_again
#print axioms Verif.MkdirRace.C145_raises_counterexample
#print axioms Verif.MkdirRace.C145_bare_counterexample
#print axioms Verif.CrumpleRace.C146_kept
#print axioms Verif.CrumpleRace.C146_other
#print axioms Verif.CrumpleRace.C146_once
#print axioms Verif.CrumpleRace.C146_raised
#print axioms Verif.CrumpleRace.C146_one_returns
#print axioms Verif.CrumpleRace.C146_ends
#print axioms Verif.CrumpleRace.C146_alone
#print axioms Verif.CrumpleRace.C146_raises_counterexample
#print axioms Verif.CrumpleRace.C146_same_id_counterexample
#print axioms Verif.CrumpleRace.C146_single
#print axioms Verif.AnchorRace.C147_agree
#print axioms Verif.AnchorRace.C147_stored
#print axioms Verif.AnchorRace.C147_raised
#print axioms Verif.AnchorRace.C147_there
#print axioms Verif.AnchorRace.C147_one_returns
#print axioms Verif.AnchorRace.C147_ends
#print axioms Verif.AnchorRace.C147_alone
#print axioms Verif.AnchorRace.C147_raises_counterexample
#print axioms Verif.AnchorRace.C147_twice_counterexample
#print axioms Verif.PushdRace.C148_quiet
#print axioms Verif.PushdRace.C148_below
#print axioms Verif.PushdRace.C148_stack
#print axioms Verif.PushdRace.C148_where
#print axioms Verif.PushdRace.C148_once
#print axioms Verif.PushdRace.C148_returned
#print axioms Verif.PushdRace.C148_serial
#print axioms Verif.PushdRace.C148_alone
#print axioms Verif.PushdRace.C148_ends
#print axioms Verif.PushdRace.C148_lost_counterexample
#print axioms Verif.PushdRace.C148_raises_counterexample
#print axioms Verif.PushdRace.C148_elsewhere_counterexample
#print axioms Verif.PushdRace.C148_single
#print axioms Verif.Git.VisitRace.C149_kept_partial
#print axioms Verif.Git.VisitRace.C149_refs
#print axioms Verif.Git.VisitRace.C149_conflict
#print axioms Verif.Git.VisitRace.C149_alone
#print axioms Verif.Git.VisitRace.C149_ends
#print axioms Verif.Git.VisitRace.C149_serial_partial
#print axioms Verif.Git.VisitRace.C149_together_counterexample
#print axioms Verif.Git.VisitRace.C149_failing
#print axioms Verif.Git.CommitRace.C150_kept_partial
#print axioms Verif.Git.CommitRace.C150_others_partial
#print axioms Verif.Git.CommitRace.C150_history
#print axioms Verif.Git.CommitRace.C150_conflict
#print axioms Verif.Git.CommitRace.C150_alone
#print axioms Verif.Git.CommitRace.C150_ends
#print axioms Verif.Git.CommitRace.C150_mixed_counterexample
#print axioms Verif.Git.CommitRace.C150_overwritten_counterexample
#print axioms Verif.Git.CommitRace.C150_failing
#print axioms Verif.Git.C151_commit_partial
#print axioms Verif.Git.C151_unchanged_counterexample
#print axioms Verif.Git.C151_kept_partial
#print axioms Verif.Git.C151_same_partial
#print axioms Verif.Git.C151_conflict_counterexample
#print axioms Verif.PackMemo.C152_once
#print axioms Verif.PackMemo.C152_pypi
#print axioms Verif.PackMemo.C152_github
#print axioms Verif.PackMemo.C152_same
#print axioms Verif.PackMemo.C152_next
#print axioms Verif.PackMemo.C152_apart
#print axioms Verif.PackMemo.C152_bump
#print axioms Verif.PackMemo.C152_appears_counterexample
#print axioms Verif.PackMemo.C152_stale_counterexample
#print axioms Verif.DataDirRace.C153_kept
#print axioms Verif.DataDirRace.C153_returned
#print axioms Verif.DataDirRace.C153_agree
#print axioms Verif.DataDirRace.C153_same_partial
#print axioms Verif.DataDirRace.C153_there
#print axioms Verif.DataDirRace.C153_plain
#print axioms Verif.DataDirRace.C153_alone
#print axioms Verif.DataDirRace.C153_same_counterexample
#print axioms Verif.DataDirRace.C153_replaced_counterexample
#print axioms Verif.DataDirRace.C153_vanished_counterexample
#print axioms Verif.DataDirRace.C153_trash_counterexample
#print axioms Verif.DataDirRace.C153_single
#print axioms Verif.InitRace.C154_created
#print axioms Verif.InitRace.C154_refused
#print axioms Verif.InitRace.C154_not_inside
#print axioms Verif.InitRace.C154_nested_overlap
#print axioms Verif.InitRace.C154_clone
#print axioms Verif.InitRace.C154_apart
#print axioms Verif.InitRace.C154_ends
#print axioms Verif.InitRace.C154_nested_counterexample
#print axioms Verif.InitRace.C154_twice_counterexample
#print axioms Verif.InitRace.C154_alone
#print axioms Verif.InitRace.C154_single
#print axioms Verif.FS.C155_content
#print axioms Verif.FS.C155_outside
#print axioms Verif.FS.C155_elsewhere
#print axioms Verif.FS.C155_exactly_hollow
#print axioms Verif.FS.C155_links_counterexample
#print axioms Verif.FS.C155_gone_counterexample
#print axioms Verif.FS.C155_filled_counterexample
#print axioms Verif.Git.MixedRace.C156_history_partial
#print axioms Verif.Git.MixedRace.C156_others_partial
#print axioms Verif.Git.MixedRace.C156_ends
#print axioms Verif.Git.MixedRace.C156_detached_counterexample
#print axioms Verif.Git.MixedRace.C156_branch_counterexample
#print axioms Verif.Git.MixedRace.C156_visits
#print axioms Verif.Git.MixedRace.C156_commits
#print axioms Verif.Git.MixedRace.C156_lost_counterexample
#print axioms Verif.Git.MixedRace.C156_serial_partial
#print axioms Verif.MakeChild.C157_join_iff
#print axioms Verif.MakeChild.C157_one
#print axioms Verif.MakeChild.C157_joinpath_partial
#print axioms Verif.MakeChild.C157_names
#print axioms Verif.MakeChild.C157_none_counterexample
#print axioms Verif.MakeChild.C157_empty_counterexample
#print axioms Verif.MakeChild.C157_absolute_counterexample
#print axioms Verif.MakeChild.C157_rooted_counterexample
#print axioms Verif.MakeChild.C157_drive_counterexample
#print axioms Verif.MakeChild.C157_other_counterexample
#print axioms Verif.MakeChild.C157_names_any
#print axioms Verif.MakeChild.C157_separators
#print axioms Verif.MakeChild.C157_list_counterexample
#print axioms Verif.MakeChild.C157_ssh
#print axioms Verif.ReadOnly.C158_removed_partial
#print axioms Verif.ReadOnly.C158_removed_iff
#print axioms Verif.ReadOnly.C158_directory_counterexample
#print axioms Verif.ReadOnly.C158_without
#print axioms Verif.ReadOnly.C158_again
#print axioms Verif.ReadOnly.C158_only
#print axioms Verif.ReadOnly.C158_stops
