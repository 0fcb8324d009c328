{
 "claims": [
  {
   "property": "C01",
   "status": "partial",
   "theorems": [
    "SB.C01_view_partial",
    "SB.C01_moved_partial",
    "SB.C01_refuted_rename_mode",
    "SB.C01_refuted_moved_out",
    "SB.C01_refuted_mount_root",
    "SB.C01_refuted_dangling"
   ],
   "note": "Proved against an independent overlayfs lookup (Spec/Overlay.lean) for any number of mounts, whiteouts, opaque directories and type changes, and for renamed directories whose owner and mode are unchanged and that were not moved out of deleted or replaced ones (C01_moved_partial); refuted for modes of renamed directories, directories moved out of a deleted one (data loss), mount points themselves and dangling links."
  },
  {
   "property": "C02",
   "status": "proved",
   "theorems": [
    "SB.C02_checks_before_effects",
    "SB.C02_effects_imply_checked"
   ],
   "note": "Every problem in the selection (error entry, removal without source or of a special file, rename between mounts) makes accept fail with host and storage unchanged."
  },
  {
   "property": "C03",
   "status": "partial",
   "theorems": [
    "SB.C03_only_selected_paths_partial",
    "SB.C03_final_state",
    "SB.C03_refuted_symlink"
   ],
   "note": "Proved at every crash state and outcome for ordinary hosts (Spec.Ordinary: no selected change below or at a symlink to a directory, fresh temporary names, each mount listed once); refuted in general: removing a symlink to a directory deletes the contents of its target. "
  },
  {
   "property": "C04",
   "status": "partial",
   "theorems": [
    "SB.C04_no_partial_files_partial",
    "SB.C04_atomic_replace_partial"
   ],
   "note": "Same hypotheses as C03; the atomicity of the single rename system call is an assumption of the file system model."
  },
  {
   "property": "C05",
   "status": "proved",
   "theorems": [
    "SB.C05_storage_intact_until_applied",
    "SB.C05_failed_apply_keeps_storage"
   ],
   "note": "At every crash state of the whole accept program the storage is intact or all changes have been applied."
  },
  {
   "property": "C06",
   "status": "partial",
   "theorems": [
    "SB.C06_storage_after",
    "SB.C06_unselected_kept_partial",
    "SB.C06_closed_selection",
    "SB.C06_refuted"
   ],
   "note": "Exact description of the storage after a successful accept; changes outside selected staged directories are kept, and nothing is lost when the selection is closed below its directories; refuted in general: ignored or unselected changes below an accepted staged directory are deleted."
  },
  {
   "property": "C07",
   "status": "proved",
   "theorems": [
    "SB.C07_counts"
   ],
   "note": ""
  },
  {
   "property": "C08",
   "status": "partial",
   "theorems": [
    "SB.C08_removals_partial",
    "SB.C08_whiteouts_partial",
    "SB.C08_removals_once",
    "SB.C08_refuted_duplicate",
    "SB.C08_refuted_duplicate_all"
   ],
   "note": "Any closed set of removals succeeds and removes exactly those paths in any enumeration order, if no path is listed twice; that is proved when deletions are recorded by whiteouts only. Refuted for a directory that was deleted and re-created with a file in place of one of its subdirectories. Also assumed: no symbolic links above the paths, no mount points."
  },
  {
   "property": "C09",
   "status": "partial",
   "theorems": [
    "SB.C09_owner_and_mode_partial",
    "SB.C09_refuted_symlink"
   ],
   "note": "Proved for ordinary hosts; refuted for a directory staged over a host symlink to a directory (chown and chmod follow the link). Renames are not covered: accept never applies their staged owner and mode."
  },
  {
   "property": "C10",
   "status": "partial",
   "theorems": [
    "SB.C10_whiteout_partial",
    "SB.C10_reported_partial",
    "SB.C10_exact",
    "SB.C10_refuted"
   ],
   "note": "Proved for device numbers the code represents exactly; refuted in general: is_removed keeps only 8+8 bits of rdev, so other devices are taken for whiteouts."
  },
  {
   "property": "C11",
   "status": "partial",
   "theorems": [
    "SB.C11_link_partial",
    "SB.C11_target_partial",
    "SB.C11_refuted_directory",
    "SB.C11_refuted_dangling"
   ],
   "note": "Proved at every crash point for links to files and to empty directories; refuted for links to non-empty directories (content of the target is deleted) and dangling links (deletion ignored)."
  },
  {
   "property": "C12",
   "status": "partial",
   "theorems": [
    "SB.C12_sets_are_ordinary",
    "SB.C12_special_is_error_partial",
    "SB.C12_accept_refuses",
    "SB.C12_refuted_device"
   ],
   "note": "Refuted for character devices whose major and minor numbers are multiples of 256: they are taken for deletions, and accept deletes the file of that name (also C10)."
  },
  {
   "property": "C13",
   "status": "partial",
   "theorems": [
    "SB.C13_moved_partial",
    "SB.C13_refuted_recreated",
    "SB.C13_refuted_replaced",
    "SB.C01_refuted_moved_out",
    "SB.C25_refuted"
   ],
   "note": "Content seen under the new name is there after accept if nothing at or above its old place was deleted, replaced or moved elsewhere (except the old name itself); refuted otherwise: content is deleted; also refuted: a directory moved over a deleted non-empty one makes accept fail half-way, the directory is left under a temporary name."
  },
  {
   "property": "C14",
   "status": "partial",
   "theorems": [
    "SB.C14_renames_partial",
    "SB.C85_moves_partial",
    "SB.C14_refuted_cwd",
    "SB.C14_refuted_other_mount"
   ],
   "note": "Success and exact effect for every set of independent renames (swaps, cycles, chains) on one mount (C14_renames_partial), and for renames nested in each other and mixed with other changes (C85_moves_partial); refuted if the current directory is inside a source (half-done) or on another mount (refused)."
  },
  {
   "property": "C15",
   "status": "partial",
   "theorems": [
    "SB.C15_same_partial",
    "SB.C15_nearest_partial",
    "SB.C15_origin_partial",
    "SB.C15_refuted_nested",
    "SB.C15_refuted_opaque",
    "SB.C15_refuted_dangling",
    "SB.C15_refuted_bind"
   ],
   "note": "The rule (nearest redirect upwards) is proved as stated; the origin equals the one overlayfs uses (Spec/Overlay.lean) if directories above are merged, a relative redirect has no redirect above it, absolute ones start at the device boundary, and no dangling link is involved; refuted in each of these cases."
  },
  {
   "property": "C16",
   "status": "proved",
   "theorems": [
    "SB.C16_status_complete",
    "SB.C16_status_groups"
   ],
   "note": ""
  },
  {
   "property": "C17",
   "status": "proved",
   "theorems": [
    "SB.C17_only_selected_storage",
    "SB.C17_reject_keeps_host"
   ],
   "note": "Every prefix of the loop is covered, so also failures and kills half-way. Hypothesis: the storage is a well-formed tree."
  },
  {
   "property": "C18",
   "status": "proved",
   "theorems": [
    "SB.C18_complete_rejection"
   ],
   "note": ""
  },
  {
   "property": "C19",
   "status": "partial",
   "theorems": [
    "SB.C19_crash_condition",
    "SB.C19_no_crash_partial",
    "SB.C19_refuted"
   ],
   "note": "The exact crash condition is proved; diff panics on removals inside a deleted directory that are not regular files (refutation theorem)."
  },
  {
   "property": "C20",
   "status": "partial",
   "theorems": [
    "SB.C20_no_pattern_partial",
    "SB.C20_root_refuted"
   ],
   "note": "Holds in every directory except the root; refuted for cwd = /."
  },
  {
   "property": "C21",
   "status": "partial",
   "theorems": [
    "SB.C21_directory_pattern",
    "SB.C21_exact_pattern",
    "SB.globRef_laws",
    "SB.C21_refuted_star",
    "SB.C21_refuted_backslash",
    "SB.C21_refuted_bang"
   ],
   "note": "For names without the special characters of patterns, relative to the laws of the glob matcher (Spec.GlobLaws), which globRef satisfies; refuted for directories and files whose names have such characters: a pattern is never taken literally."
  },
  {
   "property": "C22",
   "status": "proved",
   "theorems": [
    "SB.C22_sublist",
    "SB.C22_union",
    "SB.C22_monotone"
   ],
   "note": ""
  },
  {
   "property": "C23",
   "status": "partial",
   "theorems": [
    "SB.C23_last_rule_partial",
    "SB.C23_refuted_root"
   ],
   "note": "Proved for all directories from just below the mount point; refuted for ignore files in the mount point directory itself (never read), e.g. /.gitignore."
  },
  {
   "property": "C24",
   "status": "proved",
   "theorems": [
    "SB.C24_built_in",
    "SB.C24_tmp",
    "SB.C24_git",
    "SB.C24_exactly"
   ],
   "note": "For any matcher; /tmp under the glob laws; exactly which paths the built-in rules hide, with the reference matcher."
  },
  {
   "property": "C25",
   "status": "partial",
   "theorems": [
    "SB.C25_scan_sublist",
    "SB.C25_ignored_shows_all",
    "SB.C25_changes_sublist_partial",
    "SB.C25_refuted"
   ],
   "note": "Proved for the raw scan; for the change list only if no renamed directory is hidden. Refuted otherwise: a directory moved to an ignored place shows up as a removal."
  },
  {
   "property": "C26",
   "status": "partial",
   "theorems": [
    "SB.C26_shadowing_partial",
    "SB.C26_deleted_still_applies",
    "SB.C26_refuted_link",
    "SB.C26_refuted_moved",
    "SB.C26_refuted_replaced"
   ],
   "note": "Proved unless a copy in the storage is a symbolic link; refuted for links: relative ones to unchanged files are not found and the host copy is used. Refuted also for directories moved in the sandbox (rules lost) and replaced in it (the host rules still apply). Also shown: a copy deleted in the sandbox does not shadow the host copy."
  },
  {
   "property": "C27",
   "status": "partial",
   "theorems": [
    "SB.C27_history_partial",
    "SB.C27_refuted"
   ],
   "note": "Proved if directories of different mounts are different host directories; refuted otherwise (cache key omits the mount)."
  },
  {
   "property": "C28",
   "status": "partial",
   "theorems": [
    "SB.C28_name",
    "SB.C28_negated",
    "SB.C28_escaped",
    "SB.C28_anchored",
    "SB.C28_directory",
    "SB.C28_blank",
    "SB.C28_comment",
    "SB.C28_file",
    "SB.C28_path",
    "SB.C28_wild",
    "SB.C28_wild_path",
    "SB.C28_refuted_trailing_slash",
    "SB.C28_refuted_wildcard",
    "SB.C28_refuted_bang",
    "SB.C28_refuted_escaped_path",
    "SB.C28_refuted_bang_lists",
    "SB.C28_refuted_slash",
    "SB.C28_hash",
    "SB.C28_trailing_blank",
    "SB.C28_refuted_leading_blank",
    "SB.C28_negation",
    "SB.C28_slash_inside",
    "SB.C28_line_added",
    "SB.C28_line_negated",
    "SB.C28_line_empty",
    "SB.C28_refuted_parent",
    "SB.C28_directory_path",
    "SB.C28_final_newline",
    "SB.C28_trimmed",
    "SB.C28_refuted_stars",
    "SB.C28_refuted_stars_accept",
    "SB.C28_stars_wild"
   ],
   "note": "For every line and every matcher: an exclamation mark re-includes exactly what the line hides, and a slash at the beginning makes no difference to a line with one elsewhere; for every file a further line adds what it hides, and !line takes it back. Each clause proved for literal names and any matcher satisfying GlobLaws; lines with several components and lines with the wildcards * and ? for any matcher satisfying also GlobWildLaws (the reference matcher does); a backslash before a number sign for any matcher that reads it so (Spec.GlobHash); refuted against gitignore for a trailing slash (not applied at deeper levels) and for wildcards (what is below a matching directory is not hidden; the same for **/name), and for names that begin with an exclamation mark (/!x and \\!a/b hide everything, the matcher taking the mark for a negation) and for the line / alone (hides the directory of the file) , blanks at the beginning of a line (dropped) and re-inclusion below an excluded directory (allowed)."
  },
  {
   "property": "C29",
   "status": "partial",
   "theorems": [
    "SB.C29_roundtrip",
    "SB.C29_injective",
    "SB.C29_component",
    "SB.C29_length",
    "SB.C29_exact",
    "SB.C29_case",
    "SB.C29_lower",
    "SB.C29_refuted_long"
   ],
   "note": "Round trip, injectivity and the character set are proved for every path, and the converse: only (case variants of) encodings are taken for mount points; the name is a valid component (at most 255 bytes) exactly for paths below 160 bytes, refuted above."
  },
  {
   "property": "C30",
   "status": "proved",
   "theorems": [
    "SB.C30_host_path",
    "SB.C30_removed_path",
    "SB.C30_distinct"
   ],
   "note": "For the real base32/UTF-8 decoding; removals are stated for storage paths without a redirect on the way."
  },
  {
   "property": "C31",
   "status": "partial",
   "theorems": [
    "SB.C31_exact",
    "SB.C31_root",
    "SB.C31_parents_first",
    "SB.C31_own_names_partial",
    "SB.C31_every_path_shows_its_overlay",
    "SB.C31_refuted_stacked"
   ],
   "note": "Exactness, root, order and the resulting view are proved for every mount table; own names only if no directory is mounted over twice (refuted otherwise)."
  },
  {
   "property": "C32",
   "status": "proved",
   "theorems": [
    "SB.C32_exact",
    "SB.C32_effect",
    "SB.C32_refuted_hidden"
   ],
   "note": "List and order for every mount table; the effect on the mount table if no mount of the sandbox is hidden by a later one (counterexample otherwise)."
  },
  {
   "property": "C33",
   "status": "proved",
   "theorems": [
    "SB.C33_spec",
    "SB.C33_deepest_mount_partial",
    "SB.C33_refuted_same_device"
   ],
   "note": "As stated, for absolute paths. In terms of the mount table only if a mount and its parent directory have different devices (bind mounts within a file system: counterexample)."
  },
  {
   "property": "C34",
   "status": "proved",
   "theorems": [
    "SB.C34_log_level",
    "SB.C34_net",
    "SB.C34_ignored",
    "SB.C34_no_default_binds",
    "SB.C34_name",
    "SB.C34_storage_dir",
    "SB.C34_malformed"
   ],
   "note": "All six settings. For the storage directory the theorem is about the setting; what becomes of it is C59. The name chosen by --new and --last is C43. No origin is recorded for the default log level."
  },
  {
   "property": "C35",
   "status": "partial",
   "theorems": [
    "SB.C35_search",
    "SB.C35_overrides",
    "SB.C35_not_above_home",
    "SB.C35_order",
    "SB.C35_all_dirs",
    "SB.C35_no_config",
    "SB.C35_config",
    "SB.C35_unreadable",
    "SB.C35_refuted_symlink"
   ],
   "note": "All clauses proved; \"inside the home directory\" only if the home directory is spelled as the current directory is (refuted for a HOME through a symbolic link)."
  },
  {
   "property": "C36",
   "status": "partial",
   "theorems": [
    "SB.C36_binds",
    "SB.C36_masks",
    "SB.C36_unique",
    "SB.C36_conflict",
    "SB.C36_conflict_mask",
    "SB.C36_only_requested",
    "SB.C36_places_partial",
    "SB.C36_refuted_relative"
   ],
   "note": "Additivity, conflicts and uniqueness are proved for target texts after canonicalisation; refuted for places: relative and absolute spellings of a non-existing target are not recognised as one place."
  },
  {
   "property": "C37",
   "status": "proved",
   "theorems": [
    "SB.C37_syntax",
    "SB.C37_bad_option",
    "SB.C37_mounted"
   ],
   "note": ""
  },
  {
   "property": "C38",
   "status": "proved",
   "theorems": [
    "SB.C38_mask",
    "SB.C36_masks",
    "SB.C38_mounted"
   ],
   "note": ""
  },
  {
   "property": "C39",
   "status": "partial",
   "theorems": [
    "SB.C39_masked_partial",
    "SB.C39_kind_partial",
    "SB.C39_below_masked_partial",
    "SB.C39_config_partial",
    "SB.C39_refuted_order"
   ],
   "note": "Holds if no other bind target is at or above the masked path; refuted otherwise (binds are applied in hash map order)."
  },
  {
   "property": "C40",
   "status": "proved",
   "theorems": [
    "SB.C40_network",
    "SB.C40_other_namespaces",
    "SB.C40_default_binds",
    "SB.C40_env"
   ],
   "note": ""
  },
  {
   "property": "C41",
   "status": "partial",
   "theorems": [
    "SB.C41_direct_child_partial",
    "SB.C41_delete_partial",
    "SB.C41_refuted_empty",
    "SB.C41_refuted_dot",
    "SB.C41_refuted_symlink"
   ],
   "note": "Proved for names other than \"\", \".\" and \"..\" whose directory is not a symbolic link; refuted for each of these."
  },
  {
   "property": "C42",
   "status": "partial",
   "theorems": [
    "SB.C42_share_iff",
    "SB.C42_disjoint_partial",
    "SB.C42_refuted",
    "SB.C57_refuted_backslash"
   ],
   "note": "The exact condition under which two sandboxes share a path is proved; refuted for names such as \"b\" and \"b.lock\", and for names with a backslash, which the kernel takes out of the mount options."
  },
  {
   "property": "C43",
   "status": "partial",
   "theorems": [
    "SB.C43_new",
    "SB.C43_last",
    "SB.C43_last_found",
    "SB.C43_rejected",
    "SB.C43_refuted_lock_only"
   ],
   "note": "--last and the rejection are proved, --new never picks the name of an existing sandbox directory; refuted for a sandbox of which only the lock file exists."
  },
  {
   "property": "C44",
   "status": "partial",
   "theorems": [
    "SB.C44_join_partial",
    "SB.C44_file_partial",
    "SB.C44_corrupt",
    "SB.C44_refuted_spelling",
    "SB.C44_refuted_data",
    "SB.C44_refuted_missing"
   ],
   "note": "Join succeeds exactly when network, mounts and binds agree, in any order, if binds are compared by their text and settings.json is intact; refuted for two spellings of one source, for a settings file changed from inside the sandbox, and a missing file."
  },
  {
   "property": "C45",
   "status": "partial",
   "theorems": [
    "SB.C45_holders",
    "SB.C45_one_holder_partial",
    "SB.C45_delete_exclusive_partial",
    "SB.C45_refuted_delete"
   ],
   "note": "One holder per lock file (inode) in every interleaving, hence one per name as long as nobody deletes the sandbox; refuted with delete, which unlinks the lock file others wait for."
  },
  {
   "property": "C46",
   "status": "partial",
   "theorems": [
    "SB.C46_one_instance_partial",
    "SB.C46_one_alive_partial",
    "SB.C46_refuted_write_error",
    "SB.C46_refuted_frozen",
    "SB.C46_refuted_stop"
   ],
   "note": "In every interleaving of starts and stops, with failures before the pid file is written, deaths of processes and restarts of the machine, at most one instance exists and every command that finds one enters it; refuted if writing the pid file fails, if the first process is stopped by a signal (taken for dead), and for a start soon after a stop, which does not wait for the processes to be gone."
  },
  {
   "property": "C47",
   "status": "partial",
   "theorems": [
    "SB.C47_scan_complete",
    "SB.C47_scan_sound",
    "SB.C47_scan_fails",
    "SB.C47_stop_kills",
    "SB.C47_stop_files",
    "SB.C47_stop_running",
    "SB.C47_delete_running",
    "SB.C47_refuted_race",
    "SB.C47_refuted_reused_pid",
    "SB.C47_refuted_blank"
   ],
   "note": "A completed scan, interleaved with any other activity, has killed exactly the processes of the namespace; the pid file is removed. Refuted: a process that ends during the scan makes stop fail and leave survivors; a reused pid makes it kill other processes; a program name with white space in it makes a running sandbox look dead."
  },
  {
   "property": "C48",
   "status": "partial",
   "theorems": [
    "SB.C48_ready_partial",
    "SB.C48_error_reported",
    "SB.C48_refuted_child_dies"
   ],
   "note": "A reported error makes the start fail and a success means ready or a closed pipe; refuted: a child that dies without reporting counts as started (read returning 0 is not checked)."
  },
  {
   "property": "C49",
   "status": "proved",
   "theorems": [
    "SB.C49_setuid",
    "SB.C49_setuid_ignores",
    "SB.C49_sudo",
    "SB.C49_malformed",
    "SB.C49_home",
    "SB.C49_accepts"
   ],
   "note": "Also the exact syntax of SUDO_UID and SUDO_GID."
  },
  {
   "property": "C50",
   "status": "partial",
   "theorems": [
    "SB.C50_dropped",
    "SB.C50_success",
    "SB.C50_for_good_partial",
    "SB.C50_refuted_groups"
   ],
   "note": "All ids are dropped and cannot be regained by any sequence of calls; refuted for supplementary groups, which are never changed."
  },
  {
   "property": "C51",
   "status": "partial",
   "theorems": [
    "SB.C51_restored",
    "SB.C51_answered",
    "SB.C51_refuted_unprivileged"
   ],
   "note": "Proved for root (as the program requires), and for any process if the check gives an answer; refuted for an unprivileged process (an error return leaves the group changed)."
  },
  {
   "property": "C52",
   "status": "partial",
   "theorems": [
    "SB.C52_exit",
    "SB.C52_signal_partial",
    "SB.C52_fault",
    "SB.C52_faithful",
    "SB.C52_refuted_endless",
    "SB.C52_refuted_interrupt"
   ],
   "note": "Exit codes, and signals, for every caller; refuted for commands that die from SIGPIPE, SIGSEGV, SIGBUS, a real-time signal or a signal the caller ignores (the caller loops for ever, without sleeping) and when a signal is sent to the whole process group (the caller dies although the command handles it)."
  },
  {
   "property": "C53",
   "status": "proved",
   "theorems": [
    "SB.C53_stays_inside",
    "SB.C53_success_removes_all",
    "SB.C53_other_device_fails",
    "SB.C53_succeeds"
   ],
   "note": "All failure points by fault injection at any deletion."
  },
  {
   "property": "C54",
   "status": "partial",
   "theorems": [
    "SB.C54_confirmation",
    "SB.C54_scope_partial",
    "SB.C54_yes",
    "SB.C54_lock_last",
    "SB.C54_deleted",
    "SB.C54_complete_partial",
    "SB.C54_refuted_dot_lock",
    "SB.C54_refuted_success"
   ],
   "note": "Confirmation, lock last, the scope and completeness for proper names are proved; refuted for names such as \".\"; and the command succeeds (exit 0, status \"success\") although a selected sandbox could not be deleted."
  },
  {
   "property": "C55",
   "status": "proved",
   "theorems": [
    "SB.C55_list",
    "SB.C55_succeeds"
   ],
   "note": ""
  },
  {
   "property": "C56",
   "status": "partial",
   "theorems": [
    "SB.C56_output",
    "SB.C56_nothing_early",
    "SB.C56_main",
    "SB.C56_refuted_failure"
   ],
   "note": "Proved for every sequence of operations; refuted for the program if resolving the configuration fails (main returns before the deferred messages are printed, so all are lost)."
  },
  {
   "property": "C57",
   "status": "partial",
   "theorems": [
    "SB.C57_options_partial",
    "SB.C57_check",
    "SB.C57_refuted_name",
    "SB.C57_refuted_backslash",
    "SB.C57_refuted_mount_point"
   ],
   "note": "Proved if name and mount point contain no comma, colon or backslash; refuted for names and mount points, which are not checked; with a backslash in the name the storage of another sandbox is used."
  },
  {
   "property": "C58",
   "status": "partial",
   "theorems": [
    "SB.C58_home",
    "SB.C58_other",
    "SB.C58_below_partial",
    "SB.C58_refuted_double_slash"
   ],
   "note": "Proved except for `~//…` (refuted: the result is an absolute path outside the home directory)."
  },
  {
   "property": "C59",
   "status": "partial",
   "theorems": [
    "SB.C59_choice_partial",
    "SB.C59_usable",
    "SB.C59_relative",
    "SB.C59_refuted_symlink",
    "SB.C59_refuted_stacked"
   ],
   "note": "Choice and usability for every mount table with canonical candidates; refuted for a candidate that is a symbolic link and for stacked mounts."
  },
  {
   "property": "C60",
   "status": "partial",
   "theorems": [
    "SB.C60_object_partial",
    "SB.C60_values",
    "SB.C60_plain",
    "SB.C60_delete_errors",
    "SB.C60_refuted_early",
    "SB.C60_refuted_delete"
   ],
   "note": "Proved once the action is started; refuted for failures before it (no object at all) and for delete, whose individual failures still give status success."
  },
  {
   "property": "C61",
   "status": "proved",
   "theorems": [
    "SB.C61_scope",
    "SB.C61_complete",
    "SB.C61_part",
    "SB.C61_negated"
   ],
   "note": "Hypotheses: the pid files are regular files (the tool creates them so); for completeness also that removing a file does not fail and process numbers are unique. C61_part: unlike for list and delete, a part of the name is enough; C61_negated: unlike there, an exclamation mark does not negate."
  },
  {
   "property": "C62",
   "status": "partial",
   "theorems": [
    "SB.C62_released_partial",
    "SB.C62_refuted_start_killed"
   ],
   "note": "Released when the holder ends if it did not start a sandbox; refuted: killed while starting, the new sandbox init has inherited the lock."
  },
  {
   "property": "C63",
   "status": "partial",
   "theorems": [
    "SB.C63_line",
    "SB.C63_unambiguous_partial",
    "SB.C63_json",
    "SB.C63_refuted_newline",
    "SB.C63_refuted_arrow"
   ],
   "note": "Every line says the change it stands for, the JSON determines the changes; the text is unambiguous for names without line breaks and `>`; refuted for names with a line break or ` -> `."
  },
  {
   "property": "C64",
   "status": "partial",
   "theorems": [
    "SB.C64_numbers",
    "SB.C64_nothing_lost_partial",
    "SB.C64_refuted",
    "SB.C64_question",
    "SB.C64_words"
   ],
   "note": "The numbers are exact for stored non-directories; 0 and 0 means no stored file; refuted: links to directories, deletions by re-creation are changes counted as 0."
  },
  {
   "property": "C65",
   "status": "partial",
   "theorems": [
    "SB.C65_one_answer",
    "SB.C65_single",
    "SB.C65_several",
    "SB.C65_all",
    "SB.C65_unknown",
    "SB.C65_json",
    "SB.C65_bind_partial",
    "SB.C65_upper_partial",
    "SB.C65_refuted_comma",
    "SB.C65_refuted_bind"
   ],
   "note": "Every key and list of keys, plain and JSON; the binds shown mean the same binds if none has a comma, line break or outer blanks (refuted otherwise: config files allow commas); upper_cwd is right unless the current directory is inside another mount of the same device, e.g. a bind mount (refuted)."
  },
  {
   "property": "C66",
   "status": "partial",
   "theorems": [
    "SB.C66_command",
    "SB.C66_started_partial",
    "SB.C66_namespaces",
    "SB.C66_storage",
    "SB.C66_shell",
    "SB.C66_words",
    "SB.C66_refuted_env"
   ],
   "note": "For every caller with effective id 0; the command is always started if the environment is valid UTF-8 text; refuted otherwise: one variable that is not UTF-8 makes every command fail."
  },
  {
   "property": "C68",
   "status": "proved",
   "theorems": [
    "SB.C68_host"
   ],
   "note": "For every configuration whose set-up succeeds as in C69; the mount table decides which file system a change reaches."
  },
  {
   "property": "C69",
   "status": "partial",
   "theorems": [
    "SB.C69_setup_partial",
    "SB.C69_refuted_run"
   ],
   "note": "Proved unless a mount or a bind target is at or above the staging directory, i.e. at /run; refuted for /run: start always fails."
  },
  {
   "property": "C70",
   "status": "proved",
   "theorems": [
    "SB.C70_proc",
    "SB.C70_sys",
    "SB.C70_hidden",
    "SB.C70_readonly"
   ],
   "note": ""
  },
  {
   "property": "C71",
   "status": "partial",
   "theorems": [
    "SB.C71_reported_partial",
    "SB.C71_true_partial",
    "SB.C71_moved_partial",
    "SB.C71_moved_true_partial",
    "SB.C71_refuted_replaced",
    "SB.C71_refuted_moved_out",
    "SB.C01_refuted_mount_root",
    "SB.C01_refuted_dangling"
   ],
   "note": "Also with renamed directories (listed as renames). Missing: mount points themselves and deleted dangling links (refuted: C01_refuted_mount_root, C01_refuted_dangling), what was in a directory before another was moved over it (refuted), directories moved out of deleted ones (refuted)."
  },
  {
   "property": "C72",
   "status": "partial",
   "theorems": [
    "SB.C72_last",
    "SB.C72_start_partial",
    "SB.C72_refuted_settings",
    "SB.C72_refuted_upper",
    "SB.C79_refuted_host",
    "SB.C79_refuted_variable"
   ],
   "note": "At every crash point, if there are no symbolic links at or above the sandbox places; refuted: settings.json, which can be replaced from inside the sandbox, may be a link and then any host file is overwritten by root at the next start; a link in place of `upper` makes directories elsewhere; a bind placed inside an earlier writable one makes its place on the host as root."
  },
  {
   "property": "C73",
   "status": "partial",
   "theorems": [
    "SB.C73_start",
    "SB.C73_again_partial",
    "SB.C73_refuted_chown",
    "SB.C73_refuted_killed"
   ],
   "note": "Proved for the preparation of the storage if owners are unchanged; refuted: a chown of a mount's top directory, inside or outside, and a kill between mkdir and chown, make every later start fail. Mounting itself is C69."
  },
  {
   "property": "C74",
   "status": "partial",
   "theorems": [
    "SB.C74_new_partial",
    "SB.C74_refuted_mode"
   ],
   "note": "All paths below the mounts' top directories; these keep their owner but not their mode (refuted: always 0755)."
  },
  {
   "property": "C75",
   "status": "partial",
   "theorems": [
    "SB.C75_shown_partial",
    "SB.C75_printed_partial",
    "SB.C75_lines",
    "SB.C75_exit",
    "SB.C75_refuted_directory",
    "SB.C75_unchanged",
    "SB.C75_refuted_link",
    "SB.C75_refuted_relative",
    "SB.C75_refuted_below_link",
    "SB.C75_refuted_content"
   ],
   "note": "Regular files not below a link of the host, in states in which diff does not crash; refuted for staged links (content of the link target on the host is shown, read as root), files below links of the host, and lines that mention the storage path."
  },
  {
   "property": "C76",
   "status": "partial",
   "theorems": [
    "SB.C76_command_partial",
    "SB.C76_diff_partial",
    "SB.C76_refuted_diff"
   ],
   "note": "Commands: user and group ids for good (supplementary groups: C50_refuted_groups). Refuted for diff: found through the caller's PATH and run with effective uid 0."
  },
  {
   "property": "C77",
   "status": "partial",
   "theorems": [
    "SB.C77_text",
    "SB.C77_onDisk",
    "SB.C77_stops",
    "SB.C77_stops_ignored",
    "SB.C77_question",
    "SB.C77_refuted_name"
   ],
   "note": "Everything works if all names are text; refuted otherwise: one stored name that is not UTF-8 makes status, diff, accept and reject panic (with --ignored: fail) whatever is selected, and the question of delete as well. The case that another stored file has the name with replacement characters (with --ignored) is not modelled further."
  },
  {
   "property": "C78",
   "status": "partial",
   "theorems": [
    "SB.C78_scope",
    "SB.C78_relative_partial",
    "SB.C78_negated",
    "SB.C78_refuted_cwd",
    "SB.C78_refuted_negated"
   ],
   "note": "For any matcher satisfying Spec.GlobLaws, Spec.GlobPrefix (globRef does); refuted for a current directory whose name has glob characters and for negated patterns, which select changes everywhere."
  },
  {
   "property": "C79",
   "status": "partial",
   "theorems": [
    "SB.C79_storage_partial",
    "SB.C79_host_partial",
    "SB.C79_host_kept_partial",
    "SB.C79_host_nodes_partial",
    "SB.C79_storage_nodes_partial",
    "SB.C79_nothing_partial",
    "SB.C79_refuted_target",
    "SB.C79_refuted_old",
    "SB.C79_refuted_host",
    "SB.C79_refuted_variable"
   ],
   "note": "Scope of everything made, at every interruption point, and nothing left if all places exist. Refuted: missing targets of binds and masks become stored changes; an interrupted start leaves /old-root-UUID as a change, and so does every start of a caller whose environment has a variable of the program's own tests (looked at in every build); a bind inside an earlier writable bind makes its place on the host as root, owned by the caller."
  },
  {
   "property": "C80",
   "status": "partial",
   "theorems": [
    "SB.C80_secret_partial",
    "SB.C80_refuted_config",
    "SB.C80_refuted_ignore_link"
   ],
   "note": "Noninterference for files found by searching and for readable ones given with --config; refuted: --config reads any file as root; a .gitignore made in the sandbox may be a link to any file of the host, which status reads as root."
  },
  {
   "property": "C81",
   "status": "partial",
   "theorems": [
    "SB.access_rule",
    "SB.setuid_rule",
    "SB.C81_bind_partial",
    "SB.C81_overlay_partial",
    "SB.C81_refuted_bind",
    "SB.C81_refuted_mode",
    "SB.C81_refuted_run"
   ],
   "note": "Binds: with any storage, if the user can get to their sources. Overlays: in a new sandbox whose top directories have the mode of the host and outside /run. Refuted without these: binds are made as root (a file below a private directory of root becomes readable), top directories of mounts get 0755, directories above mounts in /run are made anew. Symbolic links, ACLs and capabilities are not modelled."
  },
  {
   "property": "C82",
   "status": "partial",
   "theorems": [
    "SB.C82_suid_partial",
    "SB.C82_private",
    "SB.C82_trusted_partial",
    "SB.C82_refuted_nosuid",
    "SB.C82_refuted_etc"
   ],
   "note": "New sandboxes, under the conditions of C81; refuted: overlays over mounts with nosuid have no such flag; with --bind DIR:/etc the files of the user take the place of those that set-uid programs trust."
  },
  {
   "property": "C83",
   "status": "partial",
   "theorems": [
    "SB.C83_masked_partial",
    "SB.C83_refuted_moved"
   ],
   "note": "For every storage in which no directory above, at or below the masked path was moved, binds in place before the mask or from elsewhere; refuted: after mv of a parent directory in the sandbox and a restart the content is visible under the new name. The kind of the masked thing (file or directory) shows."
  },
  {
   "property": "C84",
   "status": "partial",
   "theorems": [
    "SB.C84_view",
    "SB.C84_host",
    "SB.C84_history_partial",
    "SB.C84_whole_partial",
    "SB.C84_refuted_recreated"
   ],
   "note": "C84_host and C84_view hold for every history; C84_whole_partial: accepting everything succeeds and brings the host to exactly the state it would have if everything had been done there directly: for histories with no renamed merged directories, no symbolic link of the host in the way of an operation, fresh temporary names, everything selected, and nothing accept cannot carry out (Spec.CanAccept); mount points themselves excepted. C84_history_partial: without Spec.CanAccept, if accept succeeds. Refuted: rmdir x/y; rmdir x; mkdir x; echo >x/y makes accept fail half-way. The overlay kernel operations are transcribed in Model/History.lean."
  },
  {
   "property": "C85",
   "status": "partial",
   "theorems": [
    "SB.C85_succeeds_partial",
    "SB.C85_moves_partial",
    "SB.C85_everything_partial",
    "SB.C85_everything_moved_partial",
    "SB.C85_new_directory",
    "SB.C85_refuted_new_directory"
   ],
   "note": "Exact (iff) for selections without renamed directories on hosts with no links in the way and storage on one file system; with renamed directories (nested, swapped, with changes inside, onto free places) the conditions are sufficient, and the host is exactly as if all changes had been made at once (C85_moves_partial); accepting everything succeeds, with and without renamed directories (C85_everything_partial, C85_everything_moved_partial); refuted: accepting a new directory by its name fails, because the name selects only what is below it (C85_new_directory: always)."
  },
  {
   "property": "C86",
   "status": "partial",
   "theorems": [
    "SB.C86_same_rights",
    "SB.C86_own_rights_partial",
    "SB.C86_protected_partial",
    "SB.may_iff",
    "SB.C86_refuted_link",
    "SB.C86_refuted_planted",
    "SB.C86_refuted_top"
   ],
   "note": "For every history of permission-checked operations in a new sandbox whose top directories have the modes of the host, if everything is accepted and nothing is in the way (conditions of C84_whole_partial). Refuted: a link to a directory removed in the sandbox makes accept delete what it leads to, as root; the storage belongs to the user, who can plant any file in it; top directories of mounts are always 0755 in the sandbox."
  },
  {
   "property": "C87",
   "status": "partial",
   "theorems": [
    "SB.C87_no_new_partial",
    "SB.C87_refuted_window"
   ],
   "note": "If no file that is created or changed has the bit in the sandbox, at every crash point, for every host and storage. Refuted otherwise: a set-uid program of the user is copied as root with its mode and gets its owner only after its name, so that in between executing it gives root."
  },
  {
   "property": "C88",
   "status": "partial",
   "theorems": [
    "SB.C88_beside_partial",
    "SB.C88_refuted_link"
   ],
   "note": "For writes at paths that are not accept's own nor above them (below a directory that is only created or changed they may be), on hosts with no links in the way, from the end of the checks on. Refuted otherwise: a program of the user that exchanges a directory accept has just created for a link to /etc makes root's accept replace /etc/passwd."
  },
  {
   "property": "C89",
   "status": "partial",
   "theorems": [
    "SB.C89_view",
    "SB.C89_host",
    "SB.C89_accept_partial",
    "SB.C89_whole_partial"
   ],
   "note": "C89_view and C89_host hold for every history of operations and directory moves; C89_whole_partial: if everything is selected, accept succeeds and the host ends as if everything had been done there (C89_accept_partial: whenever it succeeds), for final storages that satisfy Spec.Ordinary (no links in the way, fresh temporary names) and Spec.MovesReady (redirects the program understands, moved directories keep owner and mode, nothing moved out of a directory that was then deleted or replaced), and for success Spec.MovesAcceptable (new places free, one mount, current directory outside). The excluded cases are refuted: C01_refuted_rename_mode, C01_refuted_moved_out, C13_refuted_recreated, C01_refuted_dangling, C15. rename(2) on overlayfs is transcribed in Model/Moves.lean; moves of directories that contain mount points and renames of files onto files (equivalent to other operations) are not modelled."
  },
  {
   "property": "C90",
   "status": "partial",
   "theorems": [
    "SB.C90_own_sandbox_partial",
    "SB.C90_named",
    "SB.C90_refuted_reused",
    "SB.C90_refuted_race",
    "SB.C90_refuted_planted"
   ],
   "note": "In every interleaving of starts, stops, deaths and restarts of the machine as long as no process number is used again while the pid file names it (and without the faults of C46). Refuted: a pid file that survives a restart of the machine names some other process by then, and commands run in its namespaces, i.e. on the host; the same if the number is re-used between finding and entering; whoever writes the pid file chooses the process."
  },
  {
   "property": "C91",
   "status": "partial",
   "theorems": [
    "SB.C91_listing_partial",
    "SB.C91_refuted_name"
   ],
   "note": "Holds if the names of the lock files are text; refuted by one file whose name is not UTF-8 and ends in .lock: list and stop panic, or see a sandbox that does not exist."
  },
  {
   "property": "C92",
   "status": "proved",
   "theorems": [
    "SB.C92_complete"
   ],
   "note": "From the listing of the storage directory on; how the command line that is being completed is parsed is not modelled."
  },
  {
   "property": "C93",
   "status": "proved",
   "theorems": [
    "SB.C93_roundtrip",
    "SB.C93_join",
    "SB.C93_files",
    "SB.C93_damaged"
   ],
   "note": "serde_json is transcribed from its sources (writer and reader); C93_files characterises the accepted files by the grammar of RFC 8259. Simplifications: no nesting limit, no limit on the size of numbers (both concern only fields that are skipped), paths are UTF-8."
  },
  {
   "property": "C94",
   "status": "proved",
   "theorems": [
    "SB.C94_text",
    "SB.C94_status",
    "SB.C94_entries"
   ],
   "note": "Hypothesis: numbers, if any, are written as JSON numbers (the actions record only strings, lists and objects: delete_numbers, status_numbers). Failures before the action starts print no object: C60."
  },
  {
   "property": "C95",
   "status": "partial",
   "theorems": [
    "SB.C95_exact_partial",
    "SB.C95_same_partial",
    "SB.C95_interrupted",
    "SB.C95_refuted_copy",
    "SB.C95_refuted_rename"
   ],
   "note": "Exact (iff): accept succeeds under the limit exactly if it succeeds without it and names without extension of created or modified files have at most 218 bytes and the two names of a renamed directory at most 206 bytes together. Refuted beyond: the accept fails half-way after its checks passed. PATH_MAX is not modelled."
  },
  {
   "property": "C96",
   "status": "partial",
   "theorems": [
    "SB.C96_document",
    "SB.C96_files",
    "SB.C96_masks",
    "SB.C96_binds",
    "SB.C96_net",
    "SB.C96_refuted_unknown",
    "SB.C96_refuted_case"
   ],
   "note": "From the TOML document on (the crate toml is a parameter: text to table with different keys). Refuted: keys that are no setting are ignored, so that a misspelt mask leaves the path visible."
  },
  {
   "property": "C97",
   "status": "partial",
   "theorems": [
    "SB.C97_shown",
    "SB.C97_same_partial",
    "SB.C97_changed_partial",
    "SB.C97_moved_partial",
    "SB.C97_bind_partial",
    "SB.C97_refuted_unseen",
    "SB.C97_refuted_bind",
    "SB.C97_refuted_accept"
   ],
   "note": "Exactly what a new sandbox shows (C97_shown), hence equality with the host on overlaid file systems; with changes stored, and for bind mounts with nothing mounted inside. Refuted for file systems of other types (tmpfs and more), whose files are invisible, and accept then deletes or overwrites files never seen in the sandbox. C97_changed_partial and C97_moved_partial justify that the other properties take the lower layer to be the host."
  },
  {
   "property": "C98",
   "status": "partial",
   "theorems": [
    "SB.C98_partial",
    "SB.C98_bind",
    "SB.C98_proc_sys",
    "SB.C98_dev",
    "SB.C98_terminals",
    "SB.C98_cgroup",
    "SB.C98_refuted_overlay",
    "SB.C98_refuted_readonly"
   ],
   "note": "New sandboxes, under the conditions of C81; writable binds and /proc, /sys in all sandboxes. Refuted: overlays have none of the flags of the mounts below, and read-only binds lose nodev and noexec."
  },
  {
   "property": "C99",
   "status": "partial",
   "theorems": [
    "SB.C99_exact_partial",
    "SB.C99_left_partial",
    "SB.C99_refuted_long"
   ],
   "note": "Exact: for proper names the start succeeds iff the name has at most 64 bytes, although longer ones are accepted; what is left is stated, too. Lengths of whole paths and mount options are not modelled."
  },
  {
   "property": "C100",
   "status": "partial",
   "theorems": [
    "SB.C100_text_partial",
    "SB.C100_json",
    "SB.C100_error",
    "SB.C100_refuted_newline"
   ],
   "note": "JSON and errors without restriction; the text if no name has a line break (refuted otherwise). Escape sequences for colours are not modelled: output is not a terminal."
  },
  {
   "property": "C101",
   "status": "partial",
   "theorems": [
    "SB.C101_files",
    "SB.C101_signals_partial",
    "SB.C101_refuted_sigpipe"
   ],
   "note": "Files, session, group, umask without restriction; signals except SIGPIPE, which every command in a sandbox finds ignored (refuted)."
  },
  {
   "property": "C102",
   "status": "partial",
   "theorems": [
    "SB.C102_detached_partial",
    "SB.C102_refuted_held"
   ],
   "note": "Session, group, standard descriptors and the pipe; refuted for the other descriptors of the caller, which stay open as long as the sandbox runs."
  },
  {
   "property": "C103",
   "status": "partial",
   "theorems": [
    "SB.C103_collected_partial",
    "SB.C103_refuted_orphans"
   ],
   "note": "If every process collects its children before it ends; refuted otherwise: the first process of the sandbox never waits, so orphans stay in the process table until the sandbox is stopped."
  },
  {
   "property": "C104",
   "status": "partial",
   "theorems": [
    "SB.C104_stop",
    "SB.C104_once_partial",
    "SB.C104_stop_all_partial",
    "SB.C104_layers",
    "SB.C104_refuted_died",
    "SB.C104_refuted_failed",
    "SB.C104_refuted_stop_all"
   ],
   "note": "stop cleans up after every history; exactly once for histories without accidents. Refuted: after a first process that was killed the next start mounts everything a second time with the same upper directories; failed starts leave their mounts; stop --all passes over sandboxes without pid file."
  },
  {
   "property": "C105",
   "status": "partial",
   "theorems": [
    "SB.C105_ends",
    "SB.C105_others",
    "SB.C105_command_partial",
    "SB.C105_refuted_command"
   ],
   "note": "Exactly which signals of which processes end a running sandbox (iff); other users cannot; a command cannot if the sandbox was started by root (sudo); refuted for the set-user-ID installation: every command in the sandbox can end it with kill 1."
  },
  {
   "property": "C106",
   "status": "partial",
   "theorems": [
    "SB.C106_view_partial",
    "SB.C106_clearing_partial",
    "SB.C106_history_partial",
    "SB.C106_history_clearing_partial",
    "SB.C106_refuted_new_directory",
    "SB.C106_refuted_moved"
   ],
   "note": "Exact equality of what the sandbox sees at every crash point before the storage is cleared, for every selection; up to node identity while the storage is cleared and afterwards if everything is accepted and nothing is stored as opaque.  C106_history_*: the same with hypotheses only on the history of the sandbox (no directory moved; none made for the clearing part).  Refuted for new (opaque) directories while the storage is cleared, and for renamed directories between the two renames."
  },
  {
   "property": "C107",
   "status": "partial",
   "theorems": [
    "SB.C107_repeat_partial",
    "SB.C107_history_partial",
    "SB.C107_refuted_new_directory",
    "SB.C107_refuted_link",
    "SB.C107_refuted_moved"
   ],
   "note": "Repeating succeeds and gives the same host, from every crash point before the storage is cleared, if no links are stored or replaced and opaque directories are not nested.  C107_history_partial: hypotheses only on the history (no directory moved, no links): after the repeated accept the host is as if everything had been done there directly.  Refuted for crash points while the storage is cleared (a new directory: the repeated accept deletes its files on the host), for links to directories (the repeated accept deletes the contents of their targets) and for renamed directories (the repeated accept refuses)."
  },
  {
   "property": "C108",
   "status": "partial",
   "theorems": [
    "SB.C108_follows_partial",
    "SB.C108_new_partial",
    "SB.C108_rounds_partial",
    "SB.C108_refuted_moved",
    "SB.C108_refuted_deleted_twice"
   ],
   "note": "For storages without renamed directories in which every deletion mark belongs to something on the host (which holds after every history without directory moves: C108_new_partial), any later host, any number of rounds.  Refuted for moved directories and for files that were deleted on the host as well: the mark stays, so that a new file of that name is hidden in the sandbox and deleted by the next accept."
  },
  {
   "property": "C109",
   "status": "partial",
   "theorems": [
    "SB.C109_kept_partial",
    "SB.C109_between_partial",
    "SB.C109_rejected_partial",
    "SB.C109_everything_partial",
    "SB.C109_new_partial",
    "SB.C109_rounds_partial",
    "SB.C109_refuted_moved",
    "SB.C109_refuted_deleted_twice",
    "SB.C109_refuted_stuck"
   ],
   "note": "For storages without renamed directories and deleted dangling links: what is not selected stays visible at every point of a reject, what is selected together with everything above it shows the host again after success; everything can be rejected if every deletion mark belongs to something on the host (which holds after every history without directory moves), giving a new sandbox; any number of rounds with accepts and rejects.  Refuted for moved directories (the mark of the old name stays, the directory is visible nowhere and the next accept deletes it on the host) and for files deleted on the host as well (mark stays; in a directory the reject fails for ever)."
  },
  {
   "property": "C110",
   "status": "partial",
   "theorems": [
    "SB.C110_command",
    "SB.C110_action",
    "SB.C110_arguments",
    "SB.C110_help",
    "SB.C110_action_help",
    "SB.C110_position_partial",
    "SB.C110_list",
    "SB.C110_refuted_conflict",
    "SB.C110_refuted_list",
    "SB.C110_refuted_twice",
    "SB.C110_refuted_net",
    "SB.C110_refuted_dash"
   ],
   "note": "Exact characterisation (iff) of the command lines that run a command or an action, with the settings, words and patterns they give; arguments of a command never act as options; the side of the action does not matter unless a list option stands on both sides.  Refuted: conflicts and repetitions across the action are not noticed (`--name=o delete --last` deletes the last sandbox), list options before an action are dropped if repeated after it, `--net none` switches the network on, commands beginning with a dash cannot be run even after `--`.  clap is transcribed, not part of the repository; help texts and words that are not Unicode are not modelled."
  },
  {
   "property": "C111",
   "status": "partial",
   "theorems": [
    "SB.C111_sync",
    "SB.C111_accept",
    "SB.C111_reject",
    "SB.C111_rejected_partial",
    "SB.C111_accepting_partial",
    "SB.C111_refuted_failed",
    "SB.C111_refuted_unable"
   ],
   "note": "Proved for the three commands whenever they report success (the kernel is assumed to forget everything when asked; look-ups are answered from one state each); after a reject the host is shown; during and after an accept of plain storages without new directories the same is shown as before, whatever is remembered.  Refuted: commands that fail part-way do not drop the caches; if the caches cannot be dropped accept reports failure although everything was accepted."
  },
  {
   "property": "C112",
   "status": "partial",
   "theorems": [
    "SB.C112_changes",
    "SB.C112_delete",
    "SB.C112_stop_one",
    "SB.C112_stop_many",
    "SB.C112_listing",
    "SB.C112_others",
    "SB.C112_run",
    "SB.C112_named",
    "SB.C112_word",
    "SB.C112_stop_all",
    "SB.C112_refuted_complete",
    "SB.C112_refuted_name",
    "SB.C112_refuted_typo",
    "SB.C112_refuted_success"
   ],
   "note": "Exact (iff) for every action and for commands, from the words of the command line (C110) and the settings in force (C34, C43, C59) to the task carried out; `--name` is obeyed on either side; nothing is done without its word; `stop --all` leaves no process of a running sandbox.  Refuted: with COMPLETE in the environment nothing is done; `--name` is not looked at when patterns are given; stopping a sandbox that does not exist succeeds and makes it appear in the list; `stop PATTERN` reports success when a sandbox could not be stopped."
  },
  {
   "property": "C113",
   "status": "partial",
   "theorems": [
    "SB.C113_kept_partial",
    "SB.C113_undisturbed_partial",
    "SB.C113_amid_partial",
    "SB.C113_reject_partial",
    "SB.C113_refuted_new_file",
    "SB.C113_refuted_rewritten",
    "SB.C113_refuted_reject",
    "SB.C113_refuted_link"
   ],
   "note": "Proved for all interleavings as long as the commands stay away from the selected changes (for accept: also from the insides of selected directories; for reject: from the directories above them): everything else in the storage is as the commands left it, and accept has the same outcome, host and cleared storage as alone, also while other programs work elsewhere on the host.  Refuted: a file made in a directory with accepted changes, and a file written again after its copy, are deleted with the storage; accept applies a removal that reject has just successfully rejected; reject follows a link put in place of a directory."
  },
  {
   "property": "C114",
   "status": "partial",
   "theorems": [
    "SB.C114_accept_partial",
    "SB.C114_interrupted_partial",
    "SB.C114_reject",
    "SB.C114_reject_interrupted",
    "SB.C114_refuted_move",
    "SB.C114_refuted_link"
   ],
   "note": "A model of accept and reject on the one tree, with full paths, is proved to do the same as the model on two trees that the other claims use (same outcome, same host outside the storage, same storage): also at every point where they can be interrupted: for reject without conditions, for accept as long as no accepted change is at, in or above the storage (apart from owner and rights of the directories above).  Refuted: accepting a move of a directory that holds the storage; a reject beside a command in the sandbox that puts a link to a directory of the host in the storage deletes files of the host."
  },
  {
   "property": "C115",
   "status": "partial",
   "theorems": [
    "SB.C115_accept_partial",
    "SB.C115_interrupted_partial",
    "SB.C115_refuted_changed",
    "SB.C115_refuted_created"
   ],
   "note": "Accept is modelled once more on names and numbered files, every system call with its effect on all names of a file (rename of two names of one file does nothing).  Proved: seen under the names, accept does exactly what the model without hard links does, so the other claims carry over; names it does not touch keep their file, at every interruption point.  Not covered: moves of single files (overlayfs records none).  Refuted as wishes of a user: two host names of one file are two files after one has been changed and accepted; two names made by `ln` in the sandbox become two files."
  },
  {
   "property": "C116",
   "status": "partial",
   "theorems": [
    "SB.C116_attributes_partial",
    "SB.C116_interrupted_partial",
    "SB.C116_refuted_acl"
   ],
   "note": "Accept is modelled once more with attributes of an arbitrary type beside the host tree, following each system call.  Proved: files that are not touched keep their attributes at every point; after a complete accept moved files and changed directories have theirs, new and changed files have none.  Not covered: inherited attributes, touched files after an error.  Refuted: a changed file loses its access control list, and as its mode is kept, the mask of the list becomes the rights of the group, who may then write a file they could only read."
  },
  {
   "property": "C117",
   "status": "partial",
   "theorems": [
    "SB.C117_complete_partial",
    "SB.C117_scope_partial",
    "SB.C117_storage",
    "SB.C117_once",
    "SB.C117_cleared",
    "SB.C117_done_partial",
    "SB.C117_removed_partial",
    "SB.C117_refuted_link",
    "SB.C117_refuted_through_link",
    "SB.C117_refuted_owner"
   ],
   "note": "A transition system of any number of accepts, each with the operations it has left, scheduled in any order; operations of several system calls can be seen and can fail half done, and use what was opened earlier; storage can be removed by others.  Proved without further conditions: at most one success per change, success clears the storage, nothing is added to it.  Proved for a plain host and without moves: complete files at every moment, only selected paths, accepted files and directories and removals stay.  Not covered: moves, a file in place of a directory, owner and mode.  Refuted: a changed link is lost although its accept reported success, the same for the owner of a file, and an unrelated file is deleted through an accepted link."
  },
  {
   "property": "C118",
   "status": "partial",
   "theorems": [
    "SB.C118_mounts_partial",
    "SB.C118_places_partial",
    "SB.C118_refuted_name",
    "SB.C118_refuted_place",
    "SB.C118_refuted_options",
    "SB.C118_refuted_private"
   ],
   "note": "Proved without a settings.json in the storage directory, and with one that has only entries as the program makes them; no links at the sandbox's places (see C72).  Refuted for a settings.json of the caller: directories made anywhere and given to him, an overlay over his own directory mounted on /etc of the host, mount options replaced, files below a private directory of another user made readable."
  },
  {
   "property": "C119",
   "status": "partial",
   "theorems": [
    "SB.C119_alone",
    "SB.C119_partial",
    "SB.C119_succeeds_partial",
    "SB.C119_moment_partial",
    "SB.C119_accept_partial",
    "SB.C119_refuted_moved",
    "SB.C119_refuted_vanished"
   ],
   "note": "Proved for the paths left alone (with the ignore rules of their directories) when nothing is moved in the sandbox meanwhile, what was moved before is left alone, and no two mounts show one directory; the list is made without error if nothing is removed; what is to be created or modified was there at a moment of the scan; accept with such a list touches only the host paths the list is about, whenever it ends, if what it creates is still stored as listed.  Simplification: what one pass reads of one path it reads at one moment, and the host does not change.  Refuted: a directory moved during the walk is listed as removed only, and accept then destroys its contents; a file removed during the walk makes the command fail."
  },
  {
   "property": "C120",
   "status": "partial",
   "theorems": [
    "SB.C120_view_partial",
    "SB.C120_partial",
    "SB.C120_succeeds_partial",
    "SB.C120_history_partial",
    "SB.C120_refuted_replaced_directory",
    "SB.C120_refuted_link"
   ],
   "note": "Proved, also for whole histories of a sandbox (`C120_history_partial`), for any number of accepts, each of which succeeds and takes directories as a whole (with a stored directory everything stored below it; of a directory made or replaced in the sandbox nothing, or it with all it hides), if nothing was moved and no link of the host is deleted or replaced by a directory.  Refuted: `sandbox accept d` takes what is below d, not d itself; if d was replaced in the sandbox, the accepted files vanish from the sandbox and the next accept deletes them on the host.  Refuted for links whose target is deleted first."
  },
  {
   "property": "C121",
   "status": "partial",
   "theorems": [
    "SB.C121_partial",
    "SB.C121_refuted_ignored"
   ],
   "note": "Proved with --ignored for storages in which nothing was moved: the list of changes after a successful reject is literally the list of those selected before, the host is equal at every path whether or not the accept succeeds, and success carries over.  What vanishes with a deleted or replaced directory has to go with the deletion.  Refuted for ignore files made in the sandbox: rejecting one brings to light changes that were neither wanted nor listed, and accepting everything accepts them."
  }
 ]
}