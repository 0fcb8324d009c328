C['C02']=('proved','Every problem in the selection (error entry, removal without source or of a special file, rename between mounts) makes accept fail with host and storage unchanged.',['C02_checks_before_effects','C02_effects_imply_checked'])
C['C05']=('proved','At every crash state of the whole accept program the storage is intact or all changes have been applied.',['C05_storage_intact_until_applied','C05_failed_apply_keeps_storage'])
C['C07']=('proved','',['C07_counts'])
C['C10']=('partial','Proved for device numbers the code represents exactly; refuted in general: is_removed keeps only 8+8 bits of rdev, so other devices are taken for whiteouts.',['C10_whiteout_partial','C10_reported_partial','C10_exact','C10_refuted'])
C['C12']=('partial','Refuted for character devices whose major and minor numbers are multiples of 256: they are taken for deletions, and accept deletes the file of that name (also C10).',['C12_sets_are_ordinary','C12_special_is_error_partial','C12_accept_refuses','C12_refuted_device'])
C['C16']=('proved','',['C16_status_complete','C16_status_groups'])
C['C20']=('partial','Holds in every directory except the root; refuted for cwd = /.',['C20_no_pattern_partial','C20_root_refuted'])
C['C21']=('partial','For names without the special characters of patterns, relative to the laws of the glob matcher (Spec.GlobLaws), which globRef satisfies; refuted for directories and files whose names have such characters: a pattern is never taken literally.',['C21_directory_pattern','C21_exact_pattern','globRef_laws','C21_refuted_star','C21_refuted_backslash','C21_refuted_bang'])
C['C22']=('proved','',['C22_sublist','C22_union','C22_monotone'])
C['C17']=('proved','Every prefix of the loop is covered, so also failures and kills half-way. Hypothesis: the storage is a well-formed tree.',['C17_only_selected_storage','C17_reject_keeps_host'])
C['C18']=('proved','',['C18_complete_rejection'])
C['C19']=('partial','The exact crash condition is proved; diff panics on removals inside a deleted directory that are not regular files (refutation theorem).',['C19_crash_condition','C19_no_crash_partial','C19_refuted'])
C['C53']=('proved','All failure points by fault injection at any deletion.',['C53_stays_inside','C53_success_removes_all','C53_other_device_fails','C53_succeeds'])
C['C03']=('partial','Proved at every crash state and outcome for ordinary hosts (Spec.Ordinary: no selected change below or at a symlink to a directory, fresh temporary names, each mount listed once); refuted in general: removing a symlink to a directory deletes the contents of its target. ',['C03_only_selected_paths_partial','C03_final_state','C03_refuted_symlink'])
C['C04']=('partial','Same hypotheses as C03; the atomicity of the single rename system call is an assumption of the file system model.',['C04_no_partial_files_partial','C04_atomic_replace_partial'])
C['C09']=('partial','Proved for ordinary hosts; refuted for a directory staged over a host symlink to a directory (chown and chmod follow the link). Renames are not covered: accept never applies their staged owner and mode.',['C09_owner_and_mode_partial','C09_refuted_symlink'])
C['C06']=('partial','Exact description of the storage after a successful accept; changes outside selected staged directories are kept, and nothing is lost when the selection is closed below its directories; refuted in general: ignored or unselected changes below an accepted staged directory are deleted.',['C06_storage_after','C06_unselected_kept_partial','C06_closed_selection','C06_refuted'])
C['C23']=('partial','Proved for all directories from just below the mount point; refuted for ignore files in the mount point directory itself (never read), e.g. /.gitignore.',['C23_last_rule_partial','C23_refuted_root'])
C['C24']=('proved','For any matcher; /tmp under the glob laws; exactly which paths the built-in rules hide, with the reference matcher.',['C24_built_in','C24_tmp','C24_git','C24_exactly'])
C['C25']=('partial','Proved for the raw scan; for the change list only if no renamed directory is hidden. Refuted otherwise: a directory moved to an ignored place shows up as a removal.',['C25_scan_sublist','C25_ignored_shows_all','C25_changes_sublist_partial','C25_refuted'])
C['C26']=('partial','Proved unless a copy in the storage is a symbolic link; refuted for links: relative ones to unchanged files are not found and the host copy is used. Refuted also for directories moved in the sandbox (rules lost) and replaced in it (the host rules still apply). Also shown: a copy deleted in the sandbox does not shadow the host copy.',['C26_shadowing_partial','C26_deleted_still_applies','C26_refuted_link','C26_refuted_moved','C26_refuted_replaced'])
C['C27']=('partial','Proved if directories of different mounts are different host directories; refuted otherwise (cache key omits the mount).',['C27_history_partial','C27_refuted'])
C['C28']=('partial','For every line and every matcher: an exclamation mark re-includes exactly what the line hides, and a slash at the beginning makes no difference to a line with one elsewhere; for every file a further line adds what it hides, and !line takes it back. Each clause proved for literal names and any matcher satisfying GlobLaws; lines with several components and lines with the wildcards * and ? for any matcher satisfying also GlobWildLaws (the reference matcher does); a backslash before a number sign for any matcher that reads it so (Spec.GlobHash); refuted against gitignore for a trailing slash (not applied at deeper levels) and for wildcards (what is below a matching directory is not hidden; the same for **/name), and for names that begin with an exclamation mark (/!x and \\!a/b hide everything, the matcher taking the mark for a negation) and for the line / alone (hides the directory of the file) , blanks at the beginning of a line (dropped) and re-inclusion below an excluded directory (allowed).',['C28_name','C28_negated','C28_escaped','C28_anchored','C28_directory','C28_blank','C28_comment','C28_file','C28_path','C28_wild','C28_wild_path','C28_refuted_trailing_slash','C28_refuted_wildcard','C28_refuted_bang','C28_refuted_escaped_path','C28_refuted_bang_lists','C28_refuted_slash','C28_hash','C28_trailing_blank','C28_refuted_leading_blank','C28_negation','C28_slash_inside','C28_line_added','C28_line_negated','C28_line_empty','C28_refuted_parent','C28_directory_path','C28_final_newline','C28_trimmed','C28_refuted_stars','C28_refuted_stars_accept','C28_stars_wild'])
C['C29']=('partial','Round trip, injectivity and the character set are proved for every path, and the converse: only (case variants of) encodings are taken for mount points; the name is a valid component (at most 255 bytes) exactly for paths below 160 bytes, refuted above.',['C29_roundtrip','C29_injective','C29_component','C29_length','C29_exact','C29_case','C29_lower','C29_refuted_long'])
C['C30']=('proved','For the real base32/UTF-8 decoding; removals are stated for storage paths without a redirect on the way.',['C30_host_path','C30_removed_path','C30_distinct'])
C['C31']=('partial','Exactness, root, order and the resulting view are proved for every mount table; own names only if no directory is mounted over twice (refuted otherwise).',['C31_exact','C31_root','C31_parents_first','C31_own_names_partial','C31_every_path_shows_its_overlay','C31_refuted_stacked'])
C['C32']=('proved','List and order for every mount table; the effect on the mount table if no mount of the sandbox is hidden by a later one (counterexample otherwise).',['C32_exact','C32_effect','C32_refuted_hidden'])
C['C33']=('proved','As stated, for absolute paths. In terms of the mount table only if a mount and its parent directory have different devices (bind mounts within a file system: counterexample).',['C33_spec','C33_deepest_mount_partial','C33_refuted_same_device'])
C['C39']=('partial','Holds if no other bind target is at or above the masked path; refuted otherwise (binds are applied in hash map order).',['C39_masked_partial','C39_kind_partial','C39_below_masked_partial','C39_config_partial','C39_refuted_order'])
C['C57']=('partial','Proved if name and mount point contain no comma, colon or backslash; refuted for names and mount points, which are not checked; with a backslash in the name the storage of another sandbox is used.',['C57_options_partial','C57_check','C57_refuted_name','C57_refuted_backslash','C57_refuted_mount_point'])
C['C34']=('proved','All six settings. For the storage directory the theorem is about the setting; what becomes of it is C59. The name chosen by --new and --last is C43. No origin is recorded for the default log level.',['C34_log_level','C34_net','C34_ignored','C34_no_default_binds','C34_name','C34_storage_dir','C34_malformed'])
C['C35']=('partial','All clauses proved; "inside the home directory" only if the home directory is spelled as the current directory is (refuted for a HOME through a symbolic link).',['C35_search','C35_overrides','C35_not_above_home','C35_order','C35_all_dirs','C35_no_config','C35_config','C35_unreadable','C35_refuted_symlink'])
C['C36']=('partial','Additivity, conflicts and uniqueness are proved for target texts after canonicalisation; refuted for places: relative and absolute spellings of a non-existing target are not recognised as one place.',['C36_binds','C36_masks','C36_unique','C36_conflict','C36_conflict_mask','C36_only_requested','C36_places_partial','C36_refuted_relative'])
C['C37']=('proved','',['C37_syntax','C37_bad_option','C37_mounted'])
C['C38']=('proved','',['C38_mask','C36_masks','C38_mounted'])
C['C40']=('proved','',['C40_network','C40_other_namespaces','C40_default_binds','C40_env'])
C['C58']=('partial','Proved except for `~//…` (refuted: the result is an absolute path outside the home directory).',['C58_home','C58_other','C58_below_partial','C58_refuted_double_slash'])
C['C41']=('partial','Proved for names other than "", "." and ".." whose directory is not a symbolic link; refuted for each of these.',['C41_direct_child_partial','C41_delete_partial','C41_refuted_empty','C41_refuted_dot','C41_refuted_symlink'])
C['C42']=('partial','The exact condition under which two sandboxes share a path is proved; refuted for names such as "b" and "b.lock", and for names with a backslash, which the kernel takes out of the mount options.',['C42_share_iff','C42_disjoint_partial','C42_refuted','C57_refuted_backslash'])
C['C43']=('partial','--last and the rejection are proved, --new never picks the name of an existing sandbox directory; refuted for a sandbox of which only the lock file exists.',['C43_new','C43_last','C43_last_found','C43_rejected','C43_refuted_lock_only'])
C['C47']=('partial','A completed scan, interleaved with any other activity, has killed exactly the processes of the namespace; the pid file is removed. Refuted: a process that ends during the scan makes stop fail and leave survivors; a reused pid makes it kill other processes; a program name with white space in it makes a running sandbox look dead.',['C47_scan_complete','C47_scan_sound','C47_scan_fails','C47_stop_kills','C47_stop_files','C47_stop_running','C47_delete_running','C47_refuted_race','C47_refuted_reused_pid','C47_refuted_blank'])
C['C54']=('partial','Confirmation, lock last, the scope and completeness for proper names are proved; refuted for names such as "."; and the command succeeds (exit 0, status "success") although a selected sandbox could not be deleted.',['C54_confirmation','C54_scope_partial','C54_yes','C54_lock_last','C54_deleted','C54_complete_partial','C54_refuted_dot_lock','C54_refuted_success'])
C['C55']=('proved','',['C55_list','C55_succeeds'])
C['C61']=('proved','Hypotheses: the pid files are regular files (the tool creates them so); for completeness also that removing a file does not fail and process numbers are unique. C61_part: unlike for list and delete, a part of the name is enough; C61_negated: unlike there, an exclamation mark does not negate.',['C61_scope','C61_complete','C61_part','C61_negated'])
C['C44']=('partial','Join succeeds exactly when network, mounts and binds agree, in any order, if binds are compared by their text and settings.json is intact; refuted for two spellings of one source, for a settings file changed from inside the sandbox, and a missing file.',['C44_join_partial','C44_file_partial','C44_corrupt','C44_refuted_spelling','C44_refuted_data','C44_refuted_missing'])
C['C45']=('partial','One holder per lock file (inode) in every interleaving, hence one per name as long as nobody deletes the sandbox; refuted with delete, which unlinks the lock file others wait for.',['C45_holders','C45_one_holder_partial','C45_delete_exclusive_partial','C45_refuted_delete'])
C['C46']=('partial','In every interleaving of starts and stops, with failures before the pid file is written, deaths of processes and restarts of the machine, at most one instance exists and every command that finds one enters it; refuted if writing the pid file fails, if the first process is stopped by a signal (taken for dead), and for a start soon after a stop, which does not wait for the processes to be gone.',['C46_one_instance_partial','C46_one_alive_partial','C46_refuted_write_error','C46_refuted_frozen','C46_refuted_stop'])
C['C48']=('partial','A reported error makes the start fail and a success means ready or a closed pipe; refuted: a child that dies without reporting counts as started (read returning 0 is not checked).',['C48_ready_partial','C48_error_reported','C48_refuted_child_dies'])
C['C49']=('proved','Also the exact syntax of SUDO_UID and SUDO_GID.',['C49_setuid','C49_setuid_ignores','C49_sudo','C49_malformed','C49_home','C49_accepts'])
C['C50']=('partial','All ids are dropped and cannot be regained by any sequence of calls; refuted for supplementary groups, which are never changed.',['C50_dropped','C50_success','C50_for_good_partial','C50_refuted_groups'])
C['C51']=('partial','Proved for root (as the program requires), and for any process if the check gives an answer; refuted for an unprivileged process (an error return leaves the group changed).',['C51_restored','C51_answered','C51_refuted_unprivileged'])
C['C52']=('partial','Exit codes, and signals, for every caller; refuted for commands that die from SIGPIPE, SIGSEGV, SIGBUS, a real-time signal or a signal the caller ignores (the caller loops for ever, without sleeping) and when a signal is sent to the whole process group (the caller dies although the command handles it).',['C52_exit','C52_signal_partial','C52_fault','C52_faithful','C52_refuted_endless','C52_refuted_interrupt'])
C['C59']=('partial','Choice and usability for every mount table with canonical candidates; refuted for a candidate that is a symbolic link and for stacked mounts.',['C59_choice_partial','C59_usable','C59_relative','C59_refuted_symlink','C59_refuted_stacked'])
C['C62']=('partial','Released when the holder ends if it did not start a sandbox; refuted: killed while starting, the new sandbox init has inherited the lock.',['C62_released_partial','C62_refuted_start_killed'])
C['C56']=('partial','Proved for every sequence of operations; refuted for the program if resolving the configuration fails (main returns before the deferred messages are printed, so all are lost).',['C56_output','C56_nothing_early','C56_main','C56_refuted_failure'])
C['C60']=('partial','Proved once the action is started; refuted for failures before it (no object at all) and for delete, whose individual failures still give status success.',['C60_object_partial','C60_values','C60_plain','C60_delete_errors','C60_refuted_early','C60_refuted_delete'])
C['C08']=('partial','Any closed set of removals succeeds and removes exactly those paths in any enumeration order, if no path is listed twice; that is proved when deletions are recorded by whiteouts only. Refuted for a directory that was deleted and re-created with a file in place of one of its subdirectories. Also assumed: no symbolic links above the paths, no mount points.',['C08_removals_partial','C08_whiteouts_partial','C08_removals_once','C08_refuted_duplicate','C08_refuted_duplicate_all'])
C['C14']=('partial','Success and exact effect for every set of independent renames (swaps, cycles, chains) on one mount (C14_renames_partial), and for renames nested in each other and mixed with other changes (C85_moves_partial); refuted if the current directory is inside a source (half-done) or on another mount (refused).',['C14_renames_partial','C85_moves_partial','C14_refuted_cwd','C14_refuted_other_mount'])
C['C15']=('partial','The rule (nearest redirect upwards) is proved as stated; the origin equals the one overlayfs uses (Spec/Overlay.lean) if directories above are merged, a relative redirect has no redirect above it, absolute ones start at the device boundary, and no dangling link is involved; refuted in each of these cases.',['C15_same_partial','C15_nearest_partial','C15_origin_partial','C15_refuted_nested','C15_refuted_opaque','C15_refuted_dangling','C15_refuted_bind'])
C['C01']=('partial','Proved against an independent overlayfs lookup (Spec/Overlay.lean) for any number of mounts, whiteouts, opaque directories and type changes, and for renamed directories whose owner and mode are unchanged and that were not moved out of deleted or replaced ones (C01_moved_partial); refuted for modes of renamed directories, directories moved out of a deleted one (data loss), mount points themselves and dangling links.',['C01_view_partial','C01_moved_partial','C01_refuted_rename_mode','C01_refuted_moved_out','C01_refuted_mount_root','C01_refuted_dangling'])
C['C11']=('partial','Proved at every crash point for links to files and to empty directories; refuted for links to non-empty directories (content of the target is deleted) and dangling links (deletion ignored).',['C11_link_partial','C11_target_partial','C11_refuted_directory','C11_refuted_dangling'])
C['C13']=('partial','Content seen under the new name is there after accept if nothing at or above its old place was deleted, replaced or moved elsewhere (except the old name itself); refuted otherwise: content is deleted; also refuted: a directory moved over a deleted non-empty one makes accept fail half-way, the directory is left under a temporary name.',['C13_moved_partial','C13_refuted_recreated','C13_refuted_replaced','C01_refuted_moved_out','C25_refuted'])
C['C68']=('proved','For every configuration whose set-up succeeds as in C69; the mount table decides which file system a change reaches.',['C68_host'])
C['C69']=('partial','Proved unless a mount or a bind target is at or above the staging directory, i.e. at /run; refuted for /run: start always fails.',['C69_setup_partial','C69_refuted_run'])
C['C70']=('proved','',['C70_proc','C70_sys','C70_hidden','C70_readonly'])
C['C63']=('partial','Every line says the change it stands for, the JSON determines the changes; the text is unambiguous for names without line breaks and `>`; refuted for names with a line break or ` -> `.',['C63_line','C63_unambiguous_partial','C63_json','C63_refuted_newline','C63_refuted_arrow'])
C['C64']=('partial','The numbers are exact for stored non-directories; 0 and 0 means no stored file; refuted: links to directories, deletions by re-creation are changes counted as 0.',['C64_numbers','C64_nothing_lost_partial','C64_refuted','C64_question','C64_words'])
C['C65']=('partial','Every key and list of keys, plain and JSON; the binds shown mean the same binds if none has a comma, line break or outer blanks (refuted otherwise: config files allow commas); upper_cwd is right unless the current directory is inside another mount of the same device, e.g. a bind mount (refuted).',['C65_one_answer','C65_single','C65_several','C65_all','C65_unknown','C65_json','C65_bind_partial','C65_upper_partial','C65_refuted_comma','C65_refuted_bind'])
C['C66']=('partial','For every caller with effective id 0; the command is always started if the environment is valid UTF-8 text; refuted otherwise: one variable that is not UTF-8 makes every command fail.',['C66_command','C66_started_partial','C66_namespaces','C66_storage','C66_shell','C66_words','C66_refuted_env'])
C['C72']=('partial','At every crash point, if there are no symbolic links at or above the sandbox places; refuted: settings.json, which can be replaced from inside the sandbox, may be a link and then any host file is overwritten by root at the next start; a link in place of `upper` makes directories elsewhere; a bind placed inside an earlier writable one makes its place on the host as root.',['C72_last','C72_start_partial','C72_refuted_settings','C72_refuted_upper','C79_refuted_host','C79_refuted_variable'])
C['C73']=('partial','Proved for the preparation of the storage if owners are unchanged; refuted: a chown of a mount\'s top directory, inside or outside, and a kill between mkdir and chown, make every later start fail. Mounting itself is C69.',['C73_start','C73_again_partial','C73_refuted_chown','C73_refuted_killed'])
C['C74']=('partial','All paths below the mounts\' top directories; these keep their owner but not their mode (refuted: always 0755).',['C74_new_partial','C74_refuted_mode'])
C['C79']=('partial','Scope of everything made, at every interruption point, and nothing left if all places exist. Refuted: missing targets of binds and masks become stored changes; an interrupted start leaves /old-root-UUID as a change, and so does every start of a caller whose environment has a variable of the program\'s own tests (looked at in every build); a bind inside an earlier writable bind makes its place on the host as root, owned by the caller.',['C79_storage_partial','C79_host_partial','C79_host_kept_partial','C79_host_nodes_partial','C79_storage_nodes_partial','C79_nothing_partial','C79_refuted_target','C79_refuted_old','C79_refuted_host','C79_refuted_variable'])
C['C71']=('partial','Also with renamed directories (listed as renames). Missing: mount points themselves and deleted dangling links (refuted: C01_refuted_mount_root, C01_refuted_dangling), what was in a directory before another was moved over it (refuted), directories moved out of deleted ones (refuted).',['C71_reported_partial','C71_true_partial','C71_moved_partial','C71_moved_true_partial','C71_refuted_replaced','C71_refuted_moved_out','C01_refuted_mount_root','C01_refuted_dangling'])
C['C75']=('partial','Regular files not below a link of the host, in states in which diff does not crash; refuted for staged links (content of the link target on the host is shown, read as root), files below links of the host, and lines that mention the storage path.',['C75_shown_partial','C75_printed_partial','C75_lines','C75_exit','C75_refuted_directory','C75_unchanged','C75_refuted_link','C75_refuted_relative','C75_refuted_below_link','C75_refuted_content'])
C['C76']=('partial','Commands: user and group ids for good (supplementary groups: C50_refuted_groups). Refuted for diff: found through the caller\'s PATH and run with effective uid 0.',['C76_command_partial','C76_diff_partial','C76_refuted_diff'])
C['C77']=('partial','Everything works if all names are text; refuted otherwise: one stored name that is not UTF-8 makes status, diff, accept and reject panic (with --ignored: fail) whatever is selected, and the question of delete as well. The case that another stored file has the name with replacement characters (with --ignored) is not modelled further.',['C77_text','C77_onDisk','C77_stops','C77_stops_ignored','C77_question','C77_refuted_name'])
C['C78']=('partial','For any matcher satisfying Spec.GlobLaws, Spec.GlobPrefix (globRef does); refuted for a current directory whose name has glob characters and for negated patterns, which select changes everywhere.',['C78_scope','C78_relative_partial','C78_negated','C78_refuted_cwd','C78_refuted_negated'])
C['C80']=('partial','Noninterference for files found by searching and for readable ones given with --config; refuted: --config reads any file as root; a .gitignore made in the sandbox may be a link to any file of the host, which status reads as root.',['C80_secret_partial','C80_refuted_config','C80_refuted_ignore_link'])
C['C81']=('partial','Binds: with any storage, if the user can get to their sources. Overlays: in a new sandbox whose top directories have the mode of the host and outside /run. Refuted without these: binds are made as root (a file below a private directory of root becomes readable), top directories of mounts get 0755, directories above mounts in /run are made anew. Symbolic links, ACLs and capabilities are not modelled.',['access_rule','setuid_rule','C81_bind_partial','C81_overlay_partial','C81_refuted_bind','C81_refuted_mode','C81_refuted_run'])
C['C82']=('partial','New sandboxes, under the conditions of C81; refuted: overlays over mounts with nosuid have no such flag; with --bind DIR:/etc the files of the user take the place of those that set-uid programs trust.',['C82_suid_partial','C82_private','C82_trusted_partial','C82_refuted_nosuid','C82_refuted_etc'])
C['C83']=('partial','For every storage in which no directory above, at or below the masked path was moved, binds in place before the mask or from elsewhere; refuted: after mv of a parent directory in the sandbox and a restart the content is visible under the new name. The kind of the masked thing (file or directory) shows.',['C83_masked_partial','C83_refuted_moved'])
C['C84']=('partial','C84_host and C84_view hold for every history; C84_whole_partial: accepting everything succeeds and brings the host to exactly the state it would have if everything had been done there directly: for histories with no renamed merged directories, no symbolic link of the host in the way of an operation, fresh temporary names, everything selected, and nothing accept cannot carry out (Spec.CanAccept); mount points themselves excepted. C84_history_partial: without Spec.CanAccept, if accept succeeds. Refuted: rmdir x/y; rmdir x; mkdir x; echo >x/y makes accept fail half-way. The overlay kernel operations are transcribed in Model/History.lean.',['C84_view','C84_host','C84_history_partial','C84_whole_partial','C84_refuted_recreated'])
C['C85']=('partial','Exact (iff) for selections without renamed directories on hosts with no links in the way and storage on one file system; with renamed directories (nested, swapped, with changes inside, onto free places) the conditions are sufficient, and the host is exactly as if all changes had been made at once (C85_moves_partial); accepting everything succeeds, with and without renamed directories (C85_everything_partial, C85_everything_moved_partial); refuted: accepting a new directory by its name fails, because the name selects only what is below it (C85_new_directory: always).',['C85_succeeds_partial','C85_moves_partial','C85_everything_partial','C85_everything_moved_partial','C85_new_directory','C85_refuted_new_directory'])
C['C86']=('partial','For every history of permission-checked operations in a new sandbox whose top directories have the modes of the host, if everything is accepted and nothing is in the way (conditions of C84_whole_partial). Refuted: a link to a directory removed in the sandbox makes accept delete what it leads to, as root; the storage belongs to the user, who can plant any file in it; top directories of mounts are always 0755 in the sandbox.',['C86_same_rights','C86_own_rights_partial','C86_protected_partial','may_iff','C86_refuted_link','C86_refuted_planted','C86_refuted_top'])
C['C87']=('partial','If no file that is created or changed has the bit in the sandbox, at every crash point, for every host and storage. Refuted otherwise: a set-uid program of the user is copied as root with its mode and gets its owner only after its name, so that in between executing it gives root.',['C87_no_new_partial','C87_refuted_window'])
C['C88']=('partial','For writes at paths that are not accept\'s own nor above them (below a directory that is only created or changed they may be), on hosts with no links in the way, from the end of the checks on. Refuted otherwise: a program of the user that exchanges a directory accept has just created for a link to /etc makes root\'s accept replace /etc/passwd.',['C88_beside_partial','C88_refuted_link'])
C['C89']=('partial','C89_view and C89_host hold for every history of operations and directory moves; C89_whole_partial: if everything is selected, accept succeeds and the host ends as if everything had been done there (C89_accept_partial: whenever it succeeds), for final storages that satisfy Spec.Ordinary (no links in the way, fresh temporary names) and Spec.MovesReady (redirects the program understands, moved directories keep owner and mode, nothing moved out of a directory that was then deleted or replaced), and for success Spec.MovesAcceptable (new places free, one mount, current directory outside). The excluded cases are refuted: C01_refuted_rename_mode, C01_refuted_moved_out, C13_refuted_recreated, C01_refuted_dangling, C15. rename(2) on overlayfs is transcribed in Model/Moves.lean; moves of directories that contain mount points and renames of files onto files (equivalent to other operations) are not modelled.',['C89_view','C89_host','C89_accept_partial','C89_whole_partial'])
C['C90']=('partial','In every interleaving of starts, stops, deaths and restarts of the machine as long as no process number is used again while the pid file names it (and without the faults of C46). Refuted: a pid file that survives a restart of the machine names some other process by then, and commands run in its namespaces, i.e. on the host; the same if the number is re-used between finding and entering; whoever writes the pid file chooses the process.',['C90_own_sandbox_partial','C90_named','C90_refuted_reused','C90_refuted_race','C90_refuted_planted'])
C['C91']=('partial','Holds if the names of the lock files are text; refuted by one file whose name is not UTF-8 and ends in .lock: list and stop panic, or see a sandbox that does not exist.',['C91_listing_partial','C91_refuted_name'])
C['C92']=('proved','From the listing of the storage directory on; how the command line that is being completed is parsed is not modelled.',['C92_complete'])
C['C93']=('proved','serde_json is transcribed from its sources (writer and reader); C93_files characterises the accepted files by the grammar of RFC 8259. Simplifications: no nesting limit, no limit on the size of numbers (both concern only fields that are skipped), paths are UTF-8.',['C93_roundtrip','C93_join','C93_files','C93_damaged'])
C['C94']=('proved','Hypothesis: numbers, if any, are written as JSON numbers (the actions record only strings, lists and objects: delete_numbers, status_numbers). Failures before the action starts print no object: C60.',['C94_text','C94_status','C94_entries'])
C['C95']=('partial','Exact (iff): accept succeeds under the limit exactly if it succeeds without it and names without extension of created or modified files have at most 218 bytes and the two names of a renamed directory at most 206 bytes together. Refuted beyond: the accept fails half-way after its checks passed. PATH_MAX is not modelled.',['C95_exact_partial','C95_same_partial','C95_interrupted','C95_refuted_copy','C95_refuted_rename'])
C['C96']=('partial','From the TOML document on (the crate toml is a parameter: text to table with different keys). Refuted: keys that are no setting are ignored, so that a misspelt mask leaves the path visible.',['C96_document','C96_files','C96_masks','C96_binds','C96_net','C96_refuted_unknown','C96_refuted_case'])
C['C97']=('partial','Exactly what a new sandbox shows (C97_shown), hence equality with the host on overlaid file systems; with changes stored, and for bind mounts with nothing mounted inside. Refuted for file systems of other types (tmpfs and more), whose files are invisible, and accept then deletes or overwrites files never seen in the sandbox. C97_changed_partial and C97_moved_partial justify that the other properties take the lower layer to be the host.',['C97_shown','C97_same_partial','C97_changed_partial','C97_moved_partial','C97_bind_partial','C97_refuted_unseen','C97_refuted_bind','C97_refuted_accept'])
C['C98']=('partial','New sandboxes, under the conditions of C81; writable binds and /proc, /sys in all sandboxes. Refuted: overlays have none of the flags of the mounts below, and read-only binds lose nodev and noexec.',['C98_partial','C98_bind','C98_proc_sys','C98_dev','C98_terminals','C98_cgroup','C98_refuted_overlay','C98_refuted_readonly'])
C['C99']=('partial','Exact: for proper names the start succeeds iff the name has at most 64 bytes, although longer ones are accepted; what is left is stated, too. Lengths of whole paths and mount options are not modelled.',['C99_exact_partial','C99_left_partial','C99_refuted_long'])
C['C100']=('partial','JSON and errors without restriction; the text if no name has a line break (refuted otherwise). Escape sequences for colours are not modelled: output is not a terminal.',['C100_text_partial','C100_json','C100_error','C100_refuted_newline'])
C['C101']=('partial','Files, session, group, umask without restriction; signals except SIGPIPE, which every command in a sandbox finds ignored (refuted).',['C101_files','C101_signals_partial','C101_refuted_sigpipe'])
C['C102']=('partial','Session, group, standard descriptors and the pipe; refuted for the other descriptors of the caller, which stay open as long as the sandbox runs.',['C102_detached_partial','C102_refuted_held'])
C['C103']=('partial','If every process collects its children before it ends; refuted otherwise: the first process of the sandbox never waits, so orphans stay in the process table until the sandbox is stopped.',['C103_collected_partial','C103_refuted_orphans'])
C['C104']=('partial','stop cleans up after every history; exactly once for histories without accidents. Refuted: after a first process that was killed the next start mounts everything a second time with the same upper directories; failed starts leave their mounts; stop --all passes over sandboxes without pid file.',['C104_stop','C104_once_partial','C104_stop_all_partial','C104_layers','C104_refuted_died','C104_refuted_failed','C104_refuted_stop_all'])
C['C105']=('partial','Exactly which signals of which processes end a running sandbox (iff); other users cannot; a command cannot if the sandbox was started by root (sudo); refuted for the set-user-ID installation: every command in the sandbox can end it with kill 1.',['C105_ends','C105_others','C105_command_partial','C105_refuted_command'])
C['C106']=('partial','Exact equality of what the sandbox sees at every crash point before the storage is cleared, for every selection; up to node identity while the storage is cleared and afterwards if everything is accepted and nothing is stored as opaque.  C106_history_*: the same with hypotheses only on the history of the sandbox (no directory moved; none made for the clearing part).  Refuted for new (opaque) directories while the storage is cleared, and for renamed directories between the two renames.',['C106_view_partial','C106_clearing_partial','C106_history_partial','C106_history_clearing_partial','C106_refuted_new_directory','C106_refuted_moved'])
C['C107']=('partial','Repeating succeeds and gives the same host, from every crash point before the storage is cleared, if no links are stored or replaced and opaque directories are not nested.  C107_history_partial: hypotheses only on the history (no directory moved, no links): after the repeated accept the host is as if everything had been done there directly.  Refuted for crash points while the storage is cleared (a new directory: the repeated accept deletes its files on the host), for links to directories (the repeated accept deletes the contents of their targets) and for renamed directories (the repeated accept refuses).',['C107_repeat_partial','C107_history_partial','C107_refuted_new_directory','C107_refuted_link','C107_refuted_moved'])
C['C108']=('partial','For storages without renamed directories in which every deletion mark belongs to something on the host (which holds after every history without directory moves: C108_new_partial), any later host, any number of rounds.  Refuted for moved directories and for files that were deleted on the host as well: the mark stays, so that a new file of that name is hidden in the sandbox and deleted by the next accept.',['C108_follows_partial','C108_new_partial','C108_rounds_partial','C108_refuted_moved','C108_refuted_deleted_twice'])
C['C109']=('partial','For storages without renamed directories and deleted dangling links: what is not selected stays visible at every point of a reject, what is selected together with everything above it shows the host again after success; everything can be rejected if every deletion mark belongs to something on the host (which holds after every history without directory moves), giving a new sandbox; any number of rounds with accepts and rejects.  Refuted for moved directories (the mark of the old name stays, the directory is visible nowhere and the next accept deletes it on the host) and for files deleted on the host as well (mark stays; in a directory the reject fails for ever).',['C109_kept_partial','C109_between_partial','C109_rejected_partial','C109_everything_partial','C109_new_partial','C109_rounds_partial','C109_refuted_moved','C109_refuted_deleted_twice','C109_refuted_stuck'])
C['C110']=('partial','Exact characterisation (iff) of the command lines that run a command or an action, with the settings, words and patterns they give; arguments of a command never act as options; the side of the action does not matter unless a list option stands on both sides.  Refuted: conflicts and repetitions across the action are not noticed (`--name=o delete --last` deletes the last sandbox), list options before an action are dropped if repeated after it, `--net none` switches the network on, commands beginning with a dash cannot be run even after `--`.  clap is transcribed, not part of the repository; help texts and words that are not Unicode are not modelled.',['C110_command','C110_action','C110_arguments','C110_help','C110_action_help','C110_position_partial','C110_list','C110_refuted_conflict','C110_refuted_list','C110_refuted_twice','C110_refuted_net','C110_refuted_dash'])
C['C111']=('partial','Proved for the three commands whenever they report success (the kernel is assumed to forget everything when asked; look-ups are answered from one state each); after a reject the host is shown; during and after an accept of plain storages without new directories the same is shown as before, whatever is remembered.  Refuted: commands that fail part-way do not drop the caches; if the caches cannot be dropped accept reports failure although everything was accepted.',['C111_sync','C111_accept','C111_reject','C111_rejected_partial','C111_accepting_partial','C111_refuted_failed','C111_refuted_unable'])
C['C112']=('partial','Exact (iff) for every action and for commands, from the words of the command line (C110) and the settings in force (C34, C43, C59) to the task carried out; `--name` is obeyed on either side; nothing is done without its word; `stop --all` leaves no process of a running sandbox.  Refuted: with COMPLETE in the environment nothing is done; `--name` is not looked at when patterns are given; stopping a sandbox that does not exist succeeds and makes it appear in the list; `stop PATTERN` reports success when a sandbox could not be stopped.',['C112_changes','C112_delete','C112_stop_one','C112_stop_many','C112_listing','C112_others','C112_run','C112_named','C112_word','C112_stop_all','C112_refuted_complete','C112_refuted_name','C112_refuted_typo','C112_refuted_success'])
C['C113']=('partial','Proved for all interleavings as long as the commands stay away from the selected changes (for accept: also from the insides of selected directories; for reject: from the directories above them): everything else in the storage is as the commands left it, and accept has the same outcome, host and cleared storage as alone, also while other programs work elsewhere on the host.  Refuted: a file made in a directory with accepted changes, and a file written again after its copy, are deleted with the storage; accept applies a removal that reject has just successfully rejected; reject follows a link put in place of a directory.',['C113_kept_partial','C113_undisturbed_partial','C113_amid_partial','C113_reject_partial','C113_refuted_new_file','C113_refuted_rewritten','C113_refuted_reject','C113_refuted_link'])
C['C114']=('partial','A model of accept and reject on the one tree, with full paths, is proved to do the same as the model on two trees that the other claims use (same outcome, same host outside the storage, same storage): also at every point where they can be interrupted: for reject without conditions, for accept as long as no accepted change is at, in or above the storage (apart from owner and rights of the directories above).  Refuted: accepting a move of a directory that holds the storage; a reject beside a command in the sandbox that puts a link to a directory of the host in the storage deletes files of the host.',['C114_accept_partial','C114_interrupted_partial','C114_reject','C114_reject_interrupted','C114_refuted_move','C114_refuted_link'])
C['C115']=('partial','Accept is modelled once more on names and numbered files, every system call with its effect on all names of a file (rename of two names of one file does nothing).  Proved: seen under the names, accept does exactly what the model without hard links does, so the other claims carry over; names it does not touch keep their file, at every interruption point.  Not covered: moves of single files (overlayfs records none).  Refuted as wishes of a user: two host names of one file are two files after one has been changed and accepted; two names made by `ln` in the sandbox become two files.',['C115_accept_partial','C115_interrupted_partial','C115_refuted_changed','C115_refuted_created'])
C['C116']=('partial','Accept is modelled once more with attributes of an arbitrary type beside the host tree, following each system call.  Proved: files that are not touched keep their attributes at every point; after a complete accept moved files and changed directories have theirs, new and changed files have none.  Not covered: inherited attributes, touched files after an error.  Refuted: a changed file loses its access control list, and as its mode is kept, the mask of the list becomes the rights of the group, who may then write a file they could only read.',['C116_attributes_partial','C116_interrupted_partial','C116_refuted_acl'])
C['C117']=('partial','A transition system of any number of accepts, each with the operations it has left, scheduled in any order; operations of several system calls can be seen and can fail half done, and use what was opened earlier; storage can be removed by others.  Proved without further conditions: at most one success per change, success clears the storage, nothing is added to it.  Proved for a plain host and without moves: complete files at every moment, only selected paths, accepted files and directories and removals stay.  Not covered: moves, a file in place of a directory, owner and mode.  Refuted: a changed link is lost although its accept reported success, the same for the owner of a file, and an unrelated file is deleted through an accepted link.',['C117_complete_partial','C117_scope_partial','C117_storage','C117_once','C117_cleared','C117_done_partial','C117_removed_partial','C117_refuted_link','C117_refuted_through_link','C117_refuted_owner'])
C['C118']=('partial','Proved without a settings.json in the storage directory, and with one that has only entries as the program makes them; no links at the sandbox\'s places (see C72).  Refuted for a settings.json of the caller: directories made anywhere and given to him, an overlay over his own directory mounted on /etc of the host, mount options replaced, files below a private directory of another user made readable.',['C118_mounts_partial','C118_places_partial','C118_refuted_name','C118_refuted_place','C118_refuted_options','C118_refuted_private'])
C['C119']=('partial','Proved for the paths left alone (with the ignore rules of their directories) when nothing is moved in the sandbox meanwhile, what was moved before is left alone, and no two mounts show one directory; the list is made without error if nothing is removed; what is to be created or modified was there at a moment of the scan; accept with such a list touches only the host paths the list is about, whenever it ends, if what it creates is still stored as listed.  Simplification: what one pass reads of one path it reads at one moment, and the host does not change.  Refuted: a directory moved during the walk is listed as removed only, and accept then destroys its contents; a file removed during the walk makes the command fail.',['C119_alone','C119_partial','C119_succeeds_partial','C119_moment_partial','C119_accept_partial','C119_refuted_moved','C119_refuted_vanished'])
C['C120']=('partial','Proved, also for whole histories of a sandbox (`C120_history_partial`), for any number of accepts, each of which succeeds and takes directories as a whole (with a stored directory everything stored below it; of a directory made or replaced in the sandbox nothing, or it with all it hides), if nothing was moved and no link of the host is deleted or replaced by a directory.  Refuted: `sandbox accept d` takes what is below d, not d itself; if d was replaced in the sandbox, the accepted files vanish from the sandbox and the next accept deletes them on the host.  Refuted for links whose target is deleted first.',['C120_view_partial','C120_partial','C120_succeeds_partial','C120_history_partial','C120_refuted_replaced_directory','C120_refuted_link'])
C['C121']=('partial','Proved with --ignored for storages in which nothing was moved: the list of changes after a successful reject is literally the list of those selected before, the host is equal at every path whether or not the accept succeeds, and success carries over.  What vanishes with a deleted or replaced directory has to go with the deletion.  Refuted for ignore files made in the sandbox: rejecting one brings to light changes that were neither wanted nor listed, and accepting everything accepts them.',['C121_partial','C121_refuted_ignored'])
