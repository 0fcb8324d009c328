{"id": "C01", "title": "accept of everything reproduces the sandbox's view on the host", "statement": "If every change in the sandbox is selected and `sandbox accept` succeeds, then every path on the host has exactly the type, content, owner and mode that a process inside the sandbox saw at that path before the accept, and paths the sandbox saw as missing are missing on the host; nothing else changes.", "quantifier": "all host trees, all overlayfs upper trees (whiteouts, opaque directories, type changes, renames), all directory enumeration orders", "why_tests_cant": "The interaction of whiteouts, opaque directories, type changes and renames has unboundedly many shapes; tests only try a few trees.", "anchors": ["src/actions/accept.rs: accept", "src/sandbox/changes/changes.rs: Sandbox::changes"]}
{"id": "C02", "title": "accept checks everything before touching anything", "statement": "If the selected changes contain an unsupported file type, a rename whose origin is missing, a removal of a special file, a removal without an existing source, or a rename that crosses a mount point, `sandbox accept` fails and neither the host nor the sandbox storage has been modified.", "quantifier": "all host and upper trees, all selections, all positions of the offending entry in the list", "why_tests_cant": "The offending entry may be at any position of an arbitrary change list; tests put it at one position.", "anchors": ["src/actions/accept.rs: accept (pretend pass)"]}
{"id": "C03", "title": "accept only modifies selected host paths", "statement": "Whatever happens (success, error, or a crash after any system call), `sandbox accept PATTERNS` leaves every host path unchanged except destinations and sources of selected changes, paths below a selected rename, and its own temporary names.", "quantifier": "all states, all selections, all prefixes of the executed system calls", "why_tests_cant": "Quantifies over every stopping point and every path not mentioned by the selection.", "anchors": ["src/actions/accept.rs: accept"]}
{"id": "C04", "title": "accepted regular files are replaced atomically", "statement": "At every instant during `sandbox accept`, including after a crash, a host path that is the destination of an accepted regular file holds either its complete old content or the complete staged content, never a truncated or mixed file.", "quantifier": "all crash points of the accept run, including in the middle of the file copy", "why_tests_cant": "A test cannot stop the process at every instruction of every run.", "anchors": ["src/actions/accept.rs: cp, mv, accept (Set on files)"]}
{"id": "C05", "title": "no staged change is lost before it has been applied", "statement": "Until all selected changes have been applied to the host, accept never deletes anything from the sandbox storage; so after a failure or crash before the clean-up phase every change is still available in the sandbox.", "quantifier": "all states, all failing operations, all crash points", "why_tests_cant": "Failure can strike at any operation of an arbitrary plan.", "anchors": ["src/actions/accept.rs: deferred_stage_removals"]}
{"id": "C06", "title": "accept never discards changes that were not selected", "statement": "After a successful `sandbox accept PATTERNS`, every change that was not selected (not matched by the patterns, or hidden by ignore rules) is still present in the sandbox.", "quantifier": "all upper trees and all selections", "why_tests_cant": "Depends on which subset of an arbitrary tree is selected; exponentially many subsets.", "anchors": ["src/actions/accept.rs: deferred_stage_removals, rmdir_recursive"]}
{"id": "C07", "title": "accept's numbers add up", "statement": "On success the number printed as accepted is the number of actionable selected changes (those `status` would list), and accepted + 'external or non-matching' equals the number of actionable changes in the whole sandbox.", "quantifier": "all change lists and selections", "why_tests_cant": "Counting is spread over three loops with different filters; equality must hold for all lists.", "anchors": ["src/actions/accept.rs: accepted_count", "src/sandbox/changes/change_entries.rs: count_actionable_changes, calculate_non_matching_count"]}
{"id": "C08", "title": "accepting removals deletes whole trees, children first", "statement": "Accepting a set of removals that contains, with every directory, everything below it, always succeeds on an unchanged host, removes exactly those paths and keeps every other path, whatever order the file system enumerated them in.", "quantifier": "all trees, all enumeration orders, all removal sets closed under descendants", "why_tests_cant": "Depends on the enumeration order returned by the OS and on arbitrary depth.", "anchors": ["src/actions/accept.rs: accept (Process removes)", "src/sandbox/changes/changes.rs: by_reverse_source"]}
{"id": "C09", "title": "accepted entries get the staged owner and mode", "statement": "After accepting a created or modified file or directory its owner, group and full permission bits (including setuid, setgid and sticky) equal those staged in the sandbox; for symlinks owner and group do.", "quantifier": "all modes and owners, all node kinds, any previous node at the destination", "why_tests_cant": "The kernel clears setuid bits on chown, so the order of the calls matters for modes tests do not try.", "anchors": ["src/actions/accept.rs: set_permissions, chown, chmod"]}
{"id": "C10", "title": "whiteouts are recognised exactly", "statement": "A path in the sandbox storage is treated as deleted exactly when it is a 0:0 character device or carries the overlay whiteout attribute.", "quantifier": "all device numbers, all file types", "why_tests_cant": "There are 2^64 device numbers; the decoding uses masks.", "anchors": ["src/sandbox/changes/file_details.rs: FileDetails::is_removed"]}
{"id": "C11", "title": "deleting or replacing a symlink affects the link only", "statement": "Accepting the removal or replacement of a symlink removes or replaces just the link; nothing at or below its target changes.", "quantifier": "all link targets, including links to directories and dangling links", "why_tests_cant": "Whether path queries follow links depends on where the link points.", "anchors": ["src/sandbox/changes/changes.rs: Sandbox::changes (source_path.is_dir, WalkDir, exists)"]}
{"id": "C12", "title": "special files are never copied to the host", "statement": "Devices, FIFOs and sockets created in the sandbox are reported as errors, are never turned into a create/modify change, and make an accept that selects them fail without side effects.", "quantifier": "all upper trees", "why_tests_cant": "Holds for every file type and position.", "anchors": ["src/sandbox/changes/changes.rs: Sandbox::changes", "src/actions/accept.rs"]}
{"id": "C13", "title": "renamed directories are moved, never deleted", "statement": "If a directory was renamed in the sandbox, accepting never deletes the directory's host content that is still visible under the new name.", "quantifier": "all upper trees with renames, including re-creation of the old name", "why_tests_cant": "Arbitrary combinations of renames and re-creations of the old name.", "anchors": ["src/sandbox/changes/changes.rs: renamed_paths"]}
{"id": "C14", "title": "sets of renames are applied simultaneously", "statement": "Accepting any set of independent renames (including swaps and cycles, where destinations are other renames' sources) moves each source subtree to its destination with all its content, and changes nothing else.", "quantifier": "all sets of pairwise independent renames, any number, swaps and cycles included", "why_tests_cant": "Cycles and chains of any length; tests try one shuffle.", "anchors": ["src/actions/accept.rs: accept (pre-move to temporary names, completing renames)"]}
{"id": "C15", "title": "the origin shown for a moved path is the one the sandbox sees", "statement": "For each path of the sandbox storage the host source used by status/diff/accept is the host path overlayfs itself merges there: following the nearest redirect upwards, else the same path; missing if the host path does not exist.", "quantifier": "all upper trees with absolute and relative redirects at any depth", "why_tests_cant": "Redirects can be nested arbitrarily.", "anchors": ["src/sandbox/changes/changes.rs: get_source_lower_path_for_upper_path"]}
{"id": "C16", "title": "status lists every actionable change exactly once", "statement": "`sandbox status` lists each selected change that is an error, a removal, a rename, or an actual modification exactly once and nothing else; the JSON output contains the same entries in the same order.", "quantifier": "all change lists and selections", "why_tests_cant": "Four passes with different filters over re-sorted lists; equality must hold for all lists.", "anchors": ["src/actions/status.rs: status"]}
{"id": "C17", "title": "reject never touches the host", "statement": "`sandbox reject` with any patterns leaves every host file unchanged and removes from the sandbox storage only staged paths of selected changes, even if it fails half-way.", "quantifier": "all states, selections and failure points", "why_tests_cant": "Quantifies over all failure points and selections.", "anchors": ["src/actions/reject.rs: reject"]}
{"id": "C18", "title": "a complete rejection succeeds and removes every selected change", "statement": "If everything below each selected staged directory is selected too, reject succeeds, removes all selected staged paths (each exactly once, children first), and keeps all others.", "quantifier": "all upper trees, closed selections, enumeration orders", "why_tests_cant": "Duplicate staged paths and directory nesting of any depth.", "anchors": ["src/actions/reject.rs: reject", "src/sandbox/changes/changes.rs: by_staged_descending"]}
{"id": "C19", "title": "diff never crashes", "statement": "`sandbox diff` terminates without panicking on every sandbox state that `sandbox status` can list.", "quantifier": "all upper and host trees", "why_tests_cant": "Panic paths depend on tree shapes tests did not include.", "anchors": ["src/actions/diff.rs: diff"]}
{"id": "C20", "title": "without patterns exactly the changes below the current directory are selected", "statement": "`status`, `diff`, `accept` and `reject` without patterns operate on exactly the changes whose path lies strictly below the current directory (component-wise, not as a text prefix).", "quantifier": "all current directories and all change lists", "why_tests_cant": "Prefix bugs show up only for particular names (siblings with a common prefix, the root directory).", "anchors": ["src/sandbox/changes/change_entries.rs: ChangeEntries::matching"]}
{"id": "C21", "title": "a directory pattern selects its subtree and no sibling", "statement": "A pattern naming a directory (absolute, relative, or containing '..') that has changes below it selects exactly the changes strictly below that directory; siblings sharing a name prefix are not selected.", "quantifier": "all directories, change lists and current directories", "why_tests_cant": "Names with common prefixes; arbitrary '..' sequences.", "anchors": ["src/sandbox/changes/change_entries.rs: ChangeEntries::matching"]}
{"id": "C22", "title": "selection is a union and preserves order", "statement": "The selected changes are a sub-sequence of all changes; adding a pattern never unselects a change; the selection for several patterns is the union of the selections for each.", "quantifier": "all change lists and pattern lists", "why_tests_cant": "For all lists of patterns.", "anchors": ["src/sandbox/changes/change_entries.rs: ChangeEntries::matching"]}
{"id": "C23", "title": "ignore decision follows the last matching rule of the deepest file", "statement": "A change that no built-in rule hides is hidden exactly when the last rule, in order from the outermost directory's ignore files to the innermost, that matches its path relative to that directory is not a negation.", "quantifier": "all paths, all ignore file contents at all levels", "why_tests_cant": "Any number of nested ignore files and rules.", "anchors": ["src/sandbox/changes/changes.rs: Sandbox::is_ignored"]}
{"id": "C24", "title": "built-in ignores cannot be re-included", "statement": "A path matched by a built-in rule (for example anything below /tmp or a .git directory) is hidden whatever the ignore files say, and shown with --ignored.", "quantifier": "all paths and ignore files", "why_tests_cant": "All ignore file contents.", "anchors": ["src/sandbox/changes/changes.rs: BUILT_IN_IGNORE_PATTERNS, is_ignored"]}
{"id": "C25", "title": "ignore rules only hide changes and --ignored shows all", "statement": "The change list without --ignored is a sub-sequence, entry for entry, of the raw scan with --ignored; with --ignored no path of the sandbox storage is skipped (except undecodable mount names and mount roots).", "quantifier": "all upper trees and ignore files", "why_tests_cant": "All trees and rules.", "anchors": ["src/sandbox/changes/changes.rs: upper_entries"]}
{"id": "C26", "title": "ignore files in the sandbox shadow the host's", "statement": "For each directory and each of .gitignore and .ignore, the rules come from the sandbox's copy if it exists there and from the host's copy otherwise, .gitignore rules before .ignore rules.", "quantifier": "all file contents and presence combinations", "why_tests_cant": "All contents.", "anchors": ["src/sandbox/changes/changes.rs: resolve_ignores"]}
{"id": "C27", "title": "rule caching does not change the outcome", "statement": "The outcome of the ignore decision for a path does not depend on which other paths were examined earlier in the same scan.", "quantifier": "all histories of earlier queries", "why_tests_cant": "Histories are unbounded; the cache key omits part of the input.", "anchors": ["src/sandbox/changes/changes.rs: is_ignored (resolved_ignores)"]}
{"id": "C28", "title": "ignore lines mean what gitignore says", "statement": "Blank lines and comments add no rule; '!' negates and '\\!' does not; a pattern without a slash applies at every depth and one starting with '/' only at its directory; a literal name hides the item and everything below it; a trailing '/' hides what is below the directory.", "quantifier": "all lines", "why_tests_cant": "All strings.", "anchors": ["src/sandbox/changes/changes.rs: parse_ignore_content"]}
{"id": "C29", "title": "mount directory names round-trip", "statement": "The storage directory name of a mount point determines the mount point: decoding the encoded name gives the original path for every path, two mount points never share a name, and the name is a valid single path component.", "quantifier": "all byte strings", "why_tests_cant": "All byte strings of all lengths, including each residue modulo 5.", "anchors": ["src/sandbox/mount_overlays.rs: scan_system_mounts", "src/sandbox/changes/changes.rs: upper_entries"]}
{"id": "C30", "title": "every storage path is attributed to the right host path", "statement": "A path stored under the directory of mount point M with relative path R is reported as host path M/R, and distinct stored paths of one mount are reported as distinct host paths.", "quantifier": "all mount points and relative paths", "why_tests_cant": "All paths.", "anchors": ["src/sandbox/changes/changes.rs: upper_entries"]}
{"id": "C31", "title": "mounts are set up parents first and never include the sandbox itself", "statement": "The list of mounts overlaid contains '/' if it is mounted and every mount of an accepted type outside the sandbox's own directory and nothing else, each with its own name, ordered so that a mount point always precedes mount points below it.", "quantifier": "all mount tables", "why_tests_cant": "All tables.", "anchors": ["src/sandbox/mount_overlays.rs: scan_system_mounts"]}
{"id": "C32", "title": "stop and delete unmount only this sandbox's mounts, innermost first", "statement": "The mounts unmounted are exactly those at or below the sandbox's directory (never those of a sandbox whose name merely starts with the same text), and nested mounts are unmounted before the mounts containing them.", "quantifier": "all mount tables and sandbox names", "why_tests_cant": "All tables; names with common prefixes.", "anchors": ["src/util/mounts.rs: get_mounts", "src/sandbox/unmount.rs: unmount"]}
{"id": "C33", "title": "the mount point of a path is found correctly", "statement": "find_mount_point returns an existing ancestor-or-self of the path (or of its nearest existing ancestor) such that no directory between differs in device, and which is '/' or whose parent is on another device.", "quantifier": "all trees, device assignments and absolute paths", "why_tests_cant": "All trees.", "anchors": ["src/util/find_mount_point.rs: find_mount_point"]}
{"id": "C34", "title": "option precedence: command line, environment, files, default", "statement": "For log level, name, storage directory, network, ignored and no-default-binds the effective value is the command line's if given, else the environment's, else that of the most specific config file that sets it, else the default; and the recorded source names the layer the value came from (none is recorded for a default log level).", "quantifier": "all combinations of layers and any number of config files", "why_tests_cant": "2^4 combinations per option times any number of files.", "anchors": ["src/config/resolve.rs: resolve_config, load_partial, merge_configs"]}
{"id": "C35", "title": "more specific config files override less specific ones", "statement": "Config files are read in the order /etc, ~/.config/sandbox, then from the outermost relevant directory to the current directory; directories above the home directory are not consulted when inside it; --no-config reads none; --config reads exactly the given files in order.", "quantifier": "all current directories and home directories", "why_tests_cant": "All depths.", "anchors": ["src/config/resolve.rs: find_config_files, load_partial"]}
{"id": "C36", "title": "bind requests are additive and conflicts are rejected", "statement": "Every bind or mask requested by any layer is in effect; two requests for one target with different source or options are always an error; otherwise each target occurs exactly once.", "quantifier": "all lists of requests from all layers", "why_tests_cant": "All lists, all duplicates.", "anchors": ["src/config/resolve.rs: resolve_config (bind handling)"]}
{"id": "C37", "title": "bind syntax source[:target[:options]]", "statement": "A bind string is split at its first two colons; an empty or missing target means the source path; missing or empty options mean read-write; 'ro' and 'mask' mean read-only and mask; any other option text is an error.", "quantifier": "all strings", "why_tests_cant": "All strings.", "anchors": ["src/config/resolve.rs: parse_bind_mount", "src/config/structs.rs: BindMountOptions::from_str"]}
{"id": "C38", "title": "a mask request never turns into a readable mount", "statement": "For every path string given to --mask, SANDBOX_MASK or the config file's mask list, the result is either an error or a mount with the mask option on exactly that path.", "quantifier": "all path strings, including ones containing colons", "why_tests_cant": "All strings.", "anchors": ["src/config/resolve.rs: resolve_config", "src/config/resolve.rs: parse_bind_mount"]}
{"id": "C39", "title": "masked paths are hidden whatever else is mounted", "statement": "If a path is masked, a process in the sandbox sees the mask at that path, regardless of which other binds are configured and in which order they are applied.", "quantifier": "all bind configurations and all orders in which a hash map may enumerate them", "why_tests_cant": "The order comes from a randomly seeded hash map.", "anchors": ["src/config/resolve.rs: resolve_config (target_map)", "src/sandbox/get_or_create.rs: setup_sandbox_and_sleep_forever"]}
{"id": "C40", "title": "no network unless asked for", "statement": "A new sandbox shares the host network namespace only if the command line, the environment or a config file asked for net=host; otherwise it gets its own network namespace and no D-Bus or systemd socket is bound by default.", "quantifier": "all configurations", "why_tests_cant": "All layers and files.", "anchors": ["src/config/resolve.rs: resolve_config, get_default_bind_mounts", "src/sandbox/get_or_create.rs: start_sandbox"]}
{"id": "C41", "title": "a sandbox lives strictly inside the storage directory", "statement": "For every sandbox name the tool accepts, the sandbox's directory is a direct child of the storage directory, so that deleting the sandbox cannot delete the storage directory, other sandboxes or anything outside it.", "quantifier": "all names", "why_tests_cant": "All strings.", "anchors": ["src/config/resolve.rs: validate_config", "src/sandbox/get_or_create.rs: from_location", "src/sandbox/delete.rs: delete"]}
{"id": "C42", "title": "different sandboxes use different files", "statement": "Two sandboxes with different names share no data directory, lock file or pid file.", "quantifier": "all pairs of names", "why_tests_cant": "All pairs.", "anchors": ["src/util/lock_sandbox.rs", "src/util/get_running_sandbox_pid.rs: get_sandbox_pid_path", "src/sandbox/get_or_create.rs: from_location"]}
{"id": "C43", "title": "--new picks an unused name and --last the newest sandbox", "statement": "--new never selects the name of an existing sandbox; --last selects an existing sandbox such that none was created later; both are rejected when a name is set in the environment or a config file.", "quantifier": "all storage contents and clock sequences", "why_tests_cant": "All contents and clock values.", "anchors": ["src/config/resolve.rs: generate_timestamp_name, find_last_sandbox, resolve_config"]}
{"id": "C44", "title": "joining a running sandbox requires identical settings", "statement": "Entering a running sandbox succeeds exactly when network, mounts and binds equal the ones it was started with, independent of the order in which binds are listed.", "quantifier": "all pairs of configurations, all orders", "why_tests_cant": "All permutations of all bind lists.", "anchors": ["src/sandbox/settings.rs: validate_against_config", "src/sandbox/get_or_create.rs: get_or_create"]}
{"id": "C45", "title": "one process at a time manages a sandbox", "statement": "At any time at most one process is between acquiring and releasing the lock of a given sandbox name.", "quantifier": "all interleavings of any number of processes running start, stop, delete", "why_tests_cant": "Interleavings.", "anchors": ["src/util/lock_sandbox.rs: Lock::sandbox", "src/sandbox/delete.rs: delete"]}
{"id": "C46", "title": "concurrent starts share one sandbox", "statement": "If several processes concurrently run a command in a sandbox of the same name, exactly one starts it and all of them enter that same instance.", "quantifier": "all interleavings, any number of processes", "why_tests_cant": "Interleavings.", "anchors": ["src/sandbox/get_or_create.rs: get, get_or_create"]}
{"id": "C47", "title": "stop kills exactly the sandbox's processes", "statement": "Stopping a running sandbox kills every process in its pid namespace and no other process, and removes its pid file.", "quantifier": "all process tables", "why_tests_cant": "All process tables, including reused pids.", "anchors": ["src/sandbox/stop.rs: stop", "src/util/get_running_sandbox_pid.rs"]}
{"id": "C48", "title": "a sandbox is reported as started only when it is ready", "statement": "Starting a sandbox succeeds only if its init process reported that set-up completed.", "quantifier": "all behaviours of the init process (report ready, report failure, die)", "why_tests_cant": "Requires the child to die at arbitrary points.", "anchors": ["src/sandbox/get_or_create.rs: start_sandbox"]}
{"id": "C49", "title": "a setuid invocation cannot choose its identity", "statement": "When run setuid root the identity used is the real uid/gid whatever environment variables say; when run by root it is the SUDO_UID/SUDO_GID given; malformed values are errors. The home directory is HOME (SUDO_HOME first, unless setuid; /tmp if neither is set), and must be absolute and exist.", "quantifier": "all environments and credential triples", "why_tests_cant": "All environments.", "anchors": ["src/util/resolve_uid_gid_home.rs: resolve_uid_gid_home"]}
{"id": "C50", "title": "sandboxed commands run unprivileged for good", "statement": "After privileges are dropped the real, effective and saved uid and gid are the invoking user's, no sequence of set*id calls regains root, and no root supplementary group is retained.", "quantifier": "all call sequences after the drop, all credentials", "why_tests_cant": "All sequences of calls.", "anchors": ["src/util/drop_privileges.rs: drop_privileges", "src/sandbox/exec.rs: exec"]}
{"id": "C51", "title": "access checks restore credentials", "statement": "Checking access on behalf of the user leaves the process's effective uid and gid as they were, for every target identity and outcome.", "quantifier": "all credentials and targets", "why_tests_cant": "All credential triples.", "anchors": ["src/util/access.rs: can_access"]}
{"id": "C52", "title": "the command's exit status is passed on", "statement": "The exit code of `sandbox CMD` is CMD's exit code, and if CMD dies from a signal the same signal is raised in the caller, whatever other wait statuses are observed before.", "quantifier": "all sequences of wait results", "why_tests_cant": "All sequences.", "anchors": ["src/sandbox/exec.rs: exec"]}
{"id": "C53", "title": "recursive removal stays inside its tree and device", "statement": "Recursively removing a directory deletes nothing outside it, deletes nothing on another device, does not follow symlinks, and on success deletes all of it.", "quantifier": "all trees and device assignments, all failure points", "why_tests_cant": "All trees.", "anchors": ["src/actions/accept.rs: rmdir_recursive"]}
{"id": "C54", "title": "delete deletes the selected sandboxes, only these, completely, and only after confirmation", "statement": "Without -y nothing is deleted unless the answer is y or Y (surrounding blanks ignored); with patterns only sandboxes whose names match are deleted; the lock file is removed last. When the user agrees, every selected sandbox is deleted with all its files and reported so, or an error is reported for it; if the command succeeds, all were deleted.", "quantifier": "all answers, all storage contents, all failing system calls", "why_tests_cant": "All answers and contents.", "anchors": ["src/actions/delete.rs: delete", "src/sandbox/delete.rs"]}
{"id": "C55", "title": "list shows every sandbox once, sorted, as running or stopped", "statement": "`sandbox list` shows each matching sandbox exactly once, as running if the process in its pid file exists and as stopped otherwise, in sorted order.", "quantifier": "all storage contents and process tables", "why_tests_cant": "All contents.", "anchors": ["src/actions/list.rs: get_sandboxes"]}
{"id": "C56", "title": "log messages before configuration are neither lost nor leaked", "statement": "Messages logged while the configuration is being resolved are emitted afterwards in order exactly if their level passes the configured level; later messages are filtered by the level in force.", "quantifier": "all sequences of log calls and level changes", "why_tests_cant": "All sequences.", "anchors": ["src/logger.rs: SandboxLogger"]}
{"id": "C57", "title": "storage paths cannot inject overlay mount options", "statement": "If the storage path check accepts, the option string passed to the kernel parses back to exactly the intended lowerdir, upperdir and workdir.", "quantifier": "all storage paths, sandbox names and mount points", "why_tests_cant": "All strings.", "anchors": ["src/util/mount.rs: check_path_for_mount_option_compatibility", "src/sandbox/mount_overlays.rs: mount_overlays"]}
{"id": "C58", "title": "tilde expansion", "statement": "A leading '~' alone or '~/' is replaced by the user's home directory; every other path, including '~user', is unchanged.", "quantifier": "all paths and homes", "why_tests_cant": "All strings.", "anchors": ["src/util/expand_tilde.rs: expand_tilde_path"]}
{"id": "C59", "title": "storage directory choice", "statement": "The storage directory used is the first candidate (explicit one only, or ~/.sandboxes then /tmp/sandboxes-UID) that lies on an acceptable file system; if it cannot be created or is owned by someone else the command fails.", "quantifier": "all mount tables and candidates", "why_tests_cant": "All mount tables.", "anchors": ["src/config/resolve.rs: resolve_sandbox_storage_dir", "src/util/mkdir.rs: mkdir"]}
{"id": "C60", "title": "JSON status reflects success", "statement": "With --json exactly one JSON object is printed; its status is success exactly when the action succeeded, an error carries the message and the exit code is non-zero.", "quantifier": "all actions and sequences of recorded outputs", "why_tests_cant": "All sequences of outputs.", "anchors": ["src/main.rs: main", "src/util/output.rs"]}
{"id": "C61", "title": "stop with patterns stops exactly the matching sandboxes", "statement": "`sandbox stop PATTERNS` leaves no process of a running sandbox whose name contains a match of one of the patterns (of any sandbox if no pattern is given), kills no other process, and changes nothing in the storage directory but the pid files of those sandboxes.", "quantifier": "all storage directories, process tables and patterns", "why_tests_cant": "All storage contents, process tables and patterns.", "anchors": ["src/actions/stop.rs: stop_all"]}
{"id": "C62", "title": "a command that dies does not block later commands", "statement": "The lock of a sandbox is released when the command holding it ends, however it ends, so that a later command on the same sandbox is not blocked by it.", "quantifier": "all interleavings, all points at which a process is killed", "why_tests_cant": "Kill points and interleavings.", "anchors": ["src/util/lock_sandbox.rs: Lock::sandbox", "src/sandbox/get_or_create.rs: start_sandbox"]}
{"id": "C63", "title": "status output says exactly what changed", "statement": "Every line of `status` names the kind of change and the path(s) it concerns, relative to the current directory or absolute; two different sets of changes (or numbers of changes outside the current directory) never print the same text, and the JSON output determines kind, paths and stored file of every change.", "quantifier": "all sandboxes, host trees and current directories", "why_tests_cant": "All sets of changes and all file names.", "anchors": ["src/actions/status.rs: status", "src/sandbox/changes/change_entries.rs: ChangeEntry"]}
{"id": "C64", "title": "the numbers in the question before deletion", "statement": "`delete` asks with the number of stored entries and of ignored ones: each stored non-directory is counted exactly once, in the first number if `status` examines it and in the second otherwise; if both are 0 nothing is lost. The line for a sandbox cannot be mistaken for the line of another sandbox, state or other numbers.", "quantifier": "all storage trees and ignore rules", "why_tests_cant": "All storage trees and ignore files.", "anchors": ["src/sandbox/changes/changes.rs: count_upper_entries", "src/actions/delete.rs: delete"]}
{"id": "C65", "title": "`sandbox config` shows the settings in force", "statement": "`sandbox config KEY` prints exactly the value of that setting that the other commands will use, several keys are printed one `key=value` line each in the order asked, no key means all settings once each, an unknown key is an error naming it, --json gives the same values, the binds shown can be passed to --bind again and mean the same binds, and upper_cwd is the directory where changes to the current directory are stored.", "quantifier": "Every resolved configuration, mount table and list of keys.", "why_tests_cant": "The keys, bind lists and mount tables are unbounded and combinations decide whether the text is unambiguous.", "anchors": ["src/actions/config.rs: config", "src/config/resolve.rs: resolve_config"]}
{"id": "C66", "title": "A command runs with exactly the words, directory, ids, environment and namespaces promised", "statement": "A command started in a sandbox gets exactly the words given on the command line, the current directory of the caller, only the ids of the user, the caller's environment with SANDBOX and SANDBOX_STORAGE_DIR set, all namespaces of the sandbox (the network of the host only if asked for), and SANDBOX_STORAGE_DIR names a directory that exists inside; and whenever the sandbox runs and the directory exists inside, the command is started.", "quantifier": "Every caller process (ids, environment, directory), sandbox and list of words.", "why_tests_cant": "Environment contents and argument vectors are unbounded; one bad variable or word must not change the others or prevent the start.", "anchors": ["src/sandbox/exec.rs: exec", "src/main.rs: main", "src/config/cli.rs: validate_command", "src/util/drop_privileges.rs"]}
{"id": "C68", "title": "commands in the sandbox change the host only where the user allowed it", "statement": "Whatever commands do inside a sandbox, the only host paths that change are those at or below the source of a read-write bind (requested, or a default one) and the sandbox's own data directory; every other change lands in the storage of one of the overlaid mounts.", "quantifier": "all configurations, mount tables and sequences of changes made by processes in the sandbox", "why_tests_cant": "Sequences of actions and configurations are unbounded.", "anchors": ["src/sandbox/get_or_create.rs: start_sandbox", "src/sandbox/mount_overlays.rs: mount_overlays", "src/config/resolve.rs: resolve_bind_mounts"]}
{"id": "C69", "title": "starting leaves exactly the intended mounts", "statement": "After start-up the mount table of the sandbox is exactly: the overlays (root first), the private system mounts, then the binds in order; nothing of the host's mounts, the staging area or the old root is left. An accepted configuration can be started.", "quantifier": "all host mount tables, mounts and binds", "why_tests_cant": "All mount tables and bind lists.", "anchors": ["src/sandbox/get_or_create.rs: start_sandbox"]}
{"id": "C70", "title": "/proc and /sys in the sandbox are private, masked and read-only", "statement": "Below /proc a command sees the sandbox's own processes, below /sys a read-only sysfs or cgroup tree; the sensitive paths of the usual container list are hidden and the kernel interfaces (/proc/sys, …) are read-only, unless a bind puts something else there.", "quantifier": "all paths, mounts, binds and machines", "why_tests_cant": "All paths below /proc and /sys and all bind lists.", "anchors": ["src/sandbox/get_or_create.rs: start_sandbox, mask_path, readonly_path"]}
{"id": "C71", "title": "status reports every difference between the sandbox and the host, and only those", "statement": "With everything selected and `--ignored`, whatever a process in the sandbox sees differently from the host is listed by `sandbox status`: gone paths as removals; new paths and paths of other type, content, owner, group or mode as creations or modifications. Conversely each listed creation or modification is what the sandbox sees at that path, and at each listed removal the sandbox no longer sees the host's file.", "quantifier": "all host and storage trees, all mounts and paths", "why_tests_cant": "The view is a recursive merge of two arbitrary trees; all of them are covered.", "anchors": ["src/sandbox/changes/changes.rs: changes", "src/actions/status.rs: status"]}
{"id": "C72", "title": "Starting a sandbox changes nothing on the host outside its own places", "statement": "Starting a sandbox, whether it succeeds, fails or is killed at any point, creates only the storage directory and the sandbox's own directories and files and changes nothing else on the host; all that was stored for the sandbox before, its changes included, is still there unchanged, except for the pid file and the settings.", "quantifier": "Every host file system, sandbox storage, mount table, owner and crash point.", "why_tests_cant": "The contents of the storage and of the host, and the point where the start is interrupted, are arbitrary.", "anchors": ["src/util/mkdir.rs: mkdir", "src/sandbox/get_or_create.rs: get_or_create, start_sandbox", "src/sandbox/mount_overlays.rs: mount_overlays", "src/sandbox/settings.rs: save_to_file"]}
{"id": "C73", "title": "A stopped sandbox can be started again", "statement": "A sandbox can be started for the first time wherever its directory can be made, and a sandbox that has been stopped, or whose start was interrupted, can be started again with its stored changes, whatever was changed inside it; its layer directories have the owners of the mounts' directories.", "quantifier": "Every storage left behind by an earlier start, whatever commands ran in the sandbox, and every host.", "why_tests_cant": "The histories of changes and interruptions between two starts are unbounded.", "anchors": ["src/util/mkdir.rs: mkdir", "src/sandbox/mount_overlays.rs: mount_overlays", "src/sandbox/get_or_create.rs: get_or_create"]}
{"id": "C74", "title": "A new sandbox looks exactly like the host", "statement": "In a sandbox without stored changes every path of an overlaid mount shows the same file or directory, with the same attributes, as on the host.", "quantifier": "Every host, every mount and every path below it.", "why_tests_cant": "Host file systems and depths of paths are unbounded.", "anchors": ["src/sandbox/mount_overlays.rs: mount_overlays", "src/util/mkdir.rs: mkdir"]}
{"id": "C75", "title": "diff shows the difference between the host file and the sandbox file", "statement": "For every regular file that differs between the host and the sandbox's view, `sandbox diff` compares exactly the host's content (nothing if there is none) with the content seen in the sandbox (nothing if it is gone), and prints the lines of that comparison unchanged except that the storage path is replaced by the sandbox's name.", "quantifier": "all host and storage trees, all contents", "why_tests_cant": "Contents, trees and links are arbitrary.", "anchors": ["src/actions/diff.rs: diff"]}
{"id": "C76", "title": "no program chosen by the caller runs with more rights than the caller", "statement": "Every program that sandbox starts either has only the caller's user and group ids for good, or is not chosen by the caller.", "quantifier": "all commands, environments, file systems and system call sequences", "why_tests_cant": "Any PATH, any program and any sequence of calls it makes.", "anchors": ["src/actions/diff.rs: diff", "src/sandbox/exec.rs: exec", "src/util/drop_privileges.rs: drop_privileges"]}
{"id": "C77", "title": "changes are handled whatever bytes file names consist of", "statement": "If names stored in a sandbox are not valid UTF-8, status, diff, accept, reject and the question of delete still work for all changes.", "quantifier": "all storages with file names of arbitrary bytes, all patterns and settings of --ignored", "why_tests_cant": "names are arbitrary byte strings at any depth; tests use a few text names", "anchors": ["src/sandbox/changes/changes.rs: upper_entries, is_ignored, count_upper_entries, get_source_lower_path_for_upper_path", "src/sandbox/changes/file_details.rs: is_renamed, path_to_cstring"]}
{"id": "C78", "title": "a pattern selects nothing outside the directory it names", "statement": "A pattern given to status, diff, accept or reject selects only changes at or below the directory part of it that is written literally; in particular relative patterns without `..` select only changes at or below the current directory.", "quantifier": "all patterns, current directories, change lists", "why_tests_cant": "all combinations of directory names, patterns and changed paths", "anchors": ["src/sandbox/changes/change_entries.rs: matching"]}
{"id": "C79", "title": "starting a sandbox changes nothing", "statement": "Setting up a sandbox does not add changes to those stored for it and creates nothing on the host, wherever set-up stops: what is made for mounts to be placed on is made only if missing, only on the way to a mount point, bind target or mask, on the host only below an earlier writable bind; and if all these places exist a complete set-up leaves storage and host as they were.", "quantifier": "all configurations of mounts, binds and masks, all storages and hosts, all points at which set-up can stop", "why_tests_cant": "every combination of nested binds, missing places, stored changes and interruption points", "anchors": ["src/sandbox/get_or_create.rs: start_child (lines 353-397, 600-649, 848-886)", "src/util/mkdir.rs: mkdir"]}
{"id": "C80", "title": "files the caller may not read do not influence the program", "statement": "The program runs as root on behalf of its caller. The content of configuration files that the caller may not read has no influence on the configuration it computes, and so neither on what it does nor on what it prints.", "quantifier": "all file systems, contents, permissions, command lines and environments", "why_tests_cant": "a property of pairs of runs: over all contents of all unreadable files", "anchors": ["src/config/resolve.rs: resolve_config, find_config_files (lines 600-660)", "src/util/access.rs: can_access"]}
{"id": "C81", "title": "a sandbox gives no access to files the user has no access to", "statement": "A file of the host that the user of a sandbox can read, write or execute in it, through an overlay or a bind, is one the user can read, write or execute on the host.", "quantifier": "all users, file trees with owners and modes, mounts and binds, all paths", "why_tests_cant": "ranges over all file trees, modes, mount layouts and binds", "anchors": ["src/sandbox/get_or_create.rs: start_child (lines 440-560, 600-649)", "src/sandbox/mount_overlays.rs: mount_overlays", "src/config/resolve.rs: parse_bind_mount"]}
{"id": "C82", "title": "a sandbox gives no additional rights through set-uid programs", "statement": "The user gets the rights of another user by executing a file in a new sandbox only if there is a file on the host by executing which the same rights are got there; and the files on which set-uid programs rely are those of the host.", "quantifier": "all users, file trees, mounts with and without nosuid, binds, paths", "why_tests_cant": "ranges over all file trees, mount flags and binds", "anchors": ["src/sandbox/mount_overlays.rs: mount_overlays (lines 92-101)", "src/sandbox/get_or_create.rs: start_child (lines 399-416, 501-561, 651-846)", "src/sandbox/exec.rs"]}
{"id": "C83", "title": "what is masked cannot be seen at all", "statement": "What is on the host at or below a masked path has no influence on what any process in the sandbox sees at any path, under its own name or another.", "quantifier": "all hosts, storages, mounts, masks and binds, all paths, all contents at the masked path", "why_tests_cant": "a property of pairs of hosts, over all paths and all histories of the storage", "anchors": ["src/sandbox/get_or_create.rs: start_child (lines 440-560, 848-900)", "src/sandbox/mount_overlays.rs: mount_overlays"]}
{"id": "C84", "title": "working in a sandbox and accepting is working on the host", "statement": "For every sequence of file operations done in a new sandbox: the host is untouched; a process in the sandbox sees at every path what would be on the host if the same operations had been done there directly; and if then everything is accepted, the host is in exactly that state.", "quantifier": "all hosts, mount sets, finite sequences of operations (create, write, replace, chmod, chown, mkdir, rmdir, unlink, failing ones included), all paths", "why_tests_cant": "over all histories and all hosts: the storage that arises (whiteouts, opaque directories, copied-up parents) depends on the whole history", "anchors": ["src/sandbox/changes/changes.rs: Sandbox::changes", "src/actions/accept.rs: accept", "src/sandbox/mount_overlays.rs: mount_overlays (lines 84-101)"]}
{"id": "C85", "title": "accept succeeds exactly when the selected changes can be carried out", "statement": "Accept reports success if and only if the selected changes fit together with the host: a removed directory is removed with all its content, only files, directories and links are removed, nothing created or changed is put into a directory that is not there, and files and directories are not exchanged without a removal. In particular accepting everything succeeds whenever what is stored and hidden are files, directories and links.", "quantifier": "all hosts, storages, selections and enumeration orders", "why_tests_cant": "success depends on the order in which three passes carry out an arbitrary set of changes; tests cover single sets", "anchors": ["src/actions/accept.rs: accept", "src/sandbox/changes/changes.rs: Sandbox::changes", "src/sandbox/changes/change_entries.rs: matching"]}
{"id": "C86", "title": "accept gives a user no rights he does not have", "statement": "A user without privileges runs the set-uid program: whatever commands he runs in a new sandbox, accepting the changes leaves the host exactly as if he had run them on the host with his own rights; in particular files and directories that he can neither write nor own, below directories he cannot change, keep content, owner and mode.", "quantifier": "all users (ids and groups), hosts, mounts, modes and owners, and all histories of operations in the sandbox, permitted or not", "why_tests_cant": "The rights of every user on every file after every sequence of operations.", "anchors": ["src/actions/accept.rs: accept, set", "src/sandbox/exec.rs: exec", "src/sandbox/mount_overlays.rs: mount_overlays", "src/util/mkdir.rs: mkdir"]}
{"id": "C87", "title": "Accept never makes set-uid programs of other users", "statement": "At every moment while `accept` runs, and however it is interrupted, every set-uid or set-gid file on the host was there before (same content, owner, group and mode) or has the content, owner and group of a file in the sandbox.", "quantifier": "all hosts, storages, selections, and all points at which accept can be observed, stopped or killed", "why_tests_cant": "The dangerous states exist only between two system calls and are gone when the command ends; a test sees the end.", "anchors": ["src/actions/accept.rs: accept (lines 303-312), set_permissions, cp"]}
{"id": "C88", "title": "Accept and other programs do not disturb each other", "statement": "While `accept` runs, other programs may write, create and remove files elsewhere on the host at any moment. Accept then ends with the same result and leaves the same storage as if it were alone, the host gets exactly what accept alone would have given it, and nothing the other programs did is lost or redirected to other places.", "quantifier": "all hosts, storages, selections, all writes of other programs and all ways in which they fall between the system calls of accept", "why_tests_cant": "The result depends on the interleaving of accept with other processes, of which a test sees a few at most.", "anchors": ["src/actions/accept.rs: accept, cp, mv, mkdir, rm, rmdir, ln, set_permissions"]}
{"id": "C89", "title": "Moving directories in a sandbox is moving them on the host", "statement": "A user who works in a sandbox, moving and renaming directories of the host among other operations, sees at every moment what would be on the host if the same commands had been run there; meanwhile the host does not change; and if everything is accepted, the host ends up as if the same commands had been run on it.", "quantifier": "all hosts, sets of mounts, all histories of file operations and directory moves of any length", "why_tests_cant": "A history can nest moves, deletions and re-creations in unbounded combinations; tests show a few.", "anchors": ["src/sandbox/mount_overlays.rs: mount_overlays (redirect_dir=on)", "src/sandbox/changes/entries.rs", "src/actions/accept.rs: accept"]}
{"id": "C90", "title": "A command never runs outside its own sandbox", "statement": "When `sandbox --name N CMD` runs CMD, it runs in the namespaces of a process that was started as the first process of sandbox N and has finished its set-up; never in those of the host or of another process.", "quantifier": "all interleavings of starts, stops, failures, deaths of processes, restarts of the machine and re-use of process numbers; all contents of the storage", "why_tests_cant": "Histories over restarts of the machine and re-used process numbers are out of reach for tests.", "anchors": ["src/sandbox/get_or_create.rs: get, get_or_create", "src/util/get_running_sandbox_pid.rs", "src/sandbox/exec.rs: exec"]}
{"id": "C91", "title": "list and stop work whatever files are called", "statement": "Whatever bytes the names of the files in the storage directory consist of, `list`, and `stop` and `delete` with patterns, see exactly the lock files, and files with other names make no difference.", "quantifier": "all lists of file names of arbitrary bytes, all patterns, machines and failures", "why_tests_cant": "names are arbitrary byte strings; tests use text", "anchors": ["src/actions/list.rs: get_sandboxes", "src/actions/stop.rs: stop_all"]}
{"id": "C92", "title": "names are completed to existing sandboxes", "statement": "Completing `--name TEXT` offers exactly the complete sandboxes in the storage directory whose names begin with the text.", "quantifier": "all storage directories, all file names of arbitrary bytes and all texts typed so far", "why_tests_cant": "all directories and byte strings", "anchors": ["src/config/cli.rs: sandbox_name_completion"]}
{"id": "C93", "title": "Settings written at a start are the ones compared when the sandbox is entered", "statement": "Whatever characters paths, names and bind arguments contain, the settings.json written when a sandbox is started is read by a later invocation as exactly the settings it was started with. Any file that is not UTF-8, not JSON, or does not contain each setting exactly once is an error, and the sandbox is not entered.", "quantifier": "all settings (any texts in them), all contents of settings.json as byte strings", "why_tests_cant": "texts and files are arbitrary strings: escaping of every character, and every way of damaging a file", "anchors": ["src/sandbox/settings.rs: SandboxSettings::save_to_file, load_from_file, validate_against_config", "src/sandbox/get_or_create.rs: get_or_create"]}
{"id": "C94", "title": "--json prints one well-formed JSON text that says what was recorded", "statement": "With --json, once the action has started, standard output is one JSON text (RFC 8259) for an object with different keys, whose values are those the action recorded and its status; a reader gets these values back, whatever characters they contain. In particular the bytes printed by `status --json` determine the listed changes.", "quantifier": "all actions, all recorded values with any characters in them, all storage directories", "why_tests_cant": "values contain arbitrary file names and messages", "anchors": ["src/util/output.rs: print_json_output", "src/main.rs: main", "src/sandbox/changes/change_entries.rs: to_json", "src/actions/status.rs: status"]}
{"id": "C95", "title": "Accept copes with every file name the file system allows", "statement": "Any created, modified or renamed file or directory whose names the file system takes (up to 255 bytes) can be accepted: the temporary names accept makes up next to the destination and in the current directory never stop it half-way. In any case an accept that is stopped this way leaves the host in one of the states in which an interrupted accept may leave it.", "quantifier": "all hosts, storages, selections and file names", "why_tests_cant": "names are arbitrary; the limit is met only at lengths no test uses", "anchors": ["src/actions/accept.rs: accept, cp, mv"]}
{"id": "C96", "title": "What a config file says is in force, or the command fails", "statement": "Every setting written in a config file that is in force takes effect (masks and binds are in effect, the other values unless something more specific overrides them); a file that cannot be read, is not TOML, or gives a setting a value of the wrong kind makes the command fail instead of being skipped. Nothing written in the file is silently ignored.", "quantifier": "all config files as TOML documents, all combinations of files, environment and command line", "why_tests_cant": "documents have any keys and values of any nesting", "anchors": ["src/config/structs.rs: PartialConfig", "src/config/impls.rs: deserialize_level_filter", "src/config/resolve.rs: load_partial, merge_configs"]}
{"id": "C97", "title": "A sandbox shows the file systems of the host", "statement": "Outside /dev, /run, /proc, /sys and bind mounts, every path of a new sandbox shows the file that is seen at that path on the host, whatever file systems are mounted there; below the target of a bind mount, the file seen on the host at the same place below its source. With changes made in the sandbox the rest still shows the host.", "quantifier": "all tables of mounts of the host with all their files, all storage contents, all bind mounts, all paths", "why_tests_cant": "mount tables and trees are unbounded, and the tests run with the mounts of one machine", "anchors": ["src/sandbox/mount_overlays.rs: scan_system_mounts, mount_overlays, determine_mounts", "src/sandbox/get_or_create.rs: setup_sandbox_and_sleep_forever"]}
{"id": "C98", "title": "What a mount of the host forbids stays forbidden", "statement": "A device that cannot be opened and a program that cannot be executed on the host because the file system is mounted with nodev or noexec cannot be used in a sandbox either.", "quantifier": "all mount tables with flags, all bind mounts, all new storages, users, paths", "why_tests_cant": "ranges over all trees, users and flags; the tests mount nothing with such flags", "anchors": ["src/sandbox/mount_overlays.rs: mount_overlays", "src/sandbox/get_or_create.rs: setup_sandbox_and_sleep_forever (bind mounts, MS_REMOUNT)"]}
{"id": "C99", "title": "Any accepted name can be used", "statement": "If a name is accepted as the name of a sandbox, a sandbox of that name can be started; a start that fails because of the name leaves nothing behind.", "quantifier": "all names", "why_tests_cant": "names are unbounded texts, with limits in bytes in two places of the kernel", "anchors": ["src/sandbox/get_or_create.rs: get_or_create, setup_sandbox_and_sleep_forever (sethostname)", "src/util/lock_sandbox.rs: Lock::sandbox", "src/config/resolve.rs: resolve_config"]}
{"id": "C100", "title": "What list prints tells which sandboxes there are and which of them run", "statement": "From the output of list, as text or with --json, a reader can tell exactly which sandboxes exist (among those that match the patterns) and which of them are running; a failed list cannot be taken for an empty one.", "quantifier": "all storage directories, processes, patterns, names", "why_tests_cant": "names are arbitrary texts; the claim is about all pairs of outputs", "anchors": ["src/actions/list.rs: list, get_sandboxes", "src/util/output.rs: print_json_output"]}
{"id": "C101", "title": "A command in a sandbox starts with what the caller gives it", "statement": "A command run in a sandbox has exactly the open files, session, process group, umask and signal dispositions that a program executed directly by the caller would have (missing standard descriptors become /dev/null): nothing of the caller is lost and no descriptor of the tool itself is left open.", "quantifier": "all callers (descriptor tables, dispositions), all choices of descriptor numbers, new and running sandboxes", "why_tests_cant": "All descriptor tables and number choices; what leaks depends on both.", "anchors": ["src/sandbox/exec.rs: exec, pidfd_open", "src/sandbox/get_or_create.rs: start_sandbox", "src/util/lock_sandbox.rs: Lock::sandbox"]}
{"id": "C102", "title": "A running sandbox does not hold on to the caller", "statement": "The process that keeps a sandbox running is detached from the command that started it: own session and process group, and none of the caller's files stay open in it.", "quantifier": "all callers (descriptor tables), all choices of descriptor numbers", "why_tests_cant": "All descriptor tables.", "anchors": ["src/sandbox/get_or_create.rs: start_sandbox, setup_sandbox_and_sleep_forever"]}
{"id": "C103", "title": "Processes that have ended leave a running sandbox", "statement": "Every process of a running sandbox that has ended is eventually collected: something is there that waits for it.", "quantifier": "all histories of processes (commands, forks, ends, waits) in a running sandbox", "why_tests_cant": "All histories of a process table.", "anchors": ["src/sandbox/get_or_create.rs: setup_sandbox_and_sleep_forever", "src/sandbox/exec.rs: exec"]}
{"id": "C104", "title": "The file systems of a sandbox are mounted exactly while it runs", "statement": "While a sandbox runs each of its overlay file systems is mounted exactly once in the host's mount table, and when it does not run none is; stop removes all of them and nothing else, whatever happened before.", "quantifier": "all histories of starts (complete, failing at any mount, failing later), ends of the first process, stops, stop --all and mounts by others; all mount tables", "why_tests_cant": "All histories of a mount table.", "anchors": ["src/sandbox/mount_overlays.rs: mount_overlays", "src/sandbox/get_or_create.rs: get_or_create, start_sandbox", "src/actions/stop.rs: stop, stop_all", "src/sandbox/unmount.rs: unmount", "src/util/get_running_sandbox_pid.rs: get_running_sandbox_pid"]}
{"id": "C105", "title": "A running sandbox keeps running until it is stopped", "statement": "A sandbox that runs is ended only by those who may stop it: no signal of the terminal, no other user and no command that runs in it ends it.", "quantifier": "all callers (signal dispositions, identities), all sequences of signals sent by any processes inside and outside", "why_tests_cant": "All histories of signals.", "anchors": ["src/sandbox/get_or_create.rs: start_sandbox, setup_sandbox_and_sleep_forever", "src/util/drop_privileges.rs: drop_privileges"]}
{"id": "C106", "title": "While changes are accepted the sandbox keeps seeing what it saw", "statement": "Accepting changes moves them from the storage to the host; at no point of this (including interruptions and failures), and not afterwards, does a process in the sandbox see anything but what it saw before, apart from temporary files.", "quantifier": "all storages and hosts, all selections, all points at which accept can be interrupted or fail", "why_tests_cant": "Every intermediate state of every accept.", "anchors": ["src/actions/accept.rs: accept", "src/sandbox/changes/changes.rs: changes", "src/sandbox/mount_overlays.rs: mount_overlays"]}
{"id": "C107", "title": "An interrupted accept can be repeated", "statement": "If accept is interrupted (killed, power loss) or fails half-way, running it again completes the job: the host ends up as after an accept that was not interrupted.", "quantifier": "all storages and hosts, all points of interruption", "why_tests_cant": "Every crash point combined with a second run.", "anchors": ["src/actions/accept.rs: accept", "src/sandbox/changes/changes.rs: changes"]}
{"id": "C108", "title": "After everything was accepted a sandbox follows the host again", "statement": "After everything in a sandbox was accepted successfully the sandbox is like a new one: it shows the host as it is, also what changes there later; no changes are listed, and accepting again changes nothing. A sandbox can so be used again and again, with work on the host in between, as if everything had been done on the host.", "quantifier": "all storages and hosts, all later states of the host, all numbers of rounds of work and accept", "why_tests_cant": "Unbounded sequences of work in the sandbox, accepts and independent changes of the host.", "anchors": ["src/actions/accept.rs: accept", "src/sandbox/changes/changes.rs: changes", "src/sandbox/mount_overlays.rs: mount_overlays"]}
{"id": "C109", "title": "Rejected changes are undone, and nothing else", "statement": "Rejecting changes makes the sandbox show the version of the host again at their paths, and leaves everything else it shows as it was, also if the reject is interrupted or fails. Rejecting everything succeeds and leaves a sandbox like a new one, so that with any sequence of work, accepts and rejects the host ends up as if only the accepted work had been done.", "quantifier": "all storages and hosts, all selections, all points at which a reject is interrupted, all later states of the host, all numbers of rounds", "why_tests_cant": "Every selection of changes of every storage, every interruption point, and unbounded sequences of work, accepts and rejects.", "anchors": ["src/actions/reject.rs: reject", "src/sandbox/changes/changes.rs: changes", "src/sandbox/mount_overlays.rs: mount_overlays"]}
{"id": "C110", "title": "The command line means what the documentation says", "statement": "Every command line is read as options, then either a command with its arguments or an action with further options and patterns in any order; the settings in effect are exactly the options given, options may stand on either side of an action, arguments of a command are never taken for options, every option can be spelled in its documented ways, unknown values, repeated and conflicting options are refused.", "quantifier": "all sequences of words", "why_tests_cant": "The words, their number, their values and the order of the options are unbounded; a test covers a few command lines.", "anchors": ["src/config/cli.rs: Args, Action, validate_command, parse_log_level", "src/main.rs: main"]}
{"id": "C111", "title": "After sync, accept and reject running sandboxes show the new state", "statement": "After `sync`, `accept` or `reject`, a running sandbox shows the files of the host and its storage as they are now, nothing remembered from before; `sync` changes no file.", "quantifier": "all states of host and storage, all sets of remembered earlier states, all changes of the host in between, success and failure", "why_tests_cant": "What a running sandbox shows depends on every state the files were in since the caches were dropped and on which of them each look-up is answered from.", "anchors": ["src/util/sync_and_drop_caches.rs: sync_and_drop_caches", "src/actions/sync.rs: sync", "src/actions/accept.rs: accept", "src/actions/reject.rs: reject"]}
{"id": "C112", "title": "An invocation does what its words say, to the sandbox they name", "statement": "Changes are shown, accepted or rejected, sandboxes listed, stopped or deleted, commands run exactly if the words of the command line say so, with the patterns written and on the sandbox that the options and settings name; `stop --all` ends every running sandbox of the storage directory; reported success means it was done.", "quantifier": "all command lines, settings, environments and identities; all states of the sandboxes", "why_tests_cant": "Every option can stand on either side of the action, be spelled in several ways, and be overridden by the environment and files; the action must be right for all combinations.", "anchors": ["src/main.rs: main", "src/config/cli.rs: Args, Action", "src/actions/stop.rs: stop, stop_all"]}
{"id": "C113", "title": "What commands in the sandbox do while accept or reject runs is not lost", "statement": "Accepting or rejecting changes of a sandbox in which commands are running loses none of their work: what they write, create or remove meanwhile, other than the very changes being accepted or rejected, is in the sandbox afterwards as they left it, and the accept or reject does the same as without them.", "quantifier": "all states of storage and host, all patterns, all commands of the sandbox and all their interleavings with the system calls of accept or reject, successful or not", "why_tests_cant": "The loss depends on which of hundreds of system calls a write falls between; a test exercises one schedule.", "anchors": ["src/actions/accept.rs: accept (no lock, clean-up at 395-424)", "src/actions/reject.rs: reject", "src/util/rmdir_recursive.rs: rmdir_recursive", "src/main.rs: Sandbox::from_location"]}
{"id": "C114", "title": "The storage lies in the host's own file tree, and neither accept nor reject is confused by it", "statement": "The storage of a sandbox is a directory of the host.  Accepting changes alters no file of the storage except the accepted changes themselves, and clearing or rejecting changes alters no file of the host outside the storage.", "quantifier": "all host trees and storages in them, all changes and selections, failing or succeeding", "why_tests_cant": "The places where the storage can lie relative to the accepted changes, and the links in both, are unbounded.", "anchors": ["src/actions/accept.rs: accept", "src/actions/reject.rs: reject", "src/config/cli.rs: storage_dir", "src/util/rmdir_recursive.rs: rmdir_recursive"]}
{"id": "C115", "title": "Files with several names (hard links)", "statement": "A file may have several names on the host or in the sandbox.  Accepting a change to one name leaves every other name of the file as it was: standing for the same file, with the same content, owner and mode; whether names not accepted stand for one file does not change; and under every accepted name accept leaves what the sandbox has there.", "quantifier": "all host trees and storages with any sharing of files between names, all changes and selections, at every point of accept", "why_tests_cant": "Which names share a file is invisible in a listing, and the sharing patterns and interruption points are unbounded.", "anchors": ["src/actions/accept.rs: accept", "src/actions/accept.rs: perform_set_operation", "src/actions/accept.rs: rmdir_recursive"]}
{"id": "C116", "title": "Attributes beyond owner and mode (access control lists, capabilities, labels)", "statement": "Accepting leaves the extended attributes of the host's files alone: a file that is neither accepted nor moved keeps its attributes at every point, a moved file takes them along, a changed directory keeps them; a changed file has after accept the attributes it has in the sandbox, so that nobody has rights that he has neither on the host nor in the sandbox.", "quantifier": "all kinds of attributes, all assignments of attributes to the host's files, all host trees, storages and selections, at every point of accept", "why_tests_cant": "Attributes are invisible in the changes shown; what becomes of them depends on the system calls used for each file and their order.", "anchors": ["src/actions/accept.rs: accept", "src/actions/accept.rs: perform_set_operation", "src/actions/accept.rs: set_permissions"]}
{"id": "C117", "title": "Several accepts of one sandbox at the same time", "statement": "Accepts take no lock. When several accepts of one sandbox run at once (and some are killed, and rejects or deletes clear storage meanwhile), the host never shows a half-written file outside the temporaries, only paths that one of the accepts selected are changed, of two accepts that selected the same change at most one reports success, and once an accept has reported success what it accepted is and stays on the host, and out of the storage.", "quantifier": "all hosts, storages and selections, any number of accepts started at any time, all interleavings of their operations, all points at which one is stopped or fails", "why_tests_cant": "Interleavings of two processes cannot be forced by tests, and their number grows exponentially with the number of changes.", "anchors": ["src/actions/accept.rs: accept", "src/main.rs: main", "src/util/lock_sandbox.rs: lock_sandbox"]}
{"id": "C118", "title": "What is mounted and where is not decided by files of the caller", "statement": "Which file systems a start overlays is decided by the mount table of the host: each is a mount point of the host, stored under the name made from its path. All directories made for them are the sandbox's own places below the storage directory, and each overlay is mounted there, whatever files the caller has put into directories of his.", "quantifier": "all mount tables, hosts, storage directories with and without a settings file, all points at which a start ends", "why_tests_cant": "What a caller can write into his own files, and the links he can make, cannot be enumerated by tests; the program runs as root then.", "anchors": ["src/sandbox/mount_overlays.rs: mount_overlays, determine_mounts, scan_system_mounts", "src/sandbox/settings.rs: load_from_file", "src/util/mkdir.rs: mkdir"]}
{"id": "C119", "title": "Changes are listed correctly while commands run in the sandbox", "statement": "While processes run in the sandbox, status, diff, accept and reject list for every file of the sandbox that is left alone meanwhile exactly its changes; what is listed for the others was there at some moment, and the command does not fail because of them. Accepting such a list loses nothing that the host or the sandbox has.", "quantifier": "all storages and hosts, all sequences of writes by commands in the sandbox, placed anywhere between the steps of the scan, all orders of the walk", "why_tests_cant": "Which writes fall between which steps of the scan cannot be controlled by a test.", "anchors": ["src/sandbox/changes/changes.rs: changes, upper_entries, is_ignored", "src/sandbox/changes/file_details.rs: from_path, is_renamed, is_opaque, is_removed", "src/actions/accept.rs: accept"]}
{"id": "C120", "title": "Accepting in steps comes to the same as accepting at once", "statement": "However much of the changes is accepted at a time: a process in the sandbox keeps seeing what it saw, what is left can still be accepted, and when everything has been accepted the host is the same as if it had been accepted at once; nothing accepted earlier is undone.", "quantifier": "all storages and hosts, all sequences of selections", "why_tests_cant": "Exponentially many selections, in sequences of any length.", "anchors": ["src/actions/accept.rs: accept", "src/sandbox/changes/changes.rs: changes", "src/sandbox/changes/change_entries.rs: matching"]}
{"id": "C121", "title": "Rejecting what is not wanted and accepting the rest is accepting what is wanted", "statement": "Rejecting changes and then accepting everything that is left has the same effect on the host as accepting only the changes that were not rejected: the same changes are listed, the same files result, and the one succeeds if the other does.", "quantifier": "all storages and hosts, all selections to reject and to accept", "why_tests_cant": "Exponentially many pairs of selections; the list of changes is computed anew after the reject.", "anchors": ["src/actions/reject.rs: reject", "src/actions/accept.rs: accept", "src/sandbox/changes/changes.rs: changes"]}
