#!/usr/bin/env python3
"""Generates properties.jsonl (kept as a script so the list stays easy to edit)."""
import json
P = []
def p(title, statement, quantifier, why, anchors):
    P.append(dict(id="C%02d" % (len(P)+1), title=title, statement=statement,
                  quantifier=quantifier, why_tests_cant=why, anchors=anchors))

# ---- accept / changes core
p("accept of everything reproduces the sandbox's view on the host",
  "If every change in the sandbox is selected and `sandbox accept` succeeds, then every path on the host has exactly the type, content, owner and mode that a process inside the sandbox saw at that path before the accept, and paths the sandbox saw as missing are missing on the host; nothing else changes.",
  "all host trees, all overlayfs upper trees (whiteouts, opaque directories, type changes, renames), all directory enumeration orders",
  "The interaction of whiteouts, opaque directories, type changes and renames has unboundedly many shapes; tests only try a few trees.",
  ["src/actions/accept.rs: accept", "src/sandbox/changes/changes.rs: Sandbox::changes"])
p("accept checks everything before touching anything",
  "If the selected changes contain an unsupported file type, a rename whose origin is missing, a removal of a special file, a removal without an existing source, or a rename that crosses a mount point, `sandbox accept` fails and neither the host nor the sandbox storage has been modified.",
  "all host and upper trees, all selections, all positions of the offending entry in the list",
  "The offending entry may be at any position of an arbitrary change list; tests put it at one position.",
  ["src/actions/accept.rs: accept (pretend pass)"])
p("accept only modifies selected host paths",
  "Whatever happens (success, error, or a crash after any system call), `sandbox accept PATTERNS` leaves every host path unchanged except destinations and sources of selected changes, paths below a selected rename, and its own temporary names.",
  "all states, all selections, all prefixes of the executed system calls",
  "Quantifies over every stopping point and every path not mentioned by the selection.",
  ["src/actions/accept.rs: accept"])
p("accepted regular files are replaced atomically",
  "At every instant during `sandbox accept`, including after a crash, a host path that is the destination of an accepted regular file holds either its complete old content or the complete staged content, never a truncated or mixed file.",
  "all crash points of the accept run, including in the middle of the file copy",
  "A test cannot stop the process at every instruction of every run.",
  ["src/actions/accept.rs: cp, mv, accept (Set on files)"])
p("no staged change is lost before it has been applied",
  "Until all selected changes have been applied to the host, accept never deletes anything from the sandbox storage; so after a failure or crash before the clean-up phase every change is still available in the sandbox.",
  "all states, all failing operations, all crash points",
  "Failure can strike at any operation of an arbitrary plan.",
  ["src/actions/accept.rs: deferred_stage_removals"])
p("accept never discards changes that were not selected",
  "After a successful `sandbox accept PATTERNS`, every change that was not selected (not matched by the patterns, or hidden by ignore rules) is still present in the sandbox.",
  "all upper trees and all selections",
  "Depends on which subset of an arbitrary tree is selected; exponentially many subsets.",
  ["src/actions/accept.rs: deferred_stage_removals, rmdir_recursive"])
p("accept's numbers add up",
  "On success the number printed as accepted is the number of actionable selected changes (those `status` would list), and accepted + 'external or non-matching' equals the number of actionable changes in the whole sandbox.",
  "all change lists and selections",
  "Counting is spread over three loops with different filters; equality must hold for all lists.",
  ["src/actions/accept.rs: accepted_count", "src/sandbox/changes/change_entries.rs: count_actionable_changes, calculate_non_matching_count"])
p("accepting removals deletes whole trees, children first",
  "Accepting a set of removals that contains, with every directory, everything below it, always succeeds on an unchanged host, removes exactly those paths and keeps every other path, whatever order the file system enumerated them in.",
  "all trees, all enumeration orders, all removal sets closed under descendants",
  "Depends on the enumeration order returned by the OS and on arbitrary depth.",
  ["src/actions/accept.rs: accept (Process removes)", "src/sandbox/changes/changes.rs: by_reverse_source"])
p("accepted entries get the staged owner and mode",
  "After accepting a created or modified file or directory its owner, group and full permission bits (including setuid, setgid and sticky) equal those staged in the sandbox; for symlinks owner and group do.",
  "all modes and owners, all node kinds, any previous node at the destination",
  "The kernel clears setuid bits on chown, so the order of the calls matters for modes tests do not try.",
  ["src/actions/accept.rs: set_permissions, chown, chmod"])
p("whiteouts are recognised exactly",
  "A path in the sandbox storage is treated as deleted exactly when it is a 0:0 character device or carries the overlay whiteout attribute.",
  "all device numbers, all file types",
  "There are 2^64 device numbers; the decoding uses masks.",
  ["src/sandbox/changes/file_details.rs: FileDetails::is_removed"])
p("deleting or replacing a symlink affects the link only",
  "Accepting the removal or replacement of a symlink removes or replaces just the link; nothing at or below its target changes.",
  "all link targets, including links to directories and dangling links",
  "Whether path queries follow links depends on where the link points.",
  ["src/sandbox/changes/changes.rs: Sandbox::changes (source_path.is_dir, WalkDir, exists)"])
p("special files are never copied to the host",
  "Devices, FIFOs and sockets created in the sandbox are reported as errors, are never turned into a create/modify change, and make an accept that selects them fail without side effects.",
  "all upper trees",
  "Holds for every file type and position.",
  ["src/sandbox/changes/changes.rs: Sandbox::changes", "src/actions/accept.rs"])
p("renamed directories are moved, never deleted",
  "If a directory was renamed in the sandbox, accepting never deletes the directory's host content that is still visible under the new name.",
  "all upper trees with renames, including re-creation of the old name",
  "Arbitrary combinations of renames and re-creations of the old name.",
  ["src/sandbox/changes/changes.rs: renamed_paths"])
p("sets of renames are applied simultaneously",
  "Accepting any set of independent renames (including swaps and cycles, where destinations are other renames' sources) moves each source subtree to its destination with all its content, and changes nothing else.",
  "all sets of pairwise independent renames, any number, swaps and cycles included",
  "Cycles and chains of any length; tests try one shuffle.",
  ["src/actions/accept.rs: accept (pre-move to temporary names, completing renames)"])
p("the origin shown for a moved path is the one the sandbox sees",
  "For each path of the sandbox storage the host source used by status/diff/accept is the host path overlayfs itself merges there: following the nearest redirect upwards, else the same path; missing if the host path does not exist.",
  "all upper trees with absolute and relative redirects at any depth",
  "Redirects can be nested arbitrarily.",
  ["src/sandbox/changes/changes.rs: get_source_lower_path_for_upper_path"])
p("status lists every actionable change exactly once",
  "`sandbox status` lists each selected change that is an error, a removal, a rename, or an actual modification exactly once and nothing else; the JSON output contains the same entries in the same order.",
  "all change lists and selections",
  "Four passes with different filters over re-sorted lists; equality must hold for all lists.",
  ["src/actions/status.rs: status"])
p("reject never touches the host",
  "`sandbox reject` with any patterns leaves every host file unchanged and removes from the sandbox storage only staged paths of selected changes, even if it fails half-way.",
  "all states, selections and failure points",
  "Quantifies over all failure points and selections.",
  ["src/actions/reject.rs: reject"])
p("a complete rejection succeeds and removes every selected change",
  "If everything below each selected staged directory is selected too, reject succeeds, removes all selected staged paths (each exactly once, children first), and keeps all others.",
  "all upper trees, closed selections, enumeration orders",
  "Duplicate staged paths and directory nesting of any depth.",
  ["src/actions/reject.rs: reject", "src/sandbox/changes/changes.rs: by_staged_descending"])
p("diff never crashes",
  "`sandbox diff` terminates without panicking on every sandbox state that `sandbox status` can list.",
  "all upper and host trees",
  "Panic paths depend on tree shapes tests did not include.",
  ["src/actions/diff.rs: diff"])

# ---- selection
p("without patterns exactly the changes below the current directory are selected",
  "`status`, `diff`, `accept` and `reject` without patterns operate on exactly the changes whose path lies strictly below the current directory (component-wise, not as a text prefix).",
  "all current directories and all change lists",
  "Prefix bugs show up only for particular names (siblings with a common prefix, the root directory).",
  ["src/sandbox/changes/change_entries.rs: ChangeEntries::matching"])
p("a directory pattern selects its subtree and no sibling",
  "A pattern naming a directory (absolute, relative, or containing '..') that has changes below it selects exactly the changes strictly below that directory; siblings sharing a name prefix are not selected.",
  "all directories, change lists and current directories",
  "Names with common prefixes; arbitrary '..' sequences.",
  ["src/sandbox/changes/change_entries.rs: ChangeEntries::matching"])
p("selection is a union and preserves order",
  "The selected changes are a sub-sequence of all changes; adding a pattern never unselects a change; the selection for several patterns is the union of the selections for each.",
  "all change lists and pattern lists",
  "For all lists of patterns.",
  ["src/sandbox/changes/change_entries.rs: ChangeEntries::matching"])

# ---- ignore rules
p("ignore decision follows the last matching rule of the deepest file",
  "A change that no built-in rule hides is hidden exactly when the last rule, in order from the outermost directory's ignore files to the innermost, that matches its path relative to that directory is not a negation.",
  "all paths, all ignore file contents at all levels",
  "Any number of nested ignore files and rules.",
  ["src/sandbox/changes/changes.rs: Sandbox::is_ignored"])
p("built-in ignores cannot be re-included",
  "A path matched by a built-in rule (for example anything below /tmp or a .git directory) is hidden whatever the ignore files say, and shown with --ignored.",
  "all paths and ignore files",
  "All ignore file contents.",
  ["src/sandbox/changes/changes.rs: BUILT_IN_IGNORE_PATTERNS, is_ignored"])
p("ignore rules only hide changes and --ignored shows all",
  "The change list without --ignored is a sub-sequence, entry for entry, of the raw scan with --ignored; with --ignored no path of the sandbox storage is skipped (except undecodable mount names and mount roots).",
  "all upper trees and ignore files",
  "All trees and rules.",
  ["src/sandbox/changes/changes.rs: upper_entries"])
p("ignore files in the sandbox shadow the host's",
  "For each directory and each of .gitignore and .ignore, the rules come from the sandbox's copy if it exists there and from the host's copy otherwise, .gitignore rules before .ignore rules.",
  "all file contents and presence combinations",
  "All contents.",
  ["src/sandbox/changes/changes.rs: resolve_ignores"])
p("rule caching does not change the outcome",
  "The outcome of the ignore decision for a path does not depend on which other paths were examined earlier in the same scan.",
  "all histories of earlier queries",
  "Histories are unbounded; the cache key omits part of the input.",
  ["src/sandbox/changes/changes.rs: is_ignored (resolved_ignores)"])
p("ignore lines mean what gitignore says",
  "Blank lines and comments add no rule; '!' negates and '\\!' does not; a pattern without a slash applies at every depth and one starting with '/' only at its directory; a literal name hides the item and everything below it; a trailing '/' hides what is below the directory.",
  "all lines",
  "All strings.",
  ["src/sandbox/changes/changes.rs: parse_ignore_content"])

# ---- storage layout / mounts
p("mount directory names round-trip",
  "The storage directory name of a mount point determines the mount point: decoding the encoded name gives the original path for every path, two mount points never share a name, and the name is a valid single path component.",
  "all byte strings",
  "All byte strings of all lengths, including each residue modulo 5.",
  ["src/sandbox/mount_overlays.rs: scan_system_mounts", "src/sandbox/changes/changes.rs: upper_entries"])
p("every storage path is attributed to the right host path",
  "A path stored under the directory of mount point M with relative path R is reported as host path M/R, and distinct stored paths of one mount are reported as distinct host paths.",
  "all mount points and relative paths",
  "All paths.",
  ["src/sandbox/changes/changes.rs: upper_entries"])
p("mounts are set up parents first and never include the sandbox itself",
  "The list of mounts overlaid contains '/' if it is mounted and every mount of an accepted type outside the sandbox's own directory and nothing else, each with its own name, ordered so that a mount point always precedes mount points below it.",
  "all mount tables",
  "All tables.",
  ["src/sandbox/mount_overlays.rs: scan_system_mounts"])
p("stop and delete unmount only this sandbox's mounts, innermost first",
  "The mounts unmounted are exactly those at or below the sandbox's directory (never those of a sandbox whose name merely starts with the same text), and nested mounts are unmounted before the mounts containing them.",
  "all mount tables and sandbox names",
  "All tables; names with common prefixes.",
  ["src/util/mounts.rs: get_mounts", "src/sandbox/unmount.rs: unmount"])
p("the mount point of a path is found correctly",
  "find_mount_point returns an existing ancestor-or-self of the path (or of its nearest existing ancestor) such that no directory between differs in device, and which is '/' or whose parent is on another device.",
  "all trees, device assignments and absolute paths",
  "All trees.",
  ["src/util/find_mount_point.rs: find_mount_point"])

# ---- configuration
p("option precedence: command line, environment, files, default",
  "For log level, name, storage directory, network, ignored and no-default-binds the effective value is the command line's if given, else the environment's, else that of the most specific config file that sets it, else the default; and the recorded source names the layer the value came from.",
  "all combinations of layers and any number of config files",
  "2^4 combinations per option times any number of files.",
  ["src/config/resolve.rs: resolve_config, load_partial, merge_configs"])
p("more specific config files override less specific ones",
  "Config files are read in the order /etc, ~/.config/sandbox, then from the outermost relevant directory to the current directory; directories above the home directory are not consulted when inside it; --no-config reads none; --config reads exactly the given files in order.",
  "all current directories and home directories",
  "All depths.",
  ["src/config/resolve.rs: find_config_files, load_partial"])
p("bind requests are additive and conflicts are rejected",
  "Every bind or mask requested by any layer is in effect; two requests for one target with different source or options are always an error; otherwise each target occurs exactly once.",
  "all lists of requests from all layers",
  "All lists, all duplicates.",
  ["src/config/resolve.rs: resolve_config (bind handling)"])
p("bind syntax source[:target[:options]]",
  "A bind string is split at its first two colons; an empty or missing target means the source path; missing or empty options mean read-write; 'ro' and 'mask' mean read-only and mask; any other option text is an error.",
  "all strings",
  "All strings.",
  ["src/config/resolve.rs: parse_bind_mount", "src/config/structs.rs: BindMountOptions::from_str"])
p("a mask request never turns into a readable mount",
  "For every path string given to --mask, SANDBOX_MASK or the config file's mask list, the result is either an error or a mount with the mask option on exactly that path.",
  "all path strings, including ones containing colons",
  "All strings.",
  ["src/config/resolve.rs: resolve_config", "src/config/resolve.rs: parse_bind_mount"])
p("masked paths are hidden whatever else is mounted",
  "If a path is masked, a process in the sandbox sees the mask at that path, regardless of which other binds are configured and in which order they are applied.",
  "all bind configurations and all orders in which a hash map may enumerate them",
  "The order comes from a randomly seeded hash map.",
  ["src/config/resolve.rs: resolve_config (target_map)", "src/sandbox/get_or_create.rs: setup_sandbox_and_sleep_forever"])
p("no network unless asked for",
  "A new sandbox shares the host network namespace only if the command line, the environment or a config file asked for net=host; otherwise it gets its own network namespace and no D-Bus or systemd socket is bound by default.",
  "all configurations",
  "All layers and files.",
  ["src/config/resolve.rs: resolve_config, get_default_bind_mounts", "src/sandbox/get_or_create.rs: start_sandbox"])
p("a sandbox lives strictly inside the storage directory",
  "For every sandbox name the tool accepts, the sandbox's directory is a direct child of the storage directory, so that deleting the sandbox cannot delete the storage directory, other sandboxes or anything outside it.",
  "all names",
  "All strings.",
  ["src/config/resolve.rs: validate_config", "src/sandbox/get_or_create.rs: from_location", "src/sandbox/delete.rs: delete"])
p("different sandboxes use different files",
  "Two sandboxes with different names share no data directory, lock file or pid file.",
  "all pairs of names",
  "All pairs.",
  ["src/util/lock_sandbox.rs", "src/util/get_running_sandbox_pid.rs: get_sandbox_pid_path", "src/sandbox/get_or_create.rs: from_location"])
p("--new picks an unused name and --last the newest sandbox",
  "--new never selects the name of an existing sandbox; --last selects an existing sandbox such that none was created later; both are rejected when a name is set in the environment or a config file.",
  "all storage contents and clock sequences",
  "All contents and clock values.",
  ["src/config/resolve.rs: generate_timestamp_name, find_last_sandbox, resolve_config"])
p("joining a running sandbox requires identical settings",
  "Entering a running sandbox succeeds exactly when network, mounts and binds equal the ones it was started with, independent of the order in which binds are listed.",
  "all pairs of configurations, all orders",
  "All permutations of all bind lists.",
  ["src/sandbox/settings.rs: validate_against_config", "src/sandbox/get_or_create.rs: get_or_create"])

# ---- processes
p("one process at a time manages a sandbox",
  "At any time at most one process is between acquiring and releasing the lock of a given sandbox name.",
  "all interleavings of any number of processes running start, stop, delete",
  "Interleavings.",
  ["src/util/lock_sandbox.rs: Lock::sandbox", "src/sandbox/delete.rs: delete"])
p("concurrent starts share one sandbox",
  "If several processes concurrently run a command in a sandbox of the same name, exactly one starts it and all of them enter that same instance.",
  "all interleavings, any number of processes",
  "Interleavings.",
  ["src/sandbox/get_or_create.rs: get, get_or_create"])
p("stop kills exactly the sandbox's processes",
  "Stopping a running sandbox kills every process in its pid namespace and no other process, and removes its pid file.",
  "all process tables",
  "All process tables, including reused pids.",
  ["src/sandbox/stop.rs: stop", "src/util/get_running_sandbox_pid.rs"])
p("a sandbox is reported as started only when it is ready",
  "Starting a sandbox succeeds only if its init process reported that set-up completed.",
  "all behaviours of the init process (report ready, report failure, die)",
  "Requires the child to die at arbitrary points.",
  ["src/sandbox/get_or_create.rs: start_sandbox"])
p("a setuid invocation cannot choose its identity",
  "When run setuid root the identity used is the real uid/gid whatever environment variables say; when run by root it is the SUDO_UID/SUDO_GID given; malformed values are errors.",
  "all environments and credential triples",
  "All environments.",
  ["src/util/resolve_uid_gid_home.rs: resolve_uid_gid_home"])
p("sandboxed commands run unprivileged for good",
  "After privileges are dropped the real, effective and saved uid and gid are the invoking user's, no sequence of set*id calls regains root, and no root supplementary group is retained.",
  "all call sequences after the drop, all credentials",
  "All sequences of calls.",
  ["src/util/drop_privileges.rs: drop_privileges", "src/sandbox/exec.rs: exec"])
p("access checks restore credentials",
  "Checking access on behalf of the user leaves the process's effective uid and gid as they were, for every target identity and outcome.",
  "all credentials and targets",
  "All credential triples.",
  ["src/util/access.rs: can_access"])
p("the command's exit status is passed on",
  "The exit code of `sandbox CMD` is CMD's exit code, and if CMD dies from a signal the same signal is raised in the caller, whatever other wait statuses are observed before.",
  "all sequences of wait results",
  "All sequences.",
  ["src/sandbox/exec.rs: exec"])
p("recursive removal stays inside its tree and device",
  "Recursively removing a directory deletes nothing outside it, deletes nothing on another device, does not follow symlinks, and on success deletes all of it.",
  "all trees and device assignments, all failure points",
  "All trees.",
  ["src/actions/accept.rs: rmdir_recursive"])
p("delete deletes only the selected sandboxes and only after confirmation",
  "Without -y nothing is deleted unless the answer is y or Y (surrounding blanks ignored); with patterns only sandboxes whose names match are deleted; the lock file is removed last.",
  "all answers, all storage contents",
  "All answers and contents.",
  ["src/actions/delete.rs: delete", "src/sandbox/delete.rs"])
p("list shows every sandbox once, sorted, as running or stopped",
  "`sandbox list` shows each matching sandbox exactly once, as running if the process in its pid file exists and as stopped otherwise, in sorted order.",
  "all storage contents and process tables",
  "All contents.",
  ["src/actions/list.rs: get_sandboxes"])
p("log messages before configuration are neither lost nor leaked",
  "Messages logged while the configuration is being resolved are emitted afterwards in order exactly if their level passes the configured level; later messages are filtered by the level in force.",
  "all sequences of log calls and level changes",
  "All sequences.",
  ["src/logger.rs: SandboxLogger"])
p("storage paths cannot inject overlay mount options",
  "If the storage path check accepts, the option string passed to the kernel parses back to exactly the intended lowerdir, upperdir and workdir.",
  "all storage paths, sandbox names and mount points",
  "All strings.",
  ["src/util/mount.rs: check_path_for_mount_option_compatibility", "src/sandbox/mount_overlays.rs: mount_overlays"])
p("tilde expansion",
  "A leading '~' alone or '~/' is replaced by the user's home directory; every other path, including '~user', is unchanged.",
  "all paths and homes",
  "All strings.",
  ["src/util/expand_tilde.rs: expand_tilde_path"])
p("storage directory choice",
  "The storage directory used is the first candidate (explicit one only, or ~/.sandboxes then /tmp/sandboxes-UID) that lies on an acceptable file system; if it cannot be created or is owned by someone else the command fails.",
  "all mount tables and candidates",
  "All mount tables.",
  ["src/config/resolve.rs: resolve_sandbox_storage_dir", "src/util/mkdir.rs: mkdir"])
p("JSON status reflects success",
  "With --json exactly one JSON object is printed; its status is success exactly when the action succeeded, an error carries the message and the exit code is non-zero.",
  "all actions and sequences of recorded outputs",
  "All sequences of outputs.",
  ["src/main.rs: main", "src/util/output.rs"])
with open("/verif/properties.jsonl","w") as f:
    for x in P: f.write(json.dumps(x, ensure_ascii=False)+"\n")
for x in P: print(x["id"], x["title"])
