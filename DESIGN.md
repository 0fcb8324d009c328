# DESIGN — a formal model of anoek/sandbox in Lean 4

## 1. Technique

* **Model** (`lean/Verif/Model/*.lean`): every function of `/repo/src` that carries meaning is transcribed to a small, total, computable Lean function. Each definition cites the
  file and lines it models and says where it simplifies. Operations with several steps on the disk (accept, reject, removal, preparation of the storage) are *programs of micro-operations*;
  a crash, a kill or a failing system call is a prefix of the program (with half-written copies where a single call is not atomic), so "at every crash point" is a quantifier over prefixes.
  Where several processes take part (lock, start, stop) the model is a transition relation and the theorems are invariants over all interleavings.
* **Specification** (`lean/Verif/Spec/*.lean` and the `Spec.` definitions at the top of each `Props` file): written without the helpers of the model — overlayfs lookup, host-tree predicates,
  glob laws, gitignore meaning, mount-table semantics, "last setter", "what a variable denotes" and so on.
* **Theorems** (`lean/Verif/Props/*.lean`): each property is one or more theorems named after it (`C23_last_match` …), for all inputs, states, histories, schedules and crash points it
  quantifies over. Beside each are examples with concrete non-trivial data meeting the hypotheses. Lemmas without a property number live in `lean/Verif/Lib`.
* **Where the code does not satisfy the English claim** the violation is itself a theorem about the model (`Cnn_refuted_…`, a concrete reachable witness), and the strongest part that is true is proved; such
  a property has status *partial* in MANIFEST.json with the missing part in the note. Theorems that prove only a part because the proof is missing end in `_partial`.
* **Mutation tests**: the model is edited as a realistic bug would change the program, and every theorem claimed for the broken property has to fail (`seeded/LOG.jsonl`). Survivors led to stronger statements; see the `tightened` field.

## 2. Trusted base

1. Lean 4.33.0's kernel. The only axioms any theorem depends on are `propext`, `Classical.choice` and `Quot.sound` (Lean's own three); no axioms are added, nothing is evaluated by compiled code. `decide +kernel` asks the kernel itself to evaluate a decidable proposition; it is used for concrete witnesses and examples only.
2. The transcription Rust → Lean, by hand. Every definition cites what it transcribes.
3. The models of the operating system, written from its documentation (all definitions, none an axiom):
   * `Verif/FS.lean`: a tree of nodes (kind, content, mode, owner, device, overlay attributes) indexed by path; `lstat`, `stat`, `realpath` with at most 40 links, `unlink`, `rmdir`, `mkdir`, `symlink`, `rename`, copy, `chown`, `chmod`, `readlink`, their error cases (ENOENT, ENOTDIR, EISDIR, ENOTEMPTY, EEXIST, EXDEV, ELOOP, EBUSY for mount points). `rename(2)` is atomic; a copy may be interrupted half-way.
   * `Spec/Overlay.lean`: overlayfs lookup (whiteouts, opaque directories, absolute and relative redirects) per mount; `Model/History.lean`: what overlayfs stores for create, write, chmod, chown, mkdir, rmdir, unlink (copy-up, whiteouts, opaque marks); `Model/Moves.lean`: renaming of files and directories.
   * `Model/Mounts.lean`, `Model/Setup.lean`, `Props/Mounted.lean`, `Props/Isolation.lean`, `Model/Access.lean`: the mount table as a list, later mounts covering earlier ones; bind, recursive bind, overlay, read-only remount, `pivot_root`, `umount2(MNT_DETACH)`, a tmpfs for masks.
   * `Model/Lock.lean`, `Props/Start.lean`: `flock(2)` on inodes, inherited by `clone`, released with the last descriptor; `Model/Stop.lean`: process table, pid namespaces, `kill`, `waitpid`; `Model/Creds.lean`: `setresuid`, `setresgid`, `seteuid`, `setegid` rules; `Model/Exec.lean`: `setns`, `execvp` and `PATH`; `Model/Process.lean`: wait statuses, default actions of signals, signal dispositions set by the Rust runtime (SIGPIPE ignored, SIGSEGV and SIGBUS handled), descriptors and dispositions across `execve` and `clone`, reparenting of orphans.
4. Libraries, as definitions or hypotheses: `sort_by` is a stable sort; `read_dir`/`WalkDir` list every entry once, parents before children (otherwise in any order: theorems quantify over the order of the association list); `HashMap` iteration in any order (quantified); `fast_glob::glob_match` is a parameter with the laws of `Spec/Glob.lean`, which the executable `globRef` is proved to satisfy; `data_encoding::BASE32_NOPAD(_NOCASE)` and `String::from_utf8` are transcribed; `create_dir_all`, `fs::write`, `fs::copy` by their documentation; clap's reading of the words by the declarations of src/config/cli.rs is transcribed in Model/Cli from its documentation and source (clap is not in the repository); serde_json (pretty writer, reader, derived field decoding) is transcribed in Model/JsonText; `toml` is a parameter from text to table (the decoding of the table is modelled, Model/ConfigFile).

## 3. What is modelled

| Rust file | modelled (Lean file) | not modelled |
|---|---|---|
| src/main.rs | order of configuration, logging, action, JSON result, exit status (Model/Output, Model/Logger), running a command (Model/Exec), the dispatch of the words to actions (Model/Main) | coverage hooks, shell completion set-up, the check for root's own message texts |
| src/actions/accept.rs | all functions (Model/Accept, Model/RmdirRec); its system calls interleaved with writes to the host (Model/Race) and to the storage (Model/RaceIn); with the storage in the same tree (Model/OneTree); with hard links (Model/Links); with extended attributes (Model/Attrs) | messages, colours |
| src/actions/config.rs | all (Model/ConfigCmd) | |
| src/actions/delete.rs | `delete`, selection, question, effects (Model/Sandboxes, Model/Count) | terminal handling of the question |
| src/actions/diff.rs | which entries are shown and when it panics (Model/Actions), what is given to the program `diff`, which program that is, replacement of file names (Model/DiffText) | the program `diff` itself (a parameter), the pager/colours |
| src/actions/list.rs, stop.rs, reject.rs, status.rs | all (Model/Sandboxes, Model/Stop, Model/Actions, Model/Output) | column widths |
| src/actions/sync.rs, src/util/sync_and_drop_caches.rs | when the caches are dropped and with what result (Model/Caches) | what the kernel really keeps; `sync(2)` |
| src/config/cli.rs | `validate_command`, `parse_log_level`, `sandbox_name_completion` (Model/RawList), the declarations as read by clap (Model/Cli) | help and usage texts, value hints |
| src/config/resolve.rs, structs.rs, impls.rs | all but the following (Model/Config, Model/ConfigFile) | TOML syntax (text to table) |
| src/logger.rs | `log`, `set_level`, `print_deferred`, `enabled` (Model/Logger) | text formatting |
| src/sandbox/changes/*.rs | all (Model/Changes, Model/Ignore, Model/Select, Model/Output, Model/Count, Model/Json, Model/RawNames) | the two buffer sizes of `is_renamed` (values up to 64 KiB are read in full either way) |
| src/sandbox/delete.rs, exists.rs, unmount.rs, stop.rs | all (Model/Sandboxes, Model/Stop, Model/Mounts) | retry delays |
| src/sandbox/exec.rs | `exec`, parent's wait loop (Model/Exec, Model/Process) | coverage hooks |
| src/sandbox/get_or_create.rs | `get`, `get_or_create`, start and its pipe (Model/Lock, Model/Prepare, Model/Setup, Props/Start) | `clone3` argument block, coverage hooks, message texts |
| src/sandbox/mount_overlays.rs | all (Model/Mounts, Model/Setup) | |
| src/sandbox/settings.rs | all: comparison, file presence/corruption (Model/Settings), JSON text of settings.json (Model/JsonText) | paths that are not UTF-8 |
| src/util/*.rs | access, drop_privileges, expand_tilde, find_mount_point, get_running_sandbox_pid, lock_sandbox, mkdir, mount (option check), mounts, output, resolve_uid_gid_home | clone3.rs (a system call wrapper) |

Not modelled anywhere: PATH_MAX (NAME_MAX only in C29 and C95), Rust memory safety, kernel internals, time and performance, hard links (except in C115), ACLs and extended attributes other than overlayfs's (except in C116), timestamps, disk-full errors other than as "a step may fail" (crash prefixes cover them),
and changes made to host or storage by others *during* one action (except in the properties about interleavings: C45–C48, C62, C88, C90, C113, C117). A `Str` is a list of Unicode scalar values; paths that are not UTF-8 are treated separately, in Model/RawNames (C77) and Model/RawList (C91, C92).

## 4. Violations found (each is a theorem)

* `C01_refuted_dangling`: C01 refuted for dangling links: their deletion is not reported and not accepted.
* `C01_refuted_mount_root`: C01 refuted for mount points: a change of owner or mode of a mount point is not even reported.
* `C01_refuted_moved_out`: C01 and C13 refuted: a directory was moved out of a directory that was then deleted. The accept passes its checks, deletes everything below the deleted directory, including the moved directory with its content, and only then fails; the file `d/x/y`, which the sandbox sees as `e/y`, is lost.
* `C01_refuted_rename_mode`: C01 refuted for renames: the mode given to a renamed directory is lost.
* `C03_refuted_symlink`: C03 refuted without the assumption on links: a link to a directory was replaced in the sandbox by a directory; accept succeeds and has deleted `/b/x`, which is not touched by any selected change.
* `C06_refuted`: C06 refuted in general: accept (everything, without `--ignored`) succeeds; the ignored file `/d/.git/HEAD` is not a selected change, is not on the host afterwards, and is gone from the storage.
* `C08_refuted_duplicate`: C08 refuted when a directory was deleted, re-created, and a file put in place of one of its subdirectories: what was below that subdirectory is listed twice for removal, and the second attempt fails after host files have been deleted. Here the selected changes are just removals, closed below, of a plain file.
* `C08_refuted_duplicate_all`: The same when everything is accepted: accept fails half-way.
* `C09_refuted_symlink`: C09 refuted without the assumption on links: accepting `/a/x` (mode 600) and `/b/x` (mode 644) while the host has `/a → /b` succeeds, but the host has only one file, with mode 644.
* `C10_refuted`: C10 refuted: a character device with major 256, minor 256 (not a whiteout) is treated as a deletion.
* `C11_refuted_dangling`: C11 refuted for dangling links: the deletion is not accepted, although accept succeeds.
* `C11_refuted_directory`: C11 refuted for links to directories: `rm a` of a link `a → b` and accepting it deletes the file `b/x`.
* `C12_refuted_device`: C12 refuted: a character device with major and minor number 256 in the place of a file is no error: accept deletes the file.
* `C13_refuted_recreated`: C13 refuted: `mv d e; mkdir d; echo >d/x`. The sandbox still sees the old `d/x/y` as `e/x/y`; accept succeeds and has deleted it.
* `C13_refuted_replaced`: C01, C13, C14 refuted for directories replaced by renamed ones: with the change of `C71_refuted_replaced` accept passes all its checks, then moves the host's `d` to a temporary name and fails, because `o` is not empty: nothing has been accepted, and `d` is gone from its place on the host; the sandbox, whose `o` refers to it, does not see its files any more either.
* `C14_refuted_cwd`: C14 refuted when the current directory is inside a renamed directory: `sandbox accept '/d/*'` run in `/d/a` (being swapped with `/d/b`) fails with an invalid-argument error, because the temporary would lie inside the directory itself; by then `/d/c` has been moved away, but not to its new name `/d/n`.
* `C14_refuted_other_mount`: C14 refuted when the current directory is on another mount: a rename within `/d` is refused when accepted from there (nothing is changed).
* `C15_refuted_bind`: C15 refuted: an absolute redirect is resolved from the directory where the device changes, not from the mount's root.
* `C15_refuted_dangling`: C15 refuted: the origin of a deleted link that leads nowhere is not found, and its deletion is not reported.
* `C15_refuted_nested`: C15 refuted: after `mv d e; mv e/x e/y` the sandbox sees `d/x` of the host as `e/y`; the program looks for `e/x` on the host, finds nothing, and reports an error.
* `C15_refuted_opaque`: C15 refuted: a file created in a re-created directory has nothing to do with the old file of that name, but the program takes the old file as its origin.
* `C19_refuted`: C19 is false of the code: after deleting a directory that has a subdirectory, status lists the removals but diff panics.
* `C20_root_refuted`: C20 refuted at `/`: in the root directory nothing is ever selected without a pattern, whatever the changes are.
* `C21_refuted_backslash`: C21 refuted for a file whose name has a backslash: in `/p`, the pattern `a\b` does not select the change of `/p/a\b`, it selects that of `/p/ab`, and so does the full path; `a\\b` selects the change of `/p/a\b`.
* `C21_refuted_bang`: C21 refuted for a file whose name begins with `!`: in `/p`, the pattern `!x` selects, with the change of `/p/!x`, those of all other files; `./!x` selects that change alone.
* `C21_refuted_star`: C21 refuted for a directory whose name has a star: the pattern `/p/a*` selects what is below `/p/a*` and below its sibling `/p/ab`, and `/p/a\*` selects nothing; only `/p/a\*/**` selects the changes below that directory.
* `C23_refuted_root`: C23 refuted for the mount point's own directory: `/.gitignore` says `x`, but the stored `/x` is shown.
* `C25_refuted`: C25 refuted for the change list: a directory moved to a hidden place is shown as a removal without `--ignored`, although with `--ignored` there is no removal at all.
* `C26_refuted_link`: C26 refuted for symbolic links: in the sandbox `/d/.gitignore` was replaced by a link to the file `rules` beside it, which is unchanged and so not in the storage. Read in the sandbox the file says `y`; the program does not find the target, and the host's copy, which says `x`, is used.
* `C26_refuted_moved`: C26 refuted for a directory that was moved: in the sandbox `e/.gitignore` is the file with the line `x`, but it is looked for in the storage and on the host at `e` only, so there are no rules for `e`, and `e/x`, which was hidden before the move and is hidden to every tool in the sandbox that reads the file, is listed.
* `C26_refuted_replaced`: C26 refuted for a directory that was replaced: in the sandbox there is no `d/.gitignore` any more, but the host's still hides the new file `d/x`; listed are the removal of the ignore file and not `d/x`.
* `C27_refuted`: C27 refuted for storage left over from two mounts that cover the same directory: with mount names `A` for `/` and `B` for `/h`, `A/h/d/.gitignore` hides `x`; whether `B/d/x` is hidden depends on whether `A/h/d` was examined before.
* `C28_refuted_bang`: C28 refuted for `/!name`: the line hides everything below the directory of the ignore file, whatever its name, where gitignore hides the item `!name` there. The leading slash is removed, and the matcher takes the `!` of the name for a negation.
* `C28_refuted_bang_lists`: `echo '/!keep' > d/.gitignore; echo 1 > d/f` in a sandbox: none of the three changes is listed, not even the new directory `d` itself, and accepting "everything" leaves them out.
* `C28_refuted_escaped_path`: C28 refuted for `\!a/b`: a line that begins with an escaped exclamation mark and has a slash inside hides everything below the directory of the ignore file, where gitignore hides the one path that begins with `!`.
* `C28_refuted_leading_blank`: C28 refuted for blanks at the beginning of a line, which belong to the name in gitignore (only blanks at the end are dropped): the line ` name` hides `name`, at every depth, and not the item whose name begins with a blank.
* `C28_refuted_parent`: C28 refuted against gitignore's "it is not possible to re-include a file if a parent directory of that file is excluded": the lines `d` and `!d/x` hide the directory `d` and show `d/x`. (`accept` then fails at `d/x` if `d` is new: its directory is not made.)
* `C28_refuted_slash`: C28 refuted for the line `/`, which matches nothing in gitignore (a name is missing): it hides the directory of the ignore file itself, and nothing in it.
* `C28_refuted_stars`: C28 refuted for `**/name`, which is the same as `name` in gitignore: the line hides the items of that name at every depth, but nothing below them (`**/node_modules` hides the directories of that name and shows all that is in them).
* `C28_refuted_stars_accept`: What follows for the user: `status` lists the file and not its directory, and `accept` fails, because the directory of the file is missing on the host. With the line `nm` instead both are hidden.
* `C28_refuted_trailing_slash`: C28 refuted against gitignore's documented meaning of a trailing slash ("if there is a separator at the end only, the pattern matches at any level"): `build/` does not hide `sub/build/x`.
* `C28_refuted_wildcard`: C28 refuted for names with wildcards, against gitignore: what is below a directory that matches is not hidden (`cmake-*` hides the directory `cmake-x` but no file in it), unless its own name matches as well. The same name without wildcard hides everything below (C28_name).
* `C29_refuted_long`: C29 refuted for long paths: file systems limit names to 255 bytes; a mount point whose path has 160 bytes or more gets a longer name and cannot be mounted in a sandbox, although the path itself is valid.
* `C31_refuted_stacked`: C31 refuted without that hypothesis: a directory mounted over twice gives two entries with the same name, so that the same upper and work directories are mounted twice.
* `C32_refuted_hidden`: A mount hidden by a later one above it is not unmounted (its unmount fails), hence the hypothesis.
* `C33_refuted_same_device`: C33 refuted for mounts on the same device (a bind mount of a directory of the same file system at `/b`): the mount point found for a file in it is `/`.
* `C35_refuted_symlink`: C35 refuted when the home directory is spelled through a symbolic link: the current directory `/data/u/proj` is inside the home directory `/home/u` (= `/data/u`), yet `/data/.sandbox.toml` above it is read.
* `C36_refuted_relative`: C36 refuted for places instead of target texts: the non-existing relative target `foo` and the absolute one `/foo` are the same place in the sandbox, but the conflict is not noticed; what a process sees there depends on the order of the hash map.
* `C39_refuted_order`: C39 refuted in general: with `--bind /home/u --mask /home/u/.ssh` the two binds come out of a hash map in either order; in this one the host's `.ssh` is visible (and writable) in the sandbox, in the other order it is masked.
* `C41_refuted_dot`: `.` also names the storage directory, `..` its parent.
* `C41_refuted_empty`: C41 is refuted: the empty name is accepted and its directory is the storage directory; deleting it deletes every sandbox.
* `C41_refuted_symlink`: A symbolic link in the place of the sandbox's directory: the contents of its target are deleted (by root, if the tool is set-user-id).
* `C44_refuted_data`: C44 refuted: a bind with the argument `data` (a directory of that name in the current directory) is not compared: a sandbox started without it can be entered, although the directory is not bound there.
* `C44_refuted_missing`: C44 refuted: without `settings.json` (it lies in the data directory, which is writable from inside the sandbox) every configuration is let in.
* `C44_refuted_spelling`: C44 refuted: the same source, target and option written differently is taken for a different bind.
* `C45_refuted_delete`: C45 refuted in general: with a concurrent `delete` two processes can be in charge of the same sandbox name at once.
* `C46_refuted_frozen`: C46 is refuted when the first process of a sandbox has been stopped (SIGSTOP, a debugger): it is taken for dead, its pid file is removed, and the next command starts a second instance over the same storage, with the commands of the first one still there.
* `C46_refuted_stop`: C46 is refuted for a stop followed by a start: `stop` sends SIGKILL and removes the pid file without waiting until the process is gone (one that waits for a disk or a network file system takes its time), so the next command starts a second instance over the same storage while the first still exists.
* `C46_refuted_write_error`: C46 is refuted when the pid file cannot be written (full disk): the instance started by process 1 lives on unrecorded and process 2 starts a second one.
* `C47_refuted_blank`: C47 is refuted for a program whose name has white space in it (it is started through a link called `box Z 2`, say): the third word of its `/proc/PID/stat` is not the state, so a running sandbox is taken for a dead one. `stop` succeeds, removes the pid file, and every process of the sandbox goes on running.
* `C47_refuted_race`: C47 is refuted as a whole: if a process of the sandbox exits between two looks at it, `stop` returns an error although other processes of the sandbox are left (here 43 exits; the init 42 goes on living).
* `C48_refuted_child_dies`: C48 refuted: whenever the first process dies half-way (it is killed, or a set-up step panics), whatever steps are left, the start is taken for a success.
* `C50_refuted_groups`: C50 refuted for supplementary groups: they are never changed, so a command run through `sudo` keeps all of root's groups, for good.
* `C51_refuted_unprivileged`: C51 refuted for a process that is not root: the group is changed, changing the user is refused, and the group stays changed.
* `C52_refuted_endless`: C52 refuted: a command that dies from SIGPIPE, SIGSEGV or SIGBUS leaves the waiting process in an endless loop, because the Rust runtime ignores or handles these signals; so does one that dies from a real-time signal, which the `nix` crate reports as an error, and from a signal that the caller ignores (`nohup`). The loop does not sleep: it uses a whole processor.
* `C52_refuted_interrupt`: C52 refuted when the terminal's interrupt key is pressed (or the whole process group is sent a fatal signal) while a command runs that handles the signal and goes on: the waiting process ends at once from the signal, although the command later exits with a code of its own.
* `C54_refuted_dot_lock`: C54 is refuted for a lock file called `.lock` (the sandbox with the empty name, see C41): a pattern that matches everything deletes the storage directory with all sandboxes, including those a more special pattern was meant to keep.
* `C54_refuted_success`: C54 is refuted for what success means: when a file of a sandbox cannot be removed, `delete` prints the error and ends with exit code 0 and `"status": "success"`, and the sandbox is still there.
* `C56_refuted_failure`: C56 refuted when resolving fails: then main returns before `print_deferred` and every message, at any level, is lost.
* `C57_refuted_backslash`: C57 refuted for a name with a backslash: the kernel takes the backslashes out of the options. The upper and work directories of the sandbox `a\b` are read as those of the sandbox `ab`, although the two names differ and are proper, so that one of them changes the files of the other (C42).
* `C57_refuted_mount_point`: C57 refuted for mount points: a mount point `/a:b` is read as two lower directories.
* `C57_refuted_name`: C57 refuted for the name: only the storage directory is checked. For a sandbox named `a,lowerdir=b` the kernel reads another lower directory and an upper directory outside the sandbox.
* `C58_refuted_double_slash`: C58 refuted: `~//etc` is expanded to `/etc`, not to a path below the home directory.
* `C59_refuted_stacked`: C59 refuted for stacked mounts: `/home` is mounted over twice; what is seen there is NFS, but the first line for it in the table counts.
* `C59_refuted_symlink`: C59 refuted for a home directory reached through a symbolic link to another file system: `/home` is a link to `/data/home`, `/data` is ext4 and the user's home directory is writable, yet `~/.sandboxes` is not used (the tool takes `/home/u` for a mount point and does not find it in the table).
* `C60_refuted_delete`: C60 refuted for `delete`: if no sandbox at all could be deleted the status is still success and the exit code 0.
* `C60_refuted_early`: C60 refuted for failures before the action starts (a bad configuration, a bad identity, missing permissions): nothing is printed to standard output.
* `C62_refuted_start_killed`: C62 refuted: a process that is killed while it starts a sandbox leaves the lock with the sandbox's first process, and from then on nobody gets the lock of this file until that process is gone: whatever happens, in every later state the lock is still held, unless the first process has exited in between.
* `C63_refuted_arrow`: C63 refuted for names with ` -> `: the rename of `a` to `b -> c` and the rename of `a -> b` to `c` look the same.
* `C63_refuted_newline`: C63 refuted for names with line breaks: the two listings are the same text, although the changes are different.
* `C64_refuted`: C64 refuted as "zero entries, nothing to lose": a new symbolic link to a directory is not counted, nor is a directory that was deleted and made again (empty).
* `C65_refuted_bind`: C65 refuted for mounts with the device of their parent directory (bind mounts): `/b` has an overlay of its own, `upper_cwd` names a directory of the overlay of `/`.
* `C65_refuted_comma`: C65 refuted for requests with a comma (in a config file; on the command line and in the environment commas separate requests): the value printed for `bind` is taken for two requests.
* `C66_refuted_env`: C66 refuted: with a variable in the environment that is not valid UTF-8 no command can be run: the child panics before `execvpe`.
* `C69_refuted_run`: C69 refuted for binds (or masks) on `/run`: they hide the staging directory, so that set-up fails although the configuration was accepted. The data directory is always bound last.
* `C71_refuted_moved_out`: C71 refuted for directories moved out of deleted ones: the file is seen in the sandbox at `e/y`, but its host path is listed as removed.
* `C71_refuted_replaced`: C71 refuted for directories replaced by renamed ones: `rm -r o; mv d o`. The host has `o/p`, the sandbox does not see it any more, but `sandbox status` lists only the rename of `d` to `o` and no removal.
* `C72_refuted_settings`: C72 refuted: the data directory can be written to from inside the sandbox (`C66_storage`: it is bound read-write to the same place, and belongs to the user). If `settings.json` in it is replaced by a symbolic link to a file of the host, the next start of the sandbox, which runs as root, overwrites that file.
* `C72_refuted_upper`: C72 refuted: the sandbox's directory belongs to the user. If `upper` in it is replaced by a symbolic link, the next start makes directories elsewhere, which then belong to the owner of the mount, here the user.
* `C73_refuted_chown`: C73 refuted: `chown` of a mount's top directory in the sandbox (here by the user's root shell in it, of `/h` to user 5) changes the owner of the stored directory; after the sandbox has been stopped it can not be started again.
* `C73_refuted_killed`: C73 refuted: if the tool is killed between making a directory and giving it its owner, the sandbox can not be started any more.
* `C74_refuted_mode`: C74 refuted: the top directory of a mount gets the mode 0755 in the sandbox whatever it is on the host: here a private directory becomes readable by all, and a directory like `/tmp` (1777), if it is a mount, can not be written to by other users.
* `C75_refuted_below_link`: C75 refuted below links of the host: in the sandbox the link `a` to `b` was replaced by a directory with a new file `f`; diff compares it with the unrelated `b/f`.
* `C75_refuted_content`: C75 refuted for the text: a line of a file that mentions the storage path is shown with another text.
* `C75_refuted_directory`: C75 refuted for a directory replaced by a file: `diff DIRECTORY FILE` compares the file with the entry of that name in the directory, here the unrelated `/d/d`.
* `C75_refuted_link`: C75 refuted for links: the sandbox replaced a file by a symbolic link to a file that its user cannot read. The sandbox sees the link, but `sandbox diff`, which runs as root, compares with the content of the file on the host that the link names, and so shows it.
* `C75_refuted_relative`: C75 refuted for relative links: if a file was replaced by a link, it is compared with the target of the link if that is in the storage, too, and with nothing if it is not (a link to a file the sandbox did not touch); a new link is not shown at all.
* `C76_refuted_diff`: C76 refuted: installed set-uid root, `sandbox diff` runs a program that the calling user has written, found through the user's `PATH`, with effective user id 0.
* `C77_refuted_name`: C77 refuted: one file with a name that is not text, and the changes can neither be listed nor accepted nor rejected, not even those of other files; with `--ignored` it is an error instead of a panic. Without it everything works.
* `C78_refuted_cwd`: C78 refuted for a current directory whose name has a special character: in `/p/a*`, the pattern `x` also selects `/p/ab/x`.
* `C78_refuted_negated`: C78 refuted for negated patterns: in `/p/ab`, `!x` selects the changes of the whole sandbox outside the directory.
* `C79_refuted_host`: C79 refuted for the host: with `--bind /etc:/home/x --bind /home/d:/home/x/new` the directory `/etc/new` is made on the host by root (the program is setuid) and given to the caller, who could not make it.
* `C79_refuted_old`: C79 refuted for a start that fails or is killed: after its first step (the source of a bind may turn out not to exist later) the directory made for the old root is in the storage, a change of the sandbox to be accepted.
* `C79_refuted_target`: C79 refuted for targets that do not exist: `sandbox --mask /home/x/y` of a path that is not there stores the directories `/home/x` and `/home/x/y` as changes of the sandbox, so that `accept` would create them on the host.
* `C79_refuted_variable`: C79 refuted for a caller whose environment has a variable of the program's own tests, whatever its value: no start succeeds, whatever is mounted, and each leaves one more directory `/old-root-…` in the storage, a change to be accepted.
* `C80_refuted_config`: C80 refuted for `--config`: the program reads the file as root without asking whether the user may, so that its content shows in the settings; if the file is not a configuration at all, the error message of the parser shows the line.
* `C80_refuted_ignore_link`: C80 refuted for ignore files: a link made in the sandbox to a file that only root may read is followed by `status`, which runs as root: what is shown depends on the text of that file.
* `C81_refuted_bind`: C81 refuted for binds: their sources are looked up and mounted as root, without asking whether the user can get there. With `--bind /root/pub:/home/x` the user can read a file below root's private directory.
* `C81_refuted_mode`: C81 refuted for mounts: the top directory of a mount gets mode 0755 in the storage, so that files below the private directory `/h` of another user, a mount, can be read in the sandbox, though not on the host.
* `C81_refuted_run`: C81 refuted below `/run`: it is a new tmpfs in the sandbox, in which the directories above a mount are made anew for everyone to search, whatever they are on the host.
* `C82_refuted_etc`: C82 refuted for files that set-uid programs trust: with `--bind /home/x/e:/etc` the user's own files take the place of `/etc/passwd` and `/etc/ld.so.preload`, while `su` still runs with root's rights.
* `C82_refuted_nosuid`: C82 refuted for mounts with `nosuid`: the overlay over such a mount is mounted without the flag, so that a set-uid program on it, without effect on the host, gives root's rights in the sandbox.
* `C83_refuted_moved`: C83 refuted after a move: `mv /home/u /home/v` in the sandbox, and a start with `--mask /home/u/.ssh` (or a restart, if it was masked before): the mask is placed on an empty directory made for it, and the secret is seen below `/home/v`.
* `C84_refuted_recreated`: C84 refuted: `rmdir x/y; rmdir x; mkdir x; echo >x/y` in a sandbox, then accepting everything: accept fails half-way, with `x` deleted from the host.
* `C85_refuted_new_directory`: C85 refuted for a new directory: `sandbox accept n` after `mkdir n; touch n/f` fails.
* `C86_refuted_link`: C86 refuted by links: the user has a link `/home/u/l` to `/etc`, removes it in the sandbox, and accepts. `/etc/passwd`, which he can neither write nor delete, is deleted.
* `C86_refuted_planted`: C86 refuted by a storage that no sandbox made: the directory of a sandbox belongs to the user (src/sandbox/mount_overlays.rs:33-34, src/sandbox/get_or_create.rs:114), who can `mkdir -p NAME/upper/F4/etc` there himself and put a file into it. Accept, run as root, replaces `/etc/passwd` and gives `/etc` to the user.
* `C86_refuted_top`: C86 refuted by the modes of mounts' top directories, which are always 0755 in a new sandbox (`C74_refuted_mode`): `/u`, a mount, has mode 0700 on the host, so that the user cannot get to `/u/f`, which everybody may write; in the sandbox he can, and accept writes it.
* `C87_refuted_window`: C87 refuted: the user makes a set-uid program of his own in the sandbox, as he may. Accept copies it with its mode, as root, and gives it to the user only after it has its name: in between executing it gives root's rights. (The user can stop or kill accept there: it runs with his real user id.)
* `C88_refuted_link`: C88 refuted for writes above accept's paths: the user makes a directory `/home/u/d` with a file `passwd` in the sandbox. While root's accept creates it, a program of his puts a link to `/etc` in its place, for which he needs no rights but his own. Accept copies through the link, replaces `/etc/passwd` and gives it to him. (Also against C86: the rights of accept are root's.)
* `C90_refuted_planted`: C90 is refuted for a storage the user writes to (it is his): the number in the pid file may be that of any process of the machine, and nothing else is checked. A command then runs in the namespaces of that process: here those of the host (process 7 is a shell outside any sandbox).
* `C90_refuted_race`: C90 is refuted for a command that has found the sandbox and released the lock, if the first process ends and its number is used again before the command enters.
* `C90_refuted_reused`: C90 is refuted after a restart of the machine (or any other end of the first process): the pid file is still there, and when its number has been given to some process of the host, the next command is let into the namespaces of that process, that is, it runs outside any sandbox.
* `C91_refuted_name`: C91 is refuted: one file whose name is not UTF-8 and ends in `.lock`. The length of the name on the disk is used to cut its text, in which every bad byte has become three bytes: with `\xFF.lock` in the storage directory `list`, and `stop` and `delete` with patterns, panic; `stop` then leaves the sandboxes it has not come to running. With `\xFFabcdef.lock` they see a sandbox called `\uFFFDabcd`, which does not exist.
* `C95_refuted_copy`: C95 refuted for files: a file on the host has a name of 219 bytes and is modified in the sandbox. All checks pass, the other changes are applied, and the accept stops with "file name too long"; the file is left as it was, the moved directory is under its new name, the created file is there, and the storage still holds everything.
* `C95_refuted_rename`: C95 refuted for renames: a directory with a name of 104 bytes is renamed to one of 103 bytes. All checks pass, what was deleted in the sandbox is deleted on the host, and the accept stops before the rename.
* `C96_refuted_case`: C96 refuted: `net = "Host"` is refused in a file, while SANDBOX_NET=Host means host.
* `C96_refuted_unknown`: C96 refuted for misspelt settings: with `masks` for `mask` the command goes ahead, and nothing is masked.
* `C97_refuted_accept`: C97, C01, C71 refuted for file systems of other types: the sandbox deleted the forgotten file `/tmp/x` and made a new file `/tmp/y`; `accept` deletes the file `/tmp/x` of the file system in memory, which was never seen in the sandbox, and overwrites its `/tmp/y`.
* `C97_refuted_bind`: C97 refuted for bind mounts: `--bind /` shows the directory below `/tmp`'s file system, too.
* `C97_refuted_unseen`: C97 refuted for file systems of other types (here one in memory): their files are not seen in a sandbox; instead the directory they are mounted on is.
* `C98_refuted_overlay`: C98 refuted for overlays: a stick is mounted at `/mnt` with `nosuid,nodev,noexec`. The overlay over it has none of these flags: in a new sandbox its device for the disk can be opened for writing by the user, and its program can be executed. On the host the same files are there, with the same rights, but neither works.
* `C98_refuted_readonly`: C98 refuted for read-only binds: to make a bind read-only the flags of the mount are replaced by read-only and `nosuid`. Bound read-only, the stick's device can be opened and its program executed; bound writably, as on the host, they cannot.
* `C99_refuted_long`: C99 refuted: a name of 65 letters is accepted as a setting, as any name without a slash; files have names of up to 255 bytes. The start fails nevertheless, in the last step of the set-up, when the lock file, the directory of the sandbox and the pid file have been made and its overlays mounted. The name cannot be used at all, and what is left has to be deleted.

## 5. Properties

Status and theorems are those of MANIFEST.json. "How" is the method of proof.

| id | property | status | modelled and proved how | result | theorems (file) |
|---|---|---|---|---|---|
| C01 | accept of everything reproduces the sandbox's view on the host | partial | FS, overlay lookup (Spec/Overlay), `changes`, accept as micro-operations; the effect of each phase is computed (Lib/PhaseA*, PhaseRM, SetRun, Effect, Whole), then compared with the lookup by induction on paths | Proved against an independent overlayfs lookup (Spec/Overlay.lean) for any number of mounts, whiteouts, opaque directories and type changes, and for renamed directories whose owner and mode are unchanged and that were not moved out of deleted or replaced ones (C01_moved_partial); refuted for modes of renamed directories, directories moved out of a deleted one (data loss), mount points themselves and dangling links. | `C01_view_partial`, `C01_moved_partial`, `C01_refuted_rename_mode`, `C01_refuted_moved_out`, `C01_refuted_mount_root`, `C01_refuted_dangling` (Props/View, Props/ViewMoved) |
| C02 | accept checks everything before touching anything | proved | check phase of accept; a violated check gives the empty program | Every problem in the selection (error entry, removal without source or of a special file, rename between mounts) makes accept fail with host and storage unchanged. | `C02_checks_before_effects`, `C02_effects_imply_checked` (Props/AcceptChecks) |
| C03 | accept only modifies selected host paths | partial | footprint of every micro-operation, lifted to all prefixes (Lib/Crash) by induction over the phases | Proved at every crash state and outcome for ordinary hosts (Spec.Ordinary: no selected change below or at a symlink to a directory, fresh temporary names, each mount listed once); refuted in general: removing a symlink to a directory deletes the contents of its target. | `C03_only_selected_paths_partial`, `C03_final_state`, `C03_refuted_symlink` (Props/AcceptScope) |
| C04 | accepted regular files are replaced atomically | partial | invariant over all prefixes, with half-written copies as states | Same hypotheses as C03; the atomicity of the single rename system call is an assumption of the file system model. | `C04_no_partial_files_partial`, `C04_atomic_replace_partial` (Props/AcceptScope) |
| C05 | no staged change is lost before it has been applied | proved | storage is untouched by every operation before the clean-up phase; clean-up starts only after all others succeeded | At every crash state of the whole accept program the storage is intact or all changes have been applied. | `C05_storage_intact_until_applied`, `C05_failed_apply_keeps_storage` (Props/AcceptChecks) |
| C06 | accept never discards changes that were not selected | partial | clean-up phase over the staged list sorted descending (Lib/Clean); induction | Exact description of the storage after a successful accept; changes outside selected staged directories are kept, and nothing is lost when the selection is closed below its directories; refuted in general: ignored or unselected changes below an accepted staged directory are deleted. | `C06_storage_after`, `C06_unselected_kept_partial`, `C06_closed_selection`, `C06_refuted` (Props/AcceptKeeps) |
| C07 | accept's numbers add up | proved | counting lemmas on the selected and not selected lists | as stated | `C07_counts` (Props/AcceptChecks) |
| C08 | accepting removals deletes whole trees, children first | partial | removal phase with reverse path order (Lib/RemovePass); induction over the sorted list with "nothing below is left" as invariant | Any closed set of removals succeeds and removes exactly those paths in any enumeration order, if no path is listed twice; that is proved when deletions are recorded by whiteouts only. Refuted for a directory that was deleted and re-created with a file in place of one of its subdirectories. Also assumed: no symbolic links above the paths, no mount points. | `C08_removals_partial`, `C08_whiteouts_partial`, `C08_removals_once`, `C08_refuted_duplicate`, `C08_refuted_duplicate_all` (Props/Removal) |
| C09 | accepted entries get the staged owner and mode | partial | set phase: chown then chmod (Lib/SetBlock); the final node is computed | Proved for ordinary hosts; refuted for a directory staged over a host symlink to a directory (chown and chmod follow the link). Renames are not covered: accept never applies their staged owner and mode. | `C09_owner_and_mode_partial`, `C09_refuted_symlink` (Props/AcceptScope) |
| C10 | whiteouts are recognised exactly | partial | `is_removed` on device numbers; arithmetic | Proved for device numbers the code represents exactly; refuted in general: is_removed keeps only 8+8 bits of rdev, so other devices are taken for whiteouts. | `C10_whiteout_partial`, `C10_reported_partial`, `C10_exact`, `C10_refuted` (Props/AcceptChecks) |
| C11 | deleting or replacing a symlink affects the link only | partial | removal operations on link nodes at every prefix | Proved at every crash point for links to files and to empty directories; refuted for links to non-empty directories (content of the target is deleted) and dangling links (deletion ignored). | `C11_link_partial`, `C11_target_partial`, `C11_refuted_directory`, `C11_refuted_dangling` (Props/Moved) |
| C12 | special files are never copied to the host | partial | `changes` gives an error entry for special kinds; accept fails in the check phase | Refuted for character devices whose major and minor numbers are multiples of 256: they are taken for deletions, and accept deletes the file of that name (also C10). | `C12_sets_are_ordinary`, `C12_special_is_error_partial`, `C12_accept_refuses`, `C12_refuted_device` (Props/AcceptChecks) |
| C13 | renamed directories are moved, never deleted | partial | `changes` against the overlay lookup; phases as in C01 | Content seen under the new name is there after accept if nothing at or above its old place was deleted, replaced or moved elsewhere (except the old name itself); refuted otherwise: content is deleted; also refuted: a directory moved over a deleted non-empty one makes accept fail half-way, the directory is left under a temporary name. | `C13_moved_partial`, `C13_refuted_recreated`, `C13_refuted_replaced`, `C01_refuted_moved_out`, `C25_refuted` (Props/Ignore, Props/Moved, Props/ReportedMoved, Props/View) |
| C14 | sets of renames are applied simultaneously | partial | rename to temporaries, then to destinations (Lib/RenamePass); induction over the list, temporaries fresh | Success and exact effect for every set of independent renames (swaps, cycles, chains) on one mount (C14_renames_partial), and for renames nested in each other and mixed with other changes (C85_moves_partial); refuted if the current directory is inside a source (half-done) or on another mount (refused). | `C14_renames_partial`, `C85_moves_partial`, `C14_refuted_cwd`, `C14_refuted_other_mount` (Props/FeasibleMoves, Props/Renames) |
| C15 | the origin shown for a moved path is the one the sandbox sees | partial | `get_source_lower_path_for_upper_path` against overlay lookup (Spec/Overlay) | The rule (nearest redirect upwards) is proved as stated; the origin equals the one overlayfs uses (Spec/Overlay.lean) if directories above are merged, a relative redirect has no redirect above it, absolute ones start at the device boundary, and no dangling link is involved; refuted in each of these cases. | `C15_same_partial`, `C15_nearest_partial`, `C15_origin_partial`, `C15_refuted_nested`, `C15_refuted_opaque`, `C15_refuted_dangling`, `C15_refuted_bind` (Props/Origin) |
| C16 | status lists every actionable change exactly once | proved | the list printed is a permutation of the actionable part of the selected changes (stable sort) | as stated | `C16_status_complete`, `C16_status_groups` (Props/AcceptChecks) |
| C17 | reject never touches the host | proved | footprint of every prefix of the reject loop | Every prefix of the loop is covered, so also failures and kills half-way. Hypothesis: the storage is a well-formed tree. | `C17_only_selected_storage`, `C17_reject_keeps_host` (Props/Reject) |
| C18 | a complete rejection succeeds and removes every selected change | proved | induction over the staged list sorted descending | as stated | `C18_complete_rejection` (Props/Reject) |
| C19 | diff never crashes | partial | `diff_entries` with the panicking branches as outcomes | The exact crash condition is proved; diff panics on removals inside a deleted directory that are not regular files (refutation theorem). | `C19_crash_condition`, `C19_no_crash_partial`, `C19_refuted` (Props/Diff) |
| C20 | without patterns exactly the changes below the current directory are selected | partial | `matching` without patterns; prefix lemmas on path texts | Holds in every directory except the root; refuted for cwd = /. | `C20_no_pattern_partial`, `C20_root_refuted` (Props/Select) |
| C21 | a directory pattern selects its subtree and no sibling | partial | `matching` with a directory pattern; prefix lemmas, glob laws | For names without the special characters of patterns, relative to the laws of the glob matcher (Spec.GlobLaws), which globRef satisfies; refuted for directories and files whose names have such characters: a pattern is never taken literally. | `C21_directory_pattern`, `C21_exact_pattern`, `globRef_laws`, `C21_refuted_star`, `C21_refuted_backslash`, `C21_refuted_bang` (Model/Glob, Props/SelectDir, Props/SelectScope) |
| C22 | selection is a union and preserves order | proved | `matching` is a filter | as stated | `C22_sublist`, `C22_union`, `C22_monotone` (Props/Select) |
| C23 | ignore decision follows the last matching rule of the deepest file | partial | `is_ignored` and its loop against "last matching rule of the deepest file" (Spec/Ignore) | Proved for all directories from just below the mount point; refuted for ignore files in the mount point directory itself (never read), e.g. /.gitignore. | `C23_last_rule_partial`, `C23_refuted_root` (Props/Ignore) |
| C24 | built-in ignores cannot be re-included | proved | built-in patterns are decided first | For any matcher; /tmp under the glob laws; exactly which paths the built-in rules hide, with the reference matcher. | `C24_built_in`, `C24_tmp`, `C24_git`, `C24_exactly` (Props/BuiltIn, Props/Ignore) |
| C25 | ignore rules only hide changes and --ignored shows all | partial | `upper_entries` with and without `--ignored`; sublist | Proved for the raw scan; for the change list only if no renamed directory is hidden. Refuted otherwise: a directory moved to an ignored place shows up as a removal. | `C25_scan_sublist`, `C25_ignored_shows_all`, `C25_changes_sublist_partial`, `C25_refuted` (Props/Ignore) |
| C26 | ignore files in the sandbox shadow the host's | partial | reading of rule files from the storage before the host | Proved unless a copy in the storage is a symbolic link; refuted for links: relative ones to unchanged files are not found and the host copy is used. Refuted also for directories moved in the sandbox (rules lost) and replaced in it (the host rules still apply). Also shown: a copy deleted in the sandbox does not shadow the host copy. | `C26_shadowing_partial`, `C26_deleted_still_applies`, `C26_refuted_link`, `C26_refuted_moved`, `C26_refuted_replaced` (Props/Ignore, Props/IgnoreMoved) |
| C27 | rule caching does not change the outcome | partial | cache invariant: an entry equals a fresh reading | Proved if directories of different mounts are different host directories; refuted otherwise (cache key omits the mount). | `C27_history_partial`, `C27_refuted` (Props/Ignore) |
| C28 | ignore lines mean what gitignore says | partial | line parser; one theorem per clause of gitignore(5), with Spec.GlobLaws; for arbitrary lines and files by induction over the rules, for every matcher | For every line and every matcher: an exclamation mark re-includes exactly what the line hides, and a slash at the beginning makes no difference to a line with one elsewhere; for every file a further line adds what it hides, and !line takes it back. Each clause proved for literal names and any matcher satisfying GlobLaws; lines with several components and lines with the wildcards * and ? for any matcher satisfying also GlobWildLaws (the reference matcher does); a backslash before a number sign for any matcher that reads it so (Spec.GlobHash); refuted against gitignore for a trailing slash (not applied at deeper levels) and for wildcards (what is below a matching directory is not hidden; the same for **/name), and for names that begin with an exclamation mark (/!x and \!a/b hide everything, the matcher taking the mark for a negation) and for the line / alone (hides the directory of the file) , blanks at the beginning of a line (dropped) and re-inclusion below an excluded directory (allowed). | `C28_name`, `C28_negated`, `C28_escaped`, `C28_anchored`, `C28_directory`, `C28_blank`, `C28_comment`, `C28_file`, `C28_path`, `C28_wild`, `C28_wild_path`, `C28_refuted_trailing_slash`, `C28_refuted_wildcard`, `C28_refuted_bang`, `C28_refuted_escaped_path`, `C28_refuted_bang_lists`, `C28_refuted_slash`, `C28_hash`, `C28_trailing_blank`, `C28_refuted_leading_blank`, `C28_negation`, `C28_slash_inside`, `C28_line_added`, `C28_line_negated`, `C28_line_empty`, `C28_refuted_parent`, `C28_directory_path`, `C28_final_newline`, `C28_trimmed`, `C28_refuted_stars`, `C28_refuted_stars_accept`, `C28_stars_wild` (Props/IgnoreBang, Props/IgnoreLines, Props/IgnoreNegate, Props/IgnoreWild) |
| C29 | mount directory names round-trip | partial | base32 and UTF-8 transcribed; bit-list round trip by induction in groups | Round trip, injectivity and the character set are proved for every path, and the converse: only (case variants of) encodings are taken for mount points; the name is a valid component (at most 255 bytes) exactly for paths below 160 bytes, refuted above. | `C29_roundtrip`, `C29_injective`, `C29_component`, `C29_length`, `C29_exact`, `C29_case`, `C29_lower`, `C29_refuted_long` (Props/Base32, Props/Decode) |
| C30 | every storage path is attributed to the right host path | proved | composition of decoding and path joining | For the real base32/UTF-8 decoding; removals are stated for storage paths without a redirect on the way. | `C30_host_path`, `C30_removed_path`, `C30_distinct` (Props/Base32) |
| C31 | mounts are set up parents first and never include the sandbox itself | partial | mount scan: filter and sort; mount-table semantics | Exactness, root, order and the resulting view are proved for every mount table; own names only if no directory is mounted over twice (refuted otherwise). | `C31_exact`, `C31_root`, `C31_parents_first`, `C31_own_names_partial`, `C31_every_path_shows_its_overlay`, `C31_refuted_stacked` (Props/Mounts) |
| C32 | stop and delete unmount only this sandbox's mounts, innermost first | proved | unmount list: filter and reverse sort; mount-table semantics | List and order for every mount table; the effect on the mount table if no mount of the sandbox is hidden by a later one (counterexample otherwise). | `C32_exact`, `C32_effect`, `C32_refuted_hidden` (Props/Mounts) |
| C33 | the mount point of a path is found correctly | proved | two loops of `find_mount_point`; induction on the path | As stated, for absolute paths. In terms of the mount table only if a mount and its parent directory have different devices (bind mounts within a file system: counterexample). | `C33_spec`, `C33_deepest_mount_partial`, `C33_refuted_same_device` (Props/FindMount) |
| C34 | option precedence: command line, environment, files, default | proved | resolve_config per setting against "what the command line, the variable, the files give" | All six settings. For the storage directory the theorem is about the setting; what becomes of it is C59. The name chosen by --new and --last is C43. No origin is recorded for the default log level. | `C34_log_level`, `C34_net`, `C34_ignored`, `C34_no_default_binds`, `C34_name`, `C34_storage_dir`, `C34_malformed` (Props/Config) |
| C35 | more specific config files override less specific ones | partial | search for files and merging; induction over the file list ("last setter") | All clauses proved; "inside the home directory" only if the home directory is spelled as the current directory is (refuted for a HOME through a symbolic link). | `C35_search`, `C35_overrides`, `C35_not_above_home`, `C35_order`, `C35_all_dirs`, `C35_no_config`, `C35_config`, `C35_unreadable`, `C35_refuted_symlink` (Props/ConfigFiles) |
| C36 | bind requests are additive and conflicts are rejected | partial | bind list: induction over requests | Additivity, conflicts and uniqueness are proved for target texts after canonicalisation; refuted for places: relative and absolute spellings of a non-existing target are not recognised as one place. | `C36_binds`, `C36_masks`, `C36_unique`, `C36_conflict`, `C36_conflict_mask`, `C36_only_requested`, `C36_places_partial`, `C36_refuted_relative` (Props/ConfigBinds) |
| C37 | bind syntax source[:target[:options]] | proved | parser of `source:target:options` against the grammar | as stated | `C37_syntax`, `C37_bad_option`, `C37_mounted` (Props/ConfigBinds, Props/Mounted) |
| C38 | a mask request never turns into a readable mount | proved | masks are built with option mask; no branch changes it | as stated | `C38_mask`, `C36_masks`, `C38_mounted` (Props/ConfigBinds, Props/Mounted) |
| C39 | masked paths are hidden whatever else is mounted | partial | mount-table semantics of the bind list in any order | Holds if no other bind target is at or above the masked path; refuted otherwise (binds are applied in hash map order). | `C39_masked_partial`, `C39_kind_partial`, `C39_below_masked_partial`, `C39_config_partial`, `C39_refuted_order` (Props/Mounted, Props/Mounts) |
| C40 | no network unless asked for | proved | namespace flags and default binds; case analysis | as stated | `C40_network`, `C40_other_namespaces`, `C40_default_binds`, `C40_env` (Props/ConfigBinds) |
| C41 | a sandbox lives strictly inside the storage directory | partial | name to paths; canonicalisation in FS | Proved for names other than "", "." and ".." whose directory is not a symbolic link; refuted for each of these. | `C41_direct_child_partial`, `C41_delete_partial`, `C41_refuted_empty`, `C41_refuted_dot`, `C41_refuted_symlink` (Props/Names) |
| C42 | different sandboxes use different files | partial | name to paths; injectivity of suffixing | The exact condition under which two sandboxes share a path is proved; refuted for names such as "b" and "b.lock", and for names with a backslash, which the kernel takes out of the mount options. | `C42_share_iff`, `C42_disjoint_partial`, `C42_refuted`, `C57_refuted_backslash` (Props/MountOptions, Props/Names) |
| C43 | --new picks an unused name and --last the newest sandbox | partial | directory listing; induction | --last and the rejection are proved, --new never picks the name of an existing sandbox directory; refuted for a sandbox of which only the lock file exists. | `C43_new`, `C43_last`, `C43_last_found`, `C43_rejected`, `C43_refuted_lock_only` (Props/NewLast) |
| C44 | joining a running sandbox requires identical settings | partial | settings comparison; canonical forms of sorted lists | Join succeeds exactly when network, mounts and binds agree, in any order, if binds are compared by their text and settings.json is intact; refuted for two spellings of one source, for a settings file changed from inside the sandbox, and a missing file. | `C44_join_partial`, `C44_file_partial`, `C44_corrupt`, `C44_refuted_spelling`, `C44_refuted_data`, `C44_refuted_missing` (Props/JsonText, Props/Settings) |
| C45 | one process at a time manages a sandbox | partial | interleaving transition system of flock/open/unlink; inductive invariant | One holder per lock file (inode) in every interleaving, hence one per name as long as nobody deletes the sandbox; refuted with delete, which unlinks the lock file others wait for. | `C45_holders`, `C45_one_holder_partial`, `C45_delete_exclusive_partial`, `C45_refuted_delete` (Props/Lock) |
| C46 | concurrent starts share one sandbox | partial | interleaving transition system of starts, with failures; inductive invariant | In every interleaving of starts and stops, with failures before the pid file is written, deaths of processes and restarts of the machine, at most one instance exists and every command that finds one enters it; refuted if writing the pid file fails, if the first process is stopped by a signal (taken for dead), and for a start soon after a stop, which does not wait for the processes to be gone. | `C46_one_instance_partial`, `C46_one_alive_partial`, `C46_refuted_write_error`, `C46_refuted_frozen`, `C46_refuted_stop` (Props/Start) |
| C47 | stop kills exactly the sandbox's processes | partial | process table; scan loop interleaved with arbitrary activity; inductive invariant | A completed scan, interleaved with any other activity, has killed exactly the processes of the namespace; the pid file is removed. Refuted: a process that ends during the scan makes stop fail and leave survivors; a reused pid makes it kill other processes; a program name with white space in it makes a running sandbox look dead. | `C47_scan_complete`, `C47_scan_sound`, `C47_scan_fails`, `C47_stop_kills`, `C47_stop_files`, `C47_stop_running`, `C47_delete_running`, `C47_refuted_race`, `C47_refuted_reused_pid`, `C47_refuted_blank` (Props/Stop) |
| C48 | a sandbox is reported as started only when it is ready | partial | pipe protocol between parent and child; case analysis of all endings | A reported error makes the start fail and a success means ready or a closed pipe; refuted: a child that dies without reporting counts as started (read returning 0 is not checked). | `C48_ready_partial`, `C48_error_reported`, `C48_refuted_child_dies` (Props/Start) |
| C49 | a setuid invocation cannot choose its identity | proved | resolve_uid_gid_home; case analysis, parser of decimal numbers | Also the exact syntax of SUDO_UID and SUDO_GID. | `C49_setuid`, `C49_setuid_ignores`, `C49_sudo`, `C49_malformed`, `C49_home`, `C49_accepts` (Props/Creds) |
| C50 | sandboxed commands run unprivileged for good | partial | credential transition rules; invariant over all call sequences | All ids are dropped and cannot be regained by any sequence of calls; refuted for supplementary groups, which are never changed. | `C50_dropped`, `C50_success`, `C50_for_good_partial`, `C50_refuted_groups` (Props/Creds) |
| C51 | access checks restore credentials | partial | can_access, can_mkdir as call sequences with every error return | Proved for root (as the program requires), and for any process if the check gives an answer; refuted for an unprivileged process (an error return leaves the group changed). | `C51_restored`, `C51_answered`, `C51_refuted_unprivileged` (Props/Creds) |
| C52 | the command's exit status is passed on | partial | wait loop over wait statuses and received signals, with the dispositions of a Rust program | Exit codes, and signals, for every caller; refuted for commands that die from SIGPIPE, SIGSEGV, SIGBUS, a real-time signal or a signal the caller ignores (the caller loops for ever, without sleeping) and when a signal is sent to the whole process group (the caller dies although the command handles it). | `C52_exit`, `C52_signal_partial`, `C52_fault`, `C52_faithful`, `C52_refuted_endless`, `C52_refuted_interrupt` (Props/Process) |
| C53 | recursive removal stays inside its tree and device | proved | rmdir_recursive: induction on the tree, fault at any deletion | All failure points by fault injection at any deletion. | `C53_stays_inside`, `C53_success_removes_all`, `C53_other_device_fails`, `C53_succeeds` (Props/RmdirRec) |
| C54 | delete deletes the selected sandboxes, only these, completely, and only after confirmation | partial | delete over FS; footprints | Confirmation, lock last, the scope and completeness for proper names are proved; refuted for names such as "."; and the command succeeds (exit 0, status "success") although a selected sandbox could not be deleted. | `C54_confirmation`, `C54_scope_partial`, `C54_yes`, `C54_lock_last`, `C54_deleted`, `C54_complete_partial`, `C54_refuted_dot_lock`, `C54_refuted_success` (Props/Delete) |
| C55 | list shows every sandbox once, sorted, as running or stopped | proved | listing: sort and dedup; induction | as stated | `C55_list`, `C55_succeeds` (Props/List) |
| C56 | log messages before configuration are neither lost nor leaked | partial | logger state machine; induction over the history | Proved for every sequence of operations; refuted for the program if resolving the configuration fails (main returns before the deferred messages are printed, so all are lost). | `C56_output`, `C56_nothing_early`, `C56_main`, `C56_refuted_failure` (Props/Logger) |
| C57 | storage paths cannot inject overlay mount options | partial | option string against the kernel option parser; escaping round trip | Proved if name and mount point contain no comma, colon or backslash; refuted for names and mount points, which are not checked; with a backslash in the name the storage of another sandbox is used. | `C57_options_partial`, `C57_check`, `C57_refuted_name`, `C57_refuted_backslash`, `C57_refuted_mount_point` (Props/MountOptions) |
| C58 | tilde expansion | partial | expand_tilde; case analysis | Proved except for `~//…` (refuted: the result is an absolute path outside the home directory). | `C58_home`, `C58_other`, `C58_below_partial`, `C58_refuted_double_slash` (Props/ConfigFiles) |
| C59 | storage directory choice | partial | candidate list against the mount table | Choice and usability for every mount table with canonical candidates; refuted for a candidate that is a symbolic link and for stacked mounts. | `C59_choice_partial`, `C59_usable`, `C59_relative`, `C59_refuted_symlink`, `C59_refuted_stacked` (Props/Storage) |
| C60 | JSON status reflects success | partial | main with JSON output; case analysis of all endings | Proved once the action is started; refuted for failures before it (no object at all) and for delete, whose individual failures still give status success. | `C60_object_partial`, `C60_values`, `C60_plain`, `C60_delete_errors`, `C60_refuted_early`, `C60_refuted_delete` (Props/Json) |
| C61 | stop with patterns stops exactly the matching sandboxes | proved | stop_all over FS and processes; induction over names | Hypotheses: the pid files are regular files (the tool creates them so); for completeness also that removing a file does not fail and process numbers are unique. C61_part: unlike for list and delete, a part of the name is enough; C61_negated: unlike there, an exclamation mark does not negate. | `C61_scope`, `C61_complete`, `C61_part`, `C61_negated` (Props/StopAll, Props/StopNegated) |
| C62 | a command that dies does not block later commands | partial | lock model with inheritance; reachable states | Released when the holder ends if it did not start a sandbox; refuted: killed while starting, the new sandbox init has inherited the lock. | `C62_released_partial`, `C62_refuted_start_killed` (Props/Lock) |
| C63 | status output says exactly what changed | partial | status text and JSON; unique readability by induction on texts | Every line says the change it stands for, the JSON determines the changes; the text is unambiguous for names without line breaks and `>`; refuted for names with a line break or ` -> `. | `C63_line`, `C63_unambiguous_partial`, `C63_json`, `C63_refuted_newline`, `C63_refuted_arrow` (Props/Output) |
| C64 | the numbers in the question before deletion | partial | count_upper_entries against storage | The numbers are exact for stored non-directories; 0 and 0 means no stored file; refuted: links to directories, deletions by re-creation are changes counted as 0. | `C64_numbers`, `C64_nothing_lost_partial`, `C64_refuted`, `C64_question`, `C64_words` (Props/Count) |
| C65 | `sandbox config` shows the settings in force | partial | config action; each key; joining and splitting of lists | Every key and list of keys, plain and JSON; the binds shown mean the same binds if none has a comma, line break or outer blanks (refuted otherwise: config files allow commas); upper_cwd is right unless the current directory is inside another mount of the same device, e.g. a bind mount (refuted). | `C65_one_answer`, `C65_single`, `C65_several`, `C65_all`, `C65_unknown`, `C65_json`, `C65_bind_partial`, `C65_upper_partial`, `C65_refuted_comma`, `C65_refuted_bind` (Props/ConfigCmd) |
| C66 | A command runs with exactly the words, directory, ids, environment and namespaces promised | partial | exec as sequence of calls on a process state | For every caller with effective id 0; the command is always started if the environment is valid UTF-8 text; refuted otherwise: one variable that is not UTF-8 makes every command fail. | `C66_command`, `C66_started_partial`, `C66_namespaces`, `C66_storage`, `C66_shell`, `C66_words`, `C66_refuted_env` (Props/Exec) |
| C68 | commands in the sandbox change the host only where the user allowed it | proved | mount table after set-up decides the file system a write reaches | For every configuration whose set-up succeeds as in C69; the mount table decides which file system a change reaches. | `C68_host` (Props/Isolation) |
| C69 | starting leaves exactly the intended mounts | partial | set-up as a sequence of mount calls (Model/Setup); mount-table semantics, induction over mounts and binds | Proved unless a mount or a bind target is at or above the staging directory, i.e. at /run; refuted for /run: start always fails. | `C69_setup_partial`, `C69_refuted_run` (Props/Setup) |
| C70 | /proc and /sys in the sandbox are private, masked and read-only | proved | mount table after set-up at /proc and /sys | as stated | `C70_proc`, `C70_sys`, `C70_hidden`, `C70_readonly` (Props/Isolation) |
| C71 | status reports every difference between the sandbox and the host, and only those | partial | `changes` and status against overlay lookup; induction on paths | Also with renamed directories (listed as renames). Missing: mount points themselves and deleted dangling links (refuted: C01_refuted_mount_root, C01_refuted_dangling), what was in a directory before another was moved over it (refuted), directories moved out of deleted ones (refuted). | `C71_reported_partial`, `C71_true_partial`, `C71_moved_partial`, `C71_moved_true_partial`, `C71_refuted_replaced`, `C71_refuted_moved_out`, `C01_refuted_mount_root`, `C01_refuted_dangling` (Props/Reported, Props/ReportedMoved, Props/View) |
| C72 | Starting a sandbox changes nothing on the host outside its own places | partial | preparation of the storage as micro-operations; footprints at every prefix | At every crash point, if there are no symbolic links at or above the sandbox places; refuted: settings.json, which can be replaced from inside the sandbox, may be a link and then any host file is overwritten by root at the next start; a link in place of `upper` makes directories elsewhere; a bind placed inside an earlier writable one makes its place on the host as root. | `C72_last`, `C72_start_partial`, `C72_refuted_settings`, `C72_refuted_upper`, `C79_refuted_host`, `C79_refuted_variable` (Props/MountPoints, Props/Prepare) |
| C73 | A stopped sandbox can be started again | partial | preparation run on the state a run leaves | Proved for the preparation of the storage if owners are unchanged; refuted: a chown of a mount's top directory, inside or outside, and a kill between mkdir and chown, make every later start fail. Mounting itself is C69. | `C73_start`, `C73_again_partial`, `C73_refuted_chown`, `C73_refuted_killed` (Props/Restart) |
| C74 | A new sandbox looks exactly like the host | partial | overlay lookup of freshly prepared storage | All paths below the mounts' top directories; these keep their owner but not their mode (refuted: always 0755). | `C74_new_partial`, `C74_refuted_mode` (Props/Restart) |
| C75 | diff shows the difference between the host file and the sandbox file | partial | what is given to the program diff and how its output is changed, against host file and overlay lookup | Regular files not below a link of the host, in states in which diff does not crash; refuted for staged links (content of the link target on the host is shown, read as root), files below links of the host, and lines that mention the storage path. | `C75_shown_partial`, `C75_printed_partial`, `C75_lines`, `C75_exit`, `C75_refuted_directory`, `C75_unchanged`, `C75_refuted_link`, `C75_refuted_relative`, `C75_refuted_below_link`, `C75_refuted_content` (Props/DiffText) |
| C76 | no program chosen by the caller runs with more rights than the caller | partial | process credentials at each execvp; PATH lookup | Commands: user and group ids for good (supplementary groups: C50_refuted_groups). Refuted for diff: found through the caller's PATH and run with effective uid 0. | `C76_command_partial`, `C76_diff_partial`, `C76_refuted_diff` (Props/DiffText) |
| C77 | changes are handled whatever bytes file names consist of | partial | loops over the storage with names as bytes; UTF-8 and lossy decoding transcribed; induction over the listing | Everything works if all names are text; refuted otherwise: one stored name that is not UTF-8 makes status, diff, accept and reject panic (with --ignored: fail) whatever is selected, and the question of delete as well. The case that another stored file has the name with replacement characters (with --ignored) is not modelled further. | `C77_text`, `C77_onDisk`, `C77_stops`, `C77_stops_ignored`, `C77_question`, `C77_refuted_name` (Props/RawNames) |
| C78 | a pattern selects nothing outside the directory it names | partial | pattern compilation of `matching` with the laws of the matcher; prefix lemmas on path texts | For any matcher satisfying Spec.GlobLaws, Spec.GlobPrefix (globRef does); refuted for a current directory whose name has glob characters and for negated patterns, which select changes everywhere. | `C78_scope`, `C78_relative_partial`, `C78_negated`, `C78_refuted_cwd`, `C78_refuted_negated` (Props/SelectScope) |
| C79 | starting a sandbox changes nothing | partial | list of file operations along the mount operations of C69, each tied to the mounts made before it (induction); scope of single operations; congruence of overlay lookup | Scope of everything made, at every interruption point, and nothing left if all places exist. Refuted: missing targets of binds and masks become stored changes; an interrupted start leaves /old-root-UUID as a change, and so does every start of a caller whose environment has a variable of the program's own tests (looked at in every build); a bind inside an earlier writable bind makes its place on the host as root, owned by the caller. | `C79_storage_partial`, `C79_host_partial`, `C79_host_kept_partial`, `C79_host_nodes_partial`, `C79_storage_nodes_partial`, `C79_nothing_partial`, `C79_refuted_target`, `C79_refuted_old`, `C79_refuted_host`, `C79_refuted_variable` (Props/MountPlaces, Props/MountPoints) |
| C80 | files the caller may not read do not influence the program | partial | noninterference: congruence of every stage of configuration in the contents of files; characterisation of the files found | Noninterference for files found by searching and for readable ones given with --config; refuted: --config reads any file as root; a .gitignore made in the sandbox may be a link to any file of the host, which status reads as root. | `C80_secret_partial`, `C80_refuted_config`, `C80_refuted_ignore_link` (Props/Ignore, Props/Secrets) |
| C81 | a sandbox gives no access to files the user has no access to | partial | kernel permission check on the nodes seen through the mounts of the sandbox; what is between a mount and a path is seen through the same mount; overlay lookup with an empty upper layer is the host | Binds: with any storage, if the user can get to their sources. Overlays: in a new sandbox whose top directories have the mode of the host and outside /run. Refuted without these: binds are made as root (a file below a private directory of root becomes readable), top directories of mounts get 0755, directories above mounts in /run are made anew. Symbolic links, ACLs and capabilities are not modelled. | `access_rule`, `setuid_rule`, `C81_bind_partial`, `C81_overlay_partial`, `C81_refuted_bind`, `C81_refuted_mode`, `C81_refuted_run` (Props/Access) |
| C82 | a sandbox gives no additional rights through set-uid programs | partial | mount flags of every kind of mount with the kernel rule for set-uid bits, on top of C81 | New sandboxes, under the conditions of C81; refuted: overlays over mounts with nosuid have no such flag; with --bind DIR:/etc the files of the user take the place of those that set-uid programs trust. | `C82_suid_partial`, `C82_private`, `C82_trusted_partial`, `C82_refuted_nosuid`, `C82_refuted_etc` (Props/Access) |
| C83 | what is masked cannot be seen at all | partial | noninterference of overlay lookup: the host path looked up is the one named by the redirects (induction over the path), never at or below the mask; which mount covers a path | For every storage in which no directory above, at or below the masked path was moved, binds in place before the mask or from elsewhere; refuted: after mv of a parent directory in the sandbox and a restart the content is visible under the new name. The kind of the masked thing (file or directory) shows. | `C83_masked_partial`, `C83_refuted_moved` (Props/Masked) |
| C84 | working in a sandbox and accepting is working on the host | partial | simulation: an invariant relating the storage to a file system on which the same was done directly, kept by every operation (copy-up, whiteouts, opaque marks); induction over the history; composed with C01_view_partial | C84_host and C84_view hold for every history; C84_whole_partial: accepting everything succeeds and brings the host to exactly the state it would have if everything had been done there directly: for histories with no renamed merged directories, no symbolic link of the host in the way of an operation, fresh temporary names, everything selected, and nothing accept cannot carry out (Spec.CanAccept); mount points themselves excepted. C84_history_partial: without Spec.CanAccept, if accept succeeds. Refuted: rmdir x/y; rmdir x; mkdir x; echo >x/y makes accept fail half-way. The overlay kernel operations are transcribed in Model/History.lean. | `C84_view`, `C84_host`, `C84_history_partial`, `C84_whole_partial`, `C84_refuted_recreated` (Props/History, Props/HistoryAccept) |
| C85 | accept succeeds exactly when the selected changes can be carried out | partial | both directions: a successful run gives each condition of the selection (converse lemmas for each pass); the conditions keep each pass from failing (invariants over the passes in the order accept uses) | Exact (iff) for selections without renamed directories on hosts with no links in the way and storage on one file system; with renamed directories (nested, swapped, with changes inside, onto free places) the conditions are sufficient, and the host is exactly as if all changes had been made at once (C85_moves_partial); accepting everything succeeds, with and without renamed directories (C85_everything_partial, C85_everything_moved_partial); refuted: accepting a new directory by its name fails, because the name selects only what is below it (C85_new_directory: always). | `C85_succeeds_partial`, `C85_moves_partial`, `C85_everything_partial`, `C85_everything_moved_partial`, `C85_new_directory`, `C85_refuted_new_directory` (Props/Everything, Props/EverythingMoves, Props/Feasible, Props/FeasibleMoves) |
| C86 | accept gives a user no rights he does not have | partial | permission checks of the kernel on both sides of the simulation of C84; the permitted operations form the same sublist of the history | For every history of permission-checked operations in a new sandbox whose top directories have the modes of the host, if everything is accepted and nothing is in the way (conditions of C84_whole_partial). Refuted: a link to a directory removed in the sandbox makes accept delete what it leads to, as root; the storage belongs to the user, who can plant any file in it; top directories of mounts are always 0755 in the sandbox. | `C86_same_rights`, `C86_own_rights_partial`, `C86_protected_partial`, `may_iff`, `C86_refuted_link`, `C86_refuted_planted`, `C86_refuted_top` (Props/Rights) |
| C87 | Accept never makes set-uid programs of other users | partial | induction over the crash states of the plan: no operation other than copying and chmod can give a file the bit (chown clears it) | If no file that is created or changed has the bit in the sandbox, at every crash point, for every host and storage. Refuted otherwise: a set-uid program of the user is copied as root with its mode and gets its owner only after its name, so that in between executing it gives root. | `C87_no_new_partial`, `C87_refuted_window` (Props/Suid) |
| C88 | Accept and other programs do not disturb each other | partial | every operation of the plan reads and changes nothing at the paths of the others (non-interference lemma per system call); induction over the interleaving | For writes at paths that are not accept's own nor above them (below a directory that is only created or changed they may be), on hosts with no links in the way, from the end of the checks on. Refuted otherwise: a program of the user that exchanges a directory accept has just created for a link to /etc makes root's accept replace /etc/passwd. | `C88_beside_partial`, `C88_refuted_link` (Props/Race) |
| C89 | Moving directories in a sandbox is moving them on the host | partial | simulation as for C84, with an invariant about where the host part of every directory is found (each at most once, redirects only on merged directories); rename(2) of overlayfs shown to keep it; induction over the history; composed with C01_moved_partial | C89_view and C89_host hold for every history of operations and directory moves; C89_whole_partial: if everything is selected, accept succeeds and the host ends as if everything had been done there (C89_accept_partial: whenever it succeeds), for final storages that satisfy Spec.Ordinary (no links in the way, fresh temporary names) and Spec.MovesReady (redirects the program understands, moved directories keep owner and mode, nothing moved out of a directory that was then deleted or replaced), and for success Spec.MovesAcceptable (new places free, one mount, current directory outside). The excluded cases are refuted: C01_refuted_rename_mode, C01_refuted_moved_out, C13_refuted_recreated, C01_refuted_dangling, C15. rename(2) on overlayfs is transcribed in Model/Moves.lean; moves of directories that contain mount points and renames of files onto files (equivalent to other operations) are not modelled. | `C89_view`, `C89_host`, `C89_accept_partial`, `C89_whole_partial` (Props/HistoryMoves) |
| C90 | A command never runs outside its own sandbox | partial | the transition system of C46 extended by stops, deaths, restarts of the machine and re-used numbers; inductive invariant; the step that enters inspected | In every interleaving of starts, stops, deaths and restarts of the machine as long as no process number is used again while the pid file names it (and without the faults of C46). Refuted: a pid file that survives a restart of the machine names some other process by then, and commands run in its namespaces, i.e. on the host; the same if the number is re-used between finding and entering; whoever writes the pid file chooses the process. | `C90_own_sandbox_partial`, `C90_named`, `C90_refuted_reused`, `C90_refuted_race`, `C90_refuted_planted` (Props/Join, Props/Start) |
| C91 | list and stop work whatever files are called | partial | lossy decoding step by step; suffixes of ASCII bytes by induction; the loops of list and stop on byte names | Holds if the names of the lock files are text; refuted by one file whose name is not UTF-8 and ends in .lock: list and stop panic, or see a sandbox that does not exist. | `C91_listing_partial`, `C91_refuted_name` (Props/RawList) |
| C92 | names are completed to existing sandboxes | proved | sandbox_name_completion as a filter over the listing | From the listing of the storage directory on; how the command line that is being completed is parsed is not modelled. | `C92_complete` (Props/RawList) |
| C93 | Settings written at a start are the ones compared when the sandbox is entered | proved | writer and reader of JSON texts as total functions; both proved against the grammar of RFC 8259 by mutual induction (the reader accepts exactly the grammar), then decoding of the fields | serde_json is transcribed from its sources (writer and reader); C93_files characterises the accepted files by the grammar of RFC 8259. Simplifications: no nesting limit, no limit on the size of numbers (both concern only fields that are skipped), paths are UTF-8. | `C93_roundtrip`, `C93_join`, `C93_files`, `C93_damaged` (Props/JsonText) |
| C94 | --json prints one well-formed JSON text that says what was recorded | proved | insertion into a sorted map; output shown to be in the grammar of RFC 8259, which is uniquely readable | Hypothesis: numbers, if any, are written as JSON numbers (the actions record only strings, lists and objects: delete_numbers, status_numbers). Failures before the action starts print no object: C60. | `C94_text`, `C94_status`, `C94_entries` (Props/JsonText) |
| C95 | Accept copes with every file name the file system allows | partial | the interpreter of accept with the length limit on every call; induction over the operations; lengths of the temporary names computed from the UTF-8 lengths of stems and names | Exact (iff): accept succeeds under the limit exactly if it succeeds without it and names without extension of created or modified files have at most 218 bytes and the two names of a renamed directory at most 206 bytes together. Refuted beyond: the accept fails half-way after its checks passed. PATH_MAX is not modelled. | `C95_exact_partial`, `C95_same_partial`, `C95_interrupted`, `C95_refuted_copy`, `C95_refuted_rename` (Props/Limits) |
| C96 | What a config file says is in force, or the command fails | partial | decoding of a TOML table by field as a total function, equivalent to a relational specification; composed with C34-C36 | From the TOML document on (the crate toml is a parameter: text to table with different keys). Refuted: keys that are no setting are ignored, so that a misspelt mask leaves the path visible. | `C96_document`, `C96_files`, `C96_masks`, `C96_binds`, `C96_net`, `C96_refuted_unknown`, `C96_refuted_case` (Props/ConfigFile) |
| C97 | A sandbox shows the file systems of the host | partial | host as a table of mounts, each with a tree; overlay lookup with the tree of one mount as the lower layer compared with lookup in the whole host; the scan keeps a mount iff its type is listed; lookup is congruent in the lower layer | Exactly what a new sandbox shows (C97_shown), hence equality with the host on overlaid file systems; with changes stored, and for bind mounts with nothing mounted inside. Refuted for file systems of other types (tmpfs and more), whose files are invisible, and accept then deletes or overwrites files never seen in the sandbox. C97_changed_partial and C97_moved_partial justify that the other properties take the lower layer to be the host. | `C97_shown`, `C97_same_partial`, `C97_changed_partial`, `C97_moved_partial`, `C97_bind_partial`, `C97_refuted_unseen`, `C97_refuted_bind`, `C97_refuted_accept` (Props/Layers) |
| C98 | What a mount of the host forbids stays forbidden | partial | flags of every mount of a sandbox as a function; kernel rules for opening devices and executing; on top of C81, case split over what shows the path | New sandboxes, under the conditions of C81; writable binds and /proc, /sys in all sandboxes. Refuted: overlays have none of the flags of the mounts below, and read-only binds lose nodev and noexec. | `C98_partial`, `C98_bind`, `C98_proc_sys`, `C98_dev`, `C98_terminals`, `C98_cgroup`, `C98_refuted_overlay`, `C98_refuted_readonly` (Props/Flags) |
| C99 | Any accepted name can be used | partial | the calls that get the name, run in order with their length limits; byte lengths add up | Exact: for proper names the start succeeds iff the name has at most 64 bytes, although longer ones are accepted; what is left is stated, too. Lengths of whole paths and mount options are not modelled. | `C99_exact_partial`, `C99_left_partial`, `C99_refuted_long` (Props/StartName) |
| C100 | What list prints tells which sandboxes there are and which of them run | partial | the printed lines are injective in the two sorted lists (split at the first blank line); composed with C55; JSON by C94 | JSON and errors without restriction; the text if no name has a line break (refuted otherwise). Escape sequences for colours are not modelled: output is not a terminal. | `C100_text_partial`, `C100_json`, `C100_error`, `C100_refuted_newline` (Props/ListText) |
| C101 | A command in a sandbox starts with what the caller gives it | partial | descriptor tables and dispositions as functions, followed through execve, the Rust runtime, pipe, clone, setns and execve (Model/Process) | Files, session, group, umask without restriction; signals except SIGPIPE, which every command in a sandbox finds ignored (refuted). | `C101_files`, `C101_signals_partial`, `C101_refuted_sigpipe` (Props/Process) |
| C102 | A running sandbox does not hold on to the caller | partial | the same tables for the first process of a sandbox | Session, group, standard descriptors and the pipe; refuted for the other descriptors of the caller, which stay open as long as the sandbox runs. | `C102_detached_partial`, `C102_refuted_held` (Props/Process) |
| C103 | Processes that have ended leave a running sandbox | partial | transition system of a process table with reparenting; invariant: in tidy histories every parent lives; witness: a family of histories with n zombies | If every process collects its children before it ends; refuted otherwise: the first process of the sandbox never waits, so orphans stay in the process table until the sandbox is stopped. | `C103_collected_partial`, `C103_refuted_orphans` (Props/Process) |
| C104 | The file systems of a sandbox are mounted exactly while it runs | partial | invariant over histories of the mount table (only overlays below the sandbox, none hidden), composed with C32 | stop cleans up after every history; exactly once for histories without accidents. Refuted: after a first process that was killed the next start mounts everything a second time with the same upper directories; failed starts leave their mounts; stop --all passes over sandboxes without pid file. | `C104_stop`, `C104_once_partial`, `C104_stop_all_partial`, `C104_layers`, `C104_refuted_died`, `C104_refuted_failed`, `C104_refuted_stop_all` (Props/MountLife) |
| C105 | A running sandbox keeps running until it is stopped | partial | the first process as a machine over signals with kill(2) permissions; invariant: SIGTERM keeps its handler; iff by induction over the history | Exactly which signals of which processes end a running sandbox (iff); other users cannot; a command cannot if the sandbox was started by root (sudo); refuted for the set-user-ID installation: every command in the sandbox can end it with kill 1. | `C105_ends`, `C105_others`, `C105_command_partial`, `C105_refuted_command` (Props/FirstProcess) |
| C106 | While changes are accepted the sandbox keeps seeing what it saw | partial | closed form of overlay lookup at both states; crash-point theorem of the host-changing part (untouched paths), crash points of the clearing pass | Exact equality of what the sandbox sees at every crash point before the storage is cleared, for every selection; up to node identity while the storage is cleared and afterwards if everything is accepted and nothing is stored as opaque.  C106_history_*: the same with hypotheses only on the history of the sandbox (no directory moved; none made for the clearing part).  Refuted for new (opaque) directories while the storage is cleared, and for renamed directories between the two renames. | `C106_view_partial`, `C106_clearing_partial`, `C106_history_partial`, `C106_history_clearing_partial`, `C106_refuted_new_directory`, `C106_refuted_moved` (Props/During, Props/DuringHistory) |
| C107 | An interrupted accept can be repeated | partial | C106 at the crash point, conditions of C85 re-established there from the types of what can be at each host path, then C01 for both runs | Repeating succeeds and gives the same host, from every crash point before the storage is cleared, if no links are stored or replaced and opaque directories are not nested.  C107_history_partial: hypotheses only on the history (no directory moved, no links): after the repeated accept the host is as if everything had been done there directly.  Refuted for crash points while the storage is cleared (a new directory: the repeated accept deletes its files on the host), for links to directories (the repeated accept deletes the contents of their targets) and for renamed directories (the repeated accept refuses). | `C107_repeat_partial`, `C107_history_partial`, `C107_refuted_new_directory`, `C107_refuted_link`, `C107_refuted_moved` (Props/Repeat, Props/RepeatHistory) |
| C108 | After everything was accepted a sandbox follows the host again | partial | exact description of the storage after accept (C06), closed form of overlay lookup for a storage without entries; invariant of histories (marks only over host files); induction over rounds with C84 and congruence of host operations | For storages without renamed directories in which every deletion mark belongs to something on the host (which holds after every history without directory moves: C108_new_partial), any later host, any number of rounds.  Refuted for moved directories and for files that were deleted on the host as well: the mark stays, so that a new file of that name is hidden in the sandbox and deleted by the next accept. | `C108_follows_partial`, `C108_new_partial`, `C108_rounds_partial`, `C108_refuted_moved`, `C108_refuted_deleted_twice` (Props/Fresh) |
| C109 | Rejected changes are undone, and nothing else | partial | invariants of the reject loop (only staged paths of the selection vanish; after success all of them), closed form of overlay lookup before and after, every stored path except stale marks is staged for a listed change; invariants of histories; induction over rounds | For storages without renamed directories and deleted dangling links: what is not selected stays visible at every point of a reject, what is selected together with everything above it shows the host again after success; everything can be rejected if every deletion mark belongs to something on the host (which holds after every history without directory moves), giving a new sandbox; any number of rounds with accepts and rejects.  Refuted for moved directories (the mark of the old name stays, the directory is visible nowhere and the next accept deletes it on the host) and for files deleted on the host as well (mark stays; in a directory the reject fails for ever). | `C109_kept_partial`, `C109_between_partial`, `C109_rejected_partial`, `C109_everything_partial`, `C109_new_partial`, `C109_rounds_partial`, `C109_refuted_moved`, `C109_refuted_deleted_twice`, `C109_refuted_stuck` (Props/Undo) |
| C110 | The command line means what the documentation says | partial | the reading loop transcribed; a separate grammar (inductive relations) of spelled options; both inclusions by induction over the words; what is collected equals the meaning of the items by induction from the right | Exact characterisation (iff) of the command lines that run a command or an action, with the settings, words and patterns they give; arguments of a command never act as options; the side of the action does not matter unless a list option stands on both sides.  Refuted: conflicts and repetitions across the action are not noticed (`--name=o delete --last` deletes the last sandbox), list options before an action are dropped if repeated after it, `--net none` switches the network on, commands beginning with a dash cannot be run even after `--`.  clap is transcribed, not part of the repository; help texts and words that are not Unicode are not modelled. | `C110_command`, `C110_action`, `C110_arguments`, `C110_help`, `C110_action_help`, `C110_position_partial`, `C110_list`, `C110_refuted_conflict`, `C110_refuted_list`, `C110_refuted_twice`, `C110_refuted_net`, `C110_refuted_dash` (Props/Cli, Props/CliHelp) |
| C111 | After sync, accept and reject running sandboxes show the new state | partial | a running sandbox as the present state plus the set of earlier states look-ups may be answered from; case analysis of the ends of the commands; C106 and C109 for what the states show | Proved for the three commands whenever they report success (the kernel is assumed to forget everything when asked; look-ups are answered from one state each); after a reject the host is shown; during and after an accept of plain storages without new directories the same is shown as before, whatever is remembered.  Refuted: commands that fail part-way do not drop the caches; if the caches cannot be dropped accept reports failure although everything was accepted. | `C111_sync`, `C111_accept`, `C111_reject`, `C111_rejected_partial`, `C111_accepting_partial`, `C111_refuted_failed`, `C111_refuted_unable` (Props/Caches) |
| C112 | An invocation does what its words say, to the sandbox they name | partial | the dispatch of main as a function from words, settings and identity to a task; composition of C110 (exact characterisation of command lines) with resolveConfig; C34 for the name, C61 for `stop --all` | Exact (iff) for every action and for commands, from the words of the command line (C110) and the settings in force (C34, C43, C59) to the task carried out; `--name` is obeyed on either side; nothing is done without its word; `stop --all` leaves no process of a running sandbox.  Refuted: with COMPLETE in the environment nothing is done; `--name` is not looked at when patterns are given; stopping a sandbox that does not exist succeeds and makes it appear in the list; `stop PATTERN` reports success when a sandbox could not be stopped. | `C112_changes`, `C112_delete`, `C112_stop_one`, `C112_stop_many`, `C112_listing`, `C112_others`, `C112_run`, `C112_named`, `C112_word`, `C112_stop_all`, `C112_refuted_complete`, `C112_refuted_name`, `C112_refuted_typo`, `C112_refuted_success` (Props/Main) |
| C113 | What commands in the sandbox do while accept or reject runs is not lost | partial | interleaving relations of the operations of accept (and of the reject loop) with arbitrary writes to the storage; simulation of the run alone: the two storages agree off the written paths, each clean-up step is determined by C53 | Proved for all interleavings as long as the commands stay away from the selected changes (for accept: also from the insides of selected directories; for reject: from the directories above them): everything else in the storage is as the commands left it, and accept has the same outcome, host and cleared storage as alone, also while other programs work elsewhere on the host.  Refuted: a file made in a directory with accepted changes, and a file written again after its copy, are deleted with the storage; accept applies a removal that reject has just successfully rejected; reject follows a link put in place of a directory. | `C113_kept_partial`, `C113_undisturbed_partial`, `C113_amid_partial`, `C113_reject_partial`, `C113_refuted_new_file`, `C113_refuted_rewritten`, `C113_refuted_reject`, `C113_refuted_link` (Props/RaceBoth, Props/RaceIn) |
| C114 | The storage lies in the host's own file tree, and neither accept nor reject is confused by it | partial | accept and reject on a single tree; simulation of the two-tree run: outside the storage the trees agree (exec_off of C88), below it the tree is the storage; path resolution commutes with the prefix; C53 for the clean-up | A model of accept and reject on the one tree, with full paths, is proved to do the same as the model on two trees that the other claims use (same outcome, same host outside the storage, same storage): also at every point where they can be interrupted: for reject without conditions, for accept as long as no accepted change is at, in or above the storage (apart from owner and rights of the directories above).  Refuted: accepting a move of a directory that holds the storage; a reject beside a command in the sandbox that puts a link to a directory of the host in the storage deletes files of the host. | `C114_accept_partial`, `C114_interrupted_partial`, `C114_reject`, `C114_reject_interrupted`, `C114_refuted_move`, `C114_refuted_link` (Props/OneTree) |
| C115 | Files with several names (hard links) | partial | inode model of the system calls of accept; each commutes with the view under names unless the file written has another name; invariant over the plan: files that are written are new (temporary copies) or directories, which have one name | Accept is modelled once more on names and numbered files, every system call with its effect on all names of a file (rename of two names of one file does nothing).  Proved: seen under the names, accept does exactly what the model without hard links does, so the other claims carry over; names it does not touch keep their file, at every interruption point.  Not covered: moves of single files (overlayfs records none).  Refuted as wishes of a user: two host names of one file are two files after one has been changed and accepted; two names made by `ln` in the sandbox become two files. | `C115_accept_partial`, `C115_interrupted_partial`, `C115_refuted_changed`, `C115_refuted_created` (Props/Links) |
| C116 | Attributes beyond owner and mode (access control lists, capabilities, labels) | partial | labels on host files that accept provably neither reads nor writes: runs with and without labels agree; the effect theorems of C01/C03 applied to the labelled host say where each label ends; induction over the operations links labels and attributes | Accept is modelled once more with attributes of an arbitrary type beside the host tree, following each system call.  Proved: files that are not touched keep their attributes at every point; after a complete accept moved files and changed directories have theirs, new and changed files have none.  Not covered: inherited attributes, touched files after an error.  Refuted: a changed file loses its access control list, and as its mode is kept, the mask of the list becomes the rights of the group, who may then write a file they could only read. | `C116_attributes_partial`, `C116_interrupted_partial`, `C116_refuted_acl` (Props/Attrs) |
| C117 | Several accepts of one sandbox at the same time | partial | transition system of several accepts; inductive invariant over all interleavings (types and contents of every path, possible links, temporaries of each accept, cleaned paths of each accept); the storage only shrinks, so a staged path can be cleaned up successfully only once | A transition system of any number of accepts, each with the operations it has left, scheduled in any order; operations of several system calls can be seen and can fail half done, and use what was opened earlier; storage can be removed by others.  Proved without further conditions: at most one success per change, success clears the storage, nothing is added to it.  Proved for a plain host and without moves: complete files at every moment, only selected paths, accepted files and directories and removals stay.  Not covered: moves, a file in place of a directory, owner and mode.  Refuted: a changed link is lost although its accept reported success, the same for the owner of a file, and an unrelated file is deleted through an accepted link. | `C117_complete_partial`, `C117_scope_partial`, `C117_storage`, `C117_once`, `C117_cleared`, `C117_done_partial`, `C117_removed_partial`, `C117_refuted_link`, `C117_refuted_through_link`, `C117_refuted_owner` (Props/Together) |
| C118 | What is mounted and where is not decided by files of the caller | partial | model of the start with mount entries that are arbitrary texts (Path::join, mkdir, links); refinement to the start of C72 for the program's own entries | Proved without a settings.json in the storage directory, and with one that has only entries as the program makes them; no links at the sandbox's places (see C72).  Refuted for a settings.json of the caller: directories made anywhere and given to him, an overlay over his own directory mounted on /etc of the host, mount options replaced, files below a private directory of another user made readable. | `C118_mounts_partial`, `C118_places_partial`, `C118_refuted_name`, `C118_refuted_place`, `C118_refuted_options`, `C118_refuted_private` (Props/ParentSettings) |
| C119 | Changes are listed correctly while commands run in the sandbox | partial | step-wise model of the three passes of the scan with writes of others at any point; induction over the events; refinement to the undisturbed list for the paths left alone | Proved for the paths left alone (with the ignore rules of their directories) when nothing is moved in the sandbox meanwhile, what was moved before is left alone, and no two mounts show one directory; the list is made without error if nothing is removed; what is to be created or modified was there at a moment of the scan; accept with such a list touches only the host paths the list is about, whenever it ends, if what it creates is still stored as listed.  Simplification: what one pass reads of one path it reads at one moment, and the host does not change.  Refuted: a directory moved during the walk is listed as removed only, and accept then destroys its contents; a file removed during the walk makes the command fail. | `C119_alone`, `C119_partial`, `C119_succeeds_partial`, `C119_moment_partial`, `C119_accept_partial`, `C119_refuted_moved`, `C119_refuted_vanished` (Props/ScanIn) |
| C120 | Accepting in steps comes to the same as accepting at once | partial | inductive relation of sequences of accepts; what the overlay shows is an invariant of each step (storage after accept, effect on the host); then C01 and C85 for the last accept | Proved, also for whole histories of a sandbox (`C120_history_partial`), for any number of accepts, each of which succeeds and takes directories as a whole (with a stored directory everything stored below it; of a directory made or replaced in the sandbox nothing, or it with all it hides), if nothing was moved and no link of the host is deleted or replaced by a directory.  Refuted: `sandbox accept d` takes what is below d, not d itself; if d was replaced in the sandbox, the accepted files vanish from the sandbox and the next accept deletes them on the host.  Refuted for links whose target is deleted first. | `C120_view_partial`, `C120_partial`, `C120_succeeds_partial`, `C120_history_partial`, `C120_refuted_replaced_directory`, `C120_refuted_link` (Props/Steps, Props/StepsHistory) |
| C121 | Rejecting what is not wanted and accepting the rest is accepting what is wanted | partial | the storage after a reject is the storage filtered; hence the list of stored paths, and of changes, is filtered; both accepts then run the same operations and read the same stored files | Proved with --ignored for storages in which nothing was moved: the list of changes after a successful reject is literally the list of those selected before, the host is equal at every path whether or not the accept succeeds, and success carries over.  What vanishes with a deleted or replaced directory has to go with the deletion.  Refuted for ignore files made in the sandbox: rejecting one brings to light changes that were neither wanted nor listed, and accepting everything accepts them. | `C121_partial`, `C121_refuted_ignored` (Props/RejectRest) |
