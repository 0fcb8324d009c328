# DESIGN — a formal model of anoek/sandbox in Lean 4

## 1. Technique

* **Model** (`lean/Verif/Model/*.lean`): every function of `/repo/src` that carries meaning is transcribed to a small, total, computable Lean function. Each definition cites the
  file and lines it models and says where it simplifies. Operations with several steps on the disk (accept, reject, removal, preparation of the storage) are *programs of micro-operations*;
  a crash, a kill or a failing system call is a prefix of the program (with half-written copies where a single call is not atomic), so "at every crash point" is a quantifier over prefixes.
  Where several processes take part (lock, start, stop) the model is a transition relation and the theorems are invariants over all interleavings.
* **Specification** (`lean/Verif/Spec/*.lean` and the `Spec.` definitions at the top of each `Props` file): written without the helpers of the model — overlayfs lookup, host-tree predicates,
  glob laws, gitignore meaning, mount-table semantics, "last setter", "what a variable denotes" and so on.
* **Theorems** (`lean/Verif/Props/*.lean`): each property is one or more theorems named after it (`C23_last_match` …), for all inputs, states, histories, schedules and crash points it
  quantifies over. Beside each are examples with concrete non-trivial data meeting the hypotheses. Lemmas without a property number live in `lean/Verif/Lib`.
* **Where the code does not satisfy the English claim** the violation is itself a theorem about the model (`Cnn_refuted_…`, a concrete reachable witness), and the strongest part that is true is proved; such
  a property has status *partial* in MANIFEST.json with the missing part in the note. Theorems that prove only a part because the proof is missing end in `_partial`.
* **Mutation tests**: the model is edited as a realistic bug would change the program, and every theorem claimed for the broken property has to fail (`seeded/LOG.jsonl`). Survivors led to stronger statements; see the `tightened` field.

## 2. Trusted base

1. Lean 4.33.0's kernel. The only axioms any theorem depends on are `propext`, `Classical.choice` and `Quot.sound` (Lean's own three); no axioms are added, nothing is evaluated by compiled code. `decide +kernel` asks the kernel itself to evaluate a decidable proposition; it is used for concrete witnesses and examples only.
2. The transcription Rust → Lean, by hand. Every definition cites what it transcribes.
3. The models of the operating system, written from its documentation (all definitions, none an axiom):
   * `Verif/FS.lean`: a tree of nodes (kind, content, mode, owner, device, overlay attributes) indexed by path; `lstat`, `stat`, `realpath` with at most 40 links, `unlink`, `rmdir`, `mkdir`, `symlink`, `rename`, copy, `chown`, `chmod`, `readlink`, their error cases (ENOENT, ENOTDIR, EISDIR, ENOTEMPTY, EEXIST, EXDEV, ELOOP, EBUSY for mount points). `rename(2)` is atomic; a copy may be interrupted half-way.
   * `Spec/Overlay.lean`: overlayfs lookup (whiteouts, opaque directories, absolute and relative redirects) per mount; `Model/History.lean`: what overlayfs stores for create, write, chmod, chown, mkdir, rmdir, unlink (copy-up, whiteouts, opaque marks); `Model/Moves.lean`: renaming of files and directories.
   * `Model/Mounts.lean`, `Model/Setup.lean`, `Props/Mounted.lean`, `Props/Isolation.lean`, `Model/Access.lean`: the mount table as a list, later mounts covering earlier ones; bind, recursive bind, overlay, read-only remount, `pivot_root`, `umount2(MNT_DETACH)`, a tmpfs for masks.
   * `Model/Lock.lean`, `Props/Start.lean`: `flock(2)` on inodes, inherited by `clone`, released with the last descriptor; `Model/Stop.lean`: process table, pid namespaces, `kill`, `waitpid`; `Model/Creds.lean`: `setresuid`, `setresgid`, `seteuid`, `setegid` rules; `Model/Exec.lean`: `setns`, `execvp` and `PATH`; `Model/Process.lean`: wait statuses, default actions of signals, signal dispositions set by the Rust runtime (SIGPIPE ignored, SIGSEGV and SIGBUS handled), descriptors and dispositions across `execve` and `clone`, reparenting of orphans.
4. Libraries, as definitions or hypotheses: `sort_by` is a stable sort; `read_dir`/`WalkDir` list every entry once, parents before children (otherwise in any order: theorems quantify over the order of the association list); `HashMap` iteration in any order (quantified); `fast_glob::glob_match` is a parameter with the laws of `Spec/Glob.lean`, which the executable `globRef` is proved to satisfy; `data_encoding::BASE32_NOPAD(_NOCASE)` and `String::from_utf8` are transcribed; `create_dir_all`, `fs::write`, `fs::copy` by their documentation; clap's reading of the words by the declarations of src/config/cli.rs is transcribed in Model/Cli from its documentation and source (clap is not in the repository); serde_json (pretty writer, reader, derived field decoding) is transcribed in Model/JsonText; `toml` is a parameter from text to table (the decoding of the table is modelled, Model/ConfigFile).

## 3. What is modelled

| Rust file | modelled (Lean file) | not modelled |
|---|---|---|
| src/main.rs | order of configuration, logging, action, JSON result, exit status (Model/Output, Model/Logger), running a command (Model/Exec), the dispatch of the words to actions (Model/Main) | coverage hooks, shell completion set-up, the check for root's own message texts |
| src/actions/accept.rs | all functions (Model/Accept, Model/RmdirRec); its system calls interleaved with writes to the host (Model/Race) and to the storage (Model/RaceIn); with the storage in the same tree (Model/OneTree); with hard links (Model/Links); with extended attributes (Model/Attrs) | messages, colours |
| src/actions/config.rs | all (Model/ConfigCmd) | |
| src/actions/delete.rs | `delete`, selection, question, effects (Model/Sandboxes, Model/Count) | terminal handling of the question |
| src/actions/diff.rs | which entries are shown and when it panics (Model/Actions), what is given to the program `diff`, which program that is, replacement of file names (Model/DiffText) | the program `diff` itself (a parameter), the pager/colours |
| src/actions/list.rs, stop.rs, reject.rs, status.rs | all (Model/Sandboxes, Model/Stop, Model/Actions, Model/Output) | column widths |
| src/actions/sync.rs, src/util/sync_and_drop_caches.rs | when the caches are dropped and with what result (Model/Caches) | what the kernel really keeps; `sync(2)` |
| src/config/cli.rs | `validate_command`, `parse_log_level`, `sandbox_name_completion` (Model/RawList), the declarations as read by clap (Model/Cli) | help and usage texts, value hints |
| src/config/resolve.rs, structs.rs, impls.rs | all but the following (Model/Config, Model/ConfigFile) | TOML syntax (text to table) |
| src/logger.rs | `log`, `set_level`, `print_deferred`, `enabled` (Model/Logger) | text formatting |
| src/sandbox/changes/*.rs | all (Model/Changes, Model/Ignore, Model/Select, Model/Output, Model/Count, Model/Json, Model/RawNames) | the two buffer sizes of `is_renamed` (values up to 64 KiB are read in full either way) |
| src/sandbox/delete.rs, exists.rs, unmount.rs, stop.rs | all (Model/Sandboxes, Model/Stop, Model/Mounts) | retry delays |
| src/sandbox/exec.rs | `exec`, parent's wait loop (Model/Exec, Model/Process) | coverage hooks |
| src/sandbox/get_or_create.rs | `get`, `get_or_create`, start and its pipe (Model/Lock, Model/Prepare, Model/Setup, Props/Start) | `clone3` argument block, coverage hooks, message texts |
| src/sandbox/mount_overlays.rs | all (Model/Mounts, Model/Setup) | |
| src/sandbox/settings.rs | all: comparison, file presence/corruption (Model/Settings), JSON text of settings.json (Model/JsonText) | paths that are not UTF-8 |
| src/util/*.rs | access, drop_privileges, expand_tilde, find_mount_point, get_running_sandbox_pid, lock_sandbox, mkdir, mount (option check), mounts, output, resolve_uid_gid_home | clone3.rs (a system call wrapper) |

Not modelled anywhere: PATH_MAX (NAME_MAX only in C29 and C95), Rust memory safety, kernel internals, time and performance, hard links (except in C115), ACLs and extended attributes other than overlayfs's (except in C116), timestamps, disk-full errors other than as "a step may fail" (crash prefixes cover them),
and changes made to host or storage by others *during* one action (except in the properties about interleavings: C45–C48, C62, C88, C90, C113, C117). A `Str` is a list of Unicode scalar values; paths that are not UTF-8 are treated separately, in Model/RawNames (C77) and Model/RawList (C91, C92).

## 4. Violations found (each is a theorem)

