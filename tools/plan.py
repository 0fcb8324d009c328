HOW={
'C01':'FS, overlay lookup (Spec/Overlay), `changes`, accept as micro-operations; the effect of each phase is computed (Lib/PhaseA*, PhaseRM, SetRun, Effect, Whole), then compared with the lookup by induction on paths',
'C02':'check phase of accept; a violated check gives the empty program',
'C03':'footprint of every micro-operation, lifted to all prefixes (Lib/Crash) by induction over the phases',
'C04':'invariant over all prefixes, with half-written copies as states',
'C05':'storage is untouched by every operation before the clean-up phase; clean-up starts only after all others succeeded',
'C06':'clean-up phase over the staged list sorted descending (Lib/Clean); induction',
'C07':'counting lemmas on the selected and not selected lists',
'C08':'removal phase with reverse path order (Lib/RemovePass); induction over the sorted list with "nothing below is left" as invariant',
'C09':'set phase: chown then chmod (Lib/SetBlock); the final node is computed',
'C10':'`is_removed` on device numbers; arithmetic',
'C11':'removal operations on link nodes at every prefix',
'C12':'`changes` gives an error entry for special kinds; accept fails in the check phase',
'C13':'`changes` against the overlay lookup; phases as in C01',
'C14':'rename to temporaries, then to destinations (Lib/RenamePass); induction over the list, temporaries fresh',
'C15':'`get_source_lower_path_for_upper_path` against overlay lookup (Spec/Overlay)',
'C16':'the list printed is a permutation of the actionable part of the selected changes (stable sort)',
'C17':'footprint of every prefix of the reject loop',
'C18':'induction over the staged list sorted descending',
'C19':'`diff_entries` with the panicking branches as outcomes',
'C20':'`matching` without patterns; prefix lemmas on path texts',
'C21':'`matching` with a directory pattern; prefix lemmas, glob laws',
'C22':'`matching` is a filter',
'C23':'`is_ignored` and its loop against "last matching rule of the deepest file" (Spec/Ignore)',
'C24':'built-in patterns are decided first',
'C25':'`upper_entries` with and without `--ignored`; sublist',
'C26':'reading of rule files from the storage before the host',
'C27':'cache invariant: an entry equals a fresh reading',
'C28':'line parser; one theorem per clause of gitignore(5), with Spec.GlobLaws; for arbitrary lines and files by induction over the rules, for every matcher',
'C29':'base32 and UTF-8 transcribed; bit-list round trip by induction in groups',
'C30':'composition of decoding and path joining',
'C31':'mount scan: filter and sort; mount-table semantics',
'C32':'unmount list: filter and reverse sort; mount-table semantics',
'C33':'two loops of `find_mount_point`; induction on the path',
'C34':'resolve_config per setting against "what the command line, the variable, the files give"',
'C35':'search for files and merging; induction over the file list ("last setter")',
'C36':'bind list: induction over requests',
'C37':'parser of `source:target:options` against the grammar',
'C38':'masks are built with option mask; no branch changes it',
'C39':'mount-table semantics of the bind list in any order',
'C40':'namespace flags and default binds; case analysis',
'C41':'name to paths; canonicalisation in FS',
'C42':'name to paths; injectivity of suffixing',
'C43':'directory listing; induction',
'C44':'settings comparison; canonical forms of sorted lists',
'C45':'interleaving transition system of flock/open/unlink; inductive invariant',
'C46':'interleaving transition system of starts, with failures; inductive invariant',
'C47':'process table; scan loop interleaved with arbitrary activity; inductive invariant',
'C48':'pipe protocol between parent and child; case analysis of all endings',
'C49':'resolve_uid_gid_home; case analysis, parser of decimal numbers',
'C50':'credential transition rules; invariant over all call sequences',
'C51':'can_access, can_mkdir as call sequences with every error return',
'C52':'wait loop over wait statuses and received signals, with the dispositions of a Rust program',
'C53':'rmdir_recursive: induction on the tree, fault at any deletion',
'C54':'delete over FS; footprints',
'C55':'listing: sort and dedup; induction',
'C56':'logger state machine; induction over the history',
'C57':'option string against the kernel option parser; escaping round trip',
'C58':'expand_tilde; case analysis',
'C59':'candidate list against the mount table',
'C60':'main with JSON output; case analysis of all endings',
'C61':'stop_all over FS and processes; induction over names',
'C62':'lock model with inheritance; reachable states',
'C63':'status text and JSON; unique readability by induction on texts',
'C64':'count_upper_entries against storage',
'C65':'config action; each key; joining and splitting of lists',
'C66':'exec as sequence of calls on a process state',
'C68':'mount table after set-up decides the file system a write reaches',
'C69':'set-up as a sequence of mount calls (Model/Setup); mount-table semantics, induction over mounts and binds',
'C70':'mount table after set-up at /proc and /sys',
'C71':'`changes` and status against overlay lookup; induction on paths',
'C72':'preparation of the storage as micro-operations; footprints at every prefix',
'C73':'preparation run on the state a run leaves',
'C74':'overlay lookup of freshly prepared storage',
'C75':'what is given to the program diff and how its output is changed, against host file and overlay lookup',
'C76':'process credentials at each execvp; PATH lookup',
}
HOW['C77']='loops over the storage with names as bytes; UTF-8 and lossy decoding transcribed; induction over the listing'
HOW['C78']='pattern compilation of `matching` with the laws of the matcher; prefix lemmas on path texts'
HOW['C79']='list of file operations along the mount operations of C69, each tied to the mounts made before it (induction); scope of single operations; congruence of overlay lookup'
HOW['C80']='noninterference: congruence of every stage of configuration in the contents of files; characterisation of the files found'
HOW['C81']='kernel permission check on the nodes seen through the mounts of the sandbox; what is between a mount and a path is seen through the same mount; overlay lookup with an empty upper layer is the host'
HOW['C82']='mount flags of every kind of mount with the kernel rule for set-uid bits, on top of C81'
HOW['C83']='noninterference of overlay lookup: the host path looked up is the one named by the redirects (induction over the path), never at or below the mask; which mount covers a path'
HOW['C84']='simulation: an invariant relating the storage to a file system on which the same was done directly, kept by every operation (copy-up, whiteouts, opaque marks); induction over the history; composed with C01_view_partial'
HOW['C85']='both directions: a successful run gives each condition of the selection (converse lemmas for each pass); the conditions keep each pass from failing (invariants over the passes in the order accept uses)'
HOW['C86']='permission checks of the kernel on both sides of the simulation of C84; the permitted operations form the same sublist of the history'
HOW['C87']='induction over the crash states of the plan: no operation other than copying and chmod can give a file the bit (chown clears it)'
HOW['C88']='every operation of the plan reads and changes nothing at the paths of the others (non-interference lemma per system call); induction over the interleaving'
HOW['C89']='simulation as for C84, with an invariant about where the host part of every directory is found (each at most once, redirects only on merged directories); rename(2) of overlayfs shown to keep it; induction over the history; composed with C01_moved_partial'
HOW['C90']='the transition system of C46 extended by stops, deaths, restarts of the machine and re-used numbers; inductive invariant; the step that enters inspected'
HOW['C91']='lossy decoding step by step; suffixes of ASCII bytes by induction; the loops of list and stop on byte names'
HOW['C92']='sandbox_name_completion as a filter over the listing'
HOW['C93']='writer and reader of JSON texts as total functions; both proved against the grammar of RFC 8259 by mutual induction (the reader accepts exactly the grammar), then decoding of the fields'
HOW['C94']='insertion into a sorted map; output shown to be in the grammar of RFC 8259, which is uniquely readable'
HOW['C95']='the interpreter of accept with the length limit on every call; induction over the operations; lengths of the temporary names computed from the UTF-8 lengths of stems and names'
HOW['C96']='decoding of a TOML table by field as a total function, equivalent to a relational specification; composed with C34-C36'
HOW['C97']='host as a table of mounts, each with a tree; overlay lookup with the tree of one mount as the lower layer compared with lookup in the whole host; the scan keeps a mount iff its type is listed; lookup is congruent in the lower layer'
HOW['C98']='flags of every mount of a sandbox as a function; kernel rules for opening devices and executing; on top of C81, case split over what shows the path'
HOW['C99']='the calls that get the name, run in order with their length limits; byte lengths add up'
HOW['C100']='the printed lines are injective in the two sorted lists (split at the first blank line); composed with C55; JSON by C94'
HOW['C101']='descriptor tables and dispositions as functions, followed through execve, the Rust runtime, pipe, clone, setns and execve (Model/Process)'
HOW['C102']='the same tables for the first process of a sandbox'
HOW['C103']='transition system of a process table with reparenting; invariant: in tidy histories every parent lives; witness: a family of histories with n zombies'
HOW['C104']='invariant over histories of the mount table (only overlays below the sandbox, none hidden), composed with C32'
HOW['C105']='the first process as a machine over signals with kill(2) permissions; invariant: SIGTERM keeps its handler; iff by induction over the history'
HOW['C106']='closed form of overlay lookup at both states; crash-point theorem of the host-changing part (untouched paths), crash points of the clearing pass'
HOW['C107']='C106 at the crash point, conditions of C85 re-established there from the types of what can be at each host path, then C01 for both runs'
HOW['C108']='exact description of the storage after accept (C06), closed form of overlay lookup for a storage without entries; invariant of histories (marks only over host files); induction over rounds with C84 and congruence of host operations'
HOW['C109']='invariants of the reject loop (only staged paths of the selection vanish; after success all of them), closed form of overlay lookup before and after, every stored path except stale marks is staged for a listed change; invariants of histories; induction over rounds'
HOW['C110']='the reading loop transcribed; a separate grammar (inductive relations) of spelled options; both inclusions by induction over the words; what is collected equals the meaning of the items by induction from the right'
HOW['C111']='a running sandbox as the present state plus the set of earlier states look-ups may be answered from; case analysis of the ends of the commands; C106 and C109 for what the states show'
HOW['C112']='the dispatch of main as a function from words, settings and identity to a task; composition of C110 (exact characterisation of command lines) with resolveConfig; C34 for the name, C61 for `stop --all`'
HOW['C113']='interleaving relations of the operations of accept (and of the reject loop) with arbitrary writes to the storage; simulation of the run alone: the two storages agree off the written paths, each clean-up step is determined by C53'
HOW['C114']='accept and reject on a single tree; simulation of the two-tree run: outside the storage the trees agree (exec_off of C88), below it the tree is the storage; path resolution commutes with the prefix; C53 for the clean-up'
HOW['C115']='inode model of the system calls of accept; each commutes with the view under names unless the file written has another name; invariant over the plan: files that are written are new (temporary copies) or directories, which have one name'
HOW['C116']='labels on host files that accept provably neither reads nor writes: runs with and without labels agree; the effect theorems of C01/C03 applied to the labelled host say where each label ends; induction over the operations links labels and attributes'
HOW['C117']='transition system of several accepts; inductive invariant over all interleavings (types and contents of every path, possible links, temporaries of each accept, cleaned paths of each accept); the storage only shrinks, so a staged path can be cleaned up successfully only once'
HOW['C118']='model of the start with mount entries that are arbitrary texts (Path::join, mkdir, links); refinement to the start of C72 for the program\'s own entries'
HOW['C119']='step-wise model of the three passes of the scan with writes of others at any point; induction over the events; refinement to the undisturbed list for the paths left alone'
HOW['C120']='inductive relation of sequences of accepts; what the overlay shows is an invariant of each step (storage after accept, effect on the host); then C01 and C85 for the last accept'
HOW['C121']='the storage after a reject is the storage filtered; hence the list of stored paths, and of changes, is filtered; both accepts then run the same operations and read the same stored files'
