# Formal model of augpathlib: design

## 1. What this is

`lean/Verif` holds a Lean 4 model of the pure and stateful logic of augpathlib (pinned source in
`/repo/augpathlib`) and theorems about that model, one group per property of `properties.jsonl`.
The code was read as text.  It was never executed.

Layout

| directory | content |
|---|---|
| `Verif/Model/*.lean` | executable definitions, each citing the python file and lines it models |
| `Verif/Spec/*.lean` | small independent vocabularies in which the properties are stated |
| `Verif/Lemmas/*.lean` | helper lemmas, no claims |
| `Verif/Props/*.lean` | the property theorems `Cnn_...`, each followed by a non-vacuity `example` |

Conventions

* Python exceptions are values (`Except PyErr α` or `Res`).  A generator is the list of values it
  yields together with the way it ends.  `bytes` is `List UInt8`, `str` is `List Char` (a python
  string without lone surrogates), absolute paths are `List Name` below the root.
* A hash function is an arbitrary function `H : List UInt8 → List UInt8`; a streaming hash object is
  the list of bytes fed so far.  No theorem uses collision resistance.
* File systems are total functions from paths to optional nodes, or finite trees where the algorithm
  walks the tree.  Operating system calls are modelled by their documented effect on success, and
  are allowed to fail where the theorem says so (a failure oracle is a universally quantified
  variable).
* Where the code does not have the property, the negation is proved on a concrete witness
  (`Cnn_..._counterexample`) or in general, and a theorem with suffix `_partial` proves the property under the
  exact guard.  All such disagreements are listed in section 5.

## 2. Trusted base

* The Lean 4.33 kernel.  The axioms used are at most `propext`, `Classical.choice`, `Quot.sound`
  (checked with `#print axioms` in `Verif/Axioms.lean`).  No axioms are added, no `sorry`, `admit`,
  `native_decide`, `bv_decide`.
* That the definitions in `Verif/Model` say the same as the cited python lines.  The comment on each
  definition says what was simplified.
* The semantics of the python standard library, `packaging`, `dateutil`, git and POSIX as written
  down in the model (for instance `bytes.fromhex`, `int(str)`, `str.rsplit`, `os.rename`,
  `os.walk`, `readlink`, `git stash`).  These are modelled, not verified.
* What GitPython does with the two sides of a diff (`Model/History`): an index compares with `None`, trees and commits and refuses
  other objects, a commit compares with the index only if it is given the class `Diffable.Index`.  Its source is not part of
  the repository, so this is from its documentation.
* How python looks up attributes of classes (`Model/Classes`): first in the class, then along its order of bases; `__subclasses__`
  lists the direct subclasses, the oldest first; the bases of a class never change.
* What windows takes the path of a stream for (`Model/AdsHelper`): `file:stream` or `file:stream:$DATA`, a colon nowhere else; opening a
  stream for writing makes the file too; no streams are found where nothing is.
* Metadata are part of the objects on disk in the models of caches (`Model/Primary`, `Model/Remote`, ...).  `Model/Stored`
  and `Model/StoredMore` remove this assumption for reading, storing, fetching, updating (also from a remote), moving, validating,
  bootstrapping data, and making caches and directories: there the attributes are bytes and the links are text, and C95 shows that
  both models do the same.

## 3. Not modelled

Windows and macOS branches (except `ADSHelper`, the streams of `pyads.py` and paths with drives), `libmagic`, `lsof`,
`xopen`, the scraping of GitHub and PyPI in `package.py`, the ssh transport (`pexpect`), colour and the
drawing of tables in `meta.py`, timing helpers, and threads that share python objects (the library has no locks), except in `WithRace` and `PushdRace`.
Operations are sequential, with crash points between system calls where a property is about crashes; several processes at
once are modelled in the modules whose names end in `Race`, one system call or git command per step.  `recover_meta`
(caches.py 784-847) stops at a `breakpoint` and raises before it does anything, and is left out.

## 4. Plan per property

| id | what is modelled | how it is proved |
|---|---|---|
| C01 | `etag.update` loop with a fuel-free recursion on the remaining bytes, `digest` | loop invariant: parts = hashes of full blocks, remainder = tail; spec `blocks` |
| C02 | same | state after `digest` has empty remainder; holds for every state |
| C03 | same, with `digest` in the middle | counterexample; `_partial`: early digest on a block boundary |
| C04 | one loop iteration as a step function, fuel-indexed run | measure; divergence for chunksize 0 |
| C05 | `checksum` read loop with a list of hash objects | induction over chunks |
| C06 | cypher selection of `checksum` | case analysis; counterexample when the default is requested explicitly |
| C07 | `iter` of `read(chunksize)` | strong induction on the content |
| C08 | `_data` loop including python's unbound locals | induction over ranges; counterexample for length = chunksize |
| C09 | `_write_chunks_posix`, `_data_setter` over streams that may fail | induction over the stream |
| C10 | `copy_to` of both classes and `copy_outto` over path resolution with symlinks, system calls that fail | Hoare triples; loop invariants |
| C11 | memo of `_meta_maker` as a state machine, with requests that raise | counterexamples; `_partial` for histories with one kind of request; a law for all histories |
| C12 | `as_xattrs`, `encode`, `decode`, `from_xattrs` on dynamically typed values | per-field round trip, UTF-8 from Lean core; counterexamples for `user_id`, `errors` |
| C13 | same | the filter only keeps prefixed keys |
| C14 | `datetime.isoformat` on a structured datetime, reader | digit lemmas; left inverse |
| C15 | `as_symlink`, `from_symlink`, path text splitting | per-field round trip, join and split lemmas; `_partial` guard |
| C16 | same | counterexamples; exact characterisation of the strings that survive |
| C17 | same, `PurePosixPath` parsing | split lemmas |
| C18 | version tables, `from_parts` | case analysis over versions, for all columns; counterexample: tag `meta` |
| C19 | POSIX path resolution with link budget | induction on the budget |
| C20 | `__dict__` of `PathMeta` with the lazily parsed timestamps, `__eq__` | counterexamples; `_partial` for objects in the same parse state |
| C21 | `__bool__` | case analysis |
| C22 | `content_different` | case analysis |
| C23 | `__getitem__`, `items` | counterexample (method has no return); `items` part proved |
| C24–C26 | `_update_meta` over a field-indexed record | pointwise reasoning; counterexample for `errors` in C25 |
| C27 | `SymlinkCache.meta` setter as a decision function over a state with trash | case analysis, induction over histories |
| C28 | same | counterexample (encode fails after the old link was moved); `_partial` |
| C29 | `crumple` over a file map | counterexamples; `_partial` for fresh names |
| C30 | `fs_safe_id` | induction on the string |
| C31 | `EatCache` over an attribute map | counterexample (stale fields); `_partial`: overlay law |
| C32, C33 | `_meta_updater` with arbitrary effects for set and fetch | case analysis over the failure point |
| C34, C35 | `fetch` as a sequence of effects | decision logic; trace of disk states, counterexample for C35 |
| C36, C37 | `move` over a file map with metadata and failing rename | case analysis; counterexample for C36 |
| C38 | `dedupe` | case analysis over linear orders; counterexample for ties |
| C39, C40 | `_bootstrap` filter on a rose tree | induction on the tree; counterexample for C40 |
| C41 | `_sparse_root` recursion over ancestors | induction on depth; counterexample for non-Eat caches |
| C42 | `find_cache_root` loop | induction on depth; counterexample when the root is cached |
| C43 | anchor state machine | invariant over histories; counterexample for failed attempts |
| C44–C46 | `rmtree` on a mutually recursive tree with failure oracle | induction on the tree; counterexample for dot-dot spellings |
| C47 | `rmdirtree` with the `deleted` set over a post-order walk | induction on the tree, refinement to a recursive prune |
| C48 | `swap_carefree` as rename steps over a path map | per-crash-point case analysis; counterexample for missing source |
| C49 | `relative_path_from` on component lists, dot-dot normalisation as spec | list induction; counterexample for ancestors |
| C50 | `pushd`, `popd` | induction over balanced programs |
| C51 | `__enter__`, `__exit__` with per-object state | induction over nested programs; counterexample for re-entry |
| C52 | path resolution plus the errno filter | case analysis over resolution outcomes |
| C53 | `children`, `rchildren` over trees | tree induction |
| C54 | `access` bit arithmetic | bit lemmas; counterexample for class precedence |
| C55 | `StatResult` parsing | split lemmas; counterexample for double space and negative times |
| C56 | id composition and splitting, base64 url alphabet | list lemmas |
| C57 | `_parts_relative_to` on parent chains | induction; counterexample for the cached branch |
| C58, C59 | `working_dir`, `init` | induction on depth |
| C60 | `Reference.__enter__/__exit__` over an abstract git state | case analysis for an arbitrary body; counterexamples for failures |
| C61 | `commit` over an abstract git state | case analysis; counterexample on a clean tree with a stash |
| C62 | `_remote_helper`, `_remote_uri` on strings | split lemmas; counterexample for dotted names |
| C63, C64 | `next_version` and PEP 440 key | case analysis plus release comparison lemma |
| C65, C66 | zip path set | induction on path length; counterexample for C66 |
| C67 | `hr` over naturals | induction on the unit list |
| C68 | attribute maps, namespace filter | map laws; counterexample for the ADS filter |
| C69 | `rows`, `encode` of `_PathMetaAsPretty` with the sort | the sort is determined by the distinct keys; per-field left inverse of the writing |
| C70 | the alignment loop of `as_pretty_diff` with python indexing | induction over the loop; counterexamples |
| C71 | Model/Remote, Spec/Shell | the text of the command is read by a separate model of the quoting rules of the shell; induction over the path, with a counting argument for the converse |
| C72 | Model/Remote, Spec/Remote | printing the output of the commands in a separate specification and reading it back; induction over entries |
| C73 | Model/Remote, Spec/Remote | the replies are printed by a separate specification of GNU stat; no error message can be read as a result because its last field is not hexadecimal |
| C74 | Model/Splitroot | case analysis along the code with lemmas about positions of separators |
| C75 | Model/AnchorDrop | case analysis over the steps of the attempt; reuses the anchoring of C43 |
| C76 | Model/AnchorDrop | as C75; a second call runs into the branch for an anchored class |
| C77 | Model/Package | the comparison of keys is the PEP 440 order, a strict weak order; sorting by insertion; with C63 |
| C78 | Model/Package | induction over the tags |
| C79 | Model/Package | induction over the path from its end |
| C80 | Model/SysId | a settled state is reached by the first success and kept |
| C81 | Model/SysId | base64 is injective, its alphabet has no colon, and a parsed path comes back from its text |
| C82 | Model/SysId | as C81 |
| C83 | Model/Versions | splitting at the first slash |
| C84 | Model/Versions | strong induction over the bytes, one code point at a time |
| C85 | Model/Versions | cases |
| C86 | `Model/ZipRead` | invariant over histories of readers |
| C87 | `Model/ZipRead` | invariant over histories; backwards search for the disturbance |
| C88 | `Model/ZipRead`, `Model/Zip` | direct |
| C89 | Model/DataDir | a Hoare triple over all failures; walks with and without the new objects agree |
| C90 | Model/DataDir | induction along the resolution |
| C91 | Model/Validate | Hoare triples over all failing calls |
| C93 | Model/MkdirRemote | a Hoare logic for programs over both sides, induction over the missing names |
| C94 | Model/MkdirRemote | Hoare triple per round, induction over the parents |
| C95 | `Model/Stored.lean`, `Model/StoredMore.lean` | Simulation: two disks are alike when they have the same locations in the same order with related objects; alike programs compose (`Lemmas/Sim.lean`); each system call and each encoding preserves the relation (`Lemmas/Stored.lean`, `Lemmas/StoredMore.lean`); theorems about metadata are carried over to the bytes |
| C96 | `Model/Graph.lean` | An invariant on all objects (every remote that has a cache is the remote of that cache), kept by every usual step together with the remotes that caches already have; the id in memory as a second invariant for all steps |
| C98 | `Model/RepoMemo.lean` | Invariants over histories: an object is kept under its directory, objects under different keys are different, none that is kept is closed; a second one, that the object is of what is on disk, over tame histories |
| C99 | `Model/Sweep.lean` | Measure: a pass that refreshes something leaves fewer directories, a pass that does not changes nothing and so never will; invariants of the loop for the rest; sorting by induction |
| C101 | `Model/Ads` | refinement of a map from names to contents by induction on the history; an invariant (listed names are a sublist of the names on disk) for histories in which calls fail |
| C102 | `Model/Yields`, `Model/Merge`, `Model/Sweep` | invariant of the loop (every claimed path that has its id keeps it), then an exact description by induction relative to the state before |
| C103 | `Model/History`, `Model/Git` | induction on the history; case analysis of the two sides |
| C104 | `Model/Classes` | invariant of all histories; class and shape never change |
| C105 | `Model/Classes` | frame conditions over all histories |
| C106 | `Model/LocalStat`, on `Model/Remote` | printer and parser of the stat record, both directions |
| C107 | `Model/ZipMemo`, on `Model/Zip` | invariant of all histories: memos only grow, and agree with the open archives |
| C108 | Model/Pep440 | Case analysis over the states; the bumped release number is described position by position. |
| C109 | `Model/RunSetup` | induction on the size of the file with an invariant on the state; the answer is that of a separate reading of the file that has no state |
| C110 | `Model/Kind` | walks of the system compared with `resolve`; `guess_type` on names split at their dots |
| C111 | `Model/Cyphers.lean` | case analysis; the fetch through C34 |
| C97 | Model/SshPath.lean | text of paths, case analysis |
| C112 | Model/GitNest.lean | `C112_one` relates the objects to the model of C60; the rest is by induction on the blocks |
| C113 | Model/FreshClasses | Invariant over histories of calls, derived paths and assignments; the origin of a path is a separate fold over the history. |
| C114 | Model/AttrFail | Case analysis on the numbers of the platform; induction over the ancestors for is_sparse. |
| C115 | Model/RemoteEq | Case analysis on the kinds of objects; induction over the order of lookup for the hash; the sweep of C99 behind the set for the bootstrap. |
| C116 | Model/Refresh | Case analysis on the metadata, the keywords and the answer of the remote. |
| C117 | Model/Children | Induction over the list of children on top of the graph of C103; the effect of each child on caches, remotes and the stored ids is exact. |
| C118 | Model/Access | The permissions are given by two separate relations (numbers of unistd.h, words); case analysis; the remote is that of C54. |
| C119 | Model/ZipOpen | entry of a path by C65; which entries have lost their position after a history, by induction over it |
| C120 | Model/ZipKind | the archive of a path by C66's lemmas; entries by C65 |
| C121 | Model/SshData | induction over the number of values taken; the setter's fold is the concatenation |
| C122 | Model/Backup | Hoare triples for reading and storing on files and directories; the backup is a parameter with a law, SqliteCache is shown not to follow it. |
| C123 | Model/SetupVersion | The greedy regular expression is shown to stop at the last quote by induction; induction over the lines. |
| C124 | Model/Mirror | the loop with a list of what is done and what is ready, by induction; the order of C102; Hoare triples for each update of metadata, which hold on what an interrupted update leaves |
| C125 | Model/Mirror, Model/Primary | a step lemma for each kind of object that may be at the path of a remote object, and an invariant of the loop that tracks where each content is |
| C126 | `Model/Race.lean`: `fetch` as a sequence of system calls, any number of processes, any interleaving | an invariant of the world and of each process, kept by every call: who still has to write which bytes of which file (`Props/Race.lean`); a fetch that is alone is that of `Model/Primary.lean` (`Props/RaceAlone.lean`). Left out: the file in the directory of objects, directories at the path |
| C127 | `Model/Torn.lean`: `setxattrs` and `xattr.get_all` as sequences of system calls, any number of processes | an invariant about where each attribute comes from, kept by every call; then what is read is found field by field (`Props/Torn.lean`). Left out: the file is removed or replaced, attributes are removed, calls fail |
| C128 | Model/RmtreeRace: rmtree of Model/Rmtree with a turn of the others before each system call | an invariant (no symlink at a location on the way to what is being removed) that holds at every call, by induction on the depth and on the listing |
| C129 | Model/GlobDirs: what the generator yields and the exception that ends it, on a disk with symlinks and permissions | induction on the depth and on the listing |
| C92 | Model/UpdateCache | Hoare triples over every pattern of failing calls, composed from those of the metadata update (C32, C33), of the making of a cache (C125) and of the move (C36, C37) |
| C130 | `PEnv.updateCache`, `PEnv.metaUpdater`, `PEnv.fetch`, `PEnv.moveHome` (Model/UpdateCache, Model/Primary) | Hoare logic with an impossible error case, updateMeta_spec |
| C131 | `PEnv.fetch`, `PEnv.checkSum`, `PEnv.metaUpdater`, `updateMeta` | from C34_verified and C33_returned_partial, with the strengthened account of the errors (SameButMark) |
| C100 | Model/Primary, Model/SymlinkCache, Model/Crumple | Hoare triples of the setter for each kind of thing at the path, with every call able to fail; returning shown by running it without failures |
| C132 | Model/CacheInit | A Hoare triple for the way from the anchor to the object, by induction on the path; what one call does follows from the outermost missing directory, and repeated calls by induction on their number. |
| C133 | Model/AdsHelper | The streams of the file are the list of its attributes on posix, one operation keeps this; histories by induction. What the system answers for a stream is taken apart by induction on the name. |
| C134 | Model/Release | the nearest tag splits the history; printing and splitting are inverse |
| C135 | Model/Release | cases over the replies, with C77 |
| C136 | Model/Release, Model/Url | C62; splitting undoes joining |
| C137 | Model/CloneUrl, Model/Url | induction over the chain of clones |
| C138 | MetaRace | invariant of the memo over all requests and interleavings, induction over the reads |
| C139 | CopyRace | invariant over all interleavings: the process that opened the target last has written its beginning |
| C140 | LinkRace | invariant over all interleavings: there is a link or a process is about to make one |
| C141 | SwapRace | invariant over all interleavings: two contents in two locations, at most one process after its second renaming, and its place empty |
| C142 | `Model/SysIdRace`: `sysidpath` and `_raw_id` as system calls of any number of processes | invariants over all schedules, and a refinement of `SysId.rawId` for a process alone |
| C143 | `Model/MoveRace`: `move` as system calls of any number of processes | invariants over all schedules, and an exact description of the calls that lose the file |
| C144 | `Model/WithRace`: `__enter__` and `__exit__` as system calls of any number of threads | induction over the schedule, with what python allows each thread as a state machine |
| C145 | `Model/MkdirRace`: the loop of `mkdir_cache` as system calls of any number of processes | an invariant over all schedules; that one returns is by the depth at which they raise |
| C146 | `Model/CrumpleRace`: `crumple` with `mkdir(parents=True)` and both renames as system calls of any number of processes | an invariant over all schedules and a measure that each system call makes smaller |
| C147 | `Model/AnchorRace`: `dropAnchor` and `smartAnchor` as system calls of any number of processes | an invariant over all schedules; a refinement of `Model/AnchorDrop` for one process |
| C148 | Model/PushdRace | pushd and popd as steps (asking for the working directory, appending, chdir; testing, taking, chdir) of threads that share the stack; invariant with an owner for each entry above the old stack; calls that do not overlap refine Model/Dirs |
| C149 | VisitRace | invariant over all interleavings (what is in the index is in the working directory or committed, the bases of stash entries are committed), case analysis of the three-way merge of git stash pop, refinement of the single process model |
| C150 | CommitRace | invariant over all interleavings with a stack discipline (below the entry that has the content no entry can replace it), refinement of the single process model, rank for termination |
| C152 | PackMemo | an invariant of all histories that ties the attributes of each path to what was looked at; every call is composed of calls that keep it; refinement of the models of one call |
| C151 | Git | the block is run between __enter__ and __exit__ of C60 by the commit of C61; counterexample by computing the commit at a clean state over a stash entry |
| C154 | InitRace | induction over all schedules: repositories only grow, and a look that passes below a repository finds it; at most one clone since git refuses what is not empty |
| C153 | DataDirRace | every step keeps what is there (a preorder on states); per process conditions that are stable under that order; an invariant for the same target that says who is about to make the link |
| C155 | RmdirtreeRace | the only change to the disk is rmdir, which keeps any invariant about content; no symlinks on the way as an invariant; a simulation with the run alone |
| C156 | MixedRace | the invariants of C149 and C150 for one step each, from any state; the counterexamples by following the commands for every repository of the shape |
| C157 | MakeChild | case analysis over drives and roots for join_parsed_parts, induction over the parts for posix, and agreement with the parser of Symlink |
| C158 | ReadOnly | mutual induction over trees and lists of trees: how the call ends and how many read-only directories are left |

## 5. Disagreements between code and property

Each row is a place where the code (as modelled) does not have the property as stated.  The theorem in the
second column proves the disagreement; the theorems with suffix `_partial` prove the property outside it.

| id | where the property fails | theorem |
|---|---|---|
| C03 | an early `digest()` inside a block moves the block boundaries | `C03_early_digest_counterexample` |
| C06 | naming the default cypher on an instance with another one uses that other one | `C06_requested_cypher_counterexample`, `C06_validation_counterexample` |
| C08 | ranges no longer than a chunk, stale locals, reversed ranges | `C08_ranges_counterexample`, `C08_ranges_stale_counterexample`, `C08_reversed_range_counterexample` |
| C09 | the empty stream raises `StopIteration` | `C09_empty_stream_counterexample` |
| C10 | an empty file cannot be copied; with force a file copied onto itself is cut to one chunk; with force a directory target gets the file inside | `C10_empty_counterexample`, `C10_self_counterexample`, `C10_directory_counterexample` |
| C11 | the memo answers a request of the other kind, and answers for a changed file with the metadata of the old one after a request that raised | `C11_stale_request_counterexample`, `..2`, `C11_raised_counterexample` |
| C12 | `user_id` and `errors` do not survive | `C12_xattrs_counterexample` |
| C13 | a foreign attribute whose name is not UTF-8 | `C13_prefix_isolation_counterexample` |
| C16 | some values are written and read back differently | `C16_corrupted_counterexample` |
| C17 | names with a slash; the name check is off by default | `C17_three_components_counterexample`, `C17_name_unchecked_counterexample` |
| C18 | the version tag `meta` | `C18_meta_counterexample` |
| C19 | the empty id | `C19_empty_id_counterexample` |
| C20 | timestamps parsed on one side only; symmetry | `C20_equality_counterexample`, `C20_asymmetry_counterexample` |
| C22 | an update time is missing | `C22_no_time_counterexample` |
| C23 | `meta[key]` has no return | `C23_getitem_counterexample` |
| C24 | `old_id` in two cases | `C24_old_id_counterexample` |
| C25 | `errors` of the previous version survive | `C25_stale_errors_counterexample` |
| C26 | the empty id | `C26_converges_counterexample` |
| C27 | going back in time over two calls; a broken trash unlinks the old version | `C27_sequence_counterexample`, `C27_broken_trash_counterexample` |
| C28 | metadata that cannot be encoded: the old link is gone already | `C28_not_encodable_counterexample` |
| C29 | ids with the same safe form; the same content again; long ids | `C29_collision_counterexample`, `C29_again_counterexample`, `C29_long_counterexample` |
| C31 | fields that the new metadata lacks stay; the in-memory copy | `C31_stale_counterexample`, `C31_memory_counterexample` |
| C32 | no recorded checksum and no remote file | `C32_no_remote_counterexample` |
| C33 | long ids; the remote became a directory | `C33_long_counterexample`, `C33_directory_counterexample` |
| C34 | a size equal to the limit; an empty remote file | `C34_boundary_counterexample`, `C34_empty_counterexample` |
| C35 | the link is removed before the attributes are written | `C35_crash_counterexample` |
| C37 | the temporary name is taken; a second failure; a failed rename is not reported; a moved link loses its metadata | `C37_clobber_counterexample`, `C37_lost_counterexample`, `C37_silent_counterexample`, `C37_link_counterexample` |
| C38 | ties; missing times | `C38_tie_counterexample`, `C38_missing_time_counterexample` |
| C39 | the recursion ignores `skip` and `only` | `C39_skip_below_counterexample`, `C39_only_below_root_counterexample` |
| C40 | unlisted objects are sparse when the list is not empty; the root is never marked | `C40_unlisted_counterexample`, `C40_root_counterexample` |
| C41 | other attribute values; relative paths; caches without attributes | `C41_other_value_counterexample`, `C41_relative_counterexample`, `C41_cache_counterexample` (these never answer no, and raise without a mark) |
| C42 | a cached root directory; gaps; spellings | `C42_root_counterexample`, `C42_gap_counterexample`, `C42_spellings_counterexample` |
| C43 | a failed attempt leaves the class anchored; weighing leaves the remote anchored; before python 3.12, and for caches with extended attributes, the anchor is replaced | `C43_half_anchored_counterexample`, `C43_weigh_again_counterexample`, `C43_mismatch_counterexample`, `C43_replaced_counterexample` |
| C44 | dot-dot spellings; the working directory through a symlink; homes outside `/home` | `C44_dotdot_counterexample`, `C44_cwd_symlink_counterexample`, `C44_other_home_counterexample` |
| C46 | a handler that returns | `C46_handler_counterexample` (the statement excludes it) |
| C47 | a directory that cannot be scanned is skipped | `C47_unreadable_counterexample` (the statement excludes it) |
| C48 | a missing source; relative paths to directories | `C48_moved_counterexample`, `C48_relative_counterexample` |
| C49 | `other` is an ancestor; symlinked directories | `C49_ancestor_counterexample`, `C49_symlink_counterexample` |
| C50 | the empty stack only warns; a failed `pushd` leaves an entry | `C50_empty_stack_counterexample`, `C50_failed_pushd_counterexample` |
| C51 | the same object entered twice | `C51_reentry_counterexample` |
| C52 | unsearchable directories and overlong names raise | `C52_denied_counterexample` |
| C53 | `.git.txt`; symlinked top level directories | `C53_stem_counterexample`, `C53_symlink_counterexample` |
| C54 | the permission classes are united; the superuser | `C54_class_precedence_counterexample`, `C54_superuser_counterexample` |
| C55 | two spaces in a row, a trailing space, times before 1970 | `C55_double_space_counterexample`, `C55_trailing_space_counterexample`, `C55_before_epoch_counterexample` |
| C57 | cached information; repeated names; remotes whose class has no anchor; parts that were asked for before a move | `C57_cached_counterexample`, `C57_repeated_name_counterexample`, `C57_unanchored_counterexample`, `C57_stale_counterexample` |
| C58 | dot-dot spellings | `C58_dotdot_counterexample` |
| C59 | an ancestor reached through a symlink | `C59_symlink_counterexample` |
| C60 | staged changes are lost; tags raise and leave the changes in the stash; a body that stashes | `C60_staged_counterexample`, `C60_tag_counterexample`, `C60_body_counterexample` |
| C61 | untracked and deleted files are left out; staged changes elsewhere; an old stash entry is committed; the first commit; failed commands are not seen | `C61_missing_counterexample`, `C61_staged_counterexample`, `C61_old_stash_counterexample`, `C61_first_counterexample`, `C61_silent_counterexample` |
| C62 | dotted names without `.git`; `ssh://` urls | `C62_dotted_counterexample`, `C62_ssh_url_counterexample` |
| C63 | a word that is not a component | `C63_component_counterexample` (the statement excludes it) |
| C64 | a stage requested from a pre-release bumps the release | `C64_stage_bumps_release_counterexample` |
| C66 | missing paths; things that look like archives; empty archives | `C66_missing_raises_counterexample`, `C66_looks_like_zip_counterexample`, `C66_empty_archive_counterexample` |
| C67 | sizes that a double does not represent | `C67_unit_counterexample` |
| C68 | windows namespaces that continue each other; dotted namespaces | `C68_windows_namespace_counterexample`, `C68_dotted_namespace_counterexample` |
| C70 | a field that only the object with fewer fields has is not shown; a common field is shown twice; objects that differ in the first two fields cannot be compared | `C70_lost_field_counterexample`, `C70_twice_counterexample`, `C70_raises_counterexample` |
| C71 | paths with spaces, quotes, dollar signs, semicolons or backslashes | `C71_checksum_space_counterexample`, `C71_children_command_counterexample`, `C71_data_command_counterexample`, `C71_stat_dollar_counterexample` |
| C72 | empty directories, unreadable files, backslashes in names, names that contain an error message | `C72_empty_counterexample`, `C72_unreadable_counterexample`, `C72_backslash_counterexample`, `C72_directory_name_counterexample` |
| C73 | empty files | `C73_empty_file_counterexample` |
| C74 | network paths after the extended prefix | `C74_extended_counterexample` |
| C76 | smartAnchor takes a directory of another root; leaves the cache class | `C76_other_root_counterexample`, `C76_cache_class_counterexample` |
| C78 | tags of packages whose names contain the name | `C78_github_counterexample`, `C78_nearest_counterexample` |
| C82 | ids of windows machines with sha256 | `C82_cut_counterexample` |
| C83 | currentRefName of a detached head | `C83_tag_counterexample`, `C83_remote_counterexample`, `C83_branch_counterexample` |
| C84 | show of a file that ends in a newline | `C84_newline_counterexample` |
| C85 | changes of deleted, new and unindexed files | `C85_deleted_counterexample`, `C85_uncached_counterexample`, `C85_undone_counterexample` |
| C87 | `close` closes the file that the shared object opened last, so the reader that ends first takes the file of another reader with it, which then fails with `ValueError` | `C87_two_readers_counterexample` |
| C89 | `local_data_dir_init` with a relative target, and with a link already there | C89_relative_counterexample, C89_trash_counterexample |
| C91 | `validate_file` with a wrong etag or checksum | C91_etag_counterexample, C91_any_etag_counterexample, C91_mark_counterexample, C91_never_marked |
| C96 | links after a failed update of metadata, after `mkdir_remote`, and after metadata with another id were set | `C96_failed_setter_counterexample`, `C96_mkdir_remote_counterexample`, `C96_stale_remote_counterexample` |
| C97 | remote paths with `..`, relative remote paths (in python 3.12 their ids are wrong), relative anchors, the remote anchor itself from python 3.12 on, two slashes at the front | `C97_escape_counterexample`, `C97_dotdot_counterexample`, `C97_relative_counterexample`, `C97_relative_anchor_counterexample`, `C97_anchor_counterexample`, `C97_relative_id_counterexample`, `C97_relative_new`, `C97_slashes_counterexample`, `C97_anchor_text_counterexample` |
| C98 | a repository of another program where one was opened, `init` of a relative path, `init` of a missing path in a repository, a refused `rmtree` | `C98_parent_counterexample`, `C98_relative_counterexample`, `C98_missing_counterexample`, `C98_refused_counterexample` |
| C99 | a local directory without a cache; `ab` beside a refreshed `a` | C99_untracked_counterexample, C99_prefix_counterexample |
| C101 | A name with a directory is put in the list whole although the stream has only the last part of it; names are compared with their case in the list and without on disk; `os.path.exists` answers no when it fails | `C101_directory_counterexample`, `C101_case_counterexample`, `C101_blind_counterexample`, `C101_delete_iff` |
| C102 | Moved files are found by id in an index made before old directories are cleared away, their metadata are not updated, and a path may meanwhile belong to another object | `C102_moved_counterexample`, `C102_replaced_counterexample`, `C102_stale_counterexample`, `C102_gone_counterexample`, `C102_mark_counterexample` |
| C103 | `repo.index` is given to GitPython as the other side of a diff, which takes only the class `Diffable.Index` for that; sides are swapped if the working directory is the first one; deleted and new files | `C103_index_counterexample`, `C103_swapped_counterexample`, `C103_deleted_counterexample`, `C103_untracked_counterexample` |
| C104 | a remote class that was not bound; a class made below between two bindings; binding a class that has a flavour | `C104_remote_counterexample`, `C104_same_class_counterexample`, `C104_flavoured_counterexample` |
| C105 | a local class used for two remotes; a cache class below an anchored one; a cache class that was not bound; a remote made from one with an api | `C105_shared_counterexample`, `C105_inherited_counterexample`, `C105_unbound_counterexample`, `C105_api_counterexample` |
| C106 | names with two spaces in a row; names that start with a quote | `C106_gap_counterexample`, `C106_quote_counterexample` |
| C107 | an archive that changed after it was opened; a file called like an archive that is none, asked three times | `C107_stale_counterexample`, `C107_exception_counterexample` |
| C111 | metadata that name the default cypher are checked with that of the class; a class of local paths with a cypher of its own | `C111_default_counterexample`, `C111_validate_counterexample`, `C111_own_cypher_counterexample` |
| C112 | two blocks inside each other with the same ref object: nothing is undone | `C112_same_counterexample` |
| C113 | From python 3.12 on `cache.move(remote=remote)`, and so `update_cache`, raises TypeError for a cache that was not derived from the anchor object, although both were made by calling the same class (core.py 934-941, caches.py 940). | `C113_move_counterexample` |
| C114 | On Linux `getxattr` of a file that is not there, or that may not be read, raises AttributeError instead of the OSError, and so does `is_sparse` (core.py 311); on macOS `delxattr` of a missing attribute raises although fail is False (core.py 290). | `C114_linux_counterexample`, `C114_sparse_counterexample`, `C114_del_counterexample` |
| C115 | `RemotePath` defines `__eq__` but no `__hash__` (remotes.py 565-569), so that `set(c for c in rcs if c.is_dir())` of a recursive bootstrap raises TypeError (caches.py 478); equality with paths and metadata depends on the side. | `C115_sweep_counterexample`, `C115_symmetric_counterexample`, `C115_meta_counterexample` |
| C116 | `refresh` computes `limit` from the size of the file and never passes it on (caches.py 856-860); the `refresh` methods of the remotes in the repository take no arguments, so that `cache.refresh()` raises TypeError. | `C116_limit_counterexample`, `C116_here_counterexample` |
| C117 | The children of a cache of an ssh remote cannot be listed: `SshRemote.children` gives no remotes (remotes.py 965-988). If a remote lists one object twice, two caches say that it is theirs. | `C117_ssh_counterexample`, `C117_twice_counterexample` |
| C118 | `SshRemote.access` answers False to an argument that is no permission, `os.F_OK` included, where a local path raises TypeError (remotes.py 820-829, core.py 504-505). | `C118_remote_counterexample` |
| C119 | an attempt to write into an archive, although refused, makes the entry unreadable afterwards; modes are not those of other paths; missing paths raise IsADirectoryError | `C119_spoiled_counterexample`, `C119_modes_counterexample`, `C119_missing_counterexample` |
| C120 | paths in archives are neither files nor directories, an archive is a file that opens as a directory | `C120_inside_counterexample`, `C120_archive_counterexample`, `C120_internal_counterexample` |
| C121 | the exit status of the remote command is ignored, so that broken readings pass for shorter files | `C121_silent_counterexample`, `C121_written_counterexample`, `C121_left_counterexample` |
| C122 | The setter of `SqliteCache` does nothing and the getter gives an attribute that nothing sets (caches.py 1118-1127), so that the backup of `SshCache` never restores anything. | `C122_sqlite_counterexample` |
| C123 | `(.*)['\"]` of `find_version` is greedy and does not look at which quote it is, so that a comment with a quote becomes a part of the version; indented assignments are not seen (setup.py 7). | `C123_comment_counterexample`, `C123_missed_counterexample`, `C123_text_counterexample` |
| C126 | two processes that fetch the same symlink: one finds the new file without metadata; both fail and the symlink is left; a file that was fetched is removed again; the metadata are lost. Two that fetch the same file: a ValueError about the size, or a checksum-mismatch mark although the file is right at the end | `C126_window_counterexample`, `C126_neither_counterexample`, `C126_removed_counterexample`, `C126_lost_counterexample`, `C126_size_counterexample`, `C126_mark_counterexample` |
| C127 | a read while metadata are being set can give the new value of a field and the old value of one that comes after it, for example the new size with the old checksum; two processes that set metadata can leave a mixture of both | `C127_torn_counterexample`, `C127_mix_counterexample` |
| C128 | rmtree follows a symlink that another process puts in the place of a directory after it was checked, and removes files outside of the tree | C128_counterexample |
| C129 | A symlink that leads through a directory without search permission makes a recursive glob leave out the directories that are listed after it | C129_counterexample |
| C36 | a target that is cast to a cache with metadata is rewritten first; so is the target that is computed from a remote; two files without ids count as the same | `C36_cast_counterexample`, `C36_remote_counterexample`, `C36_unnamed_counterexample` |
| C92 | the path that the remote asks for gets the metadata of the remote before anything is checked: the local content is lost if a symlink of the same id with other metadata is there, a file of another id is overwritten, and a directory stays where it is without an error | `C92_trash_counterexample`, `C92_overwritten_counterexample`, `C92_directory_counterexample`, `C92_half_counterexample` |
| C131 | a mark for a wrong checksum is never taken back: data that are fetched again, or a new version, are not checked when the file was marked before | `C131_refetch_counterexample`, `C131_stale_counterexample` |
| C100 | a symlink is at the path and the remote is a directory by now: the setter raises; the trash is a symlink that leads to nothing: the old link is deleted and not kept | C100_directory_counterexample, C100_discarded_counterexample |
| C132 | `remote.cache_init(parents=True)` does not make the parents: after the outermost missing directory has been made, `local.cache_init` on it raises `CacheExistsError`, as the directory already has metadata; a remote file with only its parent missing gets a parent without metadata | C132_parents_counterexample, C132_orphan_counterexample |
| C133 | On windows, `setxattr` on a path where nothing is makes an empty file, `xattrs` gives `{}` there, the keys that `xattrs` gives (bytes) are refused with a `TypeError` by `getxattr` and `delxattr`, keys that differ in case or by a trailing separator are one attribute, `Path('.')` and single letters raise `ValueError`, and `_streamname` raises `TypeError` for every stream | C133_missing, C133_bytes, C133_case_counterexample, C133_alias_counterexample, C133_unnameable, C133_streamname, C133_torn_counterexample |
| C134 | `commits_since_last_release` of a package without a tag lists nothing: the range `..HEAD` is `HEAD..HEAD`. A tag of a package whose name begins with the name and a dash ends the list as well. | C134_never, C134_never_counterexample, C134_other_counterexample |
| C135 | The branch of `bump` that "we should never hit" is reached if the index answers none but the last of the three requests. A package that the index does not have can never be bumped, since the version of its repository is the next one. | C135_late_counterexample, C135_unreleased |
| C136 | `command` does not quote: a folder with a space makes two words. | C136_space_counterexample |
| C137 | The web address of a file in a local clone has the branch of the original repository, not that of the clone; clones of bare repositories raise, or get the address of a repository around the bare one; `remote_uri_api` gives an address made of the local path. | C137_branch_counterexample, C137_bare_counterexample, C137_nested_counterexample, C137_api_counterexample, C137_cycle |
| C138 | The metadata that a request gives can be a mixture of two versions of the file, and the checksum that of neither | C138_mixed_counterexample, C138_never_counterexample |
| C139 | Copies to the same target at the same time are not refused, and the target can be a mixture of the sources and zeros | C139_mixture_counterexample, C139_stopped_counterexample |
| C140 | Metadata set in the same symlink by several processes can go back in time, and the old ones can be lost from the trash | C140_back_counterexample, C140_lost_counterexample, C140_moment_counterexample |
| C141 | Without an exchange call, swaps of the same paths at the same time can leave neither path, both contents being in temporary directories | C141_gone_counterexample, C141_stuck_counterexample, C141_moment_counterexample |
| C142 | Two processes that start at the same time on a machine without an id can end up with different ids, or with the id of an empty file: the file is looked for, truncated and written by separate system calls without a lock | C142_differ_counterexample, C142_empty_counterexample |
| C143 | Two processes that move the same file onto a symlink of the same id can lose the file: `safe_unlink` is looked at and removed, or renamed back, by separate system calls, and both calls return | C143_lost_counterexample, C143_back_counterexample, C143_beside_counterexample |
| C144 | `with path:` changes the working directory of the whole process: blocks of two threads that overlap leave the wrong one behind, and their bodies run in each other's directories | C144_stays_counterexample, C144_body_counterexample |
| C145 | `mkdir_cache` asks and then makes: of two processes at once one may raise FileExistsError, and the other may not have stored the metadata yet when a third returns | C145_raises_counterexample, C145_bare_counterexample |
| C146 | `crumple` asks whether the trash is there and then makes it: of two processes at once one may raise FileExistsError without throwing its file away | C146_raises_counterexample |
| C147 | `smartAnchor` does not handle that another process makes the directory between its question and its mkdir, and two `dropAnchor` at once may both return | C147_raises_counterexample, C147_twice_counterexample |
| C152 | The version that is proposed next was not released | The reply of the index is kept on the path object for ever: after a release the same path proposes the released version again and `bump` does not find out |
| C151 | A block that commits a path at another branch adds only its own changes, and the changes of the user come back | When nothing is changed at the path, commit takes the stash entry of `__enter__` for its own: the changes of the user to the path are committed to the other branch and are gone from the working directory, and the block raises |
| C154 | A repository is never created inside another by overlapping calls | `init` looks for `.git` upwards and then creates: another process may create a repository above or at the same path in between |
| C153 | Preparing the directory for the same target from two processes is accepted by both | The directory is asked about, removed and linked in separate calls: the second process raises `FileNotFoundError`, `NotADirectoryError` or `FileExistsError` although the link it wants is there |
| C155 | rmdirtree by two processes at once removes the empty directories | The second raises `FileNotFoundError` from `rmdir` as soon as the first has removed a directory that it has scanned, and leaves the rest of the tree |
| C156 | Committing and visiting refs of one repository at the same time loses no change | With two commits and one visit of the current branch a change is overwritten by the content of a stash entry of another process, although nothing fails |
| C157 | From python 3.12 on a child of a cache is at the path that pathlib gives | `join_parsed_parts` was copied from a version where the parts began with the anchor: with `_tail` it drops a component for drives on windows, calls `casefold` of a path, and without parts `_parse_path` is called without an argument |
| C158 | With the helper for windows rmtree removes read-only trees | The helper calls `os.remove` for a directory too, which raises; each handler above then calls it again for the directory below |

## 6. Methods

* Programs that change a disk (`rmtree`, `rmdirtree`, `swap_carefree`, the caches, moves, copies) are written in a
  small state and exception monad `Prog` over `Disk`, in which every system call asks an oracle `F : Nat → Option PyErr`
  whether it fails.  All safety theorems quantify over `F`.  A crash at call `n` is the oracle that fails from call
  `n` on, so a statement for every `F` is also one about every point at which the process may die.  `Lemmas/Hoare.lean`
  has the triples that the proofs use.  Liveness theorems (`..._returns`, `..._moves`) take `F = fun _ => none`.
* The git commands have their own monad `Verif.Git.Prog` of the same shape.
* Mutations of the model that the theorems were tested against are in `seeded/LOG.jsonl`.
