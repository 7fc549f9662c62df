{"id": "C01", "title": "Multipart etag does not depend on how the bytes are fed", "statement": "Feeding a byte string to utils.etag(chunksize) through any sequence of update() calls and then calling digest() gives (H(H(b_1)++...++H(b_n)), n) where b_1..b_n are the consecutive chunksize-byte blocks of the whole byte string (last one possibly short) and H is the underlying hash. In particular two feedings of the same bytes give the same digest.", "quantifier": "every chunksize > 0, every hash function, every finite sequence of update() arguments (including empty ones)", "why_tests_cant": "the number of ways to split a byte string is unbounded and boundary coincidences (split exactly at, one before, one after a block edge) are easy to miss", "anchors": ["augpathlib/utils.py:etag.update", "augpathlib/utils.py:etag.digest", "augpathlib/core.py:LocalPath.etag"]}
{"id": "C02", "title": "Reading the etag twice gives the same answer", "statement": "Calling digest() (or hexdigest()) again with no update() in between returns the same value as the first call.", "quantifier": "every chunksize > 0 and every prior history of update() and digest() calls", "why_tests_cant": "digest() mutates the object; stability has to hold after every history", "anchors": ["augpathlib/utils.py:etag.digest", "augpathlib/utils.py:etag.hexdigest"]}
{"id": "C03", "title": "The etag may be read early and feeding continued", "statement": "An intermediate digest() does not influence the value of a later digest(): the final value is that of the bytes fed, as in C01.", "quantifier": "every chunksize > 0 and every interleaving of update() and digest() calls", "why_tests_cant": "interleavings are unbounded; the code has a dedicated branch for this case that tests never enter", "anchors": ["augpathlib/utils.py:etag.update", "augpathlib/utils.py:etag.digest"]}
{"id": "C04", "title": "Feeding an etag terminates", "statement": "update() returns for every positive chunksize and every argument.", "quantifier": "every chunksize > 0, every argument, every reachable etag state", "why_tests_cant": "a non-terminating input cannot be excluded by running finitely many inputs", "anchors": ["augpathlib/utils.py:etag.update"]}
{"id": "C05", "title": "A file checksum is the hash of its content, whatever the read size", "statement": "checksum(cypher) of an existing regular file equals the one-shot hash of its bytes for every internal read size; with extra_cyphers the i-th extra value is the one-shot hash of the same bytes under the i-th cypher and the first value is unchanged by asking for extras.", "quantifier": "every file content, read size > 0, cypher and list of extra cyphers", "why_tests_cant": "content and read size are unbounded", "anchors": ["augpathlib/core.py:AugmentedPath.checksum"]}
{"id": "C06", "title": "An explicitly requested cypher is the one used", "statement": "checksum(cypher=c) hashes with c when the caller names c.", "quantifier": "every combination of requested cypher, library default, cypher of the path class and cypher of the cache class", "why_tests_cant": "the fault needs a particular agreement between three independent configuration values", "anchors": ["augpathlib/core.py:AugmentedPath.checksum", "augpathlib/caches.py:CachePath._instance_cypher", "augpathlib/caches.py:CachePath.validate_file"]}
{"id": "C07", "title": "Streaming a file yields exactly its bytes", "statement": "The chunks yielded by LocalPath.data concatenate to the file content; every chunk is non-empty and no longer than the chunk size.", "quantifier": "every file content and chunk size > 0", "why_tests_cant": "unbounded content", "anchors": ["augpathlib/core.py:LocalPath.data", "augpathlib/core.py:LocalPath._data"]}
{"id": "C08", "title": "Ranged reads return exactly the requested slices", "statement": "Iterating the ranged reader over ranges (start, end) yields chunks whose concatenation is the concatenation of content[start:end] over the ranges, in order.", "quantifier": "every content, chunk size > 0 and list of ranges with 0 <= start <= end", "why_tests_cant": "off-by-one conditions between range length and chunk size depend on all three numbers and on the preceding range", "anchors": ["augpathlib/core.py:LocalPath._data"]}
{"id": "C09", "title": "Writing from a stream: all, nothing, or a prefix", "statement": "Assigning a stream to data: if the stream is exhausted normally the file content is the concatenation of its chunks; if the stream fails before its first chunk the file is not touched; if it fails later the error propagates and the file holds exactly the chunks delivered before the failure.", "quantifier": "every stream (finite sequence of chunks ending normally or in an error), every previous state of the file", "why_tests_cant": "failure points are unbounded", "anchors": ["augpathlib/core.py:LocalPath._write_chunks_posix", "augpathlib/core.py:LocalPath.data (setter)", "augpathlib/core.py:LocalPath._data_setter"]}
{"id": "C10", "title": "Copying never clobbers and preserves bytes", "statement": "copy_to(target) without force raises and changes nothing when target exists or is a (possibly broken) symlink; when it returns, target has exactly the bytes of the source and nothing else changed.", "quantifier": "every file system state, source, target, force flag and chunk size > 0", "why_tests_cant": "depends on every state of the target and every content", "anchors": ["augpathlib/core.py:AugmentedPath.copy_to", "augpathlib/core.py:AugmentedPath.copy_outto", "augpathlib/core.py:LocalPath.copy_to"]}
{"id": "C11", "title": "Local metadata is never stale with respect to the request or the file", "statement": "The metadata returned for a local file carries the checksum exactly when the caller asked for it, and its times and checksum are those of the file as it is now, whatever was asked before and whichever earlier requests raised, as long as a change of the file changes its times.", "quantifier": "every sequence of metadata requests (with and without checksum, with and without a chunk size, answered or raising) on a file that changes in between", "why_tests_cant": "the fault is history dependent: it takes a request of another kind or one that raised, at the right moment", "anchors": ["augpathlib/core.py:LocalPath._meta_maker", "augpathlib/core.py:LocalPath.meta", "augpathlib/core.py:LocalPath.meta_no_checksum"]}
{"id": "C12", "title": "Metadata survives being stored as extended attributes", "statement": "from_xattrs(as_xattrs(meta, prefix), prefix) returns a metadata object whose every field equals the original one, for every metadata object whose fields have the types the library itself produces.", "quantifier": "every metadata object with well typed fields and every prefix", "why_tests_cant": "the value space of each field is unbounded (arbitrary unicode names, sizes, timestamps, hashes)", "anchors": ["augpathlib/meta.py:_PathMetaAsXattrs.as_xattrs", "augpathlib/meta.py:_PathMetaAsXattrs.from_xattrs", "augpathlib/meta.py:_PathMetaAsXattrs.encode", "augpathlib/meta.py:_PathMetaAsXattrs.decode"]}
{"id": "C13", "title": "Attribute prefixes isolate metadata", "statement": "Decoding the attributes of a file under one prefix is not affected by any attribute stored under a name that does not start with that prefix followed by a dot.", "quantifier": "every set of extended attributes and every pair of prefixes", "why_tests_cant": "sets of foreign attributes are unbounded", "anchors": ["augpathlib/meta.py:_PathMetaAsXattrs.from_xattrs", "augpathlib/meta.py:_PathMetaAsXattrs.deprefix"]}
{"id": "C14", "title": "Timestamps are written losslessly and unambiguously", "statement": "isoformat of datetimes is injective and readable back: two different points in time (to the microsecond, with whole-minute zone or naive) never produce the same text, the text never contains a field separator of the symlink format, and it is never 8 bytes long so it is never mistaken for a legacy binary timestamp.", "quantifier": "every datetime with year 1..9999, microsecond resolution and whole-minute utc offset", "why_tests_cant": "the domain of datetimes is too big to enumerate", "anchors": ["augpathlib/meta.py:isoformat", "augpathlib/meta.py:_PathMetaAsXattrs.decode"]}
{"id": "C15", "title": "Metadata survives being stored as a symlink", "statement": "from_symlink of a link whose text is as_symlink(meta) returns metadata with every field equal to the original, for every metadata object whose fields have the types the library itself produces.", "quantifier": "every metadata object and every link name", "why_tests_cant": "strings are unbounded and the escaping scheme has interacting special characters", "anchors": ["augpathlib/meta.py:_PathMetaAsSymlink.as_symlink", "augpathlib/meta.py:_PathMetaAsSymlink.from_symlink", "augpathlib/meta.py:_PathMetaAsSymlink.encode", "augpathlib/meta.py:_PathMetaAsSymlink.decode"]}
{"id": "C16", "title": "Symlink metadata is rejected rather than corrupted", "statement": "When a string field cannot be represented as_symlink raises; it never writes a link that decodes to a different value.", "quantifier": "every string in every string-valued field", "why_tests_cant": "needs all strings, the bad ones are those nobody thought to list", "anchors": ["augpathlib/meta.py:_PathMetaAsSymlink.encode", "augpathlib/meta.py:_PathMetaAsSymlink.decode"]}
{"id": "C17", "title": "A metadata link stays inside its directory entry format", "statement": "The text written for a metadata link is always a relative path with exactly three components: the local name, the encoded id, and one data component starting with the version tag; and reading refuses a link whose first component is not the name of the link when name matching is on.", "quantifier": "every metadata object accepted by as_symlink, every local file name", "why_tests_cant": "an id containing path separators must be neutralised for all ids", "anchors": ["augpathlib/meta.py:_PathMetaAsSymlink.as_symlink", "augpathlib/meta.py:_PathMetaAsSymlink.from_symlink"]}
{"id": "C18", "title": "Old link formats stay readable", "statement": "Every version tag in the table of versions can be decoded: fields listed for that version are taken from their own column, all others are unset.", "quantifier": "every version in the table and every list of columns", "why_tests_cant": "per version column order times arbitrary column content", "anchors": ["augpathlib/meta.py:_PathMetaAsSymlink.versions", "augpathlib/meta.py:_PathMetaAsSymlink.from_parts"]}
{"id": "C19", "title": "Metadata links never resolve to a real file", "statement": "A metadata link written under its own name (local_name first) never resolves: exists(), is_file(), is_dir() are False and is_broken_symlink() is True, whatever else is on disk.", "quantifier": "every file system state and every link location and content", "why_tests_cant": "quantifies over everything else that may be on the disk", "anchors": ["augpathlib/core.py:AugmentedPath.exists", "augpathlib/core.py:AugmentedPath.is_broken_symlink", "augpathlib/core.py:_ignore_error", "augpathlib/caches.py:SymlinkCache.meta"]}
{"id": "C20", "title": "Metadata equality is an equivalence on field values", "statement": "PathMeta.__eq__ never raises, is reflexive and symmetric, and two objects are equal exactly when all fields (with timestamps compared as points in time) are equal.", "quantifier": "every pair of metadata objects, however constructed (from datetimes, from text, from links, from attributes)", "why_tests_cant": "depends on the construction history of both objects", "anchors": ["augpathlib/meta.py:PathMeta.__eq__", "augpathlib/meta.py:PathMeta.created", "augpathlib/meta.py:PathMeta.updated"]}
{"id": "C21", "title": "Metadata truthiness means some field is set", "statement": "bool(meta) is False exactly when no field carries information.", "quantifier": "every metadata object", "why_tests_cant": "2^17 presence patterns and unbounded values", "anchors": ["augpathlib/meta.py:PathMeta.__bool__", "augpathlib/meta.py:PathMeta.__init__"]}
{"id": "C22", "title": "Content comparison prefers checksums", "statement": "content_different decides by checksum when both sides have one, independently of size and times; otherwise it reports a difference exactly when sizes differ or self was updated strictly before other.", "quantifier": "every pair of metadata objects", "why_tests_cant": "combinations of present and absent fields", "anchors": ["augpathlib/meta.py:PathMeta.content_different"]}
{"id": "C23", "title": "Metadata offers mapping access to its fields", "statement": "meta[key] returns the value of the field key, and dict(meta) has the same content as items().", "quantifier": "every metadata object and field name", "why_tests_cant": "the claim is about all keys and objects", "anchors": ["augpathlib/meta.py:PathMeta.__getitem__", "augpathlib/meta.py:PathMeta.items"]}
{"id": "C24", "title": "Merging metadata: new information wins, old information is kept", "statement": "When the file is not recognised as different, the merged metadata takes each field from the new metadata if it carries a value there and from the old metadata otherwise; a change of id is recorded in old_id; nothing else changes. The file is recognised as different exactly when created, updated, size, checksum or file_id is set on both sides and differs.", "quantifier": "every pair of metadata objects", "why_tests_cant": "17 fields, each set or unset on both sides, with arbitrary values", "anchors": ["augpathlib/caches.py:PrimaryCache._update_meta"]}
{"id": "C25", "title": "Merging metadata: nothing of the previous file version survives", "statement": "When the file is recognised as different, no field of the merged metadata (except old_id) comes from the old metadata.", "quantifier": "every pair of metadata objects recognised as different", "why_tests_cant": "17 fields with arbitrary values on both sides", "anchors": ["augpathlib/caches.py:PrimaryCache._update_meta"]}
{"id": "C26", "title": "Merging metadata converges", "statement": "Merging the same new metadata a second time is not recognised as different and changes nothing; merging metadata into itself changes nothing.", "quantifier": "every pair of metadata objects", "why_tests_cant": "needs all pairs", "anchors": ["augpathlib/caches.py:PrimaryCache._update_meta"]}
{"id": "C27", "title": "A symlink cache never goes back in time", "statement": "Setting metadata on a link that holds metadata of another id replaces it only by metadata updated later (ties broken by creation time); metadata with a size is never replaced by metadata without one; whenever the stored metadata is replaced the previous one is in the trash.", "quantifier": "every stored and offered metadata; every sequence of set operations", "why_tests_cant": "decision table over unbounded timestamps and histories", "anchors": ["augpathlib/caches.py:SymlinkCache.meta (setter)"]}
{"id": "C28", "title": "A rejected symlink cache update leaves the old metadata in place", "statement": "If setting metadata on a link raises, the metadata stored at that path is unchanged.", "quantifier": "every stored and offered metadata, including metadata that cannot be encoded", "why_tests_cant": "needs all failure causes", "anchors": ["augpathlib/caches.py:SymlinkCache.meta (setter)", "augpathlib/caches.py:_CachePath.crumple"]}
{"id": "C29", "title": "The trash keeps every version moved into it", "statement": "After any sequence of moves to the trash, every trashed content can still be found at the path the move returned.", "quantifier": "every history of trashing operations, every id", "why_tests_cant": "collisions depend on the whole history and on all ids", "anchors": ["augpathlib/caches.py:_CachePath.crumple", "augpathlib/caches.py:_CachePath._trashed_path", "augpathlib/utils.py:fs_safe_id"]}
{"id": "C30", "title": "Ids are made file system safe", "statement": "fs_safe_id returns a string of the same length without any of the forbidden characters, leaves safe strings alone, and applying it twice is the same as once.", "quantifier": "every string", "why_tests_cant": "unbounded strings", "anchors": ["augpathlib/utils.py:fs_safe_id"]}
{"id": "C31", "title": "Extended attribute cache stores what was set", "statement": "After setting metadata on a cache backed by extended attributes, reading it back gives the metadata that was set, whatever was stored before.", "quantifier": "every previous attribute state and every metadata object", "why_tests_cant": "depends on the history of the file", "anchors": ["augpathlib/caches.py:EatCache.meta", "augpathlib/caches.py:EatCache._meta_setter", "augpathlib/core.py:EatPath.setxattrs"]}
{"id": "C32", "title": "A metadata update never discards local changes", "statement": "If the local content differs from what the cache recorded, an update that would replace the file raises before anything on disk has changed.", "quantifier": "every local content, recorded metadata and offered metadata", "why_tests_cant": "needs all combinations of recorded and actual content", "anchors": ["augpathlib/caches.py:PrimaryCache._meta_updater"]}
{"id": "C33", "title": "A failed refetch restores the previous file", "statement": "If anything fails after the old file was moved away during a metadata update, the exception propagates and the previous file (content and attributes) is back at its path.", "quantifier": "every failure point between the move and the end of the fetch and every intermediate effect on the path", "why_tests_cant": "failure points and intermediate states are unbounded", "anchors": ["augpathlib/caches.py:PrimaryCache._meta_updater", "augpathlib/caches.py:_CachePath.crumple"]}
{"id": "C34", "title": "A fetch that returns normally is verified", "statement": "When fetch returns normally and data was written, the local size equals the recorded size and either the checksum matches, or the mismatch is recorded in errors, or there is no recorded checksum; data is fetched exactly when there is no limit or the size is at most the limit.", "quantifier": "every metadata, remote content and size limit", "why_tests_cant": "boundary values and unset sizes", "anchors": ["augpathlib/caches.py:CachePath.fetch"]}
{"id": "C35", "title": "Metadata is on disk at every moment of a fetch", "statement": "At every point during a fetch at which the process may die, the metadata of the path is still stored at the path.", "quantifier": "every crash point", "why_tests_cant": "crash points cannot be enumerated by tests that run to completion", "anchors": ["augpathlib/caches.py:CachePath.fetch"]}
{"id": "C36", "title": "Moving never overwrites something else", "statement": "move(target) never destroys a file whose id differs from the id of the moved one; it raises and leaves both in place.", "quantifier": "every state of source and target", "why_tests_cant": "needs all combinations of existing, missing, link and directory on both sides", "anchors": ["augpathlib/caches.py:CachePath.move", "augpathlib/caches.py:CachePath.__init__", "augpathlib/caches.py:CachePath.__truediv__"]}
{"id": "C37", "title": "A failed move loses nothing", "statement": "If the rename performed by move fails, the file or link that was at the target before is at the target again and the source is unchanged, and no temporary link stays behind.", "quantifier": "every state of source and target and every failing rename", "why_tests_cant": "failure injection at each step for all states", "anchors": ["augpathlib/caches.py:CachePath.move"]}
{"id": "C38", "title": "Deduplication picks the newer copy whichever way it is asked", "statement": "dedupe returns one of the two candidates, the one updated later when the times differ, and the answer does not depend on the order in which the two are given.", "quantifier": "every pair of cached paths with the same id", "why_tests_cant": "many combinations of missing values", "anchors": ["augpathlib/caches.py:CachePath.dedupe"]}
{"id": "C39", "title": "Bootstrap honours only and skip", "statement": "An id listed in skip is never bootstrapped (unless it is the root); with a non-empty only, an id outside only is not bootstrapped; below an accepted id everything not skipped is bootstrapped.", "quantifier": "every tree of remote ids and every only and skip list", "why_tests_cant": "trees and lists are unbounded", "anchors": ["augpathlib/caches.py:CachePath._bootstrap", "augpathlib/caches.py:CachePath._bootstrap_recursive"]}
{"id": "C40", "title": "Bootstrap treats as sparse exactly what was listed", "statement": "A container is bootstrapped sparsely exactly when its id is listed in sparse.", "quantifier": "every id and every sparse list", "why_tests_cant": "needs all ids and lists", "anchors": ["augpathlib/caches.py:CachePath._bootstrap", "augpathlib/caches.py:CachePath._bootstrap_prepare_filesystem"]}
{"id": "C41", "title": "Sparseness is inherited from the nearest marked ancestor", "statement": "is_sparse() is True exactly when the path or one of its ancestors below the root is marked; marking makes the whole subtree sparse and clearing the only mark undoes it.", "quantifier": "every directory depth, every set of marked directories", "why_tests_cant": "depth is unbounded", "anchors": ["augpathlib/core.py:EatPath._sparse_root", "augpathlib/core.py:EatPath.is_sparse", "augpathlib/core.py:EatPath._mark_sparse", "augpathlib/core.py:EatPath._clear_sparse", "augpathlib/caches.py:_CachePath.is_sparse"]}
{"id": "C42", "title": "The cache root is the topmost cached ancestor", "statement": "find_cache_root returns the topmost ancestor-or-self that has cached metadata, and None exactly when there is none.", "quantifier": "every depth and every pattern of cached ancestors", "why_tests_cant": "patterns over unbounded depth", "anchors": ["augpathlib/core.py:LocalPath.find_cache_root"]}
{"id": "C43", "title": "A class is anchored at most once at a time and failures do not half-anchor", "statement": "Anchoring an already anchored class raises and keeps the existing anchor; weighing the anchor allows anchoring again; a failed attempt leaves cache and remote classes as they were.", "quantifier": "every sequence of anchor and weigh operations", "why_tests_cant": "state machine with unbounded histories", "anchors": ["augpathlib/caches.py:_CachePath.anchorClassHere", "augpathlib/caches.py:_CachePath.weighAnchor", "augpathlib/remotes.py:RemotePath.anchorToCache", "augpathlib/remotes.py:RemotePath.weighAnchor"]}
{"id": "C44", "title": "rmtree refuses dangerous targets", "statement": "Without DANGERZONE rmtree raises and changes nothing when the path is relative, denotes a top level directory, a home directory, or the current working directory.", "quantifier": "every path, every file system and every working directory", "why_tests_cant": "all spellings of a path", "anchors": ["augpathlib/core.py:AugmentedPath.rmtree"]}
{"id": "C45", "title": "rmtree stays inside its tree", "statement": "rmtree never changes anything outside the named tree: symlinks are removed, not followed; this also holds when it fails part way.", "quantifier": "every tree with symlinks anywhere, every set of operations that fail, both values of ignore_errors", "why_tests_cant": "trees and failure patterns are unbounded", "anchors": ["augpathlib/core.py:AugmentedPath.rmtree"]}
{"id": "C46", "title": "rmtree removes the whole tree or says so", "statement": "When rmtree returns without ignore_errors (and no onerror handler swallowed an error) the path and everything below it no longer exist; otherwise it raises; when no call fails and nothing is refused it returns.", "quantifier": "every tree and every set of failing operations", "why_tests_cant": "trees and failure patterns are unbounded", "anchors": ["augpathlib/core.py:AugmentedPath.rmtree"]}
{"id": "C47", "title": "rmdirtree removes exactly the directories without content", "statement": "rmdirtree never removes a file, a symlink or a directory whose subtree contains one, whatever calls fail; when no call fails it removes a directory if and only if its subtree contains no file and no symlink.", "quantifier": "every directory tree", "why_tests_cant": "trees of unbounded depth and width", "anchors": ["augpathlib/core.py:AugmentedPath.rmdirtree"]}
{"id": "C48", "title": "Swapping loses nothing and does what it says", "statement": "If swap_carefree returns, the two paths have exchanged their content; if it raises or the process dies at any point both contents still exist; if it raises nothing has been moved.", "quantifier": "every file system state, pair of paths and crash point", "why_tests_cant": "crash points and states", "anchors": ["augpathlib/core.py:AugmentedPath.swap_carefree", "augpathlib/core.py:AugmentedPath.swap"]}
{"id": "C49", "title": "Relative paths lead where they say", "statement": "other.parent joined with self.relative_path_from(other) denotes self.", "quantifier": "every pair of absolute paths without dot-dot components", "why_tests_cant": "path depth is unbounded", "anchors": ["augpathlib/core.py:AugmentedPath.relative_path_from", "augpathlib/core.py:AugmentedPath.relative_path_to", "augpathlib/core.py:AugmentedPath.to_relative"]}
{"id": "C50", "title": "pushd and popd behave as a stack", "statement": "Any balanced sequence of pushd and popd returns to the directory it started from with the directory stack unchanged; popd(N) on a shorter stack raises and changes nothing.", "quantifier": "every sequence of operations", "why_tests_cant": "histories are unbounded", "anchors": ["augpathlib/core.py:AugmentedPath.pushd", "augpathlib/core.py:AugmentedPath.popd"]}
{"id": "C51", "title": "with path: restores the working directory", "statement": "Leaving a with block on a path restores the working directory that was current on entry, whatever happened inside.", "quantifier": "every nesting of with blocks and every body", "why_tests_cant": "nesting depth and reuse of objects are unbounded", "anchors": ["augpathlib/core.py:AugmentedPath.__enter__", "augpathlib/core.py:AugmentedPath.__exit__"]}
{"id": "C52", "title": "Existence tests answer and do not raise for missing things", "statement": "exists, is_file, is_dir return False exactly when the path does not lead to an object of that kind, including symlink loops and file-as-directory; is_broken_symlink is True exactly for a symlink that does not lead anywhere.", "quantifier": "every file system state and every path", "why_tests_cant": "all link structures", "anchors": ["augpathlib/core.py:AugmentedPath.exists", "augpathlib/core.py:AugmentedPath.is_file", "augpathlib/core.py:AugmentedPath.is_dir", "augpathlib/core.py:AugmentedPath.is_broken_symlink"]}
{"id": "C53", "title": "Listing a project hides exactly the bookkeeping directories", "statement": "At the anchor, rchildren yields every descendant that is not inside a top level bookkeeping directory, each once; elsewhere it yields every descendant.", "quantifier": "every directory tree", "why_tests_cant": "trees are unbounded", "anchors": ["augpathlib/core.py:LocalPath.children", "augpathlib/core.py:LocalPath.rchildren", "augpathlib/core.py:LocalPath.skip_cache"]}
{"id": "C54", "title": "Remote access check agrees with the remote permission bits", "statement": "access(mode) on an ssh remote returns true exactly when the POSIX permission check for that user and groups grants the mode.", "quantifier": "every mode word, owner, group, user and group set", "why_tests_cant": "the mode word, ids and group sets multiply", "anchors": ["augpathlib/remotes.py:SshRemote.access"]}
{"id": "C55", "title": "Remote stat output is parsed back to what stat printed", "statement": "Parsing the output of the stat command gives back the name, numbers and times that were printed.", "quantifier": "every file name and every value of the numeric fields", "why_tests_cant": "names are arbitrary strings", "anchors": ["augpathlib/utils.py:StatResult"]}
{"id": "C56", "title": "Ids identify machine and path", "statement": "Two local or ssh ids are equal only if host (machine) and path are equal, and host and path can be read back from the id.", "quantifier": "every host name without a colon, every path", "why_tests_cant": "paths may contain colons and anything else", "anchors": ["augpathlib/core.py:LocalPath.id", "augpathlib/remotes.py:SshRemote.id", "augpathlib/remotes.py:SshRemote.rpath", "augpathlib/remotes.py:SshRemote.init"]}
{"id": "C57", "title": "Remote paths are relative to the anchor", "statement": "The parts of a remote object relative to an ancestor are the names on the way from (not including) the ancestor down to the object, whether or not cached information is available.", "quantifier": "every remote tree, object and ancestor", "why_tests_cant": "depth is unbounded; names may repeat", "anchors": ["augpathlib/remotes.py:RemotePath._parts_relative_to", "augpathlib/remotes.py:RemotePath.parts", "augpathlib/remotes.py:RemotePath.parents"]}
{"id": "C58", "title": "A path belongs to the innermost repository", "statement": "working_dir is the nearest ancestor-or-self containing .git (None exactly when there is none) and joining it with repo_relative_path gives the path back.", "quantifier": "every depth and every placement of .git entries", "why_tests_cant": "depth is unbounded", "anchors": ["augpathlib/repo.py:RepoPath.working_dir", "augpathlib/repo.py:RepoPath.repo_relative_path"]}
{"id": "C59", "title": "init never creates a repository inside another", "statement": "init succeeds only if no ancestor-or-self contains .git beforehand; otherwise it raises and nothing changes.", "quantifier": "every file system state and path", "why_tests_cant": "depth and states are unbounded", "anchors": ["augpathlib/repo.py:RepoPath.init"]}
{"id": "C60", "title": "Visiting a ref leaves the working tree as it was", "statement": "After a with-ref block the branch, the uncommitted changes and the older stash entries are those from before; uncommitted changes made inside are kept in a new stash entry.", "quantifier": "every initial working tree, stash stack and body", "why_tests_cant": "histories and stash depth are unbounded", "anchors": ["augpathlib/repo_patch.py:Reference.__enter__", "augpathlib/repo_patch.py:Reference.__exit__"]}
{"id": "C61", "title": "Committing one path commits only that path", "statement": "commit() creates a commit that differs from HEAD only at the given path, with the content the path had, and leaves all other uncommitted changes and the stash stack as they were.", "quantifier": "every repository state", "why_tests_cant": "states are unbounded", "anchors": ["augpathlib/repo.py:RepoPath.commit"]}
{"id": "C62", "title": "Web addresses of files point at the right repository", "statement": "For the ssh and the https form of the same remote the human readable address is the same and names exactly that group and repository; the address of the content and that of the api do so as well.", "quantifier": "every group and repository name", "why_tests_cant": "names are arbitrary", "anchors": ["augpathlib/repo.py:RepoPath._remote_helper", "augpathlib/repo.py:RepoPath._remote_uri", "augpathlib/repo.py:RepoPath.clone_path"]}
{"id": "C63", "title": "The next version is greater", "statement": "Whenever the next version is computed it is strictly greater than the current one in the PEP 440 order.", "quantifier": "every version, phase and release component", "why_tests_cant": "version numbers are unbounded and the phase table is intricate", "anchors": ["augpathlib/package.py:next_version", "augpathlib/package.py:logic", "augpathlib/package.py:cons_next", "augpathlib/package.py:vinc"]}
{"id": "C64", "title": "Version phases never go backwards", "statement": "Asking for a phase before the current pre-release phase is refused, releasing drops every pre-release marker, and the release number changes only when a new cycle starts.", "quantifier": "every version, phase and release component", "why_tests_cant": "the table has many branches and unbounded numbers", "anchors": ["augpathlib/package.py:logic", "augpathlib/package.py:current_state"]}
{"id": "C65", "title": "A zip file is presented as a tree", "statement": "Every ancestor of an archived entry exists as a directory; the descendants listed for a directory are exactly the transitive closure of its listed children.", "quantifier": "every list of archive entry names", "why_tests_cant": "archives are unbounded", "anchors": ["augpathlib/zip.py:ZipInternalPath.rchildren", "augpathlib/zip.py:ZipInternalPath.children", "augpathlib/zip.py:ZipInternalPath._new"]}
{"id": "C66", "title": "exists() on a zip-aware path answers", "statement": "exists() on a zip-aware path returns True or False for every path and is True exactly when the path exists on disk outside archives or is an entry (or ancestor of an entry) of its archive.", "quantifier": "every path, every disk state and every archive", "why_tests_cant": "needs all states", "anchors": ["augpathlib/zip.py:ZipHelper.exists", "augpathlib/zip.py:ZipHelper.zip_path"]}
{"id": "C67", "title": "Human readable sizes use the right unit", "statement": "The human readable size uses the largest unit that does not exceed the size, never shows more than the rounded quotient, and never contains a path or field separator below the yobi range.", "quantifier": "every file size", "why_tests_cant": "sizes are unbounded", "anchors": ["augpathlib/utils.py:FileSize.hr"]}
{"id": "C68", "title": "Attribute namespaces isolate attributes", "statement": "Listing the attributes of one namespace returns exactly the attributes set in that namespace; setting, reading and deleting one attribute does not affect others.", "quantifier": "every sequence of set and delete operations over all names and namespaces", "why_tests_cant": "histories and names are unbounded", "anchors": ["augpathlib/core.py:ADSHelper.xattrs", "augpathlib/core.py:XattrHelper.setxattr", "augpathlib/core.py:XattrHelper.getxattr", "augpathlib/core.py:XattrHelper.delxattr", "augpathlib/core.py:XattrHelper.xattrs"]}
{"id": "C69", "title": "The metadata table shows every set field", "statement": "The table made from a metadata object has exactly one row for each field that is set, in a fixed order, with the value written out in full; apart from user ids, two objects with the same table (sizes not rounded) have the same metadata.", "quantifier": "every metadata object, with or without rounding of sizes", "why_tests_cant": "fields hold unbounded values and can be set in any combination", "anchors": ["augpathlib/meta.py:_PathMetaAsPretty.rows", "augpathlib/meta.py:_PathMetaAsPretty.encode", "augpathlib/meta.py:_EncodeByField"]}
{"id": "C70", "title": "Comparing metadata shows every field of both objects", "statement": "The comparison of two metadata objects has exactly one row for each field that is set in either, with the value of each object on its side and empty cells where a field is not set.", "quantifier": "every pair of metadata objects", "why_tests_cant": "there are quadratically many combinations of set fields, each with unbounded values", "anchors": ["augpathlib/meta.py:_PathMetaAsPrettyDiff.as_pretty_diff"]}
{"id": "C71", "title": "Commands for a remote name exactly the path that is meant", "statement": "The commands that are sent to a remote shell to look at a path, to get its checksum, to read its content and to list it are read by that shell as one command with the path, character by character, as one argument.", "quantifier": "every path text, every set of printable characters, every command name", "why_tests_cant": "paths are unbounded texts over all of Unicode, and what goes wrong depends on combinations of quotes, backslashes and expansions", "anchors": ["augpathlib/remotes.py:SshRemote.data", "augpathlib/remotes.py:SshRemote.checksum", "augpathlib/remotes.py:SshRemote._stat_cmd", "augpathlib/remotes.py:SshRemote.children"]}
{"id": "C72", "title": "Listing a remote directory gives every entry", "statement": "The listing of a remote directory gives, for every entry, what stat knows about it under its name, and for every file the checksum of its content.", "quantifier": "every remote directory, every set of entries and names", "why_tests_cant": "needs a remote host, and unbounded directories and names", "anchors": ["augpathlib/remotes.py:SshRemote.children", "augpathlib/remotes.py:SshRemote._ssh"]}
{"id": "C73", "title": "Looking at a remote path tells what is there", "statement": "For a remote path stat gives what the remote knows about it, or raises that there is nothing or that it is not permitted; the path exists exactly if there is something; it is a directory, or a file, exactly if that is its type.", "quantifier": "every path text, every file on the remote", "why_tests_cant": "needs a remote host, and the reply is text with unbounded names in it", "anchors": ["augpathlib/remotes.py:SshRemote.stat", "augpathlib/remotes.py:SshRemote.exists", "augpathlib/remotes.py:SshRemote.is_dir", "augpathlib/remotes.py:SshRemote.is_file"]}
{"id": "C74", "title": "Splitting a Windows path loses nothing", "statement": "Drive, root and rest of a Windows path put together are the path again, up to repeated separators at the root; drive letters, registry hives and network shares are recognised as drives.", "quantifier": "every path text, every set of drive letters", "why_tests_cant": "paths are unbounded texts with prefixes, colons and separators in any combination", "anchors": ["augpathlib/core.py:splitroot"]}
{"id": "C75", "title": "Dropping anchor takes only an empty place", "statement": "dropAnchor succeeds only where there is nothing or an empty directory without metadata, and then the place is marked with the id of the remote root and both classes are anchored to it. It succeeds there whenever both classes are free. An anchored class, a directory that is not empty and a directory that is marked are refused with nothing changed. Whatever comes of it nothing at the place is lost and no mark is replaced.", "quantifier": "every state of the two classes, every place and every behaviour of the api and the file system", "why_tests_cant": "the states of the classes, the place and the failures combine", "anchors": ["augpathlib/remotes.py:RemotePath.dropAnchor", "augpathlib/core.py:LocalPath.cache_init"]}
{"id": "C76", "title": "Anchoring where an anchor is already", "statement": "When smartAnchor succeeds the remote class is anchored to a marked place whose id is the id of the remote root, and so is the cache class; calling it again gives the same answer and changes nothing; nothing at the place is lost. anchorTo succeeds only for a place with the id of the root, and makes a directory only if asked to.", "quantifier": "every state of the two classes, every place and every behaviour of the api and the file system", "why_tests_cant": "the states of the classes, the place and the failures combine", "anchors": ["augpathlib/remotes.py:RemotePath.smartAnchor", "augpathlib/remotes.py:RemotePath.anchorTo"]}
{"id": "C77", "title": "The next version is greater than every release", "statement": "The version proposed for the next release is greater, in the PEP 440 order, than every version the package index lists, so that it is never one that was released; if the index knows no release it is the version in the repository. There is an answer exactly if the version the index calls latest is as late as any of its releases and can be advanced.", "quantifier": "every reply of the index, every parser of versions, every phase and release component", "why_tests_cant": "lists of releases and version numbers are unbounded", "anchors": ["augpathlib/package.py:PackagePath.version_next", "augpathlib/package.py:PackagePath.version_latest_released", "augpathlib/package.py:PackagePath.version_latest_pypi"]}
{"id": "C78", "title": "The version of the newest tag of a package", "statement": "The version read from the tags of a repository (reachable ones, or those of the releases on the hosting site) is the version of the newest tag of the package.", "quantifier": "every list of tags, every package name, every parser of versions", "why_tests_cant": "names of packages and tags are unbounded texts that can contain each other", "anchors": ["augpathlib/package.py:PackagePath.tag_latest_github", "augpathlib/package.py:PackagePath.version_latest_github", "augpathlib/package.py:PackagePath.tag", "augpathlib/package.py:PackagePath.version_tag"]}
{"id": "C79", "title": "The folder of a package", "statement": "The folder of a package is the nearest directory, from the path upwards, that has a setup.py, and there is an error exactly if there is none; paths that are relative or contain .. are resolved first.", "quantifier": "every path and every file system", "why_tests_cant": "depth is unbounded", "anchors": ["augpathlib/package.py:PackagePath.folder"]}
{"id": "C80", "title": "A machine keeps its id", "statement": "Once the id of the machine was determined, every later process determines the same one, an id that is there already is used and never replaced by a random one, and the files that hold it are not written any more.", "quantifier": "every state of the two files that hold the id, every hash function, every sequence of later calls and random ids", "why_tests_cant": "the test machine has one state of these files, and the id is bound once per process", "anchors": ["augpathlib/utils.py:sysidpath", "augpathlib/utils.py:_bind_sysid_"]}
{"id": "C81", "title": "Ids tell local paths apart", "statement": "Two local paths have the same id exactly if they are the same path on machines with the same (shortened) digest; the id of the machine is 22 characters that can be in file names.", "quantifier": "all digests of 16 bytes and all texts of paths", "why_tests_cant": "injectivity over all digests and paths", "anchors": ["augpathlib/core.py:LocalPath.id", "augpathlib/utils.py:_bind_sysid_"]}
{"id": "C82", "title": "On windows, machines with different digests have different ids", "statement": "If the digests of the guids of two machines differ, so do their ids.", "quantifier": "every hash function a cache class can have and every guid", "why_tests_cant": "needs digests that agree but for a few bits", "anchors": ["augpathlib/utils.py:_raw_id", "augpathlib/utils.py:_bind_sysid_"]}
{"id": "C83", "title": "The name of the current ref is that of a ref", "statement": "If currentRefName returns a name, getRef finds a ref of this name; names that count back from a later commit are not returned, and a head that is exactly at a branch or tag has a name.", "quantifier": "every repository, attached or detached head, and answer of git name-rev", "why_tests_cant": "depends on the names of refs and on the way from them to the commit", "anchors": ["augpathlib/repo_patch.py:_Repo.currentRefName", "augpathlib/repo_patch.py:_Repo.getRef"]}
{"id": "C84", "title": "Showing a version of a file gives its bytes", "statement": "show(ref) returns exactly the bytes of the file in that version (the index, a commit or the file itself).", "quantifier": "every version and content, also content that is not UTF-8", "why_tests_cant": "all contents; the tests use one without a newline at its end", "anchors": ["augpathlib/repo.py:RepoHelper.show"]}
{"id": "C85", "title": "Changes of a file are reported exactly", "statement": "modified() reports a change exactly if the file differs from the index, has_uncommitted_changes() exactly if it differs from the last commit, and the latter is the case exactly if it is indexed or modified.", "quantifier": "every state of the file in the last commit, the index and the working directory", "why_tests_cant": "all combinations of absent and different contents", "anchors": ["augpathlib/repo.py:RepoHelper.modified", "augpathlib/repo.py:RepoHelper.has_uncommitted_changes", "augpathlib/repo.py:RepoHelper._do_diff"]}
{"id": "C86", "title": "What is read out of an archive is the archived content", "statement": "Whatever readers of one archived file there are and in whatever order they are advanced and dropped, what each has yielded is a prefix of the content in non-empty pieces of at most the chunk size, and a reader that ran to its end has yielded all of it; directories and missing entries yield nothing and raise.", "quantifier": "every content, chunk size and interleaving of any number of readers", "why_tests_cant": "interleavings are unbounded", "anchors": ["augpathlib/zip.py:ZipInternalPath.open", "augpathlib/zip.py:ZipInternalPath.close", "augpathlib/zip.py:ZipInternalPath.data"]}
{"id": "C87", "title": "Readers of the same archived file do not disturb each other", "statement": "A reader of an archived file that is advanced often enough comes to its end, whatever other readers of the same file do.", "quantifier": "every content, chunk size and interleaving", "why_tests_cant": "interleavings are unbounded", "anchors": ["augpathlib/zip.py:ZipInternalPath.open", "augpathlib/zip.py:ZipInternalPath.close", "augpathlib/zip.py:ZipInternalPath.data"]}
{"id": "C88", "title": "Paths through archives list and read what is archived", "statement": "Below a path in an archive exactly the archived descendants are listed, all of them below that path; opening such a path reads the first entry of that name, and raises for directories and for what is not archived.", "quantifier": "every disk, archive and path", "why_tests_cant": "archives and names are unbounded", "anchors": ["augpathlib/zip.py:ZipHelper.rchildren", "augpathlib/zip.py:ZipHelper.zip_relative_path", "augpathlib/zip.py:ZipHelper.open"]}
{"id": "C89", "title": "Preparing the directory of a cache loses nothing", "statement": "local_data_dir_init only adds directories, whatever calls fail, except that an empty directory for objects (or none) gives way to a symlink when a target is given; when it returns without a target the data directory, the objects and the trash are directories, with a target the objects are a link that leads to it; doing it again with the same absolute target changes nothing and is accepted unless the link cannot be resolved.", "quantifier": "every disk, path with symlinks, target, flag and every failing call", "why_tests_cant": "disks, symlinks and failures are unbounded", "anchors": ["augpathlib/caches.py:CachePath.local_data_dir_init", "augpathlib/caches.py:CachePath.local_objects_dir"]}
{"id": "C90", "title": "Resolved paths", "statement": "resolve returns a path without symlinks on the way, resolving it again changes nothing, and where the system finds something at the path it is the location of just that.", "quantifier": "every tree with symlinks, working directory and path", "why_tests_cant": "trees, chains of symlinks and paths are unbounded", "anchors": ["augpathlib/core.py:AugmentedPath.resolve"]}
{"id": "C91", "title": "Validating a downloaded file", "statement": "validate_file of a primary cache changes nothing on the disk, and it returns normally exactly if the content agrees with what is recorded: the etag, or else the checksum, or else the size; a different size raises SizeError, a different checksum is noted in the errors; _bootstrap_data leaves exactly what the remote sent.", "quantifier": "every disk, content, metadata, cypher and failing call", "why_tests_cant": "contents and metadata are unbounded", "anchors": ["augpathlib/caches.py:_CachePath.validate_file", "augpathlib/caches.py:_CachePath._instance_cypher", "augpathlib/caches.py:_CachePath._bootstrap_data"]}
{"id": "C92", "title": "Updating a cache from its remote never loses the local content", "statement": "RemotePath.update_cache: for every pattern of failing calls and whatever the remote sends, the content that was at the path of the cache is afterwards still at that path, at the path that the remote asks for, or in the trash under its old id, and paths other than these, the place in the trash for what was at the path that the remote asks for, and the name of the temporary link are unchanged. A cache passed in although the remote has one, or one whose name or parent id is not that of the remote, is refused and nothing changes. When no call fails and nothing is fetched: a cache whose name and parent id agree with the remote stays where it is with the updated fields, and one that does not agree is at the path that the remote asks for, with its bytes and the updated fields, and no longer at its old path.", "quantifier": "all disks, contents, metadata, remotes, paths and patterns of failing calls (first two claims); all disks and remotes without failing calls (last two)", "why_tests_cant": "The claim ranges over every point at which the download, the trash or one of the three renames can fail, and over all states of the disk; a test sees a few of them.", "anchors": ["augpathlib/remotes.py:350-405", "augpathlib/remotes.py:328-341", "augpathlib/caches.py:233-253", "augpathlib/caches.py:909-1015"]}
{"id": "C93", "title": "Directories that are made on the remote are mirrored locally", "statement": "When mkdir_remote returns a remote, new directories exist on the remote one inside the other from the nearest ancestor with a cache down to the path, each of them exists locally with the metadata the remote has for it, nothing else changed on either side and nothing that had metadata was touched; without parents there is exactly one. However a run ends, no remote directory disappears and local changes are confined to directories on the way that had no metadata. When it fails, at any call, a first part of the way is done on both sides and at most one directory is on the remote only. A path whose remote exists is refused and nothing changes. If no call fails and the way below the nearest cached ancestor is free, the run succeeds.", "quantifier": "every local tree, remote, depth of the missing path, and failure or crash at any call", "why_tests_cant": "the number of missing levels and the point of failure are unbounded, and the existing tests use a remote that never fails", "anchors": ["augpathlib/core.py:1083-1125 LocalPath.mkdir_remote", "augpathlib/core.py:1042-1062 LocalPath.cache_init"]}
{"id": "C94", "title": "Making the directories that a remote is in", "statement": "When mkdir_cache succeeds, every directory that the remote is in exists locally, those that were missing are directories with the metadata the remote has for them, and nothing else changed. However a run ends, nothing that existed is changed. When it fails, at any call, a first part of the directories is done, at most one is a new directory with only a part of its metadata, and the rest is as it was. If no call fails and no symlink or file is in the way, it succeeds.", "quantifier": "every local tree, every chain of parents of any length, and failure or crash at any call", "why_tests_cant": "the depth and the point of failure are unbounded", "anchors": ["augpathlib/core.py:1064-1081 LocalPath.mkdir_cache"]}
{"id": "C95", "title": "The bytes and texts on the disk stand for the metadata", "statement": "Reading, storing, fetching, updating, moving, updating from a remote, validating, bootstrapping data, making a cache for a path and making directories do the same on the disk as it is (attributes are bytes, links are text, every reading decodes and every writing encodes) as on a disk whose objects carry the metadata itself: the same results or exceptions after the same number of calls, with disks that still belong together. So, if all metadata on the disk can be read and survives being stored, then that stays so at every moment of a fetch, an update or a move, also after a crash; and the claims about these functions hold of the bytes: a fetch that returns leaves a file with the data of the remote whose attributes decode to metadata that the data matches; a failed update leaves the file with its metadata at its path, or in the trash if the last call is refused; an update from a remote leaves the content at the path, where the remote asks for it, or in the trash; validation changes nothing and accepts exactly what has the recorded checksum or size.", "quantifier": "for all disks with legible metadata, all paths, limits and prefixes, all metadata whose values survive being stored, all remotes, and all patterns of failing system calls", "why_tests_cant": "A test runs one sequence of operations on one disk. The claim is a simulation between two levels of detail, for every disk, every program path and every call that may fail in between.", "anchors": ["augpathlib/caches.py:867-1019", "augpathlib/caches.py:1070-1102", "augpathlib/caches.py:1142-1275", "augpathlib/caches.py:1282-1345", "augpathlib/caches.py:1401-1432", "augpathlib/caches.py:572-629", "augpathlib/remotes.py:350-405", "augpathlib/core.py:1042-1081"]}
{"id": "C96", "title": "A remote's cache's remote is that remote", "statement": "In every history of opening caches, asking caches for ids and remotes, making children from remotes (with updates of metadata that may fail), setting metadata, refused moves, and making the directories above a remote while the remote class is anchored: when a remote has a cache, the remote of that cache is this very remote; a cache that has given out a remote gives out the same object for ever. After a refused move the remote has the cache it had. In every state, a path has a cache exactly if metadata are stored there; a child made from a remote and the remote point at each other and have the same id if the update of metadata went well, and if it failed the remote has no cache; a cache gives the id that was set through it. In every history, a cache without a remote gets one with the id of the cache whose cache it is; a cache that gave the same id twice in a row gives it for ever unless metadata are set through that object; the id left by bootstrapping answers one question.", "quantifier": "for all finite histories of the twelve kinds of steps, all objects, ids and locations, all outcomes of the updates of metadata, and all changes of the stored metadata by others", "why_tests_cant": "The attributes by which caches and remotes point at each other are set in seven places, in any order. A test follows one order with two or three objects.", "anchors": ["augpathlib/caches.py:266-347", "augpathlib/caches.py:632-674", "augpathlib/caches.py:743-757", "augpathlib/caches.py:1314-1346", "augpathlib/remotes.py:233-341", "augpathlib/core.py:1012-1036", "augpathlib/core.py:1064-1104"]}
{"id": "C97", "title": "Paths below the remote anchor and paths below the local anchor correspond", "statement": "For an ssh remote class bound to an absolute path of a host: an absolute remote path has a place below the local anchor exactly if it is the remote anchor or below it, the place has the same names below the local anchor, and everything else raises ValueError; different paths have different places, every place has a path, the place of the parent is the parent of the place; the id of a remote makes a remote with the same id, and the same path if it was absolute; without '..' the place stays below the local anchor after dots are removed. This holds for the code before and after python 3.12, and both give a remote the same id.", "quantifier": "for all hosts without a colon (and a slash, from python 3.12 on), all absolute anchors, all local anchors, all texts of paths, and both versions of the code", "why_tests_cant": "A test sees some paths in the version of python that it runs in; the claim is about every text of a path, and about what pathlib makes of the class attribute root in another version.", "anchors": ["augpathlib/remotes.py:632-806", "augpathlib/caches.py:233-253", "augpathlib/caches.py:279-347"]}
{"id": "C98", "title": "A path gives the repository that it is in, after any history", "statement": "After any history of repo, init, rmtree, changes of directory and changes by other programs, path.repo is an object that has not been closed and whose working directory is the nearest one with a .git; asking again gives the same object until exactly that directory is given to rmtree or init; if other programs put no repository where another one was opened and init gets absolute paths, the object is of the repository that is on disk now, also after removals of any kind and repositories made anew.", "quantifier": "every history, every path, every disk, every removal that fails on the way, every depth", "why_tests_cant": "the objects are kept for the life of the process, so what a path gives depends on the whole history", "anchors": ["augpathlib/repo.py:RepoHelper.repo", "augpathlib/repo.py:RepoHelper.init", "augpathlib/repo.py:RepoHelper.working_dir", "augpathlib/repo.py:RepoPath.rmtree"]}
{"id": "C99", "title": "A recursive bootstrap clears away exactly the local directories that the remote no longer has", "statement": "Only local directories that the remote does not have are refreshed, also when a refresh raises; when the loop ends, each of them was refreshed or its text begins with the text of one that was; going round as often as there are local directories decides: the loop has ended or raised by then, or it goes on forever, and it does so exactly when directories are left none of which has a cache; if all of them have a cache at first, going round once is enough and each is refreshed or in one that is; sorting by the length of the text puts each directory before all that is below it.", "quantifier": "all sets of local and remote directories of any depth, all refreshes (also such that raise or change which directories have a cache), all numbers of passes", "why_tests_cant": "whether the loop ends is about all numbers of passes, and which directories are left depends on the whole tree", "anchors": ["augpathlib/caches.py:470-506"]}
{"id": "C100", "title": "Metadata given to a primary cache are kept, whatever is at the path", "statement": "Setting metadata on a primary cache: on a file or directory each field afterwards is the new value, or the old one where there is nothing to store, and content and everything else is as before, also if it raises midway (then each field is the old or the new one); where nothing is, a remote directory becomes a directory that shows the metadata and a remote file a symlink that holds them; on a symlink either nothing changes because the metadata are not to be replaced, or the link holds the new ones and the old link is in the trash; empty metadata are not stored; when no call fails it returns, and what is read back is what was stored.", "quantifier": "all metadata, all disks, all paths, all calls that fail, at any call", "why_tests_cant": "each of the many calls may fail, and what is at the path, what is stored and what the remote is vary independently", "anchors": ["augpathlib/caches.py:1282-1345", "augpathlib/caches.py:534-572"]}
{"id": "C101", "title": "The list of streams of a file on windows matches the disk", "statement": "A new ADS object lists exactly the named streams of the file or directory in their order. After any history of adding streams from strings or files and deleting them, the answers are those of a map from names to contents in which nothing is overwritten, the contents on disk are those of the map, and the list of the object is the list on disk. If calls fail, every listed name is on disk, no name is listed twice, a stream that is not listed was not listed at first or belongs to an operation that raised, and streams that no operation named are unchanged. Reading gives the content, and deleting answers yes exactly if the stream was there and listed.", "quantifier": "all streams on disk, all histories of operations, all calls that fail, at any call", "why_tests_cant": "the histories have any length, any call in them may fail, and the project has no tests of the class", "anchors": ["augpathlib/pyads.py:52-129"]}
{"id": "C102", "title": "A recursive bootstrap yields one cache for each object of the remote", "statement": "When bootstrap(recursive=True) returns, there is exactly one cache for every object below (with sparse: for the directories and the wanted files), in order, directories before what is in them, and the metadata at each cache have the id of its object. An object keeps the cache that it has; a file whose id a local file has keeps that file unless it is another version; otherwise a cache is made at its path and has what is known of it, new information first. Metadata change nowhere else, also if calls fail. Whatever happens the attributes that a bootstrap sets on the cache are removed, and a directory is marked as sparse exactly if it was found to be one.", "quantifier": "all remote trees, all local files, all metadata, all calls that fail", "why_tests_cant": "the number of objects is not bounded, and moved, changed, linked and new objects are combined", "anchors": ["augpathlib/caches.py:349-374", "augpathlib/caches.py:463-475", "augpathlib/caches.py:495-532", "augpathlib/remotes.py:291-305"]}
{"id": "C103", "title": "The changes and the history of one path in a repository", "statement": "commits() lists exactly the commits in the history that change the path, the latest first, at most as many as asked for, and without a revision those of HEAD; latest_commit() is the one that gave the path the content that it has in the revision, and raises NoCommitsForFile exactly if the path was in none of them. modified(), indexed(), has_uncommitted_changes() and diff() tell nothing exactly if the path is the same in both versions, and otherwise a change with the content on both sides, from the one to the other.", "quantifier": "all histories, all states of index and working directory, all paths, all pairs of versions", "why_tests_cant": "histories and states are unbounded", "anchors": ["augpathlib/repo.py:202-276"]}
{"id": "C104", "title": "The class of a new path", "statement": "A path is made of the class that was asked for or of a direct subclass of it, and its flavour is that of the operating system. A class without a flavour gives paths exactly if _bind_flavours was called on it, and always of the same class from then on; binding again makes no other class. The classes that binding makes share every attribute with the class they were made for. Remotes over ssh are made of the class that was asked for or of a subclass of it, too.", "quantifier": "all histories of class statements, bindings, new remotes, anchors and apis, with any inheritance, and both operating systems", "why_tests_cant": "the class of a path depends on the order of all class statements and bindings so far, and there are unboundedly many orders", "anchors": ["augpathlib/core.py:342-423", "augpathlib/remotes.py:598-634"]}
{"id": "C105", "title": "What a new remote class is tied to", "statement": "_new makes a new class below the remote class it is called on, and the new class, the local class and the cache class name each other, as long as none of them is used for another remote; no other class is tied. The cache and the new remote are not anchored afterwards. init binds an api to a class that has none, and from then on the class has that api and init of it and of the classes below it raises ValueError.", "quantifier": "all histories of class statements, bindings, new remotes, anchors and apis, with any inheritance", "why_tests_cant": "histories and hierarchies are unbounded", "anchors": ["augpathlib/remotes.py:40-75", "augpathlib/remotes.py:198-213", "augpathlib/caches.py:65-73"]}
{"id": "C106", "title": "Local stat records and sizes", "statement": "LocalPath._stat gives the record of the file at the path, a link not followed, and raises OSError for a path with nothing at it. size is the size of the file the path leads to, and that of the link itself if it leads nowhere.", "quantifier": "all paths, all file records, all messages of the stat command, all answers of os.stat", "why_tests_cant": "names and records are unbounded, and only some shapes of names confuse the parser", "anchors": ["augpathlib/core.py:1192-1216"]}
{"id": "C107", "title": "What paths through archives remember", "statement": "While the disk stays as it is, exists of a path through archives is what C66 says about the disk, whatever was asked before and of which objects. Whatever happens to the disk, an answer about something in an archive is about the entries the archive had when a question first met it, and an object that gave such an answer gives it for ever.", "quantifier": "all disks and all histories of questions to any objects, with any change of the disk between questions", "why_tests_cant": "histories are unbounded, and what is remembered by a class is shared by all objects of the process", "anchors": ["augpathlib/zip.py:119-182"]}
{"id": "C108", "title": "Every part of the next version", "statement": "For every current version, phase that is asked for and component, the epoch, release number, pre-release, post, development and local parts of the next version are determined as documented: the component asked for is one more and those after it are zero, the number of a stage goes on counting or starts at zero, everything else is dropped; a component that the release number does not have raises IndexError, a local label cannot be incremented, and other words are refused.", "quantifier": "every version, phase and component", "why_tests_cant": "versions, release numbers of any length and phases combine without bound", "anchors": ["augpathlib/package.py:cons_next", "augpathlib/package.py:next_version", "augpathlib/package.py:logic"]}
{"id": "C109", "title": "What a setup file is told, and that nothing of it stays", "statement": "setupfu answers with the arguments of the last call of setup in the file itself, however the file refers to it, whatever other files it runs by the same means and whatever was run before; without a call it is a TypeError, and an exception of the file is passed on. Afterwards setuptools.setup and the level of the root logger are what they were before, the function of setuptools was never called, and what other runs were told is unchanged.", "quantifier": "all setup files, as sequences of imports, calls, exceptions and runs of other files nested to any depth, and all states before", "why_tests_cant": "files nest without bound and share one global function and one global closure", "anchors": ["augpathlib/package.py:15-41", "augpathlib/package.py:162-177"]}
{"id": "C110", "title": "What a name says about a file", "statement": "The mimetype of a directory is inode/directory. For everything else the mimetype and the encoding are what the suffixes of its name say by the tables of the standard library (the last suffix; the one before it for compressed files; short forms for two suffixes), and where they say nothing the mimetype is what the table of the class has for all suffixes; a relative path says the same as the absolute one.", "quantifier": "all tables, names, trees of files with symlinks, working directories and paths", "why_tests_cant": "all names and tables, and relative paths are resolved on the disk while absolute ones are not", "anchors": ["augpathlib/core.py:748-775"]}
{"id": "C111", "title": "A checksum is checked with the cypher that the metadata names", "statement": "The checksum in the metadata of a local file is made with the cypher whose name stands beside it. A fetched or validated file is checked with the cypher that the cached metadata names, and with that of the class if none is named; an unknown name is refused. So metadata that was made for some content passes the check on that content.", "quantifier": "all sets of cyphers with any names, all cyphers of the cache class and of the local class, all names in the metadata, all contents", "why_tests_cant": "which of the three cyphers is used depends on how the named one, that of the class and the default relate, and each may be any", "anchors": ["augpathlib/caches.py:CachePath._instance_cypher", "augpathlib/core.py:AugmentedPath.checksum", "augpathlib/core.py:LocalPath._meta_maker", "augpathlib/caches.py:CachePath.fetch", "augpathlib/caches.py:CachePath.validate_file"]}
{"id": "C112", "title": "Visits inside visits come back", "statement": "With-ref blocks may be inside each other, with whatever refs and to any depth: after the outermost one HEAD, the files and the stash are those from before, and the body ran at the ref of the innermost one; a ref object can be used for one block after the other.", "quantifier": "every repository, every list of refs, every depth, every attribute value left on the objects", "why_tests_cant": "depth is unbounded; the tests have one block at a time", "anchors": ["augpathlib/repo_patch.py:Reference.__enter__", "augpathlib/repo_patch.py:Reference.__exit__"]}
{"id": "C113", "title": "The classes of paths with extended attributes from python 3.12 on", "statement": "A path made by calling a class of paths with extended attributes is an instance of that class and shares the attributes of it, and paths of one class can be used together: a cache can be moved to where its remote says if the anchor was made by calling the same class.", "quantifier": "every hierarchy of classes, every sequence of calls, derived paths and assignments to class attributes", "why_tests_cant": "the sequences are unbounded, and tests use caches that are derived from the anchor they made", "anchors": ["augpathlib/core.py:EatPath.__new__", "augpathlib/caches.py:_CachePath.move", "augpathlib/caches.py:_CachePath.with_segments", "augpathlib/core.py:LocalPath.copy_to", "augpathlib/core.py:LocalPath.copy_from"]}
{"id": "C114", "title": "Failures of extended attributes come through as what they are", "statement": "getxattr raises NoStreamError exactly when the attribute is not there and lets every other failure through; delxattr of an attribute that is not there raises only on request; is_sparse of a path that cannot be asked raises the failure of the system.", "quantifier": "every failure the system can give, every platform, every depth and set of marks", "why_tests_cant": "tests run on one platform and only ask files that are there", "anchors": ["augpathlib/core.py:XattrHelper.getxattr", "augpathlib/core.py:XattrHelper.delxattr", "augpathlib/core.py:EatPath._sparse_root", "augpathlib/core.py:EatPath.is_sparse"]}
{"id": "C115", "title": "Equality of remotes", "statement": "Remotes are equal exactly if they have the same id, which is an equivalence relation; a remote compares with other objects the same way from both sides; and remotes that are compared can be put into sets, so that a recursive bootstrap can clear away what the remote does not have.", "quantifier": "all ids, all kinds of other objects, all orders of classes, all directories on both sides", "why_tests_cant": "there is no remote class in the repository whose objects are complete, and tests compare remotes with themselves", "anchors": ["augpathlib/remotes.py:RemotePath.__eq__", "augpathlib/remotes.py:RemotePath.__ne__", "augpathlib/caches.py:_CachePath._bootstrap_recursive"]}
{"id": "C116", "title": "Refreshing a cache", "statement": "refresh asks the remote once, gives back what it answers, and moves the cache to the trash exactly if the remote says that it is gone; it tells the remote a size limit that is enough for a file that is here already; otherwise it raises before anything is changed.", "quantifier": "all sizes, limits, flags, states of the disk and behaviours of the remote", "why_tests_cant": "the remote is a service; no test refreshes a cache, and the remotes in the repository cannot be refreshed", "anchors": ["augpathlib/caches.py:_CachePath.refresh", "augpathlib/remotes.py:RemotePath.refresh", "augpathlib/remotes.py:SshRemote.refresh"]}
{"id": "C117", "title": "The children of a cache", "statement": "children of a cache yields one new cache for each child of its remote, at the place that the remote says, which is the cache of that remote and has its id stored; nothing else is changed. If the metadata of a child cannot be updated, the ones before it were yielded and are as they should be, and the ones after it were not touched.", "quantifier": "all lists of children of any length, all graphs of caches and remotes, all points of failure", "why_tests_cant": "the lists and graphs are unbounded, and the failures happen between two yields", "anchors": ["augpathlib/caches.py:PrimaryCache.children", "augpathlib/caches.py:_CachePath._make_child", "augpathlib/remotes.py:SshRemote.children"]}
{"id": "C118", "title": "Asking whether a path may be used", "statement": "access asks the system once, for exactly the permission that the number or the word means, and gives its answer; it raises TypeError and asks nothing for every other argument. A remote takes the same arguments and does the same for the others.", "quantifier": "all numbers, all words, other arguments, all answers of the system", "why_tests_cant": "the arguments are unbounded, and tests ask for one or two permissions", "anchors": ["augpathlib/core.py:AugmentedPath.access", "augpathlib/remotes.py:SshRemote.access"]}
{"id": "C119", "title": "Paths in an archive are opened for reading like others, and a refused opening changes nothing", "statement": "Opening a path through an archive gives what the entry holds, for the modes that read elsewhere; a mode that archives do not have is refused, and that leaves every path of the archive as readable as before; opening a directory and opening what is not there are told apart. This holds only in part: exactly the mode r reads (it gives bytes where the same mode gives text outside, and rb is refused); an attempt to write raises ValueError and from then on the same path cannot be read in this process; and a path that the archive has not raises IsADirectoryError.", "quantifier": "all archives, paths in and not in them, modes, contents, and all sequences of openings with any modes before", "why_tests_cant": "What an opening does depends on all openings that were tried before on the same archive, also those that raised.", "anchors": ["augpathlib/zip.py:85-92", "augpathlib/zip.py:178-182"]}
{"id": "C120", "title": "What is there through an archive is a file or a directory, and is opened accordingly", "statement": "A path that exists, on disk or in an archive, is exactly one of file and directory; it can be opened for reading exactly when it is a file. This holds only in part: opening at and in archives is right, but what an archive holds is neither a file nor a directory for is_file and is_dir; an archive is a file that raises IsADirectoryError when it is opened; and the paths inside raise TypeError for is_file.", "quantifier": "all disks, archives, paths at, in and away from archives", "why_tests_cant": "Any archive can have any entries at any depth; the answers come from different sources for different questions.", "anchors": ["augpathlib/zip.py:78-83", "augpathlib/zip.py:119-182", "augpathlib/core.py:438-454"]}
{"id": "C121", "title": "Reading an ssh remote gives all of its content or raises", "statement": "What is read from an ssh remote is the content of the remote file; when the remote command fails before the end, reading raises, and what was in the local file is not replaced by part of the new content; the process is waited for whatever the reader does. This holds only in part: what comes out is passed on in order in pieces of at most 4096 bytes, but the exit status is not looked at, so that a reading that broke off cannot be told from one of a shorter file, the local file gets the beginning of the content without an error (comparing sizes as fetch does finds it), and the process of a reader that stops early is not waited for.", "quantifier": "all contents, all ways the remote command can end and all lengths of what came out before, all numbers of values taken", "why_tests_cant": "The connection can break after any number of bytes.", "anchors": ["augpathlib/remotes.py:846-858", "augpathlib/caches.py:1492-1495", "augpathlib/core.py:1365-1371"]}
{"id": "C122", "title": "The backup cache restores metadata that is gone", "statement": "Metadata that was set on a cache with a backup can be read as long as there is a file or directory at its path, also after its extended attributes were wiped or changed to say nothing; reading it writes it on the file or directory again, touches nothing else, and leaves the backup as it is; where metadata can be read the backup is not asked.", "quantifier": "all backups that keep what is put in, all paths, metadata, disks before and after, and failing calls", "why_tests_cant": "the tests switch the backup off (test/common.py 49), and no test wipes attributes", "anchors": ["augpathlib/caches.py:PrimaryCache.meta", "augpathlib/caches.py:PrimaryCache._meta_setter", "augpathlib/caches.py:SqliteCache"]}
{"id": "C123", "title": "The version that setup.py finds", "statement": "find_version of setup.py gives the value that __version__ has after the module ran, and nothing if it is not assigned.", "quantifier": "all lists of lines, values and comments", "why_tests_cant": "setup.py is not tested; the module has only one assignment, which is the simplest case", "anchors": ["setup.py:find_version", "augpathlib/__init__.py:__version__"]}
{"id": "C124", "title": "A recursive bootstrap makes a mirror of the remote tree", "statement": "After a recursive bootstrap there is a directory with its metadata for every remote directory and a symlink with its metadata for every remote file, whatever order the remote lists them in, and nothing else is different; a bootstrap that was interrupted at any call leaves each place empty, done or partly done, and starting it again gives the same result as one that was not interrupted.", "quantifier": "every remote tree of any size and depth, every order of listing, every state that an earlier bootstrap may leave, every call that may fail", "why_tests_cant": "the order of listing, the shape of the tree and the call at which a run is interrupted are arbitrary; tests bootstrap one small tree without failures", "anchors": ["augpathlib/caches.py:CachePath._bootstrap_recursive", "augpathlib/remotes.py:RemotePath.cache_init", "augpathlib/remotes.py:RemotePath._cache_setter", "augpathlib/caches.py:PrimaryCache._meta_updater", "augpathlib/caches.py:CachePath._bootstrap_prepare_filesystem"]}
{"id": "C125", "title": "A recursive bootstrap of a tree that is there already loses no local content", "statement": "Whatever is on disk when a recursive bootstrap starts, the content of every local file is still there when it returns or raises: at its path, or, if the path is that of a remote object, in the trash under the recorded id; every local directory is still a directory.", "quantifier": "every local tree and every list of remote objects, sparse or not and in any order, every metadata on both sides, every call that may fail, every way that fetching may break off", "why_tests_cant": "what is lost depends on the combination of local state, remote state and the call that fails; tests bootstrap into an empty directory", "anchors": ["augpathlib/caches.py:CachePath._bootstrap_recursive", "augpathlib/caches.py:PrimaryCache._meta_updater", "augpathlib/caches.py:PrimaryCache.crumple", "augpathlib/caches.py:PrimaryCache.fetch", "augpathlib/remotes.py:RemotePath._cache_setter"]}
{"id": "C126", "title": "Fetching the same file from several processes at once", "statement": "Any number of processes may fetch the same file at the same time. If it is a file with its metadata already, none of them fails except for a ValueError about the size, the metadata stay the same apart from a checksum-mismatch mark, and when all have ended the file has exactly the data of the remote. If it is a symlink, then when all have ended the path is not empty, and a file at it has exactly the data of the remote or was not touched; if no mark can be added there is the symlink again or a file with all data and all metadata. A fetch that runs alone behaves as in the model of one process.", "quantifier": "every number of processes, every interleaving of their system calls, every division of the data into chunks by each of them, every metadata and every content before", "why_tests_cant": "the orders of the system calls of several processes cannot be enumerated or forced by a test; the authors noticed a stochastic error (comment in caches.py 874-883) and could not say where it comes from", "anchors": ["augpathlib/caches.py:CachePath.fetch", "augpathlib/caches.py:PrimaryCache.meta", "augpathlib/caches.py:PrimaryCache._meta_setter", "augpathlib/caches.py:SymlinkCache.meta", "augpathlib/caches.py:EatCache._meta_setter", "augpathlib/core.py:LocalPath.data", "augpathlib/core.py:LocalPath._write_chunks_posix"]}
{"id": "C127", "title": "Reading metadata while other processes set them", "statement": "Any number of processes may read the metadata in the extended attributes of a file, and set them, at the same time. Each read gives an object, and each of its fields has the value from before or one that some process sets. When all have ended, each field that some process sets has a value that one of them sets, and every other field is as before; what is read after that is what is there. A read while metadata are being set gives the metadata from before or those that one of the processes sets, and not a mixture; and when all have ended the metadata are those of one process.", "quantifier": "every number of processes, every interleaving of their system calls, all well-typed metadata, all attributes before that can be read", "why_tests_cant": "the attributes are written and read one system call at a time; a test cannot enumerate or force the orders in which the calls of several processes come", "anchors": ["augpathlib/caches.py:EatCache.meta", "augpathlib/caches.py:EatCache._meta_setter", "augpathlib/core.py:XattrHelper.setxattrs", "augpathlib/core.py:XattrHelper.xattrs", "augpathlib/meta.py:_PathMetaAsXattrs"]}
{"id": "C128", "title": "Removing a tree while other processes change it", "statement": "While rmtree removes a tree other processes may make, change and remove files and directories before each of its system calls. Whichever way the removal ends, what they leave alone outside of the tree is as it was. If it returns, without having been told to carry on after an error, then nothing is left at the path or below it, not even what the others put there meanwhile. Without other processes it is the function of C44 to C46.", "quantifier": "every disk, every tree, every action of the others before every system call, every failing system call, every handler, every recursion limit", "why_tests_cant": "the window between the check for a symlink and the listing is a few microseconds, and the number of schedules is unbounded", "anchors": ["augpathlib/core.py:650-706"]}
{"id": "C129", "title": "The directories that a recursive glob passes through", "statement": "The replacement of pathlib's _iterate_directories yields the directory that it is asked for and then directories below it, reached without following symlinks, each once and each after the one that it is in. Symlinks that dangle or lead in a circle do not end it. Every directory below that this process can get to is yielded, and the only exception that can end it is the OSError for too long a name.", "quantifier": "every disk with symlinks, every set of directories that may be read or searched, every starting directory, every recursion limit above the depth of the disk", "why_tests_cant": "needs symlinks into directories without search permission, symlinks in a circle and every order of the entries", "anchors": ["augpathlib/core.py:79-103"]}
{"id": "C130", "title": "Updating a cache brings it to the state of its remote, once", "statement": "When the remote has another version of the file, the local file was not changed, the remote sends what it says and no call fails, then update_cache returns True, the bytes that the remote sent are at the path where the remote says the file belongs, with metadata in which every field that the remote sets has its value and every field it leaves out is not set, the former id is kept, the old file is in the trash with its metadata and nothing else changed. A second update returns False and changes nothing but the errors.", "quantifier": "every cache file, metadata, remote metadata and content, disk and trash, with no failing call", "why_tests_cant": "the result depends on every field of two metadata records, on which of the two names the local sum, on the move and on the trash; tests update a few files with a few fields", "anchors": ["augpathlib/remotes.py:RemotePath.update_cache", "augpathlib/caches.py:PrimaryCache._meta_updater", "augpathlib/caches.py:CachePath.move", "augpathlib/caches.py:CachePath.fetch"]}
{"id": "C131", "title": "A file is marked as having a wrong checksum exactly when it has one", "statement": "After a fetch or an update that fetched, the errors of the metadata contain checksum-mismatch if and only if the checksum of the data is not the recorded one.", "quantifier": "every metadata, remote content and disk, every run that returns", "why_tests_cant": "the mark depends on the history of the file, not only on the data of the fetch that is tested", "anchors": ["augpathlib/caches.py:CachePath.fetch", "augpathlib/caches.py:PrimaryCache._update_meta", "augpathlib/caches.py:PrimaryCache._meta_updater"]}
{"id": "C132", "title": "Asking for a cache with its parents makes only the outermost missing directory, and raises", "statement": "RemotePath.cache_init, however it ends and whichever system calls fail, changes nothing but the remote object's place and those of the directories between it and the anchor, and removes nothing; if it returns, the cache has the metadata of the remote. If the directory of the object is there it returns. With parents=True it never returns where it would not return without: if the directory is not there, one call makes the outermost missing directory with its metadata and raises CacheExistsError, so that a remote directory with n missing directories before it takes n calls that raise and one that returns. A remote file of which only the parent is missing returns in either case, and leaves the parent without metadata.", "quantifier": "every remote tree and depth, every number of missing directories, every state a bootstrap may leave on the way, every call that may fail, every number of repeated calls", "why_tests_cant": "the depth, the directories that are missing and the call that fails are arbitrary; no test of the project calls cache_init with parents on a missing directory", "anchors": ["augpathlib/remotes.py:RemotePath.cache_init", "augpathlib/core.py:LocalPath.cache_init", "augpathlib/caches.py:CachePath._bootstrap_prepare_filesystem"]}
{"id": "C133", "title": "Streams pretend to be attributes", "statement": "On windows, where the attributes of a file are alternate data streams, every history of setting, reading, deleting and listing attributes gives what it gives for the extended attributes of a file on posix, and changes nothing else on the drive.", "quantifier": "every path, file, namespace, key, value and history, and every set of names that the file system tells apart", "why_tests_cant": "The tests of this class run on windows only and use a few keys on one file and directory; agreement of two helpers over all histories, paths and names, and the names for which it fails, cannot be enumerated.", "anchors": ["augpathlib/core.py:ADSHelper._stream", "augpathlib/core.py:ADSHelper._streams", "augpathlib/core.py:ADSHelper._streamname", "augpathlib/core.py:ADSHelper._xattrs", "augpathlib/core.py:ADSHelper.xattrs", "augpathlib/core.py:ADSHelper.setxattr", "augpathlib/core.py:ADSHelper.getxattr", "augpathlib/core.py:ADSHelper.delxattr", "augpathlib/core.py:XattrHelper"]}
{"id": "C134", "title": "The commits since the last release", "statement": "commits_since_last_release gives, the latest first, the date, author, hash and subject of exactly those commits after the latest release of the package (all commits, if there was none) that change a file that the next release would have, or anything in the folder of the package if those files cannot be listed.", "quantifier": "every linear history with any tags, every package name with or without a prefix, every list of files", "why_tests_cant": "A test needs a repository with a chosen history and tags; the property is about every history, every combination of tags of several packages, and every text of authors and subjects.", "anchors": ["augpathlib/package.py:PackagePath.commits_since_last_release", "augpathlib/package.py:PackagePath.tag"]}
{"id": "C135", "title": "Bumping the version", "statement": "bump gets to its end exactly if there is a next version and it is neither the version of the repository nor the latest release; a next version that is released already is never found; and a package that was never released cannot be bumped.", "quantifier": "every reply of the index to each of the requests, every parser of versions, every phase and component, every package", "why_tests_cant": "The replies of the index come over the network; the property is about every sequence of replies and every version.", "anchors": ["augpathlib/package.py:PackagePath.bump", "augpathlib/package.py:PackagePath.version_next", "augpathlib/package.py:PackagePath.module"]}
{"id": "C136", "title": "The command that makes a release", "statement": "The command is build-release and five words: the group and the repository of the remote, the folder of the package, its name, and the next version.", "quantifier": "every group, repository, branch, file, folder, package name and version, for both forms of the remote's address", "why_tests_cant": "The property is about every name; tests use the names of a few repositories.", "anchors": ["augpathlib/package.py:PackagePath.command", "augpathlib/package.py:PackagePath.arg_org", "augpathlib/package.py:PackagePath.arg_repo", "augpathlib/package.py:PackagePath.arg_folder"]}
{"id": "C137", "title": "The web address of a file in a clone of a clone", "statement": "A file in a clone of a repository on the same disk, or in a clone of a clone and so on, has the web address that it has in the original repository, with the branch of the clone if no reference is given; likewise for the address for programs.", "quantifier": "every chain of clones of any length, every file, group, repository and reference", "why_tests_cant": "Chains of clones have any length, and any other repositories can be around or inside of them.", "anchors": ["augpathlib/repo.py:RepoHelper._remote_uri", "augpathlib/repo.py:RepoHelper.remote_uri_human", "augpathlib/repo.py:RepoHelper.remote_uri_api"]}
{"id": "C138", "title": "Metadata of a local file that other processes change", "statement": "Other processes may change, replace, remove and bring back a file at any time, also between the system calls of a request for its metadata. If the times of the file tell that something happened to it, then an object that is asked for metadata again and again gives the right size, inode, times and checksum each time that nothing happens to the file from when it is asked to when it answers, whatever happened before; and it answers. If the file is only appended to meanwhile, the checksum is that of the content at one moment. The metadata are always those of the file at one moment.", "quantifier": "all contents, inodes and times at every moment, all sequences of requests with checksum and the moments at which they are made, all sizes of reads, all chunk sizes, all hash functions", "why_tests_cant": "a test has no control over when other processes run between the system calls, and cannot go through all interleavings", "anchors": ["augpathlib/core.py:LocalPath._meta_maker", "augpathlib/core.py:AugmentedPath.checksum", "augpathlib/core.py:LocalPath.data"]}
{"id": "C139", "title": "Copies from several processes to the same target", "statement": "Any number of processes may copy to the same target without force at the same time. Those that begin when there is a file at the target are refused, and a file that was there before stays as it is. No process waits for another. If all that get to write copy the same content, then when none is writing any more the target has exactly this content. If they copy different things, only one returns and the target has the content of its source.", "quantifier": "all numbers of processes, all sources, all interleavings of their system calls, all amounts written at once, all moments at which processes stop", "why_tests_cant": "a test cannot go through all interleavings of system calls of several processes", "anchors": ["augpathlib/core.py:LocalPath.copy_to", "augpathlib/core.py:LocalPath.data", "augpathlib/core.py:LocalPath._write_chunks_posix"]}
{"id": "C140", "title": "Metadata in a symlink set by several processes", "statement": "Any number of processes may set the metadata stored in the symlink at a path at the same time. At each moment the path has the metadata from before, or exactly those that one of the processes sets, or none. As soon as no process is between taking a link away and making its own, there is a link if there was one or if a process has begun, even if some of them raised. Of processes that find nothing at the path exactly the first one to make its link returns. A process that is left alone stores its metadata as the comparison says, with the old ones in the trash. Every process ends. Older metadata never replace newer ones, the metadata that were there before are in the trash when they have been replaced, and readers always find metadata.", "quantifier": "all numbers of processes, all metadata and comparisons, all interleavings of their system calls, all moments at which processes stop", "why_tests_cant": "a test cannot go through all interleavings of system calls of several processes", "anchors": ["augpathlib/caches.py:SymlinkCache.meta", "augpathlib/caches.py:_CachePath.crumple", "augpathlib/caches.py:_CachePath._trashed_path", "augpathlib/caches.py:_CachePath.id"]}
{"id": "C141", "title": "Swapping two paths from several processes", "statement": "Any number of processes may swap the same two files with swap_carefree at the same time, in either order. Nothing is ever overwritten: at each moment each of the two contents is at exactly one of the two paths or in one temporary directory. When no process is on its way and none has raised with something in its temporary directory, both paths are there, and they are exchanged exactly if an odd number of calls returned. Where the system can exchange two paths in one call, no call raises and both paths are there at each moment. Every process ends. Without that call as well, none raises and both paths are there in the end.", "quantifier": "all numbers of processes, both orders of the paths for each, all interleavings of their system calls, all moments at which processes stop", "why_tests_cant": "a test cannot go through all interleavings of system calls of several processes", "anchors": ["augpathlib/core.py:AugmentedPath.swap_carefree", "augpathlib/core.py:AugmentedPath.swap"]}
{"id": "C142", "title": "Processes that ask for the id of the machine at once", "statement": "Any number of processes determine the id of the machine at once. Where there is an id already every process is told this one and nothing is written. Where there is none nobody raises, the file holds nothing or the whole id that one of the processes drew, and a process is told the id of one of these or that of an empty file, the latter only while another process is between opening and writing the file. If the first process has written its id before another looks all are told this id; and once an id is in the file and nobody is about to write, it stays and every later process is told this one. A process has its id after six system calls, whatever the others do, and alone it is told what the sequential model says.", "quantifier": "every number of processes, every order of their system calls, every state of the two files, every hash function and all random ids of the same length", "why_tests_cant": "the order in which the system calls of several processes meet is not under the control of a test, and there are unboundedly many", "anchors": ["augpathlib/utils.py:sysidpath", "augpathlib/utils.py:_raw_id"]}
{"id": "C143", "title": "Moving the same file from several processes", "statement": "Any number of processes move the same file to the same target at once. At each moment the file is at most at one path, and so is a symlink that was at the target. With nothing at the target the file is always at its old path or at the target, and at the target for good once a process has ended, and a process that knows the id of the file does not raise. With a symlink of the same id at the target a process that nobody disturbs moves the file, and processes that begin after another one has renamed it do no harm. The file is lost exactly when a process removes what is beside the target after another one has put the file there, or puts the symlink back over the file. A process raises exactly when the ids it compares differ, or what it removes or puts back from beside the target is not there any more. Every process ends after at most eleven system calls.", "quantifier": "every number of processes, every order of their system calls, whatever ids their objects know already, with and without a symlink at the target", "why_tests_cant": "the order in which the system calls of several processes meet is not under the control of a test, and there are unboundedly many", "anchors": ["augpathlib/caches.py:_CachePath.move"]}
{"id": "C144", "title": "with path: in several threads", "statement": "Any number of threads of a process have with blocks on directories. When a block is left the working directory is the one that it was entered from, whatever the other threads did in the meantime; so at the end it is what the last block to be left was entered from, and it comes back if a block that was entered before all others is left after all others. When blocks, also of different threads, are inside each other or one after the other, everything is afterwards as it was, and the body of the innermost one runs in its directory. A body runs in its directory as long as no other thread enters or leaves a block.", "quantifier": "every number of threads, every order of their system calls, every nesting of blocks in each thread, all directories", "why_tests_cant": "the order in which the system calls of several threads meet is not under the control of a test, and there are unboundedly many", "anchors": ["augpathlib/core.py:AugmentedPath.__enter__", "augpathlib/core.py:AugmentedPath.__exit__"]}
{"id": "C145", "title": "local directories for remotes made in several processes", "statement": "Any number of processes call mkdir_cache, each with a remote of its own or the same one. Directories that were there stay as they were, and each new one is above the remote of one of the processes and has the metadata that this process was told, all of it once this process is done. When a process returns, all directories above its remote are there. All that a process can raise is that a directory is there already which another process has made since it looked; then, when all have ended, another process has returned that needs the same directory, so at least one always returns, and one that raised and is started again returns without doing anything when all is there. Each process ends, and one that is alone returns with exactly the directories above its remote.", "quantifier": "every number of processes, every order of their system calls, all remotes and depths, all trees to begin with, all metadata", "why_tests_cant": "the order in which the system calls of several processes meet is not under the control of a test, and there are unboundedly many", "anchors": ["augpathlib/core.py:LocalPath.mkdir_cache", "augpathlib/caches.py:CachePath.__init__"]}
{"id": "C146", "title": "crumple in several processes", "statement": "Any number of processes throw files into the same trash. When files that are not the same get names that are not the same, then at any time each file is where it was, or it is in the trash under the name of a process that has returned, with its content; what is in the trash under other names stays. Of several processes that throw away the same file only one returns. A process raises FileNotFoundError only if its file was not there or another process has thrown it away, and FileExistsError only if the trash was not there at first and another process has found or made it since; so nothing of this is raised about the trash when it is there, and when all have ended and their files were there at least one has returned. Each process ends after a number of system calls that depends on the depth of the trash only, and one that is alone moves exactly its file.", "quantifier": "every number of processes, every order of their system calls, all files, ids and names, every depth of the trash and every part of it that is there", "why_tests_cant": "the order in which the system calls of several processes meet is not under the control of a test, and there are unboundedly many", "anchors": ["augpathlib/caches.py:_CachePath.crumple", "augpathlib/caches.py:_CachePath._trashed_path", "augpathlib/caches.py:_CachePath._trashed_path_short"]}
{"id": "C147", "title": "dropAnchor and smartAnchor in several processes", "statement": "Any number of processes anchor the same remote root to the same directory, some with dropAnchor and some with smartAnchor. Each process that returns is anchored to the id that was stored with the directory at first, or to that of the root if there was none, and this is stored there; so all agree. An id that was stored stays. smartAnchor raises FileExistsError only if the directory was not there at first and another process has made it, and DirectoryNotEmptyError only if it was not empty at first and had no id; so if it was there at first, with an id or empty, each smartAnchor returns. If it was not there at first then, when all have ended, at least one process has returned. Each process ends after at most seven system calls, and one that is alone does what the model of one process says.", "quantifier": "every number of processes, every order of their system calls, every state of the directory to begin with, every mix of the two functions", "why_tests_cant": "the order in which the system calls of several processes meet is not under the control of a test, and there are unboundedly many", "anchors": ["augpathlib/remotes.py:RemotePath.dropAnchor", "augpathlib/remotes.py:RemotePath.smartAnchor", "augpathlib/core.py:LocalPath.cache_init"]}
{"id": "C148", "title": "pushd and popd in several threads", "statement": "The working directory and the directory stack are shared by all threads of a process. When several threads call pushd and popd without arguments, no directory that was pushed is lost or returned by two calls of popd. If no thread calls popd more often than it has called pushd, no call warns or raises, what was on the stack before stays untouched, the working directory is always the first one or one that was given to pushd, and after programs with a popd for every pushd the stack is as it was. Calls that do not overlap work as those of one thread. After such programs the working directory is the one from the beginning too.", "quantifier": "any number of threads, any programs of calls, any interleaving of their steps, any stack and working directory at the beginning, directories that stay", "why_tests_cant": "the outcome depends on where in a call another thread is scheduled; a test sees one of the interleavings", "anchors": ["augpathlib/core.py:AugmentedPath.pushd", "augpathlib/core.py:AugmentedPath.popd", "augpathlib/core.py:AugmentedPath._stack"]}
{"id": "C149", "title": "Refs of one repository visited by several processes at once", "statement": "When several processes visit refs of the same repository with with-ref blocks at the same time, the branch, the working directory and the stash are as before when all have returned, and whatever commands fail, nothing that was in the working directory, in a commit or in the stash is lost. A command that fails changes nothing, and its process raises.", "quantifier": "every repository, number of processes, refs, order of their git commands, and failing commands", "why_tests_cant": "tests run one process; the interleavings of several processes and the states of a repository are unbounded", "anchors": ["augpathlib/repo_patch.py:Reference.__enter__", "augpathlib/repo_patch.py:Reference.__exit__"]}
{"id": "C150", "title": "Commits to one repository from several processes", "statement": "When several processes call commit or commit_from_working_tree for paths of the same repository at the same time, every commit that was made stays in the history of the branch, each commit has only the changes of its own path, and nothing that was in the working directory is lost, whatever commands fail.", "quantifier": "every repository, number of processes, paths, order of their git commands, and failing commands", "why_tests_cant": "tests run one process (the source asks itself: concurrent modification?!); interleavings of git commands and states of a repository are unbounded", "anchors": ["augpathlib/repo.py:RepoHelper.commit", "augpathlib/repo.py:RepoHelper.commit_from_working_tree", "augpathlib/repo.py:RepoHelper.add_index"]}
{"id": "C151", "title": "A commit made in a with-ref block", "statement": "A with-ref block at another branch that changes files and calls commit_from_working_tree for a path adds exactly one commit to that branch, on top of the one it had, which differs from it only at the path; all other refs, the current branch, and the uncommitted changes of the user are as they were, and what the block changed elsewhere is in a new stash entry.", "quantifier": "every repository and stash, every change made in the block, every path", "why_tests_cant": "states of a repository and stash depth are unbounded, and __enter__, commit and __exit__ share one stash stack", "anchors": ["augpathlib/repo_patch.py:Reference.__enter__", "augpathlib/repo_patch.py:Reference.__exit__", "augpathlib/repo.py:RepoHelper.commit_from_working_tree", "augpathlib/repo.py:RepoHelper.commit"]}
{"id": "C152", "title": "What a package path remembers of the index, the site and the setup file", "statement": "In every history of calls on any number of package paths, each path keeps the first good answer of the setup file, of the package index, for the token and from the hosting site, and never asks for the same again; answers that are not good are not kept; all requests of one path are for the same name and with the same token; paths do not affect each other; and the version that is proposed next is never one that the index lists by then.", "quantifier": "every history of calls, number of paths, and behaviour of the setup file, the index, the site and the token over time", "why_tests_cant": "tests have one reply per path; histories and the times at which the outside changes are unbounded", "anchors": ["augpathlib/package.py:PackagePath.pypi_json", "augpathlib/package.py:PackagePath.github_json", "augpathlib/package.py:PackagePath._github_session", "augpathlib/package.py:PackagePath.setup_dist", "augpathlib/package.py:PackagePath.version_next", "augpathlib/package.py:PackagePath.bump"]}
{"id": "C153", "title": "Preparing the directory of a cache in several processes", "statement": "In whatever order processes run local_data_dir_init and store objects, nothing is lost: directories stay, a link for the objects stays what it is, files in the directory for objects stay there and what is found below the path of the objects is found there ever after; who returns with a target has the link to it, so all that return with targets agree; who returns has the data directory; and when all give the same target, or none, all return.", "quantifier": "every number of processes, every job of each, every starting state and every interleaving of their system calls", "why_tests_cant": "tests run one process; the outcome depends on the order of system calls between processes", "anchors": ["augpathlib/caches.py:CachePath.local_data_dir_init", "augpathlib/caches.py:CachePath.local_objects_dir", "augpathlib/caches.py:CachePath.local_object_cache_path"]}
{"id": "C154", "title": "Creating repositories in several processes", "statement": "In whatever order processes run RepoPath.init, no repository vanishes and the new ones are those of the processes that returned; a process that begins when there is a repository at its path or above does not create one, so repositories nest only if the calls overlap or the inner one was there first; of several that clone to the same path at most one returns; paths apart from each other do not disturb each other; and no two calls both create a repository at the same path or one inside the other.", "quantifier": "every number of processes, paths, starting repositories and every interleaving of their looks at the disk", "why_tests_cant": "tests run one process; the outcome depends on the order of looks and commands between processes", "anchors": ["augpathlib/repo.py:RepoPath.init", "augpathlib/repo.py:RepoPath.working_dir", "augpathlib/repo.py:RepoPath.repo"]}
{"id": "C155", "title": "Removing the empty directories of a tree while other processes change it", "statement": "While rmdirtree removes the empty directories of a tree other processes may make, change and remove files and directories before each of its system calls. Whichever way it ends, no file or symlink that they leave alone is removed, nor a directory that such a one is in, and what they leave alone outside of the tree is as it was. If they do nothing in the tree, then it ends as if it were alone: it returns when no call fails, and exactly the directories without content are gone.", "quantifier": "every disk, every tree, every action of the others before every system call, every failing system call, both walks, every recursion limit", "why_tests_cant": "tests run one process; what happens depends on what others do between the scan of a directory and its removal, and on where symlinks lead at each moment", "anchors": ["augpathlib/core.py:AugmentedPath.rmdirtree"]}
{"id": "C156", "title": "Visits and commits in one repository by several processes", "statement": "When some processes are in with-ref blocks and others call commit or commit_from_working_tree in the same repository at the same time, no commit is lost, each commit is in the history of the branch where the user is, and nothing that was in the working directory, in a commit or in the stash is lost, whatever commands fail.", "quantifier": "every repository, number of processes of both kinds, refs, paths, order of their git commands, and failing commands", "why_tests_cant": "tests run one process; the stash and HEAD are shared by all of them, and what is lost depends on the order of some twenty git commands of three processes", "anchors": ["augpathlib/repo_patch.py:Reference.__enter__", "augpathlib/repo_patch.py:Reference.__exit__", "augpathlib/repo.py:RepoHelper.commit", "augpathlib/repo.py:RepoHelper.commit_from_working_tree"]}
{"id": "C157", "title": "The path of a child of a cache from python 3.12 on", "statement": "From python 3.12 on, when a cache is joined with the parts of a remote, the path of the new cache is what pathlib's joinpath gives for the path of the cache and these parts, as it was with the older versions of python.", "quantifier": "every path of a cache, every number of parts, every text, and every drive, root and components on windows", "why_tests_cant": "tests join a few names on one system and one version of python; the copied join has branches for drives that no test on posix reaches, and the text of the parts comes from the remote", "anchors": ["augpathlib/caches.py:_CachePath._make_child", "augpathlib/caches.py:_CachePath.__truediv__"]}
{"id": "C158", "title": "Removing a tree with read-only files on windows", "statement": "On windows, where what is read-only cannot be removed, rmtree with onerror_windows_readwrite_remove as its argument onerror removes the whole tree, whatever in it is read-only. What is left when it raises is part of what was there.", "quantifier": "every tree of files and directories, with any of them read-only", "why_tests_cant": "the helper is only used on windows, and the tests make read-only files of git at most; what happens to a read-only directory depends on how the exceptions go through all the directories above it", "anchors": ["augpathlib/utils.py:onerror_windows_readwrite_remove", "augpathlib/core.py:AugmentedPath.rmtree"]}
