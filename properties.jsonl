{"id": "C01", "title": "Pack entry headers round-trip", "statement": "For every pack type id 0..7 and every object size, parsing the header produced by create_pack_object_header, followed by any further bytes, yields exactly that type id, that size and the number of header bytes; and for an arbitrary byte string pack_object_header_info either returns the value the git pack format assigns to its header or raises IndexError because the header never ends.", "quantifier": "all type ids, all (unbounded) sizes, all trailing bytes, all byte strings", "why_tests_cant": "sizes are unbounded; every 4/7-bit boundary and every garbage input must work", "anchors": ["gitdb/fun.py:pack_object_header_info", "gitdb/fun.py:create_pack_object_header"]}
{"id": "C02", "title": "Delta size fields decode correctly at any position", "statement": "msb_size(data, offset) returns the little-endian base-128 number starting at offset and the position just after it, whatever precedes and follows it; when the number is not terminated inside the data it raises (AssertionError for offset 0, IndexError otherwise) and never returns a number.", "quantifier": "all numbers, all buffers, all offsets", "why_tests_cant": "unbounded integers and all truncation points", "anchors": ["gitdb/fun.py:msb_size"]}
{"id": "C03", "title": "Offset-delta back references decode as git encodes them", "statement": "The back offset of an OFS_DELTA pack entry decodes to the number git encoded, for every number; the encoding is a bijection, so two different encodings never denote the same base.", "quantifier": "all back offsets, all terminated byte strings", "why_tests_cant": "unbounded integers; the '+1' rule of the encoding only shows at multi-byte boundaries", "anchors": ["gitdb/pack.py:pack_object_at"]}
{"id": "C04", "title": "Loose object headers round-trip", "statement": "loose_object_header_info recovers type and size from the header written by loose_object_header for every type name without space or NUL and every size, whatever content bytes follow. Of other data exactly that is accepted which has, up to its first NUL within 8192 bytes (or, without a NUL, up to its last byte), two pieces separated by one blank, the second one a number as int() takes it: signs, white space, underscores and leading zeros included; everything else raises ValueError.", "quantifier": "all type names without space/NUL, all sizes, all contents; all undamaged compressed data", "why_tests_cant": "content may itself contain spaces, NULs and digits; sizes are unbounded", "anchors": ["gitdb/fun.py:loose_object_header", "gitdb/fun.py:loose_object_header_info", "gitdb/stream.py:DecompressMemMapReader._parse_header_info"]}
{"id": "C05", "title": "Hex and binary object names are interchangeable", "statement": "to_bin_sha and to_hex_sha are mutually inverse between 20-byte binary names and 40-digit lower-case hex names, and each leaves a name already in its target form unchanged. hex_to_bin accepts exactly an even number of digits of either case and raises binascii.Error otherwise.", "quantifier": "all 20-byte names / all 40-digit hex names", "why_tests_cant": "2^160 names", "anchors": ["gitdb/util.py:to_hex_sha", "gitdb/util.py:to_bin_sha", "gitdb/util.py:hex_to_bin", "gitdb/util.py:bin_to_hex"]}
{"id": "C06", "title": "Applying a delta produces exactly what its instructions say", "statement": "For every base buffer and every sequence of copy instructions inside the base and insert instructions, however each copy chooses to spell its offset and size bytes, apply_delta_data writes exactly the concatenation of the instructed pieces and returns normally.", "quantifier": "all bases, all instruction sequences, all legal spellings of each instruction", "why_tests_cant": "unbounded instruction sequences; 128 spellings of each copy instruction; size 0 means 65536", "anchors": ["gitdb/fun.py:apply_delta_data"]}
{"id": "C07", "title": "A malformed delta is rejected", "statement": "apply_delta_data raises for every delta containing opcode 0, a copy outside the declared source size, a truncated copy instruction or a truncated insert; it never writes bytes from outside the declared source range.", "quantifier": "all byte strings as delta, all base buffers", "why_tests_cant": "adversarial inputs of any length and any instruction at fault", "anchors": ["gitdb/fun.py:apply_delta_data"]}
{"id": "C08", "title": "Reading a delta chain yields the fully resolved object", "statement": "For a base object and any chain of well-formed deltas on top of it, with arbitrary intermediate sizes, the resolved stream reports the final target size and reading it (in any split of read calls) yields exactly the result of applying the deltas one after the other.", "quantifier": "all bases, all chain lengths, all deltas, all read splits", "why_tests_cant": "chain depth and the reuse of two scratch buffers across arbitrary intermediate sizes", "anchors": ["gitdb/stream.py:DeltaApplyReader._set_cache_brute_", "gitdb/stream.py:DeltaApplyReader.read", "gitdb/stream.py:DeltaApplyReader.seek"]}
{"id": "C09", "title": "Merging a delta chain equals applying it step by step", "statement": "connect_deltas merges any chain of deltas into one chunk list whose application to the base gives the same bytes as applying the deltas one after the other; compress joins exactly the runs of three or more additions in front of a copy.", "quantifier": "all chains of deltas", "why_tests_cant": "unbounded chains and arbitrary overlaps between chunks of successive deltas", "anchors": ["gitdb/fun.py:connect_deltas", "gitdb/fun.py:delta_list_slice", "gitdb/fun.py:_closest_index", "gitdb/fun.py:TopdownDeltaChunkList.connect_with_next_base", "gitdb/fun.py:DeltaChunkList.compress"]}
{"id": "C10", "title": "Stream copies are exact", "statement": "stream_copy transfers exactly the first min(size, available) bytes of the source, in order, and returns that number, for every chunk size > 0; write_object emits the loose header followed by exactly that data.", "quantifier": "all contents, sizes and chunk sizes", "why_tests_cant": "all relations between content length, size and chunk size", "anchors": ["gitdb/fun.py:stream_copy", "gitdb/fun.py:write_object"]}
{"id": "C11", "title": "Decompressing reads never skip, repeat or corrupt bytes", "statement": "However a client splits its reads on a decompressing stream and however zlib buffers input and output, the bytes returned by successive reads are consecutive pieces of the object's content starting at its first byte.", "quantifier": "all contents, all compressed forms, all zlib buffering behaviours, all sequences of read sizes", "why_tests_cant": "the position depends on the whole history of window moves and on zlib internals", "anchors": ["gitdb/stream.py:DecompressMemMapReader.read", "gitdb/stream.py:DecompressMemMapReader._parse_header_info", "gitdb/stream.py:DecompressMemMapReader.new"]}
{"id": "C12", "title": "A bounded read is bounded", "statement": "read(n) with n > 0 on an object stream returns at most n bytes.", "quantifier": "all streams, all histories, all n", "why_tests_cant": "depends on the interaction of header buffer, zlib windowing and recursion", "anchors": ["gitdb/stream.py:DecompressMemMapReader.read"]}
{"id": "C13", "title": "An empty read means the end of the object", "statement": "read returns b'' only when the whole object has been returned, so loops that stop on b'' or on a short read see the complete object.", "quantifier": "all streams, all compressed forms, all read sizes", "why_tests_cant": "depends on where the compressor placed block boundaries relative to the read windows", "anchors": ["gitdb/stream.py:DecompressMemMapReader.read", "gitdb/fun.py:stream_copy"]}
{"id": "C14", "title": "Reading everything returns everything", "statement": "read() returns all not yet read bytes of the object.", "quantifier": "all streams and read histories", "why_tests_cant": "recursion through arbitrarily many windows", "anchors": ["gitdb/stream.py:DecompressMemMapReader.read"]}
{"id": "C15", "title": "The compressed size is known exactly after a full read", "statement": "After an object has been read completely, compressed_bytes_read() terminates and returns the exact length of its compressed form inside the larger buffer.", "quantifier": "all contents (also empty), all compressed forms, all trailing data, all read splits", "why_tests_cant": "pack iteration relies on it for every object of every pack", "anchors": ["gitdb/stream.py:DecompressMemMapReader.compressed_bytes_read"]}
{"id": "C16", "title": "Rewinding restarts the object", "statement": "After seek(0), at any point of reading, an object stream again delivers its content from the first byte, with the same size.", "quantifier": "all streams, all histories before the rewind", "why_tests_cant": "depends on leftover buffer state at the moment of the rewind", "anchors": ["gitdb/stream.py:DecompressMemMapReader.seek"]}
{"id": "C17", "title": "Writers hash and store exactly what was written", "statement": "However data is cut into write calls, the sha of a sha writer is the SHA-1 of all data written, a forwarding writer forwards exactly that data, and if every write and the close of a compressing file writer return normally, the file decompresses to exactly that data. A ZippedStoreShaWriter can be rewound to its start and nowhere else. An FDStream reads the file in order, and tell() counts what it returned. After close() of a compressing writer, also if it raised, every write and close raises zlib.error and nothing more is written; the digest goes on to count the refused data, and a descriptor that close() left open stays open.", "quantifier": "all sequences of writes, all (possibly short) OS writes", "why_tests_cant": "all chunkings and all points at which the OS writes short", "anchors": ["gitdb/stream.py:Sha1Writer", "gitdb/stream.py:FlexibleSha1Writer", "gitdb/stream.py:ZippedStoreShaWriter", "gitdb/stream.py:FDCompressedSha1Writer"]}
{"id": "C18", "title": "A written pack index gives back every entry", "statement": "Reading an index produced by the index writer for any set of objects returns, for every object, the very offset (below or above 2 GiB, up to 2^64-1), crc and name recorded for it, and the recorded number of objects.", "quantifier": "all sets of entries with 20-byte names, all offsets below 2^64", "why_tests_cant": "byte layout depends on the number of entries and of large offsets", "anchors": ["gitdb/pack.py:IndexWriter.write", "gitdb/pack.py:PackIndexFile"]}
{"id": "C19", "title": "Index lookup finds exactly the indexed objects", "statement": "sha_to_index returns a position holding the given name if and only if the name is in the index, else None; it always terminates.", "quantifier": "all indices (as written by the index writer, or any index with sorted names and matching fanout), all names", "why_tests_cant": "binary search over all sizes and positions", "anchors": ["gitdb/pack.py:PackIndexFile.sha_to_index"]}
{"id": "C20", "title": "Abbreviated lookup finds a match if there is one", "statement": "partial_sha_to_index with an abbreviation of at least three hex digits returns the position of an object whose name starts with these digits if one exists, and None if none exists.", "quantifier": "all indices, all abbreviations of even and odd length", "why_tests_cant": "all prefixes against all sorted tables", "anchors": ["gitdb/pack.py:PackIndexFile.partial_sha_to_index"]}
{"id": "C21", "title": "Ambiguous abbreviations are reported", "statement": "If two different objects of a pack share an abbreviation, looking it up raises AmbiguousObjectName.", "quantifier": "all indices, all abbreviations", "why_tests_cant": "needs two objects sharing a prefix at every possible table position", "anchors": ["gitdb/pack.py:PackIndexFile.partial_sha_to_index", "gitdb/db/pack.py:PackedDB.partial_to_complete_sha"]}
{"id": "C22", "title": "Index and pack trailers are the checksums they claim to be", "statement": "The checksum returned for a written index is the SHA-1 of everything before it, is read back by indexfile_checksum, and packfile_checksum returns the checksum of the pack the index was written for; likewise for PackFile.checksum.", "quantifier": "all sets of objects", "why_tests_cant": "all file sizes", "anchors": ["gitdb/pack.py:IndexWriter.write", "gitdb/pack.py:PackIndexFile.packfile_checksum", "gitdb/pack.py:PackIndexFile.indexfile_checksum", "gitdb/pack.py:PackFile.checksum"]}
{"id": "C23", "title": "The list of offsets is complete", "statement": "PackIndexFile.offsets() lists the pack offset of every object, in index order.", "quantifier": "all indices, all offsets", "why_tests_cant": "packs beyond 2 GiB are not testable with fixtures (test_pack_64 is skipped)", "anchors": ["gitdb/pack.py:PackIndexFile.offsets"]}
{"id": "C24", "title": "Abbreviation comparison is hex prefix comparison", "statement": "is_equal_canonical_sha(n, match, sha) is true exactly when the first n hex digits of match and sha agree, when match has ceil(n/2) bytes.", "quantifier": "all lengths, all names", "why_tests_cant": "odd lengths compare half bytes; all byte values matter", "anchors": ["gitdb/fun.py:is_equal_canonical_sha"]}
{"id": "C25", "title": "Version 1 indices are read correctly", "statement": "For every file in git's version 1 index format with fewer than 0xff744f63 objects in its first fanout slot, the reader detects version 1 and returns each object's offset and name and finds exactly the names present.", "quantifier": "all version 1 index files", "why_tests_cant": "all table sizes", "anchors": ["gitdb/pack.py:PackIndexFile._entry_v1", "gitdb/pack.py:PackIndexFile._offset_v1", "gitdb/pack.py:PackIndexFile._sha_v1", "gitdb/pack.py:PackIndexFile._set_cache_"]}
{"id": "C26", "title": "What is packed can be read back", "statement": "For every list of objects written with write_pack, opening the resulting pack and index and asking for an object's name returns its type, size and exact content.", "quantifier": "all lists of objects, all contents, compression levels and zlib outputs", "why_tests_cant": "unbounded numbers and sizes of objects", "anchors": ["gitdb/pack.py:PackEntity.write_pack", "gitdb/pack.py:PackEntity.stream", "gitdb/pack.py:PackEntity.info", "gitdb/pack.py:write_stream_to_pack", "gitdb/pack.py:pack_object_at"]}
{"id": "C27", "title": "Iterating a pack visits every object once, in order", "statement": "PackFile.stream_iter terminates and yields each object of a written pack exactly once, at its offset, in pack order. For a file of any content, each object yielded is what stream gives at its offset, and an iteration started at the offset of an object yields this object and the ones after it, and ends in the same way. For every pack of the format, whoever wrote it and with deltas, what is yielded is an initial run of the entries in order, unless the iteration goes on inside an entry already yielded.", "quantifier": "all written packs; all files and all offsets of objects for the second sentence; all packs of the format for the third", "why_tests_cant": "all object counts, empty objects, objects larger than the copy chunk", "anchors": ["gitdb/pack.py:PackFile._iter_objects", "gitdb/pack.py:PackFile.stream_iter"]}
{"id": "C28", "title": "CRC verification accepts what was written and only compares crcs", "statement": "is_valid_stream(sha, use_crc=True) returns True for every object of a freshly written pack, and in general returns True iff the crc32 of the bytes from the object's offset to the next object's offset equals the stored crc, independent of the chunk size used.", "quantifier": "all packs, all objects, all chunk sizes", "why_tests_cant": "byte ranges depend on the order of offsets vs. the order of names", "anchors": ["gitdb/pack.py:PackEntity.is_valid_stream", "gitdb/pack.py:PackEntity._set_cache_"]}
{"id": "C29", "title": "A pack never lies about its object count", "statement": "write_pack writes exactly the announced number of objects or raises ValueError; with no announced count it writes all objects. The count in the pack header, the number of entries in the pack and the size of the index agree.", "quantifier": "all object lists, all announced counts", "why_tests_cant": "all relations between announced and supplied counts, including 0", "anchors": ["gitdb/pack.py:PackEntity.write_pack"]}
{"id": "C30", "title": "Offset delta chains are collected completely", "statement": "PackFile.collect_streams terminates and returns, starting with the requested entry, each base in turn until the first entry that is not an offset delta.", "quantifier": "all packs, all offsets", "why_tests_cant": "chain depth; malformed back references", "anchors": ["gitdb/pack.py:PackFile.collect_streams"]}
{"id": "C31", "title": "Reference delta chains are collected completely", "statement": "PackEntity.collect_streams follows reference deltas through the index and offset deltas through the pack until it reaches a non-delta entry or a name that is not in the pack, for every mixture of the two delta kinds, and terminates.", "quantifier": "all packs, all mixtures of delta kinds", "why_tests_cant": "mixtures of delta kinds and cycles", "anchors": ["gitdb/pack.py:PackEntity.collect_streams_at_offset", "gitdb/pack.py:PackEntity.collect_streams"]}
{"id": "C32", "title": "info and stream agree on deltified objects", "statement": "For every deltified object, info reports the type of the base of its chain and the size that the stream delivers.", "quantifier": "all chains", "why_tests_cant": "sizes are taken from different places in info and stream", "anchors": ["gitdb/pack.py:PackEntity._object"]}
{"id": "C33", "title": "Creating a pack never disturbs existing objects", "statement": "At whatever point PackEntity.create is interrupted, a pack database on the directory still finds every object it found before, and never sees an index without its pack.", "quantifier": "all interruption points, all directory contents", "why_tests_cant": "crash points", "anchors": ["gitdb/pack.py:PackEntity.create", "gitdb/db/pack.py:PackedDB.update_cache"]}
{"id": "C34", "title": "What is stored can be read back", "statement": "After LooseObjectDB.store of any (type, data), the object's name is the SHA-1 of its header and data, has_object is true, and info/stream return that type, size and data.", "quantifier": "all databases, types and contents", "why_tests_cant": "all contents and all prior database states", "anchors": ["gitdb/db/loose.py:LooseObjectDB.store", "gitdb/db/loose.py:LooseObjectDB.stream", "gitdb/db/loose.py:LooseObjectDB.info", "gitdb/db/loose.py:LooseObjectDB.has_object"]}
{"id": "C35", "title": "Object files are complete at every instant", "statement": "With any number of concurrent stores into one database, interleaved arbitrarily and crashing anywhere, a file under an object path always is a complete object whose name is the SHA-1 of its contents; objects once stored stay.", "quantifier": "all interleavings, all crash points, all objects", "why_tests_cant": "schedules and crash points", "anchors": ["gitdb/db/loose.py:LooseObjectDB.store"]}
{"id": "C36", "title": "A failed store leaves nothing behind", "statement": "If store raises, the database contains the same objects as before and no temporary file is left. If the stream raises, store raises the same exception, unless the write made on closing fails too: then the OSError of that write is raised.", "quantifier": "all failure points", "why_tests_cant": "every OS call may fail", "anchors": ["gitdb/db/loose.py:LooseObjectDB.store"]}
{"id": "C37", "title": "Storing is idempotent and additive", "statement": "Storing the same content again gives the same name and does not change the set of objects or any existing object file; storing anything never changes or removes any other object.", "quantifier": "all histories of stores", "why_tests_cant": "all histories", "anchors": ["gitdb/db/loose.py:LooseObjectDB.store"]}
{"id": "C38", "title": "Loose abbreviations resolve iff unique", "statement": "LooseObjectDB.partial_to_complete_sha_hex returns the only object whose hex name starts with the abbreviation, raises BadObject if there is none and AmbiguousObjectName if there are several.", "quantifier": "all databases, all abbreviations", "why_tests_cant": "all sets of names", "anchors": ["gitdb/db/loose.py:LooseObjectDB.partial_to_complete_sha_hex", "gitdb/db/loose.py:LooseObjectDB.sha_iter"]}
{"id": "C39", "title": "The memory database is a map from names to objects", "statement": "For every history of stores, MemoryDB has exactly the stored names, size() counts them without duplicates, and stream(name) delivers type, size and data stored under it.", "quantifier": "all histories of stores and lookups", "why_tests_cant": "all histories", "anchors": ["gitdb/db/mem.py:MemoryDB"]}
{"id": "C40", "title": "Lookups do not depend on earlier readers", "statement": "MemoryDB.stream(sha).read() returns the full content no matter how far earlier clients read the same object.", "quantifier": "all histories of lookups and partial reads", "why_tests_cant": "the stream object is shared between lookups", "anchors": ["gitdb/db/mem.py:MemoryDB.stream", "gitdb/stream.py:DecompressMemMapReader.seek"]}
{"id": "C41", "title": "Copying out of the memory database", "statement": "MemoryDB.stream_copy stores in the target exactly those listed objects it does not have yet, returns their number, and afterwards the target delivers the same type, size and data for them.", "quantifier": "all sha lists (with repetitions), all target databases", "why_tests_cant": "all overlaps of the two databases", "anchors": ["gitdb/db/mem.py:MemoryDB.stream_copy"]}
{"id": "C42", "title": "Pack lookup does not depend on history", "statement": "Whether PackedDB finds an object depends only on the packs present, never on the number, order or kind of earlier lookups (which reorder the packs); a found object is served from a pack that contains it. A lookup that finds its object adds one hit to one pack, one that does not adds none.", "quantifier": "all histories of lookups, all pack sets", "why_tests_cant": "reordering happens every 500 hits", "anchors": ["gitdb/db/pack.py:PackedDB._pack_info", "gitdb/db/pack.py:PackedDB._sort_entities", "gitdb/db/pack.py:PackedDB.has_object"]}
{"id": "C43", "title": "Refreshing a pack database reflects the directory", "statement": "After update_cache(), the database uses exactly the packs in its directory, each once, keeps the entities of unchanged packs, and reports whether it refreshed.", "quantifier": "all directory changes, all timestamps, all histories", "why_tests_cant": "timestamps may tie", "anchors": ["gitdb/db/pack.py:PackedDB.update_cache"]}
{"id": "C44", "title": "A compound database finds what its parts contain", "statement": "CompoundDB.has_object(sha) is true iff one of the sub-databases has the object, info/stream are answered by the first sub-database (in order) having it, independent of earlier queries.", "quantifier": "all sub-databases, all query histories, interleaved with stores", "why_tests_cant": "the answer passes through a cache filled by the query history", "anchors": ["gitdb/db/base.py:CompoundDB._db_query", "gitdb/db/base.py:CompoundDB.has_object"]}
{"id": "C45", "title": "Compound abbreviations resolve iff unique", "statement": "CompoundDB.partial_to_complete_sha_hex returns the only object in any of its databases (recursively) whose hex name starts with the abbreviation, BadObject if none, AmbiguousObjectName if several.", "quantifier": "all database trees, all abbreviations", "why_tests_cant": "all distributions of names over databases", "anchors": ["gitdb/db/base.py:CompoundDB.partial_to_complete_sha_hex", "gitdb/db/base.py:_databases_recursive"]}
{"id": "C46", "title": "Size and iteration of compound databases are additive", "statement": "size() of a compound database is the sum of the sizes of its databases and sha_iter yields exactly the names of all its databases; update_cache() says whether one of the databases has changed; _databases_recursive visits every leaf database exactly once.", "quantifier": "all database trees", "why_tests_cant": "all tree shapes", "anchors": ["gitdb/db/base.py:CompoundDB.size", "gitdb/db/base.py:CompoundDB.sha_iter", "gitdb/db/base.py:_databases_recursive"]}
{"id": "C47", "title": "Alternates are followed and refreshed correctly", "statement": "A reference database uses exactly the valid paths of its alternates file, once each; refreshing adds new ones, drops removed ones and keeps the others; lookups terminate whatever the alternates files say.", "quantifier": "all alternates files and histories of changes, all alternates graphs", "why_tests_cant": "all edit histories, cyclic references", "anchors": ["gitdb/db/ref.py:ReferenceDB._update_dbs_from_ref_file", "gitdb/db/git.py:GitDB._set_cache_"]}
{"id": "C48", "title": "Locked files are exclusive and all-or-nothing", "statement": "With any number of processes using LockedFD on one path, interleaved arbitrarily and crashing anywhere, at most one holds the lock at a time, a failed open never releases somebody else's lock, and the file always has either its old content or the complete content of a committed writer.", "quantifier": "all interleavings and crash points", "why_tests_cant": "schedules and crash points", "anchors": ["gitdb/util.py:LockedFD"]}
{"id": "C49", "title": "The in operator answers membership", "statement": "`sha in db` is true iff db.has_object(sha).", "quantifier": "all databases, all names", "why_tests_cant": "must hold for every database class and name", "anchors": ["gitdb/db/base.py:ObjectDBR.__contains__"]}
{"id": "C50", "title": "Type names and type ids correspond", "statement": "The four object types and the pack type ids 1..4 correspond one to one in both directions, so an object keeps its type when it is packed and read back.", "quantifier": "all object types and ids", "why_tests_cant": "finite table; needed by C26 for every object", "anchors": ["gitdb/fun.py:type_id_to_type_map", "gitdb/fun.py:type_to_type_id_map", "gitdb/base.py:OInfo.type_id", "gitdb/base.py:OPackInfo.type"]}
{"id": "C51", "title": "Iterating over loose objects", "statement": "LooseObjectDB.sha_iter yields the name of every object in the directory exactly once and never raises; size() is their number; other files in the directory are ignored. Only files with names of 38 characters in directories of two characters can make it raise.", "quantifier": "all databases with the usual layout", "why_tests_cant": "all sets of names and files", "anchors": ["gitdb/db/loose.py:LooseObjectDB.sha_iter", "gitdb/db/loose.py:LooseObjectDB.size"]}
{"id": "C52", "title": "A GitDB finds what was stored through it, and what others store", "statement": "After GitDB.store has returned, has_object of the same GitDB is true for the name returned, whatever was looked up before (also lookups of the same name that failed) and whatever happens afterwards, as long as object files are only added. At any time has_object of a GitDB is true for exactly the objects which are at that time in its packs or in a loose directory of the database or of its alternates, and stream/info are answered by one of these.", "quantifier": "all acyclic graphs of alternates, all interleavings of reading operations with additions of loose objects (by itself or others), all source streams, all behaviours of the operating system during the store", "why_tests_cant": "A negative answer cached by a lookup before the store shows only in particular orders of calls; there are unboundedly many histories and graphs.", "anchors": ["gitdb/db/git.py:GitDB.store", "gitdb/db/git.py:GitDB._set_cache_", "gitdb/db/base.py:CompoundDB._db_query", "gitdb/db/loose.py:LooseObjectDB.has_object"]}
{"id": "C53", "title": "Damaged index files never produce false hits", "statement": "Opening any bytes as a pack index either succeeds or raises struct.error (header or fanout table cut off) or AssertionError (wrong version); every lookup in an opened file, whatever its bytes, ends; looking up a (nonempty) name never raises and returns a position only if the file holds this name there; an abbreviation is answered only by a name with these digits; offsets() gives the table as far as the file goes, and ValueError if it ends within an entry.", "quantifier": "all byte strings as files, all names and abbreviations", "why_tests_cant": "there are unboundedly many damaged files (unsorted names, non-monotone fanout tables, truncation anywhere)", "anchors": ["gitdb/pack.py:PackIndexFile._initialize", "gitdb/pack.py:PackIndexFile.sha_to_index", "gitdb/pack.py:PackIndexFile.partial_sha_to_index"]}
{"id": "C54", "title": "Verification is sound", "statement": "If PackEntity.is_valid_stream(sha) returns, it returns True, and the type, size and bytes delivered by stream(sha) hash to sha - whatever the bytes of the pack and of its index are.", "quantifier": "all contents of the two files, all names, all zlib behaviours, all hash functions", "why_tests_cant": "soundness concerns corrupted files, of which tests can only try a few", "anchors": ["gitdb/pack.py:PackEntity.is_valid_stream"]}
{"id": "C55", "title": "Pack entries are exactly what the bytes say", "statement": "For any bytes and any offset, an entry is returned exactly with the type, size, base reference and data position which git's format gives for these bytes, otherwise IndexError is raised and a header number is cut off by the end of the file; opening a pack raises exactly for a wrong signature or fewer than 12 bytes.", "quantifier": "all byte strings, all offsets", "why_tests_cant": "every header shape and every truncation point", "anchors": ["gitdb/pack.py:pack_object_at", "gitdb/fun.py:pack_object_header_info", "gitdb/pack.py:PackFile._set_cache_"]}
{"id": "C56", "title": "Object paths stay inside the database", "statement": "The file looked at for a name is root/xx/yyyy with the digits of the name; different names have different files; whatever bytes are passed to has_object, what it finds is the root directory or something below it; for object names has_object is true iff something exists at this path, wherever the (absolute or relative) root path leads.", "quantifier": "all byte strings as names, all root paths, all directory trees and current directories", "why_tests_cant": "path traversal concerns arbitrary input strings and trees", "anchors": ["gitdb/db/base.py:FileDBBase.db_path", "gitdb/db/loose.py:LooseObjectDB.object_path", "gitdb/db/loose.py:LooseObjectDB.readable_db_object_path", "gitdb/db/loose.py:LooseObjectDB.has_object"]}
{"id": "C57", "title": "File descriptors are released", "statement": "Whatever system calls or source streams fail: reading a loose object (info, stream) leaves no descriptor open and no memory mapped except by the stream returned; storing a loose object, creating a pack and deleting a lock leave no descriptor open.", "quantifier": "all combinations of failing system calls, all sources", "why_tests_cant": "leaks occur on error paths, which need failing system calls at particular points", "anchors": ["gitdb/util.py:file_contents_ro", "gitdb/util.py:file_contents_ro_filepath", "gitdb/db/loose.py:LooseObjectDB._map_loose_object", "gitdb/db/loose.py:LooseObjectDB.info", "gitdb/db/loose.py:LooseObjectDB.store", "gitdb/stream.py:FDCompressedSha1Writer.close", "gitdb/pack.py:PackEntity.create"]}
{"id": "C58", "title": "Messages of exceptions name the object", "statement": "The message of BadObject for an object name - binary or hex, bytes or str, complete or abbreviated - is 'BadObject: ' followed by its hex digits; formatting never fails, and different objects have different messages.", "quantifier": "all names, all types and lengths of names", "why_tests_cant": "error messages are rarely tested, and not for every form of a name", "anchors": ["gitdb/exc.py:BadObject.__str__", "gitdb/exc.py:BadName.__str__", "gitdb/util.py:to_hex_sha"]}
{"id": "C59", "title": "Merging deltas first gives the same object", "statement": "A DeltaApplyReader which merges the deltas of a chain before applying them announces the same size and returns the same bytes for any sequence of reads as one which applies them one by one; this is the resolved object.", "quantifier": "all chains of deltas which fit, all well behaved streams, all sequences of reads", "why_tests_cant": "chains of any length with arbitrarily overlapping chunks", "anchors": ["gitdb/stream.py:DeltaApplyReader._set_cache_too_slow_without_c", "gitdb/stream.py:DeltaApplyReader._set_cache_brute_", "gitdb/fun.py:connect_deltas"]}
{"id": "C60", "title": "Value objects carry what they were made of", "statement": "OInfo, OStream, OPackInfo and the other value objects return in their attributes exactly what they were made of, hexsha is the hex form of the name, type and type_id agree (type_id raises KeyError for an unknown type); only IStream can be changed, and changing one attribute does not affect the others; ODeltaStream, which has no __slots__, accepts attributes it does not have otherwise, which changes nothing else. InvalidOInfo and InvalidOStream cannot be created: the constructor raises TypeError.", "quantifier": "all contents, all attributes, all states of an IStream", "why_tests_cant": "attributes are positions in a tuple; a test notices a swap only if it reads this attribute of this class", "anchors": ["gitdb/base.py:OInfo", "gitdb/base.py:OPackInfo", "gitdb/base.py:ODeltaPackInfo", "gitdb/base.py:OStream", "gitdb/base.py:ODeltaStream", "gitdb/base.py:OPackStream", "gitdb/base.py:ODeltaPackStream", "gitdb/base.py:IStream", "gitdb/base.py:InvalidOInfo"]}
{"id": "C61", "title": "Repeated access to pack and index files", "statement": "Every call of any sequence of calls on a pack or an index object gets the answer of a freshly opened file; a file which is refused on first access is refused on every later access with the same exception. A missing index file is not remembered; a closed index still answers version and size if it was used before, and nothing else.", "quantifier": "all file contents, all sequences of calls including close", "why_tests_cant": "lazily filled attributes have many partially filled states, reached only after exceptions", "anchors": ["gitdb/util.py:LazyMixin.__getattr__", "gitdb/pack.py:PackFile._set_cache_", "gitdb/pack.py:PackIndexFile._set_cache_", "gitdb/pack.py:PackFile.close", "gitdb/pack.py:PackIndexFile.close"]}
{"id": "C62", "title": "Conversions between text and bytes", "statement": "force_text inverts force_bytes for every text and accepts exactly the encodings of texts; both return what already has the wanted type; ASCII keeps its codes; byte_ord gives the same for items and slices of length one.", "quantifier": "all texts (without lone surrogates), all byte strings", "why_tests_cant": "encodings differ for few characters", "anchors": ["gitdb/utils/encoding.py:force_bytes", "gitdb/utils/encoding.py:force_text", "gitdb/util.py:byte_ord"]}
{"id": "C63", "title": "Recognising loose objects", "statement": "is_loose_object tells for every file of at least two bytes whether it begins with the zlib header of a loose object.", "quantifier": "all byte strings of length at least 2", "why_tests_cant": "all 65536 beginnings", "anchors": ["gitdb/fun.py:is_loose_object"]}
{"id": "C64", "title": "Objects handed from one database to another", "statement": "An object read from a loose database, a pack or a delta chain and stored into a loose database or written into a pack is found there with the same name, type, size and data.", "quantifier": "all objects, all sources and destinations, all contents", "why_tests_cant": "reading and writing are tested separately; the way a writer reads its source (chunk sizes, end of data) is not that of the tests", "anchors": ["gitdb/db/loose.py:LooseObjectDB.stream", "gitdb/db/loose.py:LooseObjectDB.store", "gitdb/pack.py:PackEntity.write_pack", "gitdb/pack.py:PackEntity.stream", "gitdb/util.py:stream_copy"]}
{"id": "C65", "title": "Iterating over the objects of a pack by its index", "statement": "PackEntity.info_iter and stream_iter yield, in ascending order of the names and each once, what info and stream return for each name of the index; an object for which these raise ends the iteration; a written pack yields exactly the objects written.", "quantifier": "all index files of both versions, all pack contents, all lists of objects", "why_tests_cant": "order and completeness depend on the names, the end on damaged objects", "anchors": ["gitdb/pack.py:PackEntity._iter_objects", "gitdb/pack.py:PackEntity.info_iter", "gitdb/pack.py:PackEntity.stream_iter", "gitdb/pack.py:PackEntity._object"]}
{"id": "C66", "title": "Storing through an output stream of the caller", "statement": "set_ostream returns the stream used before and refuses anything but a Sha1Writer or None; while a stream is installed, store touches no file and gives each object the name and outcome of a store to a file; after None is set, objects go to files again.", "quantifier": "all sequences of calls, all sources including those that raise", "why_tests_cant": "a dry run is compared with a real one for few objects, and with a new stream for each", "anchors": ["gitdb/db/base.py:ObjectDBW.set_ostream", "gitdb/db/base.py:ObjectDBW.ostream", "gitdb/db/loose.py:LooseObjectDB.set_ostream", "gitdb/db/loose.py:LooseObjectDB.store"]}
{"id": "C67", "title": "Objects in the real compressed format", "statement": "With the decompressor of RFC 1950 and 1951, every valid stream of one stored or fixed-code block is read exactly, in any pieces; every object stored and read back with one read() is complete.", "quantifier": "all byte strings as compressed streams, all compressors, all sequences of reads", "why_tests_cant": "windows of 8 bytes meet block headers and code tables only for particular contents and read sizes", "anchors": ["gitdb/stream.py:DecompressMemMapReader.read", "gitdb/stream.py:DecompressMemMapReader.new", "gitdb/stream.py:ZippedStoreShaWriter", "gitdb/fun.py:loose_object_header_info"]}
{"id": "C68", "title": "Names are those of git", "statement": "make_sha computes SHA-1 as in FIPS 180-4, in whatever pieces data is passed; an object stored in a loose or memory database is named by the SHA-1 of its type, size and data, and the trailers of a pack and its index are the SHA-1 of what comes before.", "quantifier": "all byte strings shorter than 2^61 bytes, all divisions into pieces, all objects and packs", "why_tests_cant": "tests compare few digests; padding and block boundaries depend on lengths modulo 64", "anchors": ["gitdb/util.py:make_sha", "gitdb/stream.py:Sha1Writer", "gitdb/db/mem.py:MemoryDB.store", "gitdb/db/loose.py:LooseObjectDB.store", "gitdb/pack.py:PackEntity.write_pack", "gitdb/pack.py:IndexWriter.write"]}
{"id": "C69", "title": "Truncated and damaged compressed data", "statement": "On arbitrary bytes, any sequence of reads of a DecompressMemMapReader delivers without gaps a beginning of what the bytes decompress to, at most the announced size; the only exception is zlib.error, for damaged bytes. Opening a loose object raises zlib.error or ValueError, or takes type and size from the first bytes. Damaged objects whose compressed form fits in the first window are refused; truncation never raises after the header.", "quantifier": "all byte strings, all sizes, all sequences of reads, all places of truncation", "why_tests_cant": "tests read only valid streams; damage can be at any byte, and windows decide whether it is seen", "anchors": ["gitdb/stream.py:DecompressMemMapReader.read", "gitdb/stream.py:DecompressMemMapReader.new", "gitdb/stream.py:DecompressMemMapReader._parse_header_info", "gitdb/fun.py:loose_object_header_info"]}
{"id": "C70", "title": "Packs larger than a window", "statement": "If a pack is mapped in regions, wherever they end, an entry (and each entry of a chain of offset deltas) that lies in the region of its offset is read as from a file mapped as a whole. An entry that crosses the end of its region is opened with the right type and size and reads as a beginning of its content, without an exception; iteration stops there with AssertionError. The crc check sees the first region only; an index larger than a window is refused.", "quantifier": "all packs, all regions, all entries and all places where a region ends", "why_tests_cant": "a window is 1 GiB: no test has a file of that size, and where regions end depends on what was read before", "anchors": ["gitdb/pack.py:pack_object_at", "gitdb/pack.py:PackFile.collect_streams", "gitdb/pack.py:PackFile._iter_objects", "gitdb/pack.py:PackFile.data", "gitdb/pack.py:PackEntity.is_valid_stream", "gitdb/pack.py:PackIndexFile._set_cache_"]}
{"id": "C71", "title": "Objects compressed by any program", "statement": "Every byte string that is a zlib stream by RFC 1950 and 1951 - any division into blocks, any codes, literals and matches - is decompressed to its content and ends where the stream ends, whatever follows; nothing else is accepted as complete. If a compressor writes such streams, all that is said about reading and writing objects holds with it. Loose objects of at most 8192 bytes, and packed objects that became no longer by compression, are read completely whichever program wrote them.", "quantifier": "all valid streams, all compressors, all sequences of reads", "why_tests_cant": "tests read what the local zlib wrote at its levels; other programs (git, libgit2, JGit) choose other blocks and codes", "anchors": ["gitdb/stream.py:DecompressMemMapReader.read", "gitdb/stream.py:DecompressMemMapReader.new", "gitdb/fun.py:loose_object_header_info", "gitdb/pack.py:pack_object_at"]}
{"id": "C72", "title": "Deltas with wrong sizes, and arbitrary deltas", "statement": "A DeltaApplyReader that could be set up has the size the topmost delta announces and delivers exactly that many bytes, whatever its streams do. A delta producing less than it announces is filled up with zero bytes, or, with several deltas, with bytes of earlier results; one producing more raises ValueError, unless the memory of the chain has room for it (then it is cut) or nothing was announced. A copy from outside the source at the end reads as zeros. Apart from that only ValueError, IndexError and AssertionError are possible.", "quantifier": "all delta bytes, all chains, all bases, all announced sizes; for the size: all behaviours of the streams", "why_tests_cant": "tests apply deltas that were made correctly; what a wrong size leads to depends on all the other sizes of the chain", "anchors": ["gitdb/stream.py:DeltaApplyReader._set_cache_brute_", "gitdb/stream.py:DeltaApplyReader.read", "gitdb/fun.py:apply_delta_data", "gitdb/fun.py:msb_size", "gitdb/util.py:allocate_memory"]}
{"id": "C73", "title": "check_integrity of merged delta lists", "statement": "check_integrity is meant to accept exactly the lists whose chunks follow each other from 0 to target_size without gap or overlap, none of them empty, each with enough data, and to raise AssertionError for all others; so it accepts every non-empty list connect_deltas makes. With Python 3 it refuses every list of two or more chunks, the correct ones with AttributeError. Of a single chunk the data is not looked at; an empty list raises IndexError if a size is given. size() of a list without gaps is the number of bytes described.", "quantifier": "all chunk lists, all target sizes; with and without a method next of iterators", "why_tests_cant": "no test calls check_integrity; that it fails on every correct list of two chunks is only seen by calling it on one", "anchors": ["gitdb/fun.py:DeltaChunkList.check_integrity", "gitdb/fun.py:DeltaChunkList.size", "gitdb/fun.py:DeltaChunkList.lbound", "gitdb/fun.py:DeltaChunkList.rbound"]}
{"id": "C74", "title": "Objects compressed into a single block", "statement": "An object whose compressed data consists of a single DEFLATE block of any kind (also with codes of its own, whose description can be nearly 300 bytes long) is read exactly, with reads of any sizes, if the first read asks for at least 294 bytes or for as many bytes as there are compressed ones; a deltified object is resolved correctly if the entries of its chain are in a single block each and are not both shorter than 294 bytes and larger when compressed. Objects in several blocks can come out short in the middle: read(n) returns fewer bytes than asked for and there, stream_copy stops there and reports success, and a delta over a base object that does not come out is applied to zeros, without an exception. Several stored blocks do no harm: an object in stored blocks, none empty but perhaps the last, is read exactly with reads of any sizes, and so is every object of a pack written by a compressor that stores.", "quantifier": "all streams of a single block (any bytes with a last block first), all sequences of reads, all delta chains of such entries; concrete streams with two blocks for the failures", "why_tests_cant": "needs objects whose block boundaries fall onto the end of a window of compressed data; with random data of 20 KB and reads of 100 bytes it is common, with the sizes used in the tests it does not occur", "anchors": ["gitdb/stream.py:DecompressMemMapReader.read", "gitdb/stream.py:DeltaApplyReader._set_cache_brute_", "gitdb/fun.py:stream_copy"]}
{"id": "C75", "title": "Memory that cannot be mapped", "statement": "file_contents_ro shows the whole file (len, m[i], m[i:j], and read() if a stream was asked for) whether mapping works, fails once or fails always, if the file is not empty, the descriptor is at its beginning and the system reads the file in one go; in every other case the result is a contiguous piece of the file, ValueError (empty file, or a file that shrank) or OSError. A single short os.read is taken for the whole file, and without mapping the bytes before the descriptor's position are missing; a loose object read that way looks as if its file had been cut. Delta chains resolve to the same object and the same reads in memory that is not mapped; only results that are longer than announced, refused with mapped memory, are cut silently there.", "quantifier": "all files, positions, flags and combinations of failing mmap, fstat and os.read; all delta chains over arbitrary streams and all subsets of failing mmap calls", "why_tests_cant": "tests run where mmap works; the other branches need a file system without mmap or a process at its limit of maps", "anchors": ["gitdb/util.py:file_contents_ro", "gitdb/util.py:allocate_memory", "gitdb/util.py:_RandomAccessBytesIO", "gitdb/db/loose.py:LooseObjectDB._map_loose_object", "gitdb/stream.py:DeltaApplyReader._set_cache_brute_"]}
{"id": "C76", "title": "Damage that the crc check finds", "statement": "If the bytes of a written pack (at most 2 GiB) are changed within 32 consecutive bits, for instance up to four neighbouring bytes, is_valid_stream(sha, use_crc=True) returns False for exactly the objects whose entries changed and True for all others; every such change between the header of the pack and its checksum makes it False for at least one object. 33 bits are too many: adding the generator polynomial anywhere leaves the crc as it is.", "quantifier": "all packs written by write_pack with an index, all damages within 32 consecutive bits at any place, all start values of the crc", "why_tests_cant": "tests call the crc check only on intact packs; that no damage of this kind is overlooked is a statement about all data and all places", "anchors": ["gitdb/pack.py:PackEntity.is_valid_stream", "gitdb/pack.py:PackEntity.write_pack"]}
{"id": "C77", "title": "Databases whose path has special characters", "statement": "PackedDB lists exactly the files pack-*.pack of its directory if its path has none of the characters * ? [ (or only brackets that are not closed). In general it lists the packs of all directories that the path, read component by component as a shell pattern, stands for: with * and ? its own and those of other directories, and below a directory with a name such as x[1] none of its own packs, but those of x1.", "quantifier": "all directory trees, all absolute paths; the meaning of ranges in brackets is left open", "why_tests_cant": "the tests use directories named by tempfile, which have no special characters", "anchors": ["gitdb/db/pack.py:PackedDB.update_cache"]}
{"id": "C78", "title": "Packs that are replaced under their name", "statement": "Whatever happens to the pack directory between the calls, a PackedDB uses a pack as it was in one earlier state of the directory, with an index from that state or a later one. If a file is never replaced by a different one with the same name, every stream that is returned comes from a pack and its own index. Once the index has been mapped, answers do not depend on the directory any more. Otherwise, if both files of a known pack are replaced (the same objects in another order), the old pack is read with the new index: info and stream return the type and content of other objects without an exception, and update_cache(force=True) does not help.", "quantifier": "all histories of the directory, all sequences of calls; all names", "why_tests_cant": "needs a pack replaced between the listing of the packs and the first use of the index of that pack; the tests do not change packs under a database", "anchors": ["gitdb/db/pack.py:PackedDB.update_cache", "gitdb/db/pack.py:PackedDB._pack_info", "gitdb/pack.py:PackIndexFile._set_cache_", "gitdb/pack.py:PackEntity.__init__"]}
{"id": "C79", "title": "Output streams of every kind", "statement": "A new object stored through a fresh ZippedStoreShaWriter has the name and outcome of a store to a file, and the closed writer holds byte for byte what that store writes; the same holds for an FDCompressedSha1Writer of the caller, whatever the operating system does with the writes, where the store to a file fails exactly if the store or the close of the caller fails. A writer whose write returns None, as FlexibleSha1Writer's, receives the header, then TypeError is raised, nothing has been read and the stream stays unnamed; for a stream with a name the pieces go to the inner function and the name is kept. A ZippedStoreShaWriter compresses the file behind a stream with a name a second time. For the name b'' the stream is copied and named by the digest of its raw bytes, while a store to a file raises AttributeError and leaves its temporary file behind.", "quantifier": "all readers (also raising ones), all streams, all plans of write outcomes, all inner write functions", "why_tests_cant": "the tests install only plain Sha1Writers, with streams of the right size and without a name", "anchors": ["gitdb/db/loose.py:LooseObjectDB.store", "gitdb/db/loose.py:LooseObjectDB.set_ostream", "gitdb/stream.py:ZippedStoreShaWriter", "gitdb/stream.py:FDCompressedSha1Writer", "gitdb/stream.py:FlexibleSha1Writer.write", "gitdb/fun.py:write_object"]}
{"id": "C80", "title": "Streams that are not as long as their size says", "statement": "store (loose and memory) believes the size of an IStream: it succeeds, writes a header with the announced size and the first bytes of the stream up to that size, names the object by the digest of both and leaves the rest of the stream unread. A longer stream yields the object of its beginning; a shorter one yields a file which is no object of any type and data, but which opens with the announced type and size, is read without exception and delivers the bytes that are there. write_pack compares: if it succeeds every stream written was as long as announced.", "quantifier": "all sizes, data, types of ASCII bytes, all zlib implementations within the laws, all sequences of reads, all lists of objects and write functions", "why_tests_cant": "needs an IStream whose size disagrees with its stream; the tests always pass len(data)", "anchors": ["gitdb/fun.py:write_object", "gitdb/fun.py:stream_copy", "gitdb/db/loose.py:LooseObjectDB.store", "gitdb/db/mem.py:MemoryDB.store", "gitdb/stream.py:DecompressMemMapReader.new", "gitdb/pack.py:PackEntity.write_pack"]}
{"id": "C81", "title": "A GitDB on a disk that changes", "statement": "A GitDB creates its databases when they are first needed. However it was used before, while packs and alternates came and went, update_cache(True) succeeds and afterwards has_object answers True exactly for the objects which are now in a pack or a file of the repository or of one reachable through alternates. Parts created later are never noticed: if the repository had neither a directory of packs nor an alternates file at the first use, has_object answers False for every object without a file of its own for ever, also after update_cache(True), while a new GitDB finds it. After update_cache(True), stream gives what the file or a pack of such a repository gives for the name, and BadObject if none has it.", "quantifier": "all histories of disks and calls (has_object, info/stream, size, sha_iter, update_cache), all trees of alternates without cycles, all orders of sets", "why_tests_cant": "tests open a GitDB on a repository that is complete; the order of creating files, first use and refresh is a matter of histories", "anchors": ["gitdb/db/git.py:GitDB._set_cache_", "gitdb/db/ref.py:ReferenceDB.update_cache", "gitdb/db/ref.py:ReferenceDB._update_dbs_from_ref_file", "gitdb/db/base.py:CompoundDB.update_cache", "gitdb/db/pack.py:PackedDB.update_cache"]}
{"id": "C82", "title": "Streams whose reads return less than was asked for", "statement": "store (loose and memory) stops at the first read that returns less than was asked for, or at the announced size, and succeeds: it writes a header with the announced size and what was read until then, and names the object by the digest of both; and whenever it succeeds this is what it did. If that is less than announced the file is no object of any type and data. This happens within the library: there is a loose object of 16371 bytes whose stream, stored into another database, is cut to 8190 bytes without an exception.", "quantifier": "all readers, all types of ASCII bytes, all sizes, all zlib implementations within the laws; the transfer for one object under every hash", "why_tests_cant": "needs a stream with short reads, as those of large loose objects that compress well; the tests store BytesIO", "anchors": ["gitdb/fun.py:stream_copy", "gitdb/fun.py:write_object", "gitdb/db/loose.py:LooseObjectDB.store", "gitdb/db/mem.py:MemoryDB.store", "gitdb/stream.py:DecompressMemMapReader.read"]}
{"id": "C83", "title": "Objects of a MemoryDB without a header", "statement": "A MemoryDB keeps the bytes of a stream with a name under that name, whatever they are; stream_copy into another MemoryDB stores the compressed form of an object in this way. If these bytes have no object header, the first client that reads the object gets a ValueError, and b'' if it reads on, as at the end of an empty object; every later client gets the bytes as they are, at most 8192 of them, without an exception.", "quantifier": "all bytes without a header (compressed to at most 8192 bytes, or data without stalls), all sequences of sessions and reads, all zlib implementations within the laws", "why_tests_cant": "needs a failing first read followed by further reads of the same object; the tests copy from a MemoryDB to loose databases only", "anchors": ["gitdb/db/mem.py:MemoryDB.store", "gitdb/db/mem.py:MemoryDB.stream", "gitdb/db/mem.py:MemoryDB.stream_copy", "gitdb/stream.py:DecompressMemMapReader._parse_header_info", "gitdb/stream.py:DecompressMemMapReader.seek"]}
{"id": "C84", "title": "Packs that contain an object several times", "statement": "write_pack writes an object as often as it is given. Under its name the pack then delivers one of the copies - type, size, content and crc belong together - so if objects with the same name are the same, the name gives that object; names that were not given are not found. The sizes of pack and index and both iterators count every copy, in ascending order of the names. Abbreviations do not work: the index reports a name that occurs more than once as ambiguous, though it is a single object.", "quantifier": "all lists of objects with or without repeated names, all contents, all zlib implementations within the laws; all version 2 indices and abbreviations of 3 to 40 digits", "why_tests_cant": "the tests pack each object once; the bisection can end at any of the copies", "anchors": ["gitdb/pack.py:PackEntity.write_pack", "gitdb/pack.py:IndexWriter.write", "gitdb/pack.py:PackIndexFile.sha_to_index", "gitdb/pack.py:PackIndexFile.partial_sha_to_index", "gitdb/pack.py:PackEntity._iter_objects"]}
{"id": "C85", "title": "What is written depends only on the objects", "statement": "write_pack gives the same pack, the same index, the same results and the same exceptions whenever the streams deliver the same, whatever kinds of streams and writers they are; for streams with bounded reads pack and index are determined by type, size, content and name of the objects. The pack does not depend on the names, nor on whether an index is written. The index does not depend on the order of append, except among entries of the same name, and a second write of an IndexWriter gives the same file. A loose store makes the same system calls with the same data.", "quantifier": "all pairs of readers and writers that cannot be told apart, also failing ones, all lists of objects, all counts and levels, all zlib implementations (deterministic functions, no laws needed)", "why_tests_cant": "a relation between two runs; the tests look at one run at a time", "anchors": ["gitdb/pack.py:PackEntity.write_pack", "gitdb/pack.py:write_stream_to_pack", "gitdb/pack.py:IndexWriter.write", "gitdb/db/loose.py:LooseObjectDB.store", "gitdb/stream.py:FlexibleSha1Writer.write"]}
{"id": "C86", "title": "Abbreviations in a GitDB with alternates", "statement": "A GitDB is used for any time while packs and alternates come and go; after update_cache(True), and any reads and abbreviations since, partial_to_complete_sha_hex takes into account all matching loose objects and the first match of each pack, in the repository and everything reachable through alternates. The only one is the answer, BadObject is raised exactly if nothing matches, AmbiguousObjectName only if two objects match, no other exception; an object that alone matches is the answer. has_object and stream stay right after such calls. Capital letters match in packs, but never among loose objects.", "quantifier": "all disks with readable acyclic alternates, usable packs and the usual object layout, all earlier uses on all earlier disks, all sequences of reads and abbreviations, all abbreviations of 3 to 40 digits", "why_tests_cant": "what is found depends on which of nested databases were created and refreshed when; tests ask a few abbreviations of one repository that does not change", "anchors": ["gitdb/db/base.py:CompoundDB.partial_to_complete_sha_hex", "gitdb/db/base.py:_databases_recursive", "gitdb/db/pack.py:PackedDB.partial_to_complete_sha", "gitdb/db/loose.py:LooseObjectDB.partial_to_complete_sha_hex", "gitdb/db/ref.py:ReferenceDB.update_cache"]}
{"id": "C87", "title": "What a GitDB with alternates lists and counts", "statement": "A GitDB is used for any time while packs and alternates come and go; after update_cache(True), and any reads and abbreviations since, sha_iter yields exactly the objects of the repository and of everything reachable through alternates: once for each index that lists it, once as a loose object, and the objects of an alternate once for each way that leads to it. size() is the number of names that sha_iter yields, no exception is raised, and neither depends on what happened before (up to the order of the names).", "quantifier": "all disks with readable acyclic alternates, usable packs and the usual object layout, all earlier uses on all earlier disks, all sequences of reads and abbreviations since", "why_tests_cant": "the tests compare size() with the length of sha_iter for one repository that does not change, and have no two ways to one alternate", "anchors": ["gitdb/db/base.py:CompoundDB.size", "gitdb/db/base.py:CompoundDB.sha_iter", "gitdb/db/pack.py:PackedDB.sha_iter", "gitdb/db/pack.py:PackedDB.size", "gitdb/db/loose.py:LooseObjectDB.sha_iter", "gitdb/db/loose.py:LooseObjectDB.size", "gitdb/db/ref.py:ReferenceDB.update_cache"]}
{"id": "C88", "title": "After zlib.error a reader returns no data", "statement": "Once read or compressed_bytes_read of a DecompressMemMapReader has raised zlib.error, every later read, of whatever size and after whatever other calls, raises zlib.error until seek(0). So a caller that catches exceptions gets, in order and without gaps, a beginning of what the bytes decompress to, and then nothing but exceptions. seek(0) makes a reader with a size as good as new whatever was done with it, and a loose object whose reader raised is read again with the same results.", "quantifier": "all bytes (damaged or not), all sizes, all sequences of read, seek and compressed_bytes_read with all arguments, all zlib implementations within the laws", "why_tests_cant": "exceptions in the middle of reads at any window boundary, followed by any calls", "anchors": ["gitdb/stream.py:DecompressMemMapReader.read", "gitdb/stream.py:DecompressMemMapReader.seek", "gitdb/stream.py:DecompressMemMapReader.compressed_bytes_read", "gitdb/stream.py:DecompressMemMapReader._parse_header_info"]}
{"id": "C89", "title": "Lookups look at few names", "statement": "The answer of PackIndexFile.sha_to_index depends, besides the table of counts, on at most log2(n)+1 positions of the list of names, n being the number of names with the same first byte: any other index that has the same names at these positions gives the same answer. For partial_sha_to_index there are at most two more. _closest_index depends on at most log2(n)+1 of n delta chunks (with integer division).", "quantifier": "all index files (damaged ones included), all names and abbreviations; all lists of chunks and offsets", "why_tests_cant": "a linear search gives the same answers on every test; that the number of accesses stays logarithmic for all sizes cannot be tested", "anchors": ["gitdb/pack.py:PackIndexFile.sha_to_index", "gitdb/pack.py:PackIndexFile.partial_sha_to_index", "gitdb/fun.py:_closest_index"]}
{"id": "C90", "title": "Reads nest logarithmically, unless the stream is crafted", "statement": "DecompressMemMapReader.read completes short results by calling itself. If behind the first byte of output eight further compressed bytes always have output, then every read, after any reads before, gets along with 12*k+9 calls active at the same time for an object of less than 2**k bytes: with 765 for all objects of less than 2**63 bytes, and 165 for the header. Without that condition there is no limit: for every N >= 8 there is a valid zlib stream of an object of N bytes of which read() needs N active calls, so that Python raises RecursionError.", "quantifier": "all streams and sizes, all sequences of reads before, all N", "why_tests_cant": "the depth depends on how the output is spread over the compressed bytes; streams of compressors at hand never come near the limit, and the bound for all sizes cannot be tested", "anchors": ["gitdb/stream.py:DecompressMemMapReader.read", "gitdb/stream.py:DecompressMemMapReader._parse_header_info"]}
{"id": "C91", "title": "Reading the beginning looks only at the beginning", "statement": "If a stream has output after its first g bytes and from then on after every eight, then reads of N bytes altogether, at most K at a time, return the same whatever follows the first 8*N + g + max(8, K) bytes of the compressed data, be it damaged or missing; opening a loose object (type and size) depends on its first 73728 + g bytes only. The size of the object and of the file do not matter (the comment in read: passing everything to zlib would force everything to be read from disk).", "quantifier": "all streams, all sequences of bounded reads, all continuations of the file", "why_tests_cant": "a reader that passes the rest of the file to zlib returns the same data for every valid file; the difference shows only with files that differ far behind", "anchors": ["gitdb/stream.py:DecompressMemMapReader.read", "gitdb/stream.py:DecompressMemMapReader._parse_header_info"]}
{"id": "C92", "title": "Exceptions for arbitrary packs and indices", "statement": "Whatever bytes a pack and its index consist of: opening raises only struct.error, AssertionError (index) or ParseError (pack); stream(sha) only BadObject, struct.error, IndexError or ValueError; info(sha) only BadObject, struct.error, IndexError, zlib.error or AssertionError; reading from a stream and its size only zlib.error, IndexError, AssertionError or ValueError, and always ends; is_valid_stream(sha) returns True or raises one of these; with use_crc it raises only UnsupportedOperation, BadObject, struct.error, ValueError, AssertionError or KeyError. Each of them occurs. Never OverflowError, AttributeError, TypeError or UnicodeError. Chains of deltas that go in a circle are followed forever (by stream, info and is_valid_stream).", "quantifier": "all bytes of pack and index, all names (not empty), all sequences of reads", "why_tests_cant": "a statement about all damaged files; the tests read intact packs only", "anchors": ["gitdb/pack.py:PackEntity._object", "gitdb/pack.py:PackEntity.is_valid_stream", "gitdb/pack.py:PackEntity.collect_streams_at_offset", "gitdb/pack.py:pack_object_at", "gitdb/stream.py:DeltaApplyReader._set_cache_brute_", "gitdb/fun.py:apply_delta_data", "gitdb/exc.py:ODBError"]}
{"id": "C93", "title": "A GitDB never invents objects", "statement": "A GitDB is used for any time, with any calls, while the disk changes in any way: files damaged, missing or replaced, packs, alternates and whole repositories coming and going, exceptions caught. If has_object answers True or stream returns something, the object was there at some time: a loose file for it, or an index file with its name at the place of an entry, in the repository or in one that was referred to through alternates at some time. Of the exceptions, has_object raises only FileNotFoundError, struct.error, ParseError, AssertionError, UnicodeDecodeError and InvalidDBRoot (and RecursionError for alternates in a circle), each of which occurs; never BadObject.", "quantifier": "all histories of disks and calls, all contents of packs, indices and alternates files, all names (not empty), any depth of alternates", "why_tests_cant": "false hits need particular combinations of stale caches, damage and alternates; the tests use intact repositories that do not change", "anchors": ["gitdb/db/git.py:GitDB._set_cache_", "gitdb/db/base.py:CompoundDB._db_query", "gitdb/db/base.py:CompoundDB.has_object", "gitdb/db/ref.py:ReferenceDB._update_dbs_from_ref_file", "gitdb/db/pack.py:PackedDB._pack_info", "gitdb/db/loose.py:LooseObjectDB.readable_db_object_path", "gitdb/pack.py:PackIndexFile.sha_to_index"]}
{"id": "C94", "title": "Exceptions for arbitrary loose objects and disks", "statement": "Whatever is in the place of a loose object, LooseObjectDB.info and stream raise only BadObject, ValueError or zlib.error. Of a GitDB in any state - after any use, also with exceptions - on any disk, stream raises only BadObject, FileNotFoundError, struct.error, ParseError, AssertionError, UnicodeDecodeError, InvalidDBRoot, IndexError, ValueError or zlib.error; size and sha_iter raise only FileNotFoundError, struct.error, ParseError, AssertionError, UnicodeDecodeError, InvalidDBRoot or binascii.Error. (RecursionError for alternates or deltas in a circle.)", "quantifier": "all file systems, all contents of packs, indices, loose objects and alternates files, all states, all names (not empty)", "why_tests_cant": "a statement about all damaged repositories; the tests read intact ones only", "anchors": ["gitdb/db/loose.py:LooseObjectDB._map_loose_object", "gitdb/db/loose.py:LooseObjectDB.info", "gitdb/db/loose.py:LooseObjectDB.stream", "gitdb/db/base.py:CompoundDB.stream", "gitdb/db/base.py:CompoundDB.size", "gitdb/db/base.py:CompoundDB.sha_iter", "gitdb/db/pack.py:PackedDB.stream", "gitdb/fun.py:loose_object_header_info"]}
{"id": "C95", "title": "Delta streams after an exception", "statement": "A DeltaApplyReader is all or nothing: if its topmost delta is intact - the other deltas and the base may be damaged, and memory may be missing in any allocation, for a time or for good -, then in every sequence of read, seek and size either every call that needs the object succeeds or all of them raise. After the first exception no later call returns data, so none is wrong; with a topmost delta of at most 512 bytes they raise AssertionError. If all deltas fit, the calls return exactly what a stream of the resolved object should, or memory was missing. (So even after a temporary failure the stream cannot be used again, seek(0) does not help.)", "quantifier": "all contents of base and lower deltas, all sequences of calls, all outcomes of all allocations (mapped, ordinary memory, exception)", "why_tests_cant": "needs exceptions in the middle of resolving and calls after it; the tests have no failing streams or allocations", "anchors": ["gitdb/stream.py:DeltaApplyReader._set_cache_brute_", "gitdb/stream.py:DeltaApplyReader.read", "gitdb/stream.py:DeltaApplyReader.seek", "gitdb/stream.py:DeltaApplyReader.size", "gitdb/util.py:allocate_memory", "gitdb/util.py:LazyMixin.__getattr__", "gitdb/fun.py:apply_delta_data"]}
{"id": "C96", "title": "Exceptions of refreshing and of abbreviations", "statement": "A GitDB that has been used in any way on a disk changing in any way (also with exceptions): update_cache raises only FileNotFoundError, struct.error, ParseError, AssertionError, UnicodeDecodeError or InvalidDBRoot (RecursionError for alternates in a circle). In particular never IndexError: the removal of databases in ReferenceDB, which deletes from a list while counting in a copy, never goes wrong, as no path is in it twice. partial_to_complete_sha_hex raises only these, BadObject, AmbiguousObjectName, binascii.Error or IndexError, and ValueError for less than three digits.", "quantifier": "all histories of disks and calls (reads, refreshes, abbreviations), all contents of packs, indices and alternates files, all abbreviations (ASCII)", "why_tests_cant": "depends on all sequences of changes of nested alternates files and on damaged files; the tests refresh intact ones", "anchors": ["gitdb/db/ref.py:ReferenceDB._update_dbs_from_ref_file", "gitdb/db/ref.py:ReferenceDB.update_cache", "gitdb/db/base.py:CompoundDB.update_cache", "gitdb/db/base.py:CompoundDB.partial_to_complete_sha_hex", "gitdb/db/pack.py:PackedDB.update_cache", "gitdb/db/pack.py:PackedDB.partial_to_complete_sha", "gitdb/pack.py:PackIndexFile.partial_sha_to_index"]}
{"id": "C97", "title": "A GitDB after any history of calls, abbreviations included", "statement": "A GitDB is used in any way: has_object, info/stream, size, sha_iter, update_cache and partial_to_complete_sha_hex in any order, with exceptions caught. (1) If meanwhile packs and alternates come and go but files are not damaged, then update_cache(force=True) succeeds, and afterwards has_object, stream and partial_to_complete_sha_hex are right about what is there now. (2) If meanwhile the disk changes in any way, files damaged included, then has_object and stream find only objects that were there at some time, and an abbreviation is completed only to a name that begins with its digits and that was there at some time - as the path of a file below an object directory, or in the bytes of an index file next to a pack - in a repository that was referred to at some time.", "quantifier": "for all histories of calls on all sequences of disks, all nestings of alternates, all bytes of index files, all abbreviations", "why_tests_cant": "depends on all sequences of calls and changes of the disk; looking up an abbreviation loads all nested databases and the index of every pack, which later calls use", "anchors": ["gitdb/db/base.py:_databases_recursive", "gitdb/db/base.py:CompoundDB.partial_to_complete_sha_hex", "gitdb/db/base.py:CompoundDB.update_cache", "gitdb/db/pack.py:PackedDB.partial_to_complete_sha", "gitdb/db/loose.py:LooseObjectDB.partial_to_complete_sha_hex", "gitdb/pack.py:PackIndexFile.partial_sha_to_index", "gitdb/fun.py:is_equal_canonical_sha"]}
{"id": "C98", "title": "Abbreviations as str or bytes; names of files that are not ASCII", "statement": "partial_to_complete_sha_hex of a CompoundDB or GitDB, in any state, gives for a str and for its UTF-8 encoding the same. For hexadecimal digits it is the answer for these digits. Everything else raises after the databases have been collected and before any of them is asked: UnicodeDecodeError for bytes that are no UTF-8, ValueError for text that is not ASCII, binascii.Error for other text. sha_iter of a LooseObjectDB: in whatever encoding names of files are decoded, a name that is not ASCII never becomes the name of an object; the objects listed are those of the names in ASCII.", "quantifier": "for all texts and all byte strings as abbreviations, all states and disks, all nestings; for all directory trees with names of any bytes and all encodings extending ASCII", "why_tests_cant": "lengths are counted in characters of decoded text: tests use ASCII only", "anchors": ["gitdb/db/base.py:CompoundDB.partial_to_complete_sha_hex", "gitdb/utils/encoding.py:force_text", "gitdb/db/loose.py:LooseObjectDB.sha_iter", "gitdb/util.py:hex_to_bin"]}
{"id": "C99", "title": "How much is asked of a source at a time", "statement": "For every source that never returns more than was asked for: stream_copy never asks for more than chunk_size bytes in one call, asks altogether for at most size bytes, in at most size/chunk_size + 1 calls, and never for 0 bytes unless size is 0. store into a loose database asks for at most 4096000 bytes at a time, for at most the announced size altogether, whatever fails. Packing an object asks for 4096000 bytes in every call, one per 4096000 bytes delivered and one more. A DeltaApplyReader, in any sequence of calls and failures, never asks a stream of its chain for more than 1 MiB at a time.", "quantifier": "for all sources, sizes, chunk sizes, writers, failures of the operating system, sequences of calls and chains", "why_tests_cant": "concerns the working memory for objects of any size; a test would have to watch all calls for large objects", "anchors": ["gitdb/fun.py:stream_copy", "gitdb/fun.py:write_object", "gitdb/db/loose.py:LooseObjectDB.store", "gitdb/pack.py:write_stream_to_pack", "gitdb/stream.py:DeltaApplyReader._set_cache_brute_"]}
{"id": "C100", "title": "Memory for applying deltas", "statement": "Reading an object stored as a chain of deltas never allocates more at once than the largest of: the size of the base, the sizes of the delta streams, the sizes of results announced by the deltas. If blocks of that size can be had the outcome is that with unlimited memory; for a correct chain it is enough that every object on the way and every delta could be had by itself. Finding: announced sizes are allocated before anything is checked, so one delta announcing more than can be had makes the object unreadable whatever the rest is, and k + 2 bytes announce 2^(7k) bytes; from 2^63 on mmap raises OverflowError.", "quantifier": "for all streams, chains, limits and exceptions of the allocation", "why_tests_cant": "needs exhausted memory, or deltas announcing sizes no test machine has", "anchors": ["gitdb/stream.py:DeltaApplyReader._set_cache_brute_", "gitdb/util.py:allocate_memory"]}
{"id": "C101", "title": "Announced sizes that do not fit a machine word", "statement": "Sizes of objects are announced by bytes of a file and can be any number, but zlib, BytesIO and mmap take numbers of 64 bits. Every call on a stream (read, seek, compressed_bytes_read; streams from packs; is_valid_stream) does what it does without this limit or raises OverflowError. If the sizes fit, it does what it does without the limit. Opening a loose object is never affected. If 2^63 bytes or more are announced beyond those already in the buffer, read() raises OverflowError. A delta whose base announces 2^63 bytes or more, or with such a result announced within a chain of deltas, cannot be opened: OverflowError.", "quantifier": "for all readers in any state and calls; for all streams from packs and sequences of reads", "why_tests_cant": "No test has an object with an announced size of 2^63 or more; tests use objects whose sizes are true.", "anchors": ["gitdb/stream.py:214-319", "gitdb/stream.py:94-134", "gitdb/stream.py:404-476", "gitdb/util.py:146-160", "gitdb/pack.py:842-849"]}
{"id": "C102", "title": "Offsets outside of the pack", "statement": "gitdb does not check the offsets it takes from an index or computes for bases of deltas; smmap decides what is at an offset outside of the file. Unless a lookup, info or iteration ends in IndexError in the model where nothing is there, its result does not depend on what smmap does: whatever it answers, from all offsets asked for before, the result is the same. If the offset in the index is the end of the pack or behind it, stream(sha) and info(sha) raise what smmap raises for it. For any answers, stream(sha) raises only the exceptions of C92 and those of smmap, and reading a returned stream only those of C92.", "quantifier": "for all packs, indices, names and iterations; for all answers to offsets outside of the file, dependent on all earlier offsets", "why_tests_cant": "No test has an index that does not fit its pack; the answers of smmap depend on the regions used before.", "anchors": ["gitdb/pack.py:76-127", "gitdb/pack.py:544-566", "gitdb/pack.py:596-638", "gitdb/pack.py:717-756", "gitdb/pack.py:865-898"]}
{"id": "C103", "title": "Lookups of several threads in one PackedDB", "statement": "_pack_info says of itself that it is not thread-safe, but that the worst that can happen is a counter that was not incremented or a list in the wrong order. For any number of threads that look up names in one database and take turns in any way, a lookup of an object that some pack has finds it; what it returns is a pack of the database and the place of the object in it; only BadObject is raised; no pack is lost or doubled; counters are never too high.", "quantifier": "for all numbers of threads, all packs and names, all executions (interleavings)", "why_tests_cant": "No test uses threads; the failing schedules need a switch inside of list.sort or between two packs of a lookup.", "anchors": ["gitdb/db/pack.py:51-85", "gitdb/db/pack.py:153-157", "gitdb/db/pack.py:174"]}
{"id": "C104", "title": "Abbreviations of loose objects in any directory tree; stores keep the layout", "statement": "partial_to_complete_sha_hex of a LooseObjectDB whose directory has any contents: it returns a name if every file that looks like an object (38 characters in a directory of two, at any depth) consists of hex digits and exactly one such file matches; it raises BadObject if none matches, AmbiguousObjectName only if two files match, binascii.Error only if some file is not in hex digits, and nothing else. 'It can't ever find the same object twice' holds as long as only stores write to the directory: any number of concurrent stores of anything, with any failures and crashes, keep the usual layout at every moment. It does not hold of every directory: an object may be called ambiguous because of a second file for it, and an abbreviation may be completed to a name that has_object denies.", "quantifier": "for all directory trees, abbreviations; for all numbers of processes, sources, failures, interleavings and crashes", "why_tests_cant": "Tests use directories as git makes them, and one process.", "anchors": ["gitdb/db/loose.py:108-123", "gitdb/db/loose.py:177-251", "gitdb/db/loose.py:253-265"]}
{"id": "C105", "title": "A GitDB whose directory appears later; lookups and stores", "statement": "FileDBBase allows a path that becomes accessible only before the first access. A GitDB that is asked something before its directory exists raises InvalidDBRoot; after that, whatever comes to be on the disk and whatever is looked up or refreshed, it answers without exception that it is empty, until a store (or ostream, set_ostream), which makes it load its databases: it is then as a new one. After any history of lookups, refreshes and stores, with the directory there or not, a store finds the loose database if the directory exists now. From then on every object whose file is there is found by has_object, unless the packs, which are asked first, raise.", "quantifier": "for all histories of calls on all sequences of disks (nothing below a missing directory), all alternates, all objects", "why_tests_cant": "Tests create the directory first; the state after an exception in _set_cache_ is not looked at.", "anchors": ["gitdb/db/git.py:40-84", "gitdb/db/base.py:113-121", "gitdb/db/base.py:181-239", "gitdb/util.py:248-266"]}
{"id": "C106", "title": "Alternates that form cycles: an answer is a right answer", "statement": "Alternates that lead back to a database that was already visited make has_object run into the recursion limit of the interpreter; RecursionError is swallowed at one place (an alternate is then left out) and comes through elsewhere, leaving databases loaded in part. If the stack suffices for as many levels as there are directories that can be reached, then whatever happens further down - exceptions, objects overlooked, databases in any state, but no objects made up - and after any history of calls that returned or raised, a lookup raises what was raised further down or gives the right answer: yes exactly if the object is in a pack or loose file of a directory that can be reached. It need not find what is there: an object of a later alternate is hidden by an earlier one that leads into a cycle, where the first lookup raises and the same lookup repeated can succeed.", "quantifier": "for all disks with readable alternates files forming any graph and usable packs, all depths, all behaviours below the depth, all histories, all names", "why_tests_cant": "A test with a cycle sees one recursion limit and one place where it strikes.", "anchors": ["gitdb/db/ref.py:26-77", "gitdb/db/base.py:166-213", "gitdb/db/git.py:44-69"]}
{"id": "C107", "title": "Sizes with more digits than the interpreter converts", "statement": "Under the interpreter's limit on digits (4300 unless changed, 0 for none) loose_object_header_info and DecompressMemMapReader.new give what they would give without the limit, or raise ValueError. Accepted are exactly the headers whose number has, underscores and sign not counted, no more digits than the limit; leading zeros count. loose_object_header raises ValueError for exactly the sizes of 10^limit and more, and every header it writes is read back under the same limit, whatever follows it.", "quantifier": "for all limits, all compressed data, all types and sizes", "why_tests_cant": "A test would need headers of thousands of digits; those in use have few.", "anchors": ["gitdb/fun.py:403-412", "gitdb/fun.py:481-485", "gitdb/stream.py:94-134"]}
{"id": "C108", "title": "Several threads and a new GitDB", "statement": "Any number of threads call has_object (or info, stream), databases or store of one new GitDB, interleaved in any way, while the disk does not change. What is found is there; stores go to a database that exists and is not the ReferenceDB; the exceptions are those of the databases, BadObject, and, from making the databases, IndexError, InvalidDBRoot and AssertionError, each of which occurs although everything exists. When all calls have ended, whatever they raised, the list has all databases, some perhaps several times, and all later lookups by any number of threads are right. Until then an object that is there can be missed; and for ever after, the databases can be there twice (size and sha_iter count every object twice), or _loose_db can be the PackedDB, so that every store raises UnsupportedOperation, without any exception before. None of this happens if one thread makes a call alone first.", "quantifier": "for all numbers of threads, all calls, all interleavings, all combinations of existing directories, all answers of the databases", "why_tests_cant": "Tests use one thread; the harmful interleavings are between single bytecodes of the first calls.", "anchors": ["gitdb/db/git.py:44-77", "gitdb/db/base.py:170-228", "gitdb/util.py:248-255"]}
{"id": "C109", "title": "Several threads reading one pack", "statement": "Any number of threads call info, stream, data (the beginning of is_valid_stream with use_crc) and checksum of one open pack, interleaved in any way. A call whose steps from use_region to buffer() are not interrupted by another use_region returns what it returns alone, so one lock is enough. Without a lock, threads that ask info and stream for objects that are not deltas always succeed, and each gets type, size and data of one whole object; but it may be the object another thread asked for, under the name of the first: for any two such objects of any pack there is an order of eight steps that does it. With deltas, data of no object at all may be returned. After data() in another thread, info of any object may answer type b'' and size 0.", "quantifier": "for all packs, all numbers of threads, all calls, all interleavings of use_region and buffer()", "why_tests_cant": "Tests use one thread; no exception is raised, only the data are those of another object.", "anchors": ["gitdb/pack.py:76-127", "gitdb/pack.py:532-542", "gitdb/pack.py:578-622", "gitdb/pack.py:717-775", "gitdb/pack.py:865-898"]}
{"id": "C110", "title": "Several threads and the first calls on an index or a pack", "statement": "Any number of threads make their first calls on one new PackIndexFile (version, size, sha, offset, crc, entry, offsets, sha_to_index, partial_sha_to_index, the checksums) or PackFile (version, size, stream, collect_streams, checksum), interleaved after every reading and setting of an attribute, so that several of them may be in _set_cache_ at once. If the file can be opened, every call returns what it returns on the opened index or pack; no thread waits for another, each call ends after a number of its own steps that does not depend on the others. An index in git's version 2 format gives every thread the entries that are in it. If the file is refused, only the thread that reads the header is told: a thread that looks between the setting of the attributes and the check gets an answer with its first call, for a pack with a wrong signature as for an index of an unknown version.", "quantifier": "for all files, all numbers of threads, all calls, all interleavings of readings and settings of attributes", "why_tests_cant": "Tests use one thread; with several, the window between two settings of attributes is a few bytecodes.", "anchors": ["gitdb/util.py:248-266", "gitdb/pack.py:267-304", "gitdb/pack.py:307-376", "gitdb/pack.py:381-492", "gitdb/pack.py:532-542", "gitdb/pack.py:570-638"]}
{"id": "C111", "title": "Lock files on Windows", "statement": "Any number of processes use LockedFDs on one path, one system call at a time, on Windows (where commit removes the file before the rename, and a failed removal is tried again up to ten times) or elsewhere; calls may fail and processes may stop anywhere. No two processes are ever about to read, write, remove or replace the file, or to release the lock. The file has the content it had or that of a commit; on Windows only, it can also be missing while the lock file has all data of a commit, but never when a LockedFD opens it for reading. Without failures a commit replaces the file and releases the lock on both platforms. If the rename fails, the data stays in the lock file, and on Windows the old file is gone. A lock file left behind is never removed, no process gets the lock any more, and nothing on the disk changes.", "quantifier": "for all numbers of processes, all sequences of calls, all interleavings of system calls, all failures and crashes, both platforms", "why_tests_cant": "Tests run on one platform, in one process, and none of their system calls fail.", "anchors": ["gitdb/util.py:68-83", "gitdb/util.py:269-396"]}
{"id": "C112", "title": "Storing loose objects on Windows", "statement": "Any number of stores of new objects into one loose database run at the same time, one system call at a time, on Windows (where a rename does not replace a file, open files can be neither removed nor renamed, and a failed removal is tried again up to ten times) or elsewhere; calls and sources may fail and stores may stop anywhere. Every object file was there before or is complete; an object once there stays, and on Windows its file is not even replaced. A store that returns has put the object there and left no temporary file; it raises only the exception of the source, OSError, or the PermissionError of chmod, and the last only with the object there. If no call fails for other reasons, every store elsewhere succeeds; on Windows it succeeds, or raises OSError although the object is there and leaves its temporary file, which does happen for any two stores of one new object. A single store of an object that is there tolerates ten failed removals of its temporary file on Windows and none elsewhere; one of a new object tolerates 13 refusals of chmod, and raises FileNotFoundError if somebody removes the object before.", "quantifier": "for all numbers of stores, all objects, all interleavings of system calls, all failures and crashes, both platforms", "why_tests_cant": "Tests run on one platform, and the race needs two stores of one object between isfile and rename.", "anchors": ["gitdb/db/loose.py:177-251", "gitdb/stream.py:659-675", "gitdb/util.py:68-83"]}
{"id": "C113", "title": "Readers with zlib 1.2.5 and 1.2.7", "statement": "With zlib 1.2.5 or 1.2.7 (not on darwin) a DecompressMemMapReader counts the compressed bytes in another way. Whatever the calls, each returns or raises the same as with other versions, but compressed_bytes_read may return more; it does not while zlib has seen no byte behind the stream. After everything was read, in whatever steps, the two results differ by the number of bytes behind the stream that zlib has seen, and one of them is the length of the compressed form; if anything follows the stream, the other one is wrong. If each read asks for everything, the wrong one is that of zlib 1.2.5 and 1.2.7. So iterating any pack, from any object of 1 byte to 512 KiB that comes out in one go, yields that object and then no object at the next offset, only what seems to be one further on: the second object of a pack is never yielded. A pack of one such object is iterated as with other versions.", "quantifier": "for all data and sizes, all sequences of reads, seeks and counts, and all zlibs that obey the laws", "why_tests_cant": "Tests run with one zlib; the source itself says that the branch was chosen from a table of test results.", "anchors": ["gitdb/stream.py:151-196", "gitdb/stream.py:214-319", "gitdb/pack.py:544-566"]}
{"id": "C114", "title": "Creating packs on Windows", "statement": "Any number of calls of PackEntity.create run in one directory at the same time, one system call at a time, on Windows (where a rename does not replace a file) or elsewhere; calls and objects may fail and processes may stop anywhere. Every pack and every index was there before or is complete; once there it stays, and on Windows it is not even replaced; no index comes without its pack. A create that returns has put both files there and left no temporary file; on Windows both are its own, none of that name was there before, and no other create of that name succeeds. It raises only OSError, or an exception of write_pack, and then leaves both temporary files with open descriptors. If no call fails for other reasons, every create elsewhere succeeds; on Windows packing the same objects again raises OSError and leaves both temporary files, and an index without a pack ends up beside a new pack that it does not belong to.", "quantifier": "for all numbers of calls, all contents, all interleavings of system calls, all failures and crashes, both platforms", "why_tests_cant": "Tests run on one platform, pack into an empty directory, and none of their system calls fail.", "anchors": ["gitdb/pack.py:1006-1029"]}
{"id": "C115", "title": "Permissions of the files that are made", "statement": "Any number of stores of loose objects, of calls of create, or of uses of LockedFD for one file run at the same time, with any failures and stopped anywhere. At every moment every file has mode 0600, a mode that the file at its place had at first, or (objects) 0444 or (the locked file) 0644. If all stores succeed and those of an object have ended, the object is there with mode 0444, whatever mode it had; if chmod does not fail and all users of the lock have ended, the file is untouched or has mode 0644, whatever mode it had. A store stopped before its last call leaves an object that only its owner can read. create never sets a mode: the pack and the index it has made can be read by their owner only.", "quantifier": "for all numbers of processes, all objects, all sequences of calls, all failures and interleavings, all initial files and modes", "why_tests_cant": "Tests look at no modes, run as one user, and stop nothing between a rename and a chmod.", "anchors": ["gitdb/db/loose.py:73-75", "gitdb/db/loose.py:183", "gitdb/db/loose.py:226-246", "gitdb/util.py:321-323", "gitdb/util.py:387-392", "gitdb/pack.py:1014-1029"]}
{"id": "C116", "title": "Several threads and the first calls on a PackEntity", "statement": "Any number of threads make their first calls on one new PackEntity whose files can be opened: info, stream, collect_streams, is_valid_stream (by name, or by crc if the index has objects), and calls on its index. They are interleaved after every reading and setting of an attribute of the index, of the pack and of the entity, so that several threads may be filling the attributes of all three and _offset_map at once. Every call returns or raises what it does on an opened entity; no thread waits for another, each call ends after a number of its own steps that does not depend on the others.", "quantifier": "for all index and pack files that can be opened, all numbers of threads, all calls and names, all interleavings of readings and settings of attributes", "why_tests_cant": "Tests run one thread; whether _offset_map or the tables of the index are half filled when another thread looks depends on the interleaving.", "anchors": ["gitdb/util.py:237-266", "gitdb/pack.py:267-304", "gitdb/pack.py:532-542", "gitdb/pack.py:677-700", "gitdb/pack.py:717-756", "gitdb/pack.py:797-850", "gitdb/pack.py:865-912"]}
{"id": "C117", "title": "Several threads in one MemoryDB", "statement": "Any number of threads store objects in one MemoryDB (new or used before) and ask has_object, interleaved after every step of store and after hashing, compressing and writing each piece. If no store gets to set_ostream while another one is between its set_ostream and the moment LooseObjectDB.store asks for the stream, then at every moment: a store that has ended returned the name of its object, which is in the database, or raised what its source raised; every object in the database was there before or is one of those to be stored whose source does not raise, under its name with its type, its size and its complete data; has_object answers so. Whatever the interleaving, no name disappears and every call ends. Without the condition objects are lost: for any two objects without names there is an interleaving in which both stores return, the first object is stored as an empty stream under its name, and the second one is not there, but both together are under the name of both together.", "quantifier": "for all numbers of threads, all objects (with and without names, from sources that raise or not), all interleavings, all zlib implementations", "why_tests_cant": "Tests run one thread; which writer a store gets depends on the interleaving.", "anchors": ["gitdb/db/mem.py:49-65", "gitdb/db/loose.py:177-251", "gitdb/db/base.py:71-93", "gitdb/stream.py:605-637"]}
{"id": "C118", "title": "Several threads in update_cache of one PackedDB", "statement": "Any number of threads call update_cache on one PackedDB, interleaved after every step, while the directory changes in any way. At every moment every pack in the list was there at first or was found by glob in one of the calls. A call returns True, or False if it is not forced, or raises AssertionError, IndexError or ValueError. A call that is not disturbed returns False and changes nothing if it is not forced and the time of the directory is not later than at the last call; otherwise it returns True and the list has the packs that glob found, each of them once (if none was in the list twice: a pack that was, stays twice, and once after it was removed from the directory). If two calls overlap the list can be wrong although both return True: for all lists and directories there is an interleaving that puts all new packs into the list twice; and for every pack that was removed from the directory there is one in which the pack behind it in the list is lost, though it is in the directory all the time. There are others in which one of the calls raises AssertionError or IndexError (both remove a pack), or ValueError, and then a pack that the other call has just added is lost.", "quantifier": "for all numbers of threads, all lists, all changes of the directory, all interleavings, all orders of sets and of the sort", "why_tests_cant": "Tests run one thread; what is deleted or added twice depends on the interleaving.", "anchors": ["gitdb/db/pack.py:132-175", "gitdb/db/pack.py:56-57"]}
{"id": "C119", "title": "Several threads and the first use of a PackedDB", "statement": "Any number of threads use _entities of a new PackedDB for the first time, interleaved after every step, while the directory stays as it is. At every moment every pack in the list was found by glob. A thread that is done finds a list, and has got the attribute or ValueError. Once all threads have got the attribute and none ValueError, the list has all packs in the directory, perhaps some of them several times. No pack is ever in the list more often than there are threads. A thread that is not disturbed gets the attribute, and the list has the packs that glob found, each of them once. Packs that another thread has added before a thread looks at the list are not added again. A thread that asks while another one is making the list may get an empty list. If two threads have found no attribute, both may add all packs, so that both succeed and every pack is in the list twice; or, if there are at least two packs, one of them gets ValueError, the other one succeeds, and only one pack is in the list.", "quantifier": "for all numbers of threads, all directories, all interleavings, all orders of sets and of the sort", "why_tests_cant": "Tests run one thread and use a database that no other thread is opening; what is in the list depends on the interleaving.", "anchors": ["gitdb/db/pack.py:51-57", "gitdb/db/pack.py:132-175", "gitdb/util.py:248-255"]}
