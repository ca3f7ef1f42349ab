{
 "claims": [
  {
   "property": "C01",
   "status": "proved",
   "theorems": [
    "GitDB.Props.C01_header_roundtrip",
    "GitDB.Props.C01_header_format",
    "GitDB.Props.C01_header_decode",
    "GitDB.Props.C01_header_truncated"
   ],
   "note": "Round trip, format and total decoding behaviour (value or IndexError) for all byte strings."
  },
  {
   "property": "C02",
   "status": "proved",
   "theorems": [
    "GitDB.Props.C02_msb_size",
    "GitDB.Props.C02_msb_size_roundtrip",
    "GitDB.Props.C02_msb_size_truncated"
   ],
   "note": "Value and position for every terminated number; exact exception for every unterminated one."
  },
  {
   "property": "C03",
   "status": "proved",
   "theorems": [
    "GitDB.Props.C03_ofs_decode",
    "GitDB.Props.C03_ofs_roundtrip",
    "GitDB.Props.C03_ofs_injective",
    "GitDB.Props.C03_ofs_truncated"
   ],
   "note": "Decoder in pack_object_at against git's offset encoding; bijection; IndexError if unterminated."
  },
  {
   "property": "C04",
   "status": "proved",
   "theorems": [
    "GitDB.Props.C04_accepted",
    "GitDB.Props.C04_loose_object_header_info",
    "GitDB.Props.C04_header_format",
    "GitDB.Props.C04_header_not_ascii",
    "GitDB.Props.C04_header_roundtrip",
    "GitDB.Props.C04_header_space_needed"
   ],
   "note": "Byte format, failure for non-ASCII types, round trip, and that the restriction to types without space is needed. The compressed route (loose_object_header_info over zlib) is C04_loose_object_header_info."
  },
  {
   "property": "C05",
   "status": "proved",
   "theorems": [
    "GitDB.Props.C05_decodes",
    "GitDB.Props.C05_bin_hex_bin",
    "GitDB.Props.C05_hex_bin_hex",
    "GitDB.Props.C05_idempotent",
    "GitDB.Props.C05_codec_inverse",
    "GitDB.Props.C05_abbreviation_of_20_digits"
   ],
   "note": "Inverse in both directions and idempotent; also that a 20-digit hex abbreviation is taken for a binary name."
  },
  {
   "property": "C06",
   "status": "proved",
   "theorems": [
    "GitDB.Props.C06_apply_delta",
    "GitDB.Props.C06_result_size"
   ],
   "note": "All instruction lists, all spellings of operands."
  },
  {
   "property": "C07",
   "status": "partial",
   "theorems": [
    "GitDB.Props.C07_not_full",
    "GitDB.Props.C07_malformed_rejected_partial",
    "GitDB.Props.C07_exceptions",
    "GitDB.Props.C07_reads_declared_source_only"
   ],
   "note": "False of the code as stated (C07_not_full: a copy outside the source at the end of the delta is silently dropped, the loop breaks); every other malformation is rejected with a known exception, and only the declared source is read."
  },
  {
   "property": "C08",
   "status": "proved",
   "theorems": [
    "GitDB.Props.C08_resolve",
    "GitDB.Props.C08_read",
    "GitDB.Props.C08_seek_other",
    "GitDB.Props.C08_needs_delta",
    "GitDB.Props.C08_target_size_trusted",
    "GitDB.Props.C08_source_size_trusted"
   ],
   "note": "Any chain length, any read pattern; announced sizes are trusted by the code (C08_target_size_trusted, C08_source_size_trusted)."
  },
  {
   "property": "C09",
   "status": "partial",
   "theorems": [
    "GitDB.Props.C09_compress_joins",
    "GitDB.Props.C09_compress_python3",
    "GitDB.Props.C09_one_delta",
    "GitDB.Props.C09_closest_python3",
    "GitDB.Props.C09_negative_size",
    "GitDB.Props.C09_merge_partial",
    "GitDB.Props.C09_slice_partial",
    "GitDB.Props.C09_compress_partial",
    "GitDB.Props.C09_python3",
    "GitDB.Props.C09_closest",
    "GitDB.Props.C09_not_full"
   ],
   "note": "Proved for every chain with the three Python 2 constructs read as meant (ord of a byte, integer division, bytes buffer). In Python 3 the code raises TypeError for every chain whose topmost delta has an instruction (C09_python3), so the full statement is false (C09_not_full). compress, _closest_index and delta_list_slice on their own: C09_compress_joins, C09_compress_python3, C09_closest_python3."
  },
  {
   "property": "C10",
   "status": "proved",
   "theorems": [
    "GitDB.Props.C10_stream_copy",
    "GitDB.Props.C10_stream_copy_object",
    "GitDB.Props.C10_size_zero_never_returns",
    "GitDB.Props.C10_writes_what_was_read",
    "GitDB.Props.C10_write_object"
   ],
   "note": "For every source and writer meeting a small contract; for size 0 on an object stream the loop does not end (C10_size_zero_never_returns)."
  },
  {
   "property": "C11",
   "status": "proved",
   "theorems": [
    "GitDB.Props.C11_size_mode",
    "GitDB.Props.C11_object_mode"
   ],
   "note": "Size mode and object mode, any split of reads, any zlib meeting the contract in Model/Zlib.lean. Object mode assumes that the header lies within the first 8192 bytes (compressed and decompressed), as the code does."
  },
  {
   "property": "C12",
   "status": "partial",
   "theorems": [
    "GitDB.Props.C12_size_mode",
    "GitDB.Props.C12_not_full",
    "GitDB.Props.C12_object_mode_partial",
    "GitDB.Props.C12_object_mode_total",
    "GitDB.Props.C12_one_inexact",
    "GitDB.Props.C12_negative_size"
   ],
   "note": "Proved in size mode for all streams and in object mode for objects of at most 8192 bytes. For larger loose objects whose stream does not stall, C12_one_inexact describes every read: exact, except the one that crosses the end of the header buffer, which returns what was asked for, less by what the buffer held, or everything. Missing: exactness of that read; it is false of the code (C12_not_full, C67_short_read: read(8191) of a 16371 byte object returns all of it)."
  },
  {
   "property": "C13",
   "status": "partial",
   "theorems": [
    "GitDB.Props.C13_not_full",
    "GitDB.Props.C13_size_mode_partial",
    "GitDB.Props.C13_object_mode_partial"
   ],
   "note": "Proved for streams in which 8 further compressed bytes always yield output (NoStall), in both modes. Missing: stalling streams (dynamic Huffman tables); there it is false of the code (C13_not_full)."
  },
  {
   "property": "C14",
   "status": "partial",
   "theorems": [
    "GitDB.Props.C14_not_full",
    "GitDB.Props.C14_object_mode_short",
    "GitDB.Props.C14_size_mode_partial",
    "GitDB.Props.C14_compressible",
    "GitDB.Props.C14_small_objects",
    "GitDB.Props.C14_twice",
    "GitDB.Props.C14_large_compressible",
    "GitDB.Props.C14_large_real",
    "GitDB.Props.C14_small_file"
   ],
   "note": "Proved in size mode for NoStall streams and for every stream compressed to at most its size; in object mode for objects of at most 8192 bytes, up to twice the header buffer for NoStall streams (C14_twice), and for large objects that compress well, stalling or not (C14_large_compressible, C14_small_file, C14_large_real). Missing: the rest, where it is false of the code (C14_not_full, C14_object_mode_short)."
  },
  {
   "property": "C15",
   "status": "partial",
   "theorems": [
    "GitDB.Props.C15_exact",
    "GitDB.Props.C15_bounds",
    "GitDB.Props.C15_before",
    "GitDB.Props.C15_loose",
    "GitDB.Props.C15_double_count",
    "GitDB.Props.C15_empty_object_diverges",
    "GitDB.Props.C15_not_full",
    "GitDB.Props.C15_compressed_size_partial"
   ],
   "note": "Proved for non-empty objects read by reads that ask for everything, and for all reads if nothing follows the object (C15_bounds, C15_loose). Otherwise the result is short by the length of unconsumed_tail (C15_exact; C15_double_count: it can be negative), and for empty objects the call never returns (C15_empty_object_diverges): false of the code there."
  },
  {
   "property": "C16",
   "status": "partial",
   "theorems": [
    "GitDB.Props.C16_size_mode",
    "GitDB.Props.C16_seek_other",
    "GitDB.Props.C16_not_full",
    "GitDB.Props.C16_object_mode_partial"
   ],
   "note": "Proved in size mode for every reachable state and in object mode when the header buffer is used up. Missing: object mode with bytes left in the header buffer; false of the code there (C16_not_full)."
  },
  {
   "property": "C17",
   "status": "proved",
   "theorems": [
    "GitDB.Props.C17_zipped_closed",
    "GitDB.Props.C17_fd_closed",
    "GitDB.Props.C17_fd_close_fails",
    "GitDB.Props.C17_seek",
    "GitDB.Props.C17_fd_stream_read",
    "GitDB.Props.C17_zipped_reads",
    "GitDB.Props.C17_closed_once",
    "GitDB.Props.C17_sha1_writer",
    "GitDB.Props.C17_flexible_writer",
    "GitDB.Props.C17_zipped_store",
    "GitDB.Props.C17_fd_writer",
    "GitDB.Props.C17_fd_writer_detects",
    "GitDB.Props.C17_fd_writer_succeeds",
    "GitDB.Props.C17_fd_stream_unchecked",
    "GitDB.Props.C17_write_after_seek_corrupts"
   ],
   "note": "All four writers. For the file descriptor writers the operating system's writes follow an arbitrary plan (full, short, failing); FDStream does not notice short writes (C17_fd_stream_unchecked), and writing to a ZippedStoreShaWriter after seeking it corrupts it (C17_write_after_seek_corrupts). Reading the compressing writer in memory: C17_zipped_reads; closing again: C17_closed_once."
  },
  {
   "property": "C18",
   "status": "proved",
   "theorems": [
    "GitDB.Props.C18_read_v2",
    "GitDB.Props.C18_index_roundtrip",
    "GitDB.Props.C18_written_then_found",
    "GitDB.Props.C18_refuses",
    "GitDB.Props.C18_write_fails"
   ],
   "note": "Any number of objects below 2^32, any offsets below 2^64 (at most 2^31 of them at 2 GiB or above), crc taken modulo 2^32, any write function that stores what it gets. Offsets of 2^64 and wrong checksum lengths are refused. A failing write function ends the call with its exception, at any of the writes (C18_write_fails)."
  },
  {
   "property": "C19",
   "status": "proved",
   "theorems": [
    "GitDB.Props.C19_lookup",
    "GitDB.Props.C19_terminates",
    "GitDB.Props.C19_empty_name"
   ],
   "note": "Any version 2 index with ascending names (version 1: C25). Termination is shown without any assumption on the index."
  },
  {
   "property": "C20",
   "status": "proved",
   "theorems": [
    "GitDB.Props.C20_packed_short",
    "GitDB.Props.C20_partial_lookup",
    "GitDB.Props.C20_too_short"
   ],
   "note": "3 to 40 digits, distinct names; the first match is returned."
  },
  {
   "property": "C21",
   "status": "partial",
   "theorems": [
    "GitDB.Props.C21_never_ambiguous",
    "GitDB.Props.C21_not_full",
    "GitDB.Props.C21_no_false_alarm_partial",
    "GitDB.Props.C21_packs"
   ],
   "note": "False of the code: with distinct names the exception is never raised (C21_never_ambiguous, C21_not_full). What holds: no false alarms; between packs, different first matches are reported and equal ones accepted (C21_packs)."
  },
  {
   "property": "C22",
   "status": "proved",
   "theorems": [
    "GitDB.Props.C22_index_checksums",
    "GitDB.Props.C22_pack_checksum"
   ],
   "note": "Index and pack: the trailers are the digests of everything before, for the bytes actually written; indexfile_checksum / packfile_checksum / checksum report them."
  },
  {
   "property": "C23",
   "status": "partial",
   "theorems": [
    "GitDB.Props.C23_offsets_partial",
    "GitDB.Props.C23_what_is_returned",
    "GitDB.Props.C23_not_full",
    "GitDB.Props.C23_offsets_v1"
   ],
   "note": "Holds for version 1 and for offsets below 2 GiB. Missing: larger offsets, for which it is false (C23_what_is_returned, C23_not_full)."
  },
  {
   "property": "C24",
   "status": "proved",
   "theorems": [
    "GitDB.Props.C24_is_equal_canonical_sha",
    "GitDB.Props.C24_length_needed"
   ],
   "note": "Exact characterisation when match has ceil(n/2) bytes; the length condition is needed."
  },
  {
   "property": "C25",
   "status": "proved",
   "theorems": [
    "GitDB.Props.C25_read_v1",
    "GitDB.Props.C25_partial_v1"
   ],
   "note": "Includes lookup and abbreviations."
  },
  {
   "property": "C26",
   "status": "partial",
   "theorems": [
    "GitDB.Props.C26_roundtrip_partial",
    "GitDB.Props.C26_not_full"
   ],
   "note": "Type, size and info for every packed object; content for reads of at least the whole object if the compressed stream does not stall or is not larger than the content, for all read patterns if it does not stall. False without that (C26_not_full: 'A' read as empty after a compressor that emits padding first)."
  },
  {
   "property": "C27",
   "status": "partial",
   "theorems": [
    "GitDB.Props.C27_any_pack",
    "GitDB.Props.C27_pack_partial",
    "GitDB.Props.C27_large",
    "GitDB.Props.C27_large_real",
    "GitDB.Props.C27_iterate_partial",
    "GitDB.Props.C27_not_full",
    "GitDB.Props.C27_each",
    "GitDB.Props.C27_resume",
    "GitDB.Props.C27_past_end",
    "GitDB.Props.C27_from_partial"
   ],
   "note": "Written order, one object per entry, for nonempty objects up to chunk_size that do not stall. False for empty objects (C27_not_full: the iteration never ends) and for objects larger than chunk_size that compress well (C27_large, C27_large_real: it goes on 20 bytes before the end of the object). Start offsets: C27_each, C27_resume, C27_past_end for files of any content, C27_from_partial for written packs. Packs by any writer, deltas included: C27_pack_partial (all entries, under the same conditions) and C27_any_pack (no conditions on the entries: a run of the entries in order, and the ways it can end)."
  },
  {
   "property": "C28",
   "status": "partial",
   "theorems": [
    "GitDB.Props.C28_fresh_partial",
    "GitDB.Props.C28_compares",
    "GitDB.Props.C28_chunk_independent",
    "GitDB.Props.C28_version1",
    "GitDB.Props.C28_large_offset",
    "GitDB.Props.C28_not_full"
   ],
   "note": "Fresh packs below 2 GiB are accepted by the crc mode; the result is exactly the comparison of the crc of the range with the table entry, for any chunk size; version 1 raises. False for larger packs (C28_not_full, C28_large_offset: KeyError because offsets() of large entries are wrong). What damage the comparison finds is C76."
  },
  {
   "property": "C29",
   "status": "proved",
   "theorems": [
    "GitDB.Props.C29_write_fails",
    "GitDB.Props.C29_all",
    "GitDB.Props.C29_announced",
    "GitDB.Props.C29_missing",
    "GitDB.Props.C29_mismatch",
    "GitDB.Props.C29_zero",
    "GitDB.Props.C29_too_many"
   ],
   "note": "Announced count smaller than, equal to, greater than the number of objects, 0, and not representable. Failing write functions: C29_write_fails."
  },
  {
   "property": "C30",
   "status": "partial",
   "theorems": [
    "GitDB.Props.C30_collects",
    "GitDB.Props.C30_sound",
    "GitDB.Props.C30_terminates_partial",
    "GitDB.Props.C30_not_full"
   ],
   "note": "Complete for valid chains; on arbitrary bytes: sound, and terminates unless some entry has back offset 0. False without that (C30_not_full)."
  },
  {
   "property": "C31",
   "status": "partial",
   "theorems": [
    "GitDB.Props.C31_collects_partial",
    "GitDB.Props.C31_by_name_partial",
    "GitDB.Props.C31_unknown",
    "GitDB.Props.C31_cycle",
    "GitDB.Props.C31_not_full"
   ],
   "note": "For chains in which all offset deltas come before all reference deltas; unknown names raise BadObject. False for an offset delta after a reference delta (C31_not_full: the distance is used as a position) and for self references (C31_cycle: never ends)."
  },
  {
   "property": "C32",
   "status": "partial",
   "theorems": [
    "GitDB.Props.C32_info_stream_partial",
    "GitDB.Props.C32_thin",
    "GitDB.Props.C32_not_full"
   ],
   "note": "Under the condition of C31 and for streams whose first 512 bytes' worth has output and that do not stall afterwards (Flows; C74_delta gives it for single blocks); also the exact outcome of sha verification and of thin packs (C32_thin). False otherwise (C32_not_full: a blob reported as a commit; C74_zeros)."
  },
  {
   "property": "C33",
   "status": "partial",
   "theorems": [
    "GitDB.Props.C33_again",
    "GitDB.Props.C33_again_lookup",
    "GitDB.Props.C33_short_write",
    "GitDB.Props.C33_crash",
    "GitDB.Props.C33_concurrent",
    "GitDB.Props.C33_lookup_partial",
    "GitDB.Props.C33_loaded",
    "GitDB.Props.C33_done",
    "GitDB.Props.C33_not_full"
   ],
   "note": "Crash and concurrency (any number of creators, any interleaving, any write outcome): nothing but the new names changes, packs stay, no index without its pack (C33_crash, C33_concurrent); a loaded database is undisturbed (C33_loaded). A newly opened database finds everything at every crash point at which no pack lacks its index (C33_lookup_partial, C33_done). False between the two renames: FileNotFoundError for old objects (C33_not_full). The same objects packed again: nothing changes at any point, also between the renames (C33_again, C33_again_lookup). False with short writes, which the code ignores: the truncated index makes lookups of old objects raise (C33_short_write). Missing: an existing pack of the same name with other content (a SHA-1 collision, or a damaged file)."
  },
  {
   "property": "C34",
   "status": "partial",
   "theorems": [
    "GitDB.Props.C34_stream_large",
    "GitDB.Props.C34_store",
    "GitDB.Props.C34_store_succeeds",
    "GitDB.Props.C34_lookup",
    "GitDB.Props.C34_stream_small",
    "GitDB.Props.C34_stream_partial",
    "GitDB.Props.C34_not_full"
   ],
   "note": "Name, file, has_object, type and size for every store that returns, in every database of complete objects, assuming no SHA-1 collision with the stored object; content for objects up to 8192 bytes in all read patterns, for larger ones as prefixes and completely for streams that do not stall; one read() returns a large object that compresses well (C34_stream_large). Missing: reads of larger objects are not ideal reads; a single read() returns too little (C34_not_full)."
  },
  {
   "property": "C35",
   "status": "proved",
   "theorems": [
    "GitDB.Props.C35_always_complete",
    "GitDB.Props.C35_preset_name_unchecked",
    "GitDB.Props.C35_short_write_unnoticed"
   ],
   "note": "All interleavings, crash points and failures of system calls. Sources: unnamed streams, or named ones whose bytes really are that compressed object, without short writes (C35_preset_name_unchecked and C35_short_write_unnoticed show that both conditions are needed)."
  },
  {
   "property": "C36",
   "status": "partial",
   "theorems": [
    "GitDB.Props.C36_not_full",
    "GitDB.Props.C36_chmod_failure",
    "GitDB.Props.C36_partial",
    "GitDB.Props.C36_objects_partial",
    "GitDB.Props.C36_source_fails",
    "GitDB.Props.C36_named_source_fails"
   ],
   "note": "Failures while reading, compressing, writing and closing leave nothing; objects are unchanged unless chmod fails. False for failures of makedirs, rename and chmod (C36_not_full, C36_chmod_failure). Which exception is raised when the stream fails: C36_source_fails, C36_named_source_fails."
  },
  {
   "property": "C37",
   "status": "proved",
   "theorems": [
    "GitDB.Props.C37_idempotent",
    "GitDB.Props.C37_additive"
   ],
   "note": "isfile must answer correctly for idempotence of the file contents."
  },
  {
   "property": "C38",
   "status": "proved",
   "theorems": [
    "GitDB.Props.C38_partial_to_complete"
   ],
   "note": "For the usual layout of an object directory and a complete os.walk. Any directory tree: C104."
  },
  {
   "property": "C39",
   "status": "proved",
   "theorems": [
    "GitDB.Props.C39_history",
    "GitDB.Props.C39_store"
   ],
   "note": "All histories of stores (of unnamed, well behaved sources), lookups and reads. What reads return is C40; compressed form is shown to be that of the stored object."
  },
  {
   "property": "C40",
   "status": "partial",
   "theorems": [
    "GitDB.Props.C40_partial",
    "GitDB.Props.C40_not_full"
   ],
   "note": "False of the code in general (C40_not_full: seek(0) keeps the header buffer of an abandoned stream; the next header is parsed from leftover data). Proved for objects up to 8192 bytes when earlier sessions with the object read nothing or everything, with arbitrary other operations interleaved. Missing: sessions that stop halfway (false in general), larger objects (C14)."
  },
  {
   "property": "C41",
   "status": "partial",
   "theorems": [
    "GitDB.Props.C41_to_loose",
    "GitDB.Props.C41_not_full"
   ],
   "note": "Loose target: count, set of copied objects, file contents, nothing else touched, proved for all lists and all failures except short writes (C35_short_write_unnoticed shows these corrupt). False for a MemoryDB target (C41_not_full: data is compressed twice)."
  },
  {
   "property": "C42",
   "status": "proved",
   "theorems": [
    "GitDB.Props.C42_hits",
    "GitDB.Props.C42_history",
    "GitDB.Props.C42_member",
    "GitDB.Props.C42_lists",
    "GitDB.Props.C42_served",
    "GitDB.Props.C42_directory"
   ],
   "note": "For all histories of reading operations on a static directory, with missing or damaged indices allowed (C42_history); exact membership and serving for well-formed v1/v2 indices (C42_member, C42_served, C42_directory). The list must be sorted as update_cache leaves it."
  },
  {
   "property": "C43",
   "status": "partial",
   "theorems": [
    "GitDB.Props.C43_refresh",
    "GitDB.Props.C43_refresh_partial",
    "GitDB.Props.C43_not_full",
    "GitDB.Props.C43_gap"
   ],
   "note": "C43_refresh: exact effect of every call in every reachable state. The full statement is false: changes within one mtime tick are not seen (C43_not_full); after an exception during loading packs stay unknown silently (C43_gap). C43_refresh_partial: holds if packs only change with growing mtime."
  },
  {
   "property": "C44",
   "status": "partial",
   "theorems": [
    "GitDB.Props.C44_history",
    "GitDB.Props.C44_first",
    "GitDB.Props.C44_any",
    "GitDB.Props.C44_stores_partial",
    "GitDB.Props.C44_stale",
    "GitDB.Props.C44_not_full"
   ],
   "note": "In an unchanging world, for trees of any depth: no history of reads changes an answer, exceptions included (C44_history), and the first database having the object answers (C44_first). With stores and update_cache in between: has_object is exactly membership in one of the databases, info/stream are answered by one that has it (C44_stores_partial). False: after a store into an earlier database the later one goes on answering (C44_not_full); after removal the cached answer stays until update_cache (C44_stale). Each sub-database has one parent (not shared)."
  },
  {
   "property": "C45",
   "status": "partial",
   "theorems": [
    "GitDB.Props.C45_tree_partial",
    "GitDB.Props.C45_databases",
    "GitDB.Props.C45_flat",
    "GitDB.Props.C45_not_hex",
    "GitDB.Props.C45_loose",
    "GitDB.Props.C45_memory",
    "GitDB.Props.C45_not_full"
   ],
   "note": "For trees of any shape the result is right with respect to all names if each database resolves correctly by itself (C45_tree_partial); loose databases do (C45_loose). False for packed databases, which never report ambiguity within one index (C45_not_full); a MemoryDB in the tree raises AttributeError (C45_memory)."
  },
  {
   "property": "C46",
   "status": "proved",
   "theorems": [
    "GitDB.Props.C46_size",
    "GitDB.Props.C46_sha_iter",
    "GitDB.Props.C46_databases",
    "GitDB.Props.C46_put_back",
    "GitDB.Props.C46_update",
    "GitDB.Props.C46_update_memory",
    "GitDB.Props.C46_census_memory",
    "GitDB.Props.C46_census_loose",
    "GitDB.Props.C46_update_loose"
   ],
   "note": "Trees of any shape. Exceptions of a database are passed on. Each sub-database has one parent (not shared)."
  },
  {
   "property": "C47",
   "status": "partial",
   "theorems": [
    "GitDB.Props.C47_file",
    "GitDB.Props.C47_once",
    "GitDB.Props.C47_refresh",
    "GitDB.Props.C47_unreadable",
    "GitDB.Props.C47_gap",
    "GitDB.Props.C47_valid",
    "GitDB.Props.C47_root_gap",
    "GitDB.Props.C47_lookup_partial",
    "GitDB.Props.C47_cycle",
    "GitDB.Props.C47_not_full"
   ],
   "note": "Reading the file, histories of refreshes and lookups through any acyclic graph of alternates are proved. Missing: cyclic alternates, for which lookups of absent objects descend without end (C47_cycle, C47_not_full). What can happen at the recursion limit: C106."
  },
  {
   "property": "C48",
   "status": "proved",
   "theorems": [
    "GitDB.Props.C48_atomic",
    "GitDB.Props.C48_exclusive",
    "GitDB.Props.C48_released",
    "GitDB.Props.C48_commit",
    "GitDB.Props.C48_rollback",
    "GitDB.Props.C48_failed_open",
    "GitDB.Props.C48_rename_fails",
    "GitDB.Props.C48_close_fails",
    "GitDB.Props.C48_chmod_fails",
    "GitDB.Props.C48_lock_name"
   ],
   "note": "POSIX; a descriptor is only its presence, a failed close is a call without effect, the caller writes through the returned descriptor. Findings: after a failed open the object is dead and commit reports success (C48_failed_open); if the rename of a commit fails the lock file is never removed (C48_rename_fails)."
  },
  {
   "property": "C49",
   "status": "partial",
   "theorems": [
    "GitDB.Props.C49_raises",
    "GitDB.Props.C49_not_full",
    "GitDB.Props.C49_order",
    "GitDB.Props.C49_attribute"
   ],
   "note": "False of the code (C49_raises, C49_not_full): __contains__ returns self.has_obj, an attribute nothing defines, and never looks at the name. What is proved is what the operator does instead. C49_order: the classes searched are those of Python's method resolution order."
  },
  {
   "property": "C50",
   "status": "proved",
   "theorems": [
    "GitDB.Props.C50_types",
    "GitDB.Props.C50_type_roundtrip",
    "GitDB.Props.C50_ids"
   ],
   "note": "Both directions on the four object types."
  },
  {
   "property": "C51",
   "status": "proved",
   "theorems": [
    "GitDB.Props.C51_size",
    "GitDB.Props.C51_sha_iter"
   ],
   "note": "For the usual layout of an object directory and a complete os.walk."
  },
  {
   "property": "C52",
   "status": "proved",
   "theorems": [
    "GitDB.Props.C52_current",
    "GitDB.Props.C52_store"
   ],
   "note": "For acyclic alternates (cycles: C47), alternates files and packs that do not change, and growth of loose directories only. The store is LooseObjectDB.store (C34-C37) at the same root path."
  },
  {
   "property": "C53",
   "status": "proved",
   "theorems": [
    "GitDB.Props.C53_open",
    "GitDB.Props.C53_no_false_hit",
    "GitDB.Props.C53_abbreviation",
    "GitDB.Props.C53_entries",
    "GitDB.Props.C53_offsets",
    "GitDB.Props.C53_truncation_unnoticed"
   ],
   "note": "Nothing but header and fanout size is verified on opening; a truncated index is opened without complaint and then misses objects (C53_truncation_unnoticed). An empty name raises IndexError. Index files fit into one mapping."
  },
  {
   "property": "C54",
   "status": "proved",
   "theorems": [
    "GitDB.Props.C54_verified"
   ],
   "note": "For the sha branch of is_valid_stream (use_crc=False); bounds the recursion of delta bases by fuel."
  },
  {
   "property": "C55",
   "status": "proved",
   "theorems": [
    "GitDB.Props.C55_entry",
    "GitDB.Props.C55_unique",
    "GitDB.Props.C55_open",
    "GitDB.Props.C55_whole",
    "GitDB.Props.C55_offset_zero"
   ],
   "note": "Type ids 0 and 5 are accepted by pack_object_at as non-delta entries; a REF_DELTA name cut off by the end of the file is not noticed (both part of the statement's format)."
  },
  {
   "property": "C56",
   "status": "proved",
   "theorems": [
    "GitDB.Props.C56_path",
    "GitDB.Props.C56_injective",
    "GitDB.Props.C56_inside",
    "GitDB.Props.C56_has",
    "GitDB.Props.C56_components",
    "GitDB.Props.C56_short",
    "GitDB.Props.C56_escape"
   ],
   "note": "Without symbolic links. Names shorter than two bytes are not refused (C56_short); readable_db_object_path, given text which is no name, leaves the directory (C56_escape). C56_components connects the strings to the component paths of C34-C38."
  },
  {
   "property": "C57",
   "status": "partial",
   "theorems": [
    "GitDB.Props.C57_file",
    "GitDB.Props.C57_info",
    "GitDB.Props.C57_stream",
    "GitDB.Props.C57_store_named",
    "GitDB.Props.C57_store_new",
    "GitDB.Props.C57_store_partial",
    "GitDB.Props.C57_create_partial",
    "GitDB.Props.C57_locked",
    "GitDB.Props.C57_store_leaks",
    "GitDB.Props.C57_create_leaks",
    "GitDB.Props.C57_not_full"
   ],
   "note": "Proved for reading (C57_file, C57_info, C57_stream), named stores, lock files, and for new objects exactly when the last write is complete (C57_store_new). False for a failing last write of a new object and for PackEntity.create on any exception (C57_store_leaks, C57_create_leaks, C57_not_full)."
  },
  {
   "property": "C58",
   "status": "partial",
   "theorems": [
    "GitDB.Props.C58_binary_partial",
    "GitDB.Props.C58_hex_partial",
    "GitDB.Props.C58_identifies",
    "GitDB.Props.C58_bytes_total",
    "GitDB.Props.C58_abbreviation_str",
    "GitDB.Props.C58_abbreviation_bytes",
    "GitDB.Props.C58_not_full",
    "GitDB.Props.C58_bad_name",
    "GitDB.Props.C58_identifies_any",
    "GitDB.Props.C58_unprintable"
   ],
   "note": "Proved: the message contains the 40 digits of a binary or complete hex name and identifies the object, with the decoration b'...' of Python 3 (C58_binary_partial, C58_hex_partial, C58_identifies). False otherwise: an abbreviation given as str makes formatting raise TypeError, an abbreviation of 20 digits given as bytes is shown as the name of another object (C58_abbreviation_str, C58_abbreviation_bytes, C58_not_full)."
  },
  {
   "property": "C59",
   "status": "partial",
   "theorems": [
    "GitDB.Props.C59_same_partial",
    "GitDB.Props.C59_single",
    "GitDB.Props.C59_needs_delta",
    "GitDB.Props.C59_python3",
    "GitDB.Props.C59_not_full"
   ],
   "note": "Proved for every chain with the Python 2 constructs of connect_deltas read as meant (C59_same_partial), and for a single delta without that restriction (C59_single). In Python 3 merging raises TypeError (C59_python3, C59_not_full); the C extension is not modelled."
  },
  {
   "property": "C60",
   "status": "proved",
   "theorems": [
    "GitDB.Props.C60_type_id",
    "GitDB.Props.C60_type_unknown",
    "GitDB.Props.C60_info",
    "GitDB.Props.C60_stream",
    "GitDB.Props.C60_delta_stream",
    "GitDB.Props.C60_pack",
    "GitDB.Props.C60_type",
    "GitDB.Props.C60_input_new",
    "GitDB.Props.C60_input_assign",
    "GitDB.Props.C60_read_only",
    "GitDB.Props.C60_delta_accepts",
    "GitDB.Props.C60_invalid_raises",
    "GitDB.Props.C60_invalid",
    "GitDB.Props.C60_equal",
    "GitDB.Props.C60_input_no_type_id"
   ],
   "note": "All attributes of all classes of gitdb/base.py."
  },
  {
   "property": "C61",
   "status": "partial",
   "theorems": [
    "GitDB.Props.C61_pack_good",
    "GitDB.Props.C61_pack_closed",
    "GitDB.Props.C61_pack_wrong_signature",
    "GitDB.Props.C61_pack_short",
    "GitDB.Props.C61_pack_missing",
    "GitDB.Props.C61_index_good",
    "GitDB.Props.C61_index_refused_partial",
    "GitDB.Props.C61_index_missing",
    "GitDB.Props.C61_index_closed",
    "GitDB.Props.C61_index_version",
    "GitDB.Props.C61_not_full",
    "GitDB.Props.C61_lazy"
   ],
   "note": "Proved for usable files, with and without close (C61_pack_good, C61_pack_closed, C61_index_good), and for size() of a refused index (C61_index_refused_partial). False otherwise: a pack with a wrong signature is refused by the first call only (C61_pack_wrong_signature), version() of a refused index answers at the second call (C61_index_version, C61_not_full)."
  },
  {
   "property": "C62",
   "status": "proved",
   "theorems": [
    "GitDB.Props.C62_text",
    "GitDB.Props.C62_idempotent",
    "GitDB.Props.C62_injective",
    "GitDB.Props.C62_ascii",
    "GitDB.Props.C62_byte_ord",
    "GitDB.Props.C62_byte_ord_other"
   ],
   "note": "UTF-8 is the one of Lean's library; lone surrogates cannot be represented."
  },
  {
   "property": "C63",
   "status": "partial",
   "theorems": [
    "GitDB.Props.C63_header_partial",
    "GitDB.Props.C63_python3",
    "GitDB.Props.C63_not_full"
   ],
   "note": "Proved with ord read as meant (C63_header_partial). In Python 3 the function raises for every file (C63_python3, C63_not_full)."
  },
  {
   "property": "C64",
   "status": "partial",
   "theorems": [
    "GitDB.Props.C64_from_loose",
    "GitDB.Props.C64_from_delta",
    "GitDB.Props.C64_into_loose",
    "GitDB.Props.C64_into_pack",
    "GitDB.Props.C64_loose_pack_loose_partial",
    "GitDB.Props.C64_not_full"
   ],
   "note": "Proved for loose objects read in one go, packed objects whose stream does not stall and delta chains as sources, into a loose database or a pack. False for larger loose objects with some codec meeting the zlib contract: packing such an object raises AssertionError (C64_not_full)."
  },
  {
   "property": "C65",
   "status": "proved",
   "theorems": [
    "GitDB.Props.C65_iterates_v2",
    "GitDB.Props.C65_iterates_v1",
    "GitDB.Props.C65_written"
   ],
   "note": ""
  },
  {
   "property": "C66",
   "status": "partial",
   "theorems": [
    "GitDB.Props.C66_set_ostream",
    "GitDB.Props.C66_dry_run",
    "GitDB.Props.C66_back",
    "GitDB.Props.C66_reused",
    "GitDB.Props.C66_not_full"
   ],
   "note": "Proved for every source and a stream not yet written to (C66_dry_run). False for further objects through the same stream: the digest goes on over all of them (C66_reused, C66_not_full)."
  },
  {
   "property": "C67",
   "status": "partial",
   "theorems": [
    "GitDB.Props.C67_contract",
    "GitDB.Props.C67_stored",
    "GitDB.Props.C67_stored_tail",
    "GitDB.Props.C67_taken_least",
    "GitDB.Props.C67_one_block",
    "GitDB.Props.C67_one_block_object",
    "GitDB.Props.C67_empty_read",
    "GitDB.Props.C67_nothing_read",
    "GitDB.Props.C67_short_read",
    "GitDB.Props.C67_any_encoding",
    "GitDB.Props.C67_stored_then_short"
   ],
   "note": "The decompressor is written out and proved to meet the zlib contract (C67_contract, C67_any_encoding; C67_stored is a complete library). Streams of one stored or fixed block are read exactly (C67_one_block, C67_one_block_object); single blocks of any kind: C74. The rest is false of the code, now with streams in the real format: C67_empty_read, C67_nothing_read, C67_short_read, C67_stored_then_short."
  },
  {
   "property": "C68",
   "status": "proved",
   "theorems": [
    "GitDB.Props.C68_make_sha",
    "GitDB.Props.C68_pieces",
    "GitDB.Props.C68_writer",
    "GitDB.Props.C68_memory",
    "GitDB.Props.C68_loose",
    "GitDB.Props.C68_pack",
    "GitDB.Props.C68_known"
   ],
   "note": ""
  },
  {
   "property": "C69",
   "status": "proved",
   "theorems": [
    "GitDB.Props.C69_size",
    "GitDB.Props.C69_object",
    "GitDB.Props.C69_truncated",
    "GitDB.Props.C69_truncated_object",
    "GitDB.Props.C69_refused",
    "GitDB.Props.C69_refused_object",
    "GitDB.Props.C69_damage_unnoticed",
    "GitDB.Props.C69_cut_header"
   ],
   "note": ""
  },
  {
   "property": "C70",
   "status": "proved",
   "theorems": [
    "GitDB.Props.C70_stream",
    "GitDB.Props.C70_one_window",
    "GitDB.Props.C70_entry",
    "GitDB.Props.C70_chain",
    "GitDB.Props.C70_cut",
    "GitDB.Props.C70_cut_never_complete",
    "GitDB.Props.C70_cut_header",
    "GitDB.Props.C70_cut_iteration",
    "GitDB.Props.C70_crc_beyond",
    "GitDB.Props.C70_crc_within",
    "GitDB.Props.C70_index"
   ],
   "note": ""
  },
  {
   "property": "C71",
   "status": "proved",
   "theorems": [
    "GitDB.Props.C71_decodes",
    "GitDB.Props.C71_isZip",
    "GitDB.Props.C71_only",
    "GitDB.Props.C71_iff",
    "GitDB.Props.C71_checksum",
    "GitDB.Props.C71_unique",
    "GitDB.Props.C71_compressor",
    "GitDB.Props.C71_loose_object",
    "GitDB.Props.C71_packed",
    "GitDB.Props.C71_exists"
   ],
   "note": ""
  },
  {
   "property": "C72",
   "status": "proved",
   "theorems": [
    "GitDB.Props.C72_size",
    "GitDB.Props.C72_chain",
    "GitDB.Props.C72_exceptions",
    "GitDB.Props.C72_short_filled",
    "GitDB.Props.C72_long_refused",
    "GitDB.Props.C72_outside_copy_zeros",
    "GitDB.Props.C72_two_stale"
   ],
   "note": "C72_size needs no assumption about the streams; C72_chain describes success and failure of every chain of deltas that begin with two numbers, C72_exceptions all other bytes."
  },
  {
   "property": "C73",
   "status": "proved",
   "theorems": [
    "GitDB.Props.C73_size",
    "GitDB.Props.C73_meant",
    "GitDB.Props.C73_default",
    "GitDB.Props.C73_python3",
    "GitDB.Props.C73_short",
    "GitDB.Props.C73_merged"
   ],
   "note": "C73_meant and C73_merged are about Python 2, where iterators have next; C73_python3 says what happens today."
  },
  {
   "property": "C74",
   "status": "proved",
   "theorems": [
    "GitDB.Props.C74_budget",
    "GitDB.Props.C74_reads",
    "GitDB.Props.C74_whole",
    "GitDB.Props.C74_delta",
    "GitDB.Props.C74_short_read",
    "GitDB.Props.C74_copy_truncated",
    "GitDB.Props.C74_zeros",
    "GitDB.Props.C74_stored",
    "GitDB.Props.C74_packs"
   ],
   "note": "The positive parts hold for every stream whose third byte is odd (C74_budget, C74_reads, C74_whole, C74_delta); C74_short_read, C74_copy_truncated and C74_zeros are the failures, with streams that zlib emits."
  },
  {
   "property": "C75",
   "status": "proved",
   "theorems": [
    "GitDB.Props.C75_contents",
    "GitDB.Props.C75_stream",
    "GitDB.Props.C75_piece",
    "GitDB.Props.C75_empty",
    "GitDB.Props.C75_position",
    "GitDB.Props.C75_loose",
    "GitDB.Props.C75_loose_short",
    "GitDB.Props.C75_fallback",
    "GitDB.Props.C75_fallback_cut"
   ],
   "note": "The branches after a failing mmap; everywhere else the model maps files and anonymous memory, which C75_loose and C75_fallback justify."
  },
  {
   "property": "C76",
   "status": "proved",
   "theorems": [
    "GitDB.Props.C76_crc",
    "GitDB.Props.C76_four_bytes",
    "GitDB.Props.C76_limit",
    "GitDB.Props.C76_each",
    "GitDB.Props.C76_found"
   ],
   "note": "Packs of at most 2 GiB, as in C28. C76_limit shows that 32 bits is the exact bound."
  },
  {
   "property": "C77",
   "status": "proved",
   "theorems": [
    "GitDB.Props.C77_listed",
    "GitDB.Props.C77_plain",
    "GitDB.Props.C77_bracket",
    "GitDB.Props.C77_own",
    "GitDB.Props.C77_open"
   ],
   "note": "C77_plain justifies the assumption of Model/PackedDB.lean about the root path. That a database always lists its own packs is false (C77_bracket)."
  },
  {
   "property": "C78",
   "status": "proved",
   "theorems": [
    "GitDB.Props.C78_generations",
    "GitDB.Props.C78_write_once",
    "GitDB.Props.C78_snapshot",
    "GitDB.Props.C78_mixed"
   ],
   "note": "That answers are always about the object asked for is false if packs are replaced under their name (C78_mixed)."
  },
  {
   "property": "C79",
   "status": "proved",
   "theorems": [
    "GitDB.Props.C79_zipped",
    "GitDB.Props.C79_fd",
    "GitDB.Props.C79_fd_named_early",
    "GitDB.Props.C79_none",
    "GitDB.Props.C79_flexible",
    "GitDB.Props.C79_flexible_named",
    "GitDB.Props.C79_twice",
    "GitDB.Props.C79_empty_name"
   ],
   "note": "C79_fd_named_early: the stream of a caller's FDCompressedSha1Writer is named before its data is complete."
  },
  {
   "property": "C80",
   "status": "proved",
   "theorems": [
    "GitDB.Props.C80_loose",
    "GitDB.Props.C80_memory",
    "GitDB.Props.C80_long",
    "GitDB.Props.C80_short",
    "GitDB.Props.C80_read",
    "GitDB.Props.C80_pack"
   ],
   "note": "write_pack compares with an assert statement, which python -O removes; the model has it."
  },
  {
   "property": "C81",
   "status": "proved",
   "theorems": [
    "GitDB.Props.C81_refresh",
    "GitDB.Props.C81_late",
    "GitDB.Props.C81_read"
   ],
   "note": "Replaces the simplification of C47 that all databases of a GitDB are created at once. Depths of alternates are bounded by n, above the rank of the repository."
  },
  {
   "property": "C82",
   "status": "proved",
   "theorems": [
    "GitDB.Props.C82_store",
    "GitDB.Props.C82_only",
    "GitDB.Props.C82_memory",
    "GitDB.Props.C82_no_object",
    "GitDB.Props.C82_transfer"
   ],
   "note": "The fuel of the model bounds the number of reads; C82_store has it as a hypothesis, C82_only as a conclusion."
  },
  {
   "property": "C83",
   "status": "proved",
   "theorems": [
    "GitDB.Props.C83_stored",
    "GitDB.Props.C83_read",
    "GitDB.Props.C83_copy"
   ],
   "note": ""
  },
  {
   "property": "C84",
   "status": "proved",
   "theorems": [
    "GitDB.Props.C84_found",
    "GitDB.Props.C84_same",
    "GitDB.Props.C84_iterate",
    "GitDB.Props.C84_abbreviation",
    "GitDB.Props.C84_all_digits"
   ],
   "note": ""
  },
  {
   "property": "C85",
   "status": "proved",
   "theorems": [
    "GitDB.Props.C85_pack",
    "GitDB.Props.C85_pack_alone",
    "GitDB.Props.C85_contents",
    "GitDB.Props.C85_index",
    "GitDB.Props.C85_index_any_order",
    "GitDB.Props.C85_index_again",
    "GitDB.Props.C85_loose"
   ],
   "note": ""
  },
  {
   "property": "C86",
   "status": "proved",
   "theorems": [
    "GitDB.Props.C86_complete",
    "GitDB.Props.C86_now",
    "GitDB.Props.C86_reads",
    "GitDB.Props.C86_capitals"
   ],
   "note": "Exact for the code; that AmbiguousObjectName is raised whenever two objects match is false for two in one pack (C21, C45_not_full)."
  },
  {
   "property": "C87",
   "status": "proved",
   "theorems": [
    "GitDB.Props.C87_census",
    "GitDB.Props.C87_same"
   ],
   "note": ""
  },
  {
   "property": "C88",
   "status": "proved",
   "theorems": [
    "GitDB.Props.C88_stays",
    "GitDB.Props.C88_reads",
    "GitDB.Props.C88_object",
    "GitDB.Props.C88_seek",
    "GitDB.Props.C88_again"
   ],
   "note": ""
  },
  {
   "property": "C89",
   "status": "proved",
   "theorems": [
    "GitDB.Props.C89_lookup",
    "GitDB.Props.C89_abbreviation",
    "GitDB.Props.C89_closest",
    "GitDB.Props.C89_bucket"
   ],
   "note": "Stated by extensionality (which positions the answer depends on), not by counting steps of the model. C89_bucket gives n for an index written with given entries."
  },
  {
   "property": "C90",
   "status": "proved",
   "theorems": [
    "GitDB.Props.C90_sized",
    "GitDB.Props.C90_header",
    "GitDB.Props.C90_limit",
    "GitDB.Props.C90_crafted",
    "GitDB.Props.C90_no_limit"
   ],
   "note": "The depth is the fuel of Reader.readCore; frames of callers and of properties are not counted. The condition on the stream is NoStallFrom zl 1 (as for C14, C74); single blocks meet it (oneBlock_noStall)."
  },
  {
   "property": "C91",
   "status": "proved",
   "theorems": [
    "GitDB.Props.C91_beginning",
    "GitDB.Props.C91_header",
    "GitDB.Props.C91_noStall"
   ],
   "note": "Reads of a given positive size, of readers with the size of the object. Large loose objects: opening only, since the read that crosses the end of the header buffer may read everything (C12_not_full)."
  },
  {
   "property": "C92",
   "status": "proved",
   "theorems": [
    "GitDB.Props.C92_open",
    "GitDB.Props.C92_stream",
    "GitDB.Props.C92_info",
    "GitDB.Props.C92_read",
    "GitDB.Props.C92_size",
    "GitDB.Props.C92_crc",
    "GitDB.Props.C92_crc_no_offsets",
    "GitDB.Props.C92_sha"
   ],
   "note": "The model of DeltaApplyReader is the pure Python one. Never ending loops are results of their own (diverge); they are excluded for reading, with fuel above the sizes of the streams. Names are not empty (C19_empty_name). MemoryError and RecursionError (C90) are not modelled. OverflowError for announced sizes of 2^63 and more is in C101_pack_raises. IndexError for offsets outside of the file is an assumption on smmap; C102_raises is without it."
  },
  {
   "property": "C93",
   "status": "proved",
   "theorems": [
    "GitDB.Props.C93_never_invented",
    "GitDB.Props.C93_has_raises"
   ],
   "note": "A name counts as in an index if its 20 bytes are at the place of some entry of a file of version 1 or 2, whatever else the file contains. Directories list no name twice, names are not empty. The contents of what is returned are not part of this (C27, C54). diverge stands for alternates nested deeper than the tree of databases (a circle, RecursionError). Exceptions of reading the alternates file are OSError and UnicodeDecodeError."
  },
  {
   "property": "C94",
   "status": "proved",
   "theorems": [
    "GitDB.Props.C94_loose",
    "GitDB.Props.C94_git"
   ],
   "note": "Names are not empty. diverge stands for alternates in a circle (RecursionError) and for chains of deltas in a circle (C92). Exceptions of reading the alternates file are OSError and UnicodeDecodeError; other failures of the operating system (listing directories, mapping memory) are not part of this."
  },
  {
   "property": "C95",
   "status": "proved",
   "theorems": [
    "GitDB.Props.C95_all_or_nothing",
    "GitDB.Props.C95_packed",
    "GitDB.Props.C95_assertion",
    "GitDB.Props.C95_right",
    "GitDB.Props.C95_first",
    "GitDB.Props.C95_no_retry"
   ],
   "note": "C95_all_or_nothing: one intact topmost delta stream, everything else arbitrary; C95_packed: the same for entries of packs; C95_assertion: which exception; C95_right: what is returned if the deltas fit; C95_first: link to the model of the first access; C95_no_retry: a temporary failure.  The exception of a missing allocation is a parameter (MemoryError is not in Err)."
  },
  {
   "property": "C96",
   "status": "proved",
   "theorems": [
    "GitDB.Props.C96_refresh",
    "GitDB.Props.C96_complete"
   ],
   "note": "C96_refresh: update_cache after any history of reads, refreshes and abbreviations on any disks; C96_complete: partial_to_complete_sha_hex in any state. diverge stands for alternates in a circle. Abbreviations are ASCII. Exceptions of reading the alternates file are OSError and UnicodeDecodeError; other failures of the operating system are not part of this."
  },
  {
   "property": "C97",
   "status": "proved",
   "theorems": [
    "GitDB.Props.C97_refresh",
    "GitDB.Props.C97_never_invented"
   ],
   "note": "C97_refresh: the statements of C81 and C86 with abbreviations in the history as well. C97_never_invented: that of C93 likewise, and answers to abbreviations. A name taken from a cut off index may have fewer than 20 bytes (example). Abbreviations that are not ASCII: C98."
  },
  {
   "property": "C98",
   "status": "proved",
   "theorems": [
    "GitDB.Props.C98_live",
    "GitDB.Props.C98_nested",
    "GitDB.Props.C98_answer",
    "GitDB.Props.C98_files"
   ],
   "note": "C98_live and C98_nested give the result for every argument (four cases which exclude each other). C98_files: the same objects in the same order as for names taken as bytes (Model/Loose.lean); which names raise depends on the decoding (example). Lone surrogates in a str abbreviation cannot be represented."
  },
  {
   "property": "C99",
   "status": "proved",
   "theorems": [
    "GitDB.Props.C99_copy",
    "GitDB.Props.C99_store",
    "GitDB.Props.C99_pack",
    "GitDB.Props.C99_deltas"
   ],
   "note": "Arguments of all calls of read, noted by a wrapped reader (noted). The memory a DeltaApplyReader allocates for base, target and deltas is not bounded by this; single blocks are in C100."
  },
  {
   "property": "C100",
   "status": "proved",
   "theorems": [
    "GitDB.Props.C100_enough",
    "GitDB.Props.C100_announced",
    "GitDB.Props.C100_few_bytes",
    "GitDB.Props.C100_chain"
   ],
   "note": "Allocations above a limit raise (Model/DeltaMemory.lean); whether one fails depends on its size alone, so this bounds single blocks, not the sum of those held at a time."
  },
  {
   "property": "C101",
   "status": "proved",
   "theorems": [
    "GitDB.Props.C101_or",
    "GitDB.Props.C101_new",
    "GitDB.Props.C101_fits",
    "GitDB.Props.C101_over",
    "GitDB.Props.C101_pack_or",
    "GitDB.Props.C101_pack_raises",
    "GitDB.Props.C101_pack_fits",
    "GitDB.Props.C101_pack_over",
    "GitDB.Props.C101_sha",
    "GitDB.Props.C101_loose"
   ],
   "note": "Platforms of 64 bits. C101_or, C101_pack_or, C101_sha: same or OverflowError; C101_fits, C101_pack_fits: same; C101_pack_raises: the exceptions of C92 and OverflowError; C101_over, C101_loose, C101_pack_over: it is raised. The other claims are about models without the limit; by C101 they hold of calls that do not raise OverflowError."
  },
  {
   "property": "C102",
   "status": "proved",
   "theorems": [
    "GitDB.Props.C102_stream",
    "GitDB.Props.C102_info",
    "GitDB.Props.C102_iter",
    "GitDB.Props.C102_raises",
    "GitDB.Props.C102_read",
    "GitDB.Props.C102_behind",
    "GitDB.Props.C102_behind_info"
   ],
   "note": "C102_stream, C102_info, C102_iter: the same result; the excluded case is IndexError in the model of the other claims. C102_behind, C102_behind_info: offsets at the end or behind it. That the exclusion is needed is shown by the examples (an exception of smmap, another object). The attribute pack_offset of an object at a negative offset is not described. Regions inside of the file reach to its end (C70 for others)."
  },
  {
   "property": "C103",
   "status": "partial",
   "theorems": [
    "GitDB.Props.C103_sound",
    "GitDB.Props.C103_raises",
    "GitDB.Props.C103_kept",
    "GitDB.Props.C103_raises_lookups",
    "GitDB.Props.C103_counters",
    "GitDB.Props.C103_right_partial",
    "GitDB.Props.C103_found_partial",
    "GitDB.Props.C103_not_full",
    "GitDB.Props.C103_order",
    "GitDB.Props.C103_pack_lost",
    "GitDB.Props.C103_all_lost",
    "GitDB.Props.C103_loading",
    "GitDB.Props.C103_alone"
   ],
   "note": "False of the code as stated: list.sort takes the contents out of the list while it calls the key function, so that a lookup of another thread finds nothing (C103_not_full); a new order between two steps of a lookup is enough as well (C103_order). Proved in full: what is returned is right, exceptions, nothing is lost, counters. Partial: objects are found as long as _hit_count does not come to a multiple of 500 (C103_right_partial, C103_found_partial); a new database is at 0. With update_cache in another thread also ValueError, lost packs, and packs not yet loaded (C103_pack_lost, C103_all_lost, C103_loading). C103_alone: one thread alone does what Model/PackedDB.lean says. CPython with its global lock."
  },
  {
   "property": "C104",
   "status": "proved",
   "theorems": [
    "GitDB.Props.C104_any_tree",
    "GitDB.Props.C104_contained",
    "GitDB.Props.C104_stores",
    "GitDB.Props.C104_comment_not_full",
    "GitDB.Props.C104_completed_but_denied"
   ],
   "note": "C104_any_tree: all four outcomes, for any tree and any complete os.walk of it. C104_contained: every object is among the files considered. C104_stores: layout and tree are kept by every interleaving of stores. The comment in line 116 is false in general: C104_comment_not_full, C104_completed_but_denied. Names of files as bytes (C98 for other encodings); no links."
  },
  {
   "property": "C105",
   "status": "proved",
   "theorems": [
    "GitDB.Props.C105_too_early",
    "GitDB.Props.C105_store",
    "GitDB.Props.C105_found"
   ],
   "note": "Finding: _set_cache_ leaves an empty _dbs behind when it raises InvalidDBRoot, so that the exception comes once and then the database counts as empty (C105_too_early). C105_store: which accesses of _loose_db succeed, and the state afterwards; C105_found: objects are found. Abbreviations are not among the calls. What store does then: C35, C36, C52."
  },
  {
   "property": "C106",
   "status": "proved",
   "theorems": [
    "GitDB.Props.C106_never_wrong",
    "GitDB.Props.C106_there_but_raises",
    "GitDB.Props.C106_twice"
   ],
   "note": "C106_never_wrong: any graph of alternates; what lies below the depth is any database that invents nothing (Sound). C106_there_but_raises: an object that is there and is not found, at every depth. C106_twice: the same lookup raises, then succeeds. Not modelled: which call meets the limit. update_cache and abbreviations are not among the calls."
  },
  {
   "property": "C107",
   "status": "proved",
   "theorems": [
    "GitDB.Props.C107_accepted",
    "GitDB.Props.C107_or",
    "GitDB.Props.C107_written",
    "GitDB.Props.C107_roundtrip",
    "GitDB.Props.C107_zeros"
   ],
   "note": "C107_accepted, C107_or: reading; C107_written, C107_roundtrip: writing; C107_zeros: the number 0 refused for its leading zeros. Looking for the type of error only: the interpreter's message differs. Other claims use the model without the limit."
  },
  {
   "property": "C108",
   "status": "proved",
   "theorems": [
    "GitDB.Props.C108_sound",
    "GitDB.Props.C108_settled",
    "GitDB.Props.C108_loaded",
    "GitDB.Props.C108_later",
    "GitDB.Props.C108_alone",
    "GitDB.Props.C108_missed",
    "GitDB.Props.C108_twice",
    "GitDB.Props.C108_stores_fail",
    "GitDB.Props.C108_exceptions"
   ],
   "note": "C108_sound: results and exceptions in every interleaving; C108_exceptions: each of them occurs. C108_settled, C108_later: afterwards. C108_loaded, C108_alone: a database that is loaded, and loading it with one thread. C108_missed, C108_twice, C108_stores_fail: what goes wrong, the last two for all later calls. Databases answer by class and name only; threads within a PackedDB: C103; update_cache is not among the calls."
  },
  {
   "property": "C109",
   "status": "partial",
   "theorems": [
    "GitDB.Props.C109_undisturbed",
    "GitDB.Props.C109_lock",
    "GitDB.Props.C109_whole",
    "GitDB.Props.C109_swapped",
    "GitDB.Props.C109_info_swapped",
    "GitDB.Props.C109_data",
    "GitDB.Props.C109_not_full",
    "GitDB.Props.C109_deltas"
   ],
   "note": "That every call returns what it returns alone is false of the code (C109_not_full, C109_swapped, C109_info_swapped, C109_data; with deltas even data that are in no object, C109_deltas). Proved: it holds for calls that are not interrupted between use_region and buffer() (C109_undisturbed, C109_lock, all calls and objects), and whole objects are never mixed (C109_whole, objects that are not deltas). Assumes of smmap that use_region moves the cursor and returns it, and that buffer() depends on the last offset only; each of the two calls is one step. Missing: what deltas are resolved to when threads disturb each other."
  },
  {
   "property": "C110",
   "status": "proved",
   "theorems": [
    "GitDB.Props.C110_index",
    "GitDB.Props.C110_index_ends",
    "GitDB.Props.C110_pack",
    "GitDB.Props.C110_pack_ends",
    "GitDB.Props.C110_git_index",
    "GitDB.Props.C110_signature",
    "GitDB.Props.C110_unknown_version"
   ],
   "note": "Every reading and setting of an attribute is a step; making a cursor is one step with its assignment, and a look at a pack through its cursor is one step (the steps inside are C109's). The limit on the window size and close() are not described. The converse for refused files: C110_signature, C110_unknown_version."
  },
  {
   "property": "C111",
   "status": "proved",
   "theorems": [
    "GitDB.Props.C111_content",
    "GitDB.Props.C111_exclusive",
    "GitDB.Props.C111_readers",
    "GitDB.Props.C111_stale",
    "GitDB.Props.C111_commit",
    "GitDB.Props.C111_rename_fails",
    "GitDB.Props.C111_rename_fails_posix",
    "GitDB.Props.C111_retry",
    "GitDB.Props.C111_no_retry"
   ],
   "note": "C111_content: what the file and the lock file hold at every moment; C111_exclusive: one process at a time; C111_readers: a reader with the lock finds the file; C111_commit: without failures; C111_rename_fails, C111_rename_fails_posix: what a failed rename leaves; C111_stale: a lock file left behind; C111_retry, C111_no_retry: how often a removal is tried. One path; a write that fails writes nothing; handles of others that keep Windows from removing a file are failing calls."
  },
  {
   "property": "C112",
   "status": "proved",
   "theorems": [
    "GitDB.Props.C112_complete",
    "GitDB.Props.C112_kept",
    "GitDB.Props.C112_ends",
    "GitDB.Props.C112_no_failures",
    "GitDB.Props.C112_source",
    "GitDB.Props.C112_collide",
    "GitDB.Props.C112_collide_posix",
    "GitDB.Props.C112_retry",
    "GitDB.Props.C112_no_retry",
    "GitDB.Props.C112_chmod",
    "GitDB.Props.C112_removed"
   ],
   "note": "C112_complete: object files at every moment; C112_kept: objects stay; C112_ends: how a store ends; C112_no_failures: without failing calls; C112_source: sources that raise; C112_collide, C112_collide_posix: two stores of one object on Windows and elsewhere. C112_retry, C112_no_retry: removals of the temporary file tried again; C112_chmod, C112_removed: attempts to set the mode. Apart from C112_retry, C112_no_retry new objects only; a write that does not write everything counts as one that fails and writes nothing."
  },
  {
   "property": "C113",
   "status": "proved",
   "theorems": [
    "GitDB.Props.C113_same",
    "GitDB.Props.C113_new",
    "GitDB.Props.C113_one_right",
    "GitDB.Props.C113_wrong",
    "GitDB.Props.C113_iteration",
    "GitDB.Props.C113_skips",
    "GitDB.Props.C113_one_object",
    "GitDB.Props.C113_second_missing"
   ],
   "note": "C113_same, C113_new: all calls; C113_one_right: the two counts after everything was read; C113_wrong: the count when each read asks for everything; C113_iteration: a pack with two objects, with its result; C113_skips, C113_one_object, C113_second_missing: any pack of the format, whoever wrote it, deltas included. That decompressobj sets unconsumed_tail and unused_data with these zlibs as with others is assumed."
  },
  {
   "property": "C114",
   "status": "proved",
   "theorems": [
    "GitDB.Props.C114_complete",
    "GitDB.Props.C114_index",
    "GitDB.Props.C114_kept",
    "GitDB.Props.C114_ends",
    "GitDB.Props.C114_no_failures",
    "GitDB.Props.C114_exclusive",
    "GitDB.Props.C114_alone",
    "GitDB.Props.C114_again",
    "GitDB.Props.C114_old_index",
    "GitDB.Props.C114_source"
   ],
   "note": "C114_complete: packs and indices at every moment; C114_index: no index without its pack; C114_kept: files stay; C114_ends: how create ends; C114_no_failures: without failing calls; C114_source: exceptions of write_pack; C114_exclusive: one success per name on Windows; C114_alone, C114_again, C114_old_index: one call alone. Short writes, which the code ignores, count as failed calls here (see C33_short_write)."
  },
  {
   "property": "C115",
   "status": "proved",
   "theorems": [
    "GitDB.Props.C115_store",
    "GitDB.Props.C115_store_done",
    "GitDB.Props.C115_store_stopped",
    "GitDB.Props.C115_create",
    "GitDB.Props.C115_create_done",
    "GitDB.Props.C115_lock",
    "GitDB.Props.C115_lock_done"
   ],
   "note": "C115_store, C115_create, C115_lock: modes at every moment; C115_store_done, C115_lock_done: at the end; C115_store_stopped, C115_create_done: files that only their owner can read. POSIX (on Windows objects get 0644, which is not described). mkstemp makes files of mode 0600 and os.open with 0600 too: umask is assumed to leave the bits of the owner."
  },
  {
   "property": "C116",
   "status": "proved",
   "theorems": [
    "GitDB.Props.C116_calls",
    "GitDB.Props.C116_ends"
   ],
   "note": "C116_calls, C116_ends. Steps as in C110: a look at the pack through its cursor is one step (the steps inside, and what goes wrong there, are C109). close() and files that are refused are not described here (C110 for the latter). An index without objects has no _offset_map, use_crc is left out for it."
  },
  {
   "property": "C117",
   "status": "proved",
   "theorems": [
    "GitDB.Props.C117_stores",
    "GitDB.Props.C117_keeps",
    "GitDB.Props.C117_ends",
    "GitDB.Props.C117_mixed"
   ],
   "note": "C117_stores (under the condition StoresApart on the interleaving), C117_keeps, C117_ends (any interleaving), C117_mixed (what happens otherwise; see the findings in DESIGN.md). Sources of objects are not shared; they may raise. Reading the stored objects is not described among threads (C39, C40 for one thread)."
  },
  {
   "property": "C118",
   "status": "proved",
   "theorems": [
    "GitDB.Props.C118_sound",
    "GitDB.Props.C118_alone",
    "GitDB.Props.C118_counts",
    "GitDB.Props.C118_twice",
    "GitDB.Props.C118_lost",
    "GitDB.Props.C118_assertion",
    "GitDB.Props.C118_index",
    "GitDB.Props.C118_value"
   ],
   "note": "C118_sound, C118_alone, C118_counts (a list with packs in it twice); about calls that overlap (see the findings in DESIGN.md): C118_twice, C118_lost, C118_assertion, C118_index, C118_value. Lookups are not among the calls (C103 has lookups, and update_cache as far as it adds packs). Packs can be opened; hits are not described, the sort may bring about any order. CPython with its global lock."
  },
  {
   "property": "C119",
   "status": "proved",
   "theorems": [
    "GitDB.Props.C119_sound",
    "GitDB.Props.C119_alone",
    "GitDB.Props.C119_early",
    "GitDB.Props.C119_twice",
    "GitDB.Props.C119_seen",
    "GitDB.Props.C119_lost",
    "GitDB.Props.C119_complete",
    "GitDB.Props.C119_at_most"
   ],
   "note": "C119_sound, C119_complete (nothing is lost unless a thread gets ValueError), C119_at_most, C119_alone; about threads that overlap (see the findings in DESIGN.md): C119_seen, C119_early, C119_twice, C119_lost. The directory does not change, packs can be opened; what threads do with the list afterwards is not described. CPython with its global lock."
  }
 ]
}