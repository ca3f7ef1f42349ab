# Formal model of gitdb in Lean 4: design

Layout of `/verif/lean/Verif`:

* `Model/*`  – the executable model. One definition per Python function, branch by branch,
  each with a comment giving file and lines in `/repo`. Python exceptions are values
  (`Except Err`), mutation is returned state, loops are structural recursion or take fuel
  (`Err.diverge` = the fuel ran out; "the Python loop never ends" is stated as "for every fuel").
* `Spec/*`   – small independent specifications (formats as git documents them, abstract maps, ...).
* `Proofs/*` – helper lemmas.
* `Props/*`  – the property theorems `Cnn_…`, with non-vacuity examples, nothing else.

## Trusted base

* Lean 4.33.0's kernel. Axioms: at most `propext`, `Classical.choice`, `Quot.sound`
  (`#print axioms` for all property theorems is checked by the gate). No `sorry`, no own axioms,
  no `native_decide`/`bv_decide`.
* That the model says what the Python code says. The code is not run here.
* External code enters as parameters with an explicit contract (a Lean structure whose fields are
  hypotheses of the theorems; each contract is shown satisfiable by concrete instances):
  * **zlib** (`Model/Zlib.lean`, `ZlibLaws`): `out` (output determined by the input so far) is monotone; a
    complete stream ends at a position which does not depend on what follows; errors persist; when the output
    limit stops the decompressor, it has consumed enough to determine the output up to the limit and not the end of the
    stream (how much it consumes is otherwise an arbitrary oracle `taken`); compressing pieces and
    flushing gives one complete stream with the concatenation as output. On top of it CPython's wrapper is a
    definition (`ZDec.decompress`). After an error every call raises again (`ZDec.broken`), as does a compressor after `flush()`
    (`Model/AfterClose.lean`). CPython detail that matters: at end of stream the left over input goes to
    `unused_data`, *and also* to `unconsumed_tail` if that was non-empty before the call
    (`Modules/zlibmodule.c: save_unconsumed_input`). Instances: `lightZlib`, `toyZlib`, `padZlib`, and `Deflate.zlib`.
    `Model/Inflate.lean` is zlib's decompressor itself, bit by bit after RFC 1950/1951 and `inflate.c`; it is proved to meet
    the contract (`zlib_laws`), with a compressor of stored blocks as a complete library (`storedZlib_laws`). It was compared
    with Python's `zlib` module on about 48000 sequences of `decompress` calls on valid and damaged streams, going on after errors
    (`tools/xcheck`). The only difference found is a stated simplification: a distance before the beginning of the output is
    noticed at once, not only when there is room for output. It accepts exactly the streams that `Spec/Deflate.lean` derives from the RFCs (`C71_iff`). Not modelled: the
    choices of zlib's compressor (which blocks, codes and matches it emits); that it emits valid streams of its input is all that
    remains to be trusted for the contract (`C71_compressor`).
  * **SHA-1** (`Hash`): an arbitrary function from bytes to 20 bytes. Nothing about collisions is assumed
    unless a theorem says so. `Model/Sha1.lean` is CPython's `hashlib.sha1` as an instance (C68).
  * **crc32**: concrete bitwise definition.
  * **smmap** (`gitdb/ext/smmap` is empty in the pinned checkout): for C70 a pack is mapped in regions, and where the region of an offset
    ends is arbitrary (`Model/Window.lean`). Everywhere else a mapped file is its complete contents, which is the same if regions
    reach to the end of the file (`C70_one_window`); a file larger than a window is not distinguished there.
    At an offset outside of the file there is nothing (`b''`), so that reading a header there is `IndexError`. Only C102 is without this
    assumption: results other than `IndexError` do not depend on it.
    C109 assumes that `use_region` moves the cursor it is called on and returns it.
  * **Writing** (`Model/Writers.lean`): every `os.write` is complete, short or fails, following an arbitrary plan.
  * **Directory tree** (`Model/Fs.lean`): a map from paths to nodes; successful system calls
    (`create`, `append`, `mkdir`, `isfile`, `rename`, `remove`, `chmod`) are atomic steps. Which calls fail, where a
    program is killed and how several programs interleave is arbitrary. No links; one file system.
  * **Descriptors** (`Model/Fds.lean`, C57): a set of open descriptors and maps. `close(2)` releases the descriptor
    even if it reports an error (Linux); unreferenced objects are deleted at once (CPython).
  * `mmap.mmap` of anonymous memory: fixed-size buffer, `write` past the end raises ValueError. Sizes of `2^63` and more (OverflowError) only in `Model/DeltaMemory.lean`.
  * **Text** (C62): UTF-8 as in Lean's library; lone surrogates cannot be represented.
* The optional C extension `gitdb_speedups` is not in the repository and is not modelled: the pure
  Python paths selected when it is missing are.

## Not modelled

* Windows branches, except in `LockedFD` and `_retry` (C111) and in storing new loose objects (C112; the mode 0o644 of new objects is left out) and in `PackEntity.create` (C114); threads inside one object, except for lookups in a `PackedDB` (C103), the first calls of a `GitDB` (C108), reading an open pack (C109), the first calls on an index, a pack or an entity (C110, C116), stores in a `MemoryDB` (C117), `PackedDB.update_cache` (C118) and the first use of a `PackedDB` (C119); performance; `gitdb/test`.
* The interpreter's limits: recursion depth (unbounded recursion is "never returns"; bounds for `read` in C90; cycles of alternates in C106), the 4300 digit limit of `int()` except in C107,
  memory exhaustion. Numbers of 2^63 and more given to C functions (`OverflowError`) are in C100 and C101 only: all other claims use
  models without this limit, and C101 proves that calls differ from these models only by raising `OverflowError`, and only if an
  announced size does not fit. `__str__` is modelled for `BadObject` and `BadName` (C58), `__del__` for `LockedFD` (`drop`, C48) and
  as release of resources (C57); other `__repr__`/`__del__` are not.
* File names in an object directory and abbreviations given to `CompoundDB` are bytes, counted in bytes, except in C98, where both are
  text as in the code and it is proved what differs (only which exception is raised, and for file names also whether).
* Symbolic links, permissions on searching directories, file modes beyond those the code sets.
* `PackFile.load` and `PackItem.entity` describe the first access to a file. After a pack with a wrong signature was refused once, later
  calls answer (C61, `Model/Lazy.lean`); C42–C43 use the first access for every access. In a `PackedDB` this makes no difference:
  a refused pack is not put into the list (every pack in it was loaded without an exception, `ItemFits`), and a refused index
  is refused again (C61).
* `util.remove`/`_retry` on POSIX (Windows: C111), `sliding_ro_buffer`, `exists`/`dirname` aliases: one-line calls of the
  standard library, represented by what they return.

## Properties: what is modelled and how it is proved

| id | model | proof |
|----|-------|-------|
| C01 | `fun.py` header codec on `List UInt8`, bit operations on `Nat` | arithmetic lemmas for masks/shifts, induction on the size (strong) and on the byte string |
| C02 | `msb_size` | induction on the byte string; value spec = little endian base 128 sum |
| C03 | OFS varint loop of `pack_object_at` | induction; encoder as in git's `builtin/pack-objects.c` as spec; bijection |
| C04 | header formatting/parsing on bytes incl. decimal printing/parsing | induction on digits; first NUL / only space lemmas; `pyInt_iff` and `parseObjectHeader_iff` against a description of `int()` (`Spec/PyInt.lean`, without Python's limit of 4300 digits) |
| C05 | `a2b_hex`, `b2a_hex`, `to_*_sha` | induction |
| C06/C07 | `apply_delta_data` loop on bytes, trace of writes | induction over instruction list / fuel = remaining bytes |
| C08 | `DeltaApplyReader` with two swapped fixed size buffers | invariant: live prefix of the base buffer = result so far; induction over the chain |
| C09 | `connect_deltas` & friends. In Python 3 the code raises `TypeError` (`ord(int)`, float index); that is what is proved of the code; the chunk algebra is additionally proved for the Python-2 reading | invariants over chunk lists |
| C10 | `stream_copy`, `write_object` over an arbitrary stateful reader | induction on fuel, measure = bytes left |
| C11–C16 | `DecompressMemMapReader` complete, over the zlib contract | invariant tying window position to zlib's consumed count; recursion on bytes left; counterexample streams for the parts that are false |
| C17 | writers, also after `close` (`Model/AfterClose.lean`) | fold lemmas, zlib contract; an ended compressor stays ended |
| C18–C25 | `IndexWriter.write`, `PackIndexFile` at byte level (v1 and v2) | layout lemmas (block addressing), sortedness, bisection invariant |
| C26–C29 | `write_pack`, `pack_object_at`, `PackEntity._object`, iteration, crc check at byte level | layout invariant of the pack body; combination of C01, C11–C15, C18, C19; start offsets of C27 by induction on the iteration, since reading never changes what `seek` resets to (`Proofs/PackResume.lean`); packs of any writer in `Props/AnyPackIter.lean` (bytes consumed by the copying loop, from the exact count of C15) |
| C30–C32 | `collect_streams*`, `_object` on abstract entry tables and on bytes | well-founded descent of offsets; divergence for zero back offsets and reference cycles |
| C33 | step model of `create` + directory | enumeration of crash points, symbolic in contents |
| C34–C38 | `LooseObjectDB` on a file-system map; step model for concurrency | invariants over arbitrary interleavings |
| C39–C41 | `MemoryDB` | refinement to a finite map |
| C42–C43 | `PackedDB` | permutation invariance; set refinement |
| C44–C46 | `CompoundDB`, tree of databases | cache invariant; structural induction on trees |
| C47 | `ReferenceDB`, alternates graph | list/set refinement; divergence on cycles by induction on fuel |
| C48 | `LockedFD` as a transition system over processes | inductive invariant |
| C49 | `__contains__` as written (reads a non-existing attribute) | direct; the property is false of the code |
| C50 | type tables | whole-table case analysis |
| C51 | `LooseObjectDB.sha_iter`, `size` on the same directory map as C38 | counting on the walk |
| C52 | `GitDB` as a tree over `LooseObjectDB`, packs and alternates | induction over the tree; growth only |
| C53 | `PackIndexFile` on arbitrary bytes | total case analysis; bisection bound |
| C54 | `is_valid_stream`, sha branch | soundness on arbitrary bytes |
| C55 | `pack_object_at` on arbitrary bytes | inversion against the entry format |
| C56 | object paths as strings, path resolution | string splitting lemmas; link to component paths |
| C57 | descriptors held by reading, storing, packs, locks | enumeration of failing calls |
| C58 | `BadObject.__str__`, `BadName.__str__`, `repr` of bytes | digits are not escaped; injectivity |
| C59 | `DeltaApplyReader` with merged chunk lists | C09 plus the readers' contract |
| C60 | tuples of `gitdb/base.py` | case analysis over classes and attributes |
| C61 | lazily set attributes of pack and index files | invariant over histories of calls |
| C62 | `force_bytes`, `force_text`, `byte_ord` | UTF-8 round trip |
| C63 | `is_loose_object` | arithmetic of the zlib header |
| C64 | streams of one database as input of `store` and `write_pack` of another (`Model/Transfer.lean`) | every source is an ideal stream; composition with C26, C34 |
| C65 | `_iter_objects` of `PackEntity` | an index lists its names in order (C19, C25); written packs as in C26 |
| C66 | `set_ostream`, `ostream`, `store` to a given `Sha1Writer` | simulation between the two writers for arbitrary sources |
| C67 | zlib's decompressor (`Model/Inflate.lean`) | output only grows, alignment at the checksum, at most 48 bits without output within a block; streams written out for the parts that are false |
| C68 | `hashlib.sha1` (`Model/Sha1.lean`) | machine against a specification after FIPS 180-4; invariant over updates; corollaries of C17, C39, C34, C26 |
| C69 | `DecompressMemMapReader` on arbitrary bytes | invariant: what was fed is a beginning of the bytes, what was returned a beginning of their output; inversion of the header parser |
| C70 | packs and indices larger than a window | an entry in its region looks the same in the cut file; otherwise the reader of C69 on a beginning of the compressed bytes |
| C71 | zlib streams as RFC 1950/1951 describe them (`Spec/Deflate.lean`) | forward: the machine run over each piece of the description (codes by the count of shorter ones); backward: from a run that ends, the pieces are recovered one by one, by induction on the bits left |
| C72 | `DeltaApplyReader` on arbitrary deltas (`Spec/RawDelta.lean`: two memory areas, each result written over the beginning of the other one) | a delta is split into its longest valid part and the rest (`parse_delta`); memory as "written over" what was there; for the size: invariants of the loops that need nothing about the streams |
| C73 | `DeltaChunkList.lbound`, `size`, `check_integrity` (`Model/ChunkCheck.lean`), with and without the method `next` of iterators | acceptance is equivalent to an index-wise description of the list; with C09 for merged chains |
| C74 | the reader on zlib's decompressor (`Proofs/OneBlock.lean`), `_set_cache_brute_` | a budget of bits: at most 294 bytes before the first output of a single block, 8 afterwards; the delta reader needs only reads of 512 bytes or of everything (`ObjectReadsFrom`). Stored blocks (`C74_stored`): a block begins with five bytes, so eight bytes always have output |
| C75 | `file_contents_ro`, `_RandomAccessBytesIO`, `allocate_memory` with failing `mmap` (`Model/FileMemory.lean`) | case analysis over the four ways through; simulation of mapped by growing buffers through `stream_copy` and `apply_delta_data` |
| C76 | the crc mode of `is_valid_stream` on a damaged pack (`Spec/Burst.lean`, `Proofs/CrcBurst.lean`) | crc as a linear map over bits; the step is injective, so a difference confined to 32 bits is never mapped to zero; `written_crc_of` reduces the check to comparing two crcs |
| C77 | `glob.glob` in `PackedDB.update_cache`, with `_iglob`, `_glob0`, `_glob1` and `fnmatch` of the standard library as in Python 3.11 (`Model/Glob.lean`); absolute paths without empty components, ranges in brackets are a parameter | the matcher against an inductive definition of shell patterns (`Spec/Glob.lean`); induction over the components of the path |
| C78 | model of C43; the directory is arbitrary at each call, a file is read when it is first used and kept; that smmap shares regions of the same path between databases of a process, so that even a new database may see an older file, is not modelled | origin of every pack and index as an invariant over the calls |
| C79 | `store` with every kind of `Sha1Writer` as output stream (`looseStoreTo`, models of C17 and C66) | simulation of one writer by the other through `write_object`; the system calls of the store to a file are filtered for what they write |
| C80 | `store` and `write_pack` with any announced size (models of C10, C26, C34, C39) | pieces written by `write_object` for any size; the header lemma of the reader for any announced size; induction over the objects of `write_pack`. The assertion of `write_pack` is kept as without `python -O` |
| C81 | `GitDB` and `ReferenceDB` whose databases are created at first use and refreshed, the disk an argument of each call (`Model/Live.lean`) | an invariant kept by every call on every earlier disk (item and index contents, root paths, files seen); induction over the depth of alternates for `update_cache(True)`; lookups by the `Locates` framework of C44; reading (`C81_read`) by a relation `Serves` between a database and what its sources give. Earlier disks have the same directories and files of alternates, keep object files, and files of packs do not change while they exist; a disk does not change during a call |
| C82 | `stream_copy` with readers that return less than asked, the stream of a loose object as input of `store` (`Model/Copy.lean`, `Model/Decomp.lean`) | `CopyReads`, the sequence of reads until the first short one, against the loop by induction, both directions; the rest as C79 and C80; the transfer from the reader of C34's large object. Reads that raise are in C79/C35 |
| C83 | `MemoryDB` with named streams, `_parse_header_info` failing on a reader without `_s` (`Model/Memory.lean`, `Model/Decomp.lean`) | the state of the reader after the failed parse is that of a reader with size 8192, kept by every session; reads by the invariant of C11; `StoredRaw` from C79's result on named streams. Headers as in C04: `HeaderRead` describes what is accepted |
| C84 | `write_pack`, `IndexWriter.write`, lookups and iterators as for C26, C20, C65, without the assumption that names are distinct (C22, C27, C29 do not make it either) | the entry found by bisection is one of those with the name; iterators go by place, not by name; for abbreviations the first match has an equal neighbour iff it occurs twice |
| C85 | `write_pack`, `IndexWriter`, `store` as for C26, C18, C36; `Spec/SameOutput.lean` says when two streams or writers cannot be told apart | two runs side by side (`Proofs/SameOutput.lean`), keeping hash, compressor and counters equal; a list sorted by name is determined by the entries of each name, since Python's sort is stable. Trusted: the compressor is a function of what it was fed |
| C86 | `_databases_recursive` and `partial_to_complete_sha_hex` of a `GitDB` whose databases are created at first use (`Model/LiveComplete.lean`) | C81's invariant strengthened: which databases there are (`LiveFull`), kept by reads; completion changes only the databases at the ends, which are put back; the loop over them by C45, single databases by C21 and C38. Assumed of the disk: indices without repeated names, the layout of C38 |
| C87 | `sha_iter` and `size` of such a `GitDB` | with C86's invariant, to which it is added that a `ReferenceDB` has each alternate once: induction over the depth; packs by the lists of their indices, loose objects by C51. `Census` (what there is, with multiplicities) determines the list up to its order (`census_perm`) |
| C88 | `read`, `seek`, `compressed_bytes_read` of a `DecompressMemMapReader` with caught exceptions (`Model/ReaderOps.lean`) | whatever raises `zlib.error` leaves a reader without buffer, with bytes to go and a broken decompressor; only `seek(0)` leaves this state. With the invariant of C69 |
| C89 | bisections of C19, C20, C09 | set of positions on which the result depends, by induction on the width |
| C90 | `read` of C11; the fuel of `Reader.readCore` is the number of calls that may be active | two windows in a row are together as long as what is left after them, so two calls read at least a ninth of it: twelve calls halve. For the other direction a stream of stored blocks (`pieces`) with one byte of output in each window |
| C91 | `read` and `new` of C11, on two files that agree at the beginning | one window ends at most `max(8, size)` behind what zlib has used, and that is at most eight times the output plus `g` (`Near`); both runs side by side |
| C92 | everything that reads a pack (C19, C22-C24, C28, C10) on arbitrary bytes | sets of exceptions composed along the calls (`Raises`); for deltas an invariant says that streams and buffers have room for what is written to them (`Sane`, `SpaceFor`), which excludes `OverflowError` and endless reads |
| C93 | `GitDB` on changing disks (C81) with any damage (C53) | invariant `OnlyFinds` carried through compound, reference and leaf databases by induction on the depth: caches contain only names that were there, items only files that were there; exceptions composed along the calls |
| C94 | loose objects (C69) and `GitDB` (C81) on arbitrary files | sets of exceptions composed along the calls (`ReadsRaise`), induction on the depth of alternates |
| C95 | `DeltaApplyReader` with the streams it consumes and failing allocations (`Model/DeltaRetry.lean`) | invariant on the topmost stream (read to the end, or 512 bytes short); a delta ending in 128 zeros is refused |
| C96 | `GitDB` on a changing disk (C81) with abbreviations (C86), arbitrary files | invariant: in every `ReferenceDB` below, each path is once in the list, through all calls; sets of exceptions composed as in C94 |
| C97 | as C96 | after collecting, everything below is loaded and the list is that of the ends (`collect_ends`); putting back relates the trees end by end (`put_rel`), so the invariants of C81 and C93 are kept; answers traced to index bytes or file names |
| C98 | abbreviations and file names as text (`Model/AbbrevText.lean`) | case analysis of the conversions; ASCII agrees with the models on bytes; nothing else is hexadecimal |
| C99 | as C10, C26, C34, C95, with a reader that notes its arguments | induction on the loops; unread streams have empty notes |
| C100 | `DeltaApplyReader` where allocations above a limit raise (`Model/DeltaMemory.lean`) | the allocated sizes are compared with the limit one by one; deltas with arbitrary bodies as in C72 |
| C101 | `DecompressMemMapReader`, streams from packs, `is_valid_stream` with the conversion of arguments to 64 bits (`Model/LargeSizes.lean`) | comparison with the models without the limit, by induction on the recursion of `read` |
| C102 | `pack_object_at`, `collect_streams`, `_object`, `collect_streams_at_offset`, `_iter_objects` with arbitrary answers for offsets outside of the file (`Model/Outside.lean`) | comparison with the model where nothing is outside, by induction on the chain; exceptions by the same induction |
| C103 | `_pack_info`, `_sort_entities`, the part of `update_cache` that adds packs, as steps of threads (`Model/Threads.lean`); `list.sort` of CPython | invariants over all schedules: places of a thread, who has the list, counters; concrete schedules for what is false; one thread alone against `Model/PackedDB.lean` |
| C104 | `Model/Loose.lean`, `Model/Fs.lean` | files with their directories as a list without repetitions; induction over the loop; an invariant of every system call a store makes, so of all interleavings and crashes; trees for what is false |
| C105 | `GitDB` with `_dbs` and `_loose_db` (`Model/GitLife.lean`, over `Model/Live.lean`) | invariant of all histories: either nothing is loaded and nothing cached, or the loose database is in the list after packs only |
| C106 | tree of `GitDB`s to any depth, with any databases below (`Model/Cycles.lean`) | upper and lower bounds on answers carried through nested compound databases; in a graph no more steps are needed than there are nodes |
| C107 | headers with the interpreter's limit on digits (`Model/Digits.lean`) | the shape of a header apart from its number; length of decimal numbers against powers of ten |
| C108 | `GitDB` step by step, shared by threads: list and `dict` objects, attributes (`Model/GitThreads.lean`) | invariant: the list in `_dbs` has all databases or the thread that made it is still going to add the rest |
| C109 | calls as trees of looks at the pack (`Model/SharedCursor.lean`), threads share the position of the cursor | undisturbed: the rest of a call returns the same; disturbed: invariant over the offsets that can be asked for |
| C110 | calls as trees of readings and settings of attributes (`Model/LazyThreads.lean`), threads share the attributes | every attribute that exists has its right value; what is left of a call is right and its number of steps bounded, whatever others set |
| C111 | `LockedFD` and `_retry` on both platforms as programs of system calls (`Model/WinLock.lean`), interleaved over one file and its lock file | a protocol (`Obeys`) that every sequence of calls follows; invariant over all processes: at most one has the lock, and the lock file is what it wrote |
| C112 | `store` of a new loose object on both platforms as a program of system calls (`Model/WinStore.lean`), stores interleaved over the object files | a protocol (`StoreObeys`) with the store's temporary file and whether its object is known to be there; invariant over all stores |
| C113 | the readers and the iteration with the branch for zlib 1.2.5 and 1.2.7 (`Model/OldZlib.lean`) | relation between the two readers: the same but for the count, which differs by at least 0 (`Counts`), and by the length of `unused_data` for reads of the right size (`unused_core`, `unused_scrub`); the iteration goes on behind the right offset (`iterOld_step`) and never back, since with this branch the count is never negative, whatever the data (`Upward`) |
| C114 | `PackEntity.create` on both platforms as a program of system calls (`Model/WinCreate.lean`), calls interleaved over the packs and indices | a protocol (`MakeObeys`) with the temporary files and the number of files published; invariant over all calls (`MakesInv`) |
| C115 | modes in the file system of `Model/Fs.lean`, with `looseStore`, `createPack` and `LockedFD.calls` as they are | two invariants over lists of system calls: a process renames only files it created (`ModeProg`), and each renaming to a path is followed by setting its mode (`SetsMode`) |
| C116 | the attributes of index, pack and entity together (`Model/EntityThreads.lean`), code on a part lifted to the whole | right code on a part is right code on the whole; otherwise as C110 |
| C117 | `MemoryDB.store` step by step, shared by threads: installed writer, writers, dict (`Model/MemThreads.lean`) | invariant: every running store has its own writer, which holds the pieces written so far; without the condition: an explicit interleaving for any two objects |
| C118 | `update_cache` step by step, shared by threads (`Model/UpdateThreads.lean`); `list.sort` of CPython as in C103 | invariant: every pack held anywhere is known; a call alone: phase by phase; overlapping calls: explicit interleavings for all lists |
| C119 | the list of a new `PackedDB`, made by threads (`Model/FirstPacks.lean`); list objects are numbered, one of them is the attribute | invariant: every pack held anywhere is known, and behind line 53 there is a list; completeness: the thread that made the last list, or one that took over, sees to every pack that is neither in it nor held by a sort of it, and only a sort that raises drops packs; multiplicity: what is in a list, held by its sorts and still to be added never grows; a thread alone: phase by phase; overlapping threads: explicit interleavings for all directories |

## Findings: where code and expectation disagree

Each is proved by the theorem named (of the model), unless marked "read", i.e. seen in the source only.
The findings on `DecompressMemMapReader` and those built on it (C12-C16, C26, C34, C64) hold for some codec meeting the zlib
contract above; C67 proves the central ones with streams in the real format. A short read of a large loose object needs
a first window of 8192 bytes which yields exactly 8192 bytes. Streams of Python's `zlib.compressobj(1)`, as `store` uses it, do that:
of 17000-byte objects made by `random.seed(A * 1000 + s); random.choices(range(A), k=17000)` with A = 248 about a quarter, e.g. s = 1, 5, 56;
the model, evaluated on them, returns 8819 of 17000 bytes from `read()`. Evenly random or well compressible data and sizes outside of
about 16371 to 19600 bytes showed no short read (evaluation, not proof).  What is proved: every read of a loose object whose stream does not
stall is exact, except the one that crosses the end of the header buffer of up to 8192 bytes, of which the three possible results are known
(`C12_one_inexact`); `read()` is complete up to twice that buffer (`C14_twice`) and for objects that compress well (`C14_large_compressible`,
`C14_small_file`: file of at most 8192 bytes, at least 8192 bytes shorter than the object).

Deltas and streams
* `apply_delta_data` drops a copy outside the source at the end of a delta silently (`C07_not_full`).
* `stream_copy` with size 0 on an object stream does not end (`C10_size_zero_never_returns`).
* `DecompressMemMapReader`: reads can return more than asked (`C12_not_full`), empty before the end
  (`C13_not_full`) or too little (`C14_not_full`); reported compressed sizes are wrong or never computed
  (`C15_double_count`, `C15_empty_object_diverges`; by how much: `C15_exact`); `seek(0)` keeps the header buffer (`C16_not_full`).
* A truncated loose or packed object is read without an exception, only shorter (`C69_truncated`, `C69_truncated_object`); cut within its
  header it can open as another object (`C69_cut_header`). A changed byte goes unnoticed if the compressed form is longer than the
  first window, since the checksum is then never looked at (`C69_damage_unnoticed`). When damage is noticed, what the failing call had
  read before is lost: no later read returns it (`C88_stays`).
* `read` calls itself once for each window that gives too little: a valid stream with many empty blocks makes it exceed any limit on the
  depth of calls (`C90_crafted`, `C90_no_limit`), i.e. raise `RecursionError`, for an object of about a thousand bytes.
* Damaged packs and indices show as `struct.error`, `IndexError`, `ValueError`, `KeyError`, `AssertionError` or `zlib.error` (C92). None of them is an
  `ODBError`, documented as "All errors thrown by the object database"; and `assert` is absent with `python -O`. `is_valid_stream(sha)` never returns
  `False` (`C92_sha`).
* `FDCompressedSha1Writer.close` that cannot write its last bytes leaves the descriptor open, and cannot be called again (`C17_fd_close_fails`).
* A pack object that crosses the end of a mapped region is cut silently (`C70_cut`, `C70_cut_never_complete`); only iteration notices
  (`C70_cut_iteration`). For objects behind the first region `is_valid_stream(sha, use_crc=True)` looks at none of their bytes
  (`C70_crc_beyond`). An index of more than about 38 million objects cannot be opened with windows of 1 GiB (`C70_index`).
* Writing to a `ZippedStoreShaWriter` after seeking corrupts it (`C17_write_after_seek_corrupts`); `FDStream` ignores short
  writes (`C17_fd_stream_unchecked`). `FDStream.read()` raises AttributeError; `FlexibleSha1Writer.write` returns None, so
  storing a new object through it raises TypeError (`C79_flexible`); `NullStream.read` returns text (read).
* A stream shorter than its announced size is stored without complaint as a file that is no object (`C80_loose`, `C80_short`); reading it
  back raises nothing either (`C80_read`). A stream with a short read is cut there (`C82_store`); the stream of a large loose object stored
  into another database is such a stream, the copy is damaged without an exception (`C82_transfer`).
* A stream with the name `b''` stored to a file raises AttributeError and leaves the temporary file behind (`C79_empty_name`); a stream
  with a name stored through a `ZippedStoreShaWriter` is compressed twice (`C79_twice`).
* `connect_deltas` and the merged reader raise TypeError in Python 3 (`C09_python3`, `C59_python3`); `compress`,
  `_closest_index`, `delta_list_slice` and `check_integrity` on their own are broken there too (`C09_compress_python3`,
  `C09_closest_python3`, `C73_python3`). `is_loose_object` never returns (`C63_python3`).

Packs
* The only thing an index reports as ambiguous is a name that occurs twice, that is one object written twice (`C84_abbreviation`); even with all
  40 digits, depending on the number of copies (`C84_all_digits`).
* Ambiguous abbreviations are never reported by an index (`C21_never_ambiguous`); offsets from 2 GiB are
  misreported by `offsets()` (`C23_not_full`), which breaks the crc check (`C28_large_offset`).
* `PackEntity.create` ignores what `os.write` returns: after a short write it installs the truncated pack or index and returns; with a
  truncated index, lookups of objects in other packs raise (`C33_short_write`).
* Object iteration never ends on an empty object (`C27_not_full`); after an object larger than `chunk_size` that compresses
  well it goes on inside that object (`C27_large`, `C27_large_real`: leftover input is subtracted twice); back offset 0 and reference cycles never end
  (`C30_not_full`, `C31_cycle`); an offset delta above a reference delta is resolved wrongly (`C31_not_full`, `C32_not_full`).
* Type ids 0 and 5 are accepted; a REF_DELTA name cut off by the end of the file and a truncated index go unnoticed
  (C55, `C53_truncation_unnoticed`). An index offset of 0 yields the entry at offset 12, even a bare delta with the
  text "OFS_DELTA" as type (`C55_offset_zero`). A wrong signature is refused once only (`C61_pack_wrong_signature`,
  `C61_index_version`).
* `is_valid_stream` in the sha branch asserts before returning: it never returns False (`C54_verified`).
* `PackEntity.create`: names `pack-b'<hex>'.pack` in Python 3, temporary files and descriptors leak on failure, short
  writes are ignored (`C57_create_leaks`); between the two renames old objects raise FileNotFoundError
  (`C33_not_full`). An `IStream` has no type id and cannot be packed (`C60_input_no_type_id`).
  `InvalidOInfo(sha, exc)` always raises TypeError, since its `__init__` passes arguments to `object.__init__` (`C60_invalid_raises`); nothing in gitdb creates one.
  `ODeltaStream` lacks the `__slots__` of the other classes: assigning e.g. `error` to it succeeds (`C60_read_only`).
* `PackedDB`: changes within one mtime tick are missed (`C43_not_full`), packs are lost after an exception
  (`C43_gap`); a pack replaced under its name is not reloaded, and may be read
  with the index of the new one: wrong objects without an exception (`C78_mixed`). The root path is not escaped for `glob`: below a
  directory called `x[1]` a database has the packs of `x1` and none of its own (`C77_bracket`); with `*` and `?` it has those of other
  directories as well (`C77_listed`).

Databases
* `LooseObjectDB`: one `read()` of a large object is short (`C34_not_full`); preset names and short writes are not checked
  (`C35_preset_name_unchecked`, `C35_short_write_unnoticed`); failing rename, makedirs or chmod leaves the
  temporary file (`C36_not_full`); a failing last write leaks the descriptor (`C57_store_leaks`). If the stream raises and that
  write fails as well, its OSError hides the exception of the stream (`C36_source_fails`). An empty object file
  raises ValueError; `_fd_open_flags = 0` is unreachable; `has_object(b'')` is true if the root exists (`C56_short`);
  `readable_db_object_path` can leave the directory (`C56_escape`).
  `ObjectDBW.store` documents that a stream with a preset name is "in object format (header + contents)"; it is copied as it
  is, so it has to be the compressed file (`C35_preset_name_unchecked`).
* `LooseObjectDB.partial_to_complete_sha_hex`: "it can't ever find the same object twice" (`gitdb/db/loose.py` 116) holds of directories that only
  stores write to (`C104_stores`), not in general: `os.walk` also looks further down, and names in capital letters count. A second file for an
  object makes it ambiguous (`C104_comment_not_full`); a name can be completed that `has_object` denies (`C104_completed_but_denied`).
* The stream given to `set_ostream` is not reset between objects: from the second object on, names are wrong
  (`C66_reused`, `C66_not_full`).
* A large loose object cannot be packed from the stream of its database: AssertionError (`C64_not_full`).
* `MemoryDB`: re-reading a half read stream misparses the header (`C40_not_full`); `stream_copy` into it compresses twice
  (`C41_not_full`, `C83_copy`). Bytes without a header raise ValueError for the first reader, and are returned raw to every later one, since
  `_s = 8192` stays set after the failed parse (`C83_read`).
* `CompoundDB`: stale answers (`C44_not_full`, `C44_stale`), no ambiguity from packs and AttributeError for a `MemoryDB`
  (`C45_not_full`, `C45_memory`). An abbreviation with capital letters is found in packs, not among loose objects (`C86_capitals`).
  `size()` counts an object once for each pack, loose copy and way through alternates, not once (`C87_census`).
  `CachingDB.update_cache` returns None by default: `False |= None` raises (read).
* `GitDB`: asked before its directory exists it raises InvalidDBRoot once, and then counts as empty for lookups, also when the directory has come
  to be, until something is stored (`C105_too_early`, `C105_store`).
* Threads and packs: all threads share the cursor of a `PackFile`, and `cursor.use_region(offset).buffer()` are two calls. A thread switch between them gives the
  data of the object another thread asked for, without an exception (`C109_swapped`); after `data()` it is the header of the pack, read as an object of type `b''`
  and size 0 (`C109_data`). This assumes that `use_region` moves the cursor and returns it; smmap is not
  part of the checkout, so this could not be looked up.
* `MemoryDB` in several threads: `store` installs its writer in the one `LooseObjectDB` and `LooseObjectDB.store` asks for the installed one later. If another store
  gets there in between, both write to one writer: without an exception one object is stored as an empty stream, and the other one is lost, under the name of both together
  (`C117_mixed`); in other interleavings a store raises zlib.error (example in `Props/MemThreads.lean`).
* A pack with a wrong signature, or an index of an unknown version, is refused only in the thread that reads the header: `_version` and `_size` are
  set before the check, and another thread's first call `version()` returns a number (`C110_signature`, `C110_unknown_version`).
* `LockedFD` on Windows: `commit` removes the file before it renames the lock file. If the rename fails, or the process ends in between, the file is gone; its new
  content is in the lock file, which no later process removes or reads (`C111_rename_fails`, `C111_stale`). Elsewhere the old file stays (`C111_rename_fails_posix`).
* Loose objects on Windows: `isfile` and `rename` are two calls. Of two stores of one new object at the same time the second can raise OSError although the object
  is there, and leave its temporary file (`C112_collide`). When the last write fails, the descriptor stays open (C57), and then the temporary file cannot be removed
  on Windows (example in `Props/WinStore.lean`).
* `PackEntity.create` on Windows: packing the same objects again raises OSError, since `rename` does not replace the pack, and leaves both temporary files (`C114_again`);
  elsewhere this succeeds (C33). If there is an index without a pack, the new pack is put beside the old index (`C114_old_index`). On both platforms exceptions
  of the objects leave two temporary files with open descriptors (`C114_source`).
* Modes: `PackEntity.create` leaves the pack and the index with the mode 0600 of `mkstemp`, unlike `store` and `commit`, so other users of a shared repository cannot
  read them (`C115_create_done`). A store stopped before `chmod` leaves such an object (`C115_store_stopped`), even in place of one that another store has made
  readable (example in `Props/Modes.lean`). `commit` replaces whatever mode a file had by 0644 (`C115_lock_done`).
* zlib 1.2.5 and 1.2.7: the branch `stream.py` 297-298 does not subtract `unused_data`. If `decompressobj` sets its attributes as CPython does with other zlibs
  (assumed; it could not be tried here), the count is too large whenever an object of a pack is read at once (`C113_wrong`), and iterating a pack fails after the first
  object (`C113_iteration`; for any pack `C113_skips`, `C113_second_missing`). Where the usual branch counts too little (C15), this one is right (`C113_one_right`).
* Threads and a new `GitDB`: `_set_cache_` sets `_dbs` to an empty list and fills it afterwards, and reads `_dbs` anew at each use. Other threads see the empty list
  (`C108_missed`), fill it twice for ever (`C108_twice`), or make `self._dbs[-1]` the wrong database, so that all stores fail from then on (`C108_stores_fail`).
* Alternates: cycles recurse without end (`C47_cycle`), up to the recursion limit, where an answer is still right, but objects that are there can be hidden by an exception (`C106_there_but_raises`), and a repeated lookup can succeed (`C106_twice`); relative lines are resolved against the working directory, comment
  and blank lines are taken as paths, `splitlines` splits at more than newlines, a bad file raises once and then counts as
  empty (modelled, C47). A pack directory or alternates file created after `_dbs` was set is never noticed (`C81_late`).
* `LockedFD`: after a failed open, commit reports success (`C48_failed_open`); a failed rename leaves the lock
  (`C48_rename_fails`); a failed close in read mode leaves it too (`C48_close_fails`), and a chmod failure after the rename reports
  failure although the file is replaced (`C48_chmod_fails`).
* `x in db` always raises AttributeError (`C49_raises`). Messages for abbreviations raise or name another object
  (`C58_abbreviation_str`, `C58_abbreviation_bytes`).
* The sizes at the beginning of a delta are believed (`gitdb/stream.py` 411-475). A delta that produces less than it announces yields an
  object filled up with zeros (`C72_short_filled`), in a chain of two with bytes of the base object (`C72_two_stale`). A final copy from
  outside the source reads as zeros, in an object of the right size (`C72_outside_copy_zeros`). Results that are too long are cut if the
  memory of the chain has room for them, else `ValueError`; a delta announcing 0 bytes is read as empty, whatever it produces
  (`C72_long_refused`). The comment "sanity check - the first delta to apply should have the same source size as our actual base stream"
  (419-420) has no check behind it. git refuses all of these.
* `check_integrity` calls `right.next()` (`gitdb/fun.py` 312), which iterators do not have since Python 3: it refuses every list of two or
  more chunks (`C73_python3`). The data of a single chunk is not checked, an empty list raises IndexError (`C73_short`). Nothing calls it.
* Objects in several DEFLATE blocks, unless these are stored (`C74_stored`), can be read short in the middle (`C74_short_read`: `read(128)` returns 127 of 204 bytes): when a window of
  compressed data is used up, the next one is mostly 8 bytes long, and the description of the codes of the next block does not fit. `stream_copy`
  takes the short read for the end and reports success (`C74_copy_truncated`). A delta over a base that stalls is applied to the zeros of the
  fresh buffer: right size, wrong content, no exception (`C74_zeros`).
* When a file cannot be mapped, `file_contents_ro` takes one `os.read` for the whole file (Linux returns at most 2147479552 bytes at once), from the
  position of the descriptor (`C75_position`, `C75_loose_short`); an empty file raises ValueError instead of giving no bytes (`C75_empty`). When anonymous memory
  cannot be mapped, a delta that produces too much is cut instead of refused (`C75_fallback_cut`).
* An object announcing 2^63 bytes or more (twenty digits in a loose object, ten bytes in a pack) can be opened, but `read()` raises
  `OverflowError`, which is none of the exceptions of `gitdb.exc`; the bytes read along with the header are lost by this, so a later
  `read(n)` does not start with the content (`C101_over`, `C101_loose` and the example beside it).
* Offsets taken from an index, and those of bases of deltas, are not compared with the size of the pack. With an index of another pack the
  result depends on what smmap does outside of the file: IndexError, another exception, or another object (examples beside `C102_read`).
* `_pack_info` claims that in multi-threaded operation "the worst thing that can happen though is a counter that was not incremented, or the list
  being in wrong order". Objects that are there can be missed (`C103_not_full`): every 500 hits, and at every lookup before the first hit, the list
  is sorted in place, and CPython's `list.sort` empties the list while it calls the key function. A list in another order is not harmless
  either: a lookup that is under way skips a pack (`C103_order`). If another thread adds packs at the same time, lookups can raise ValueError
  ("list modified during sort") and packs, even all old ones, are lost from the list (`C103_pack_lost`, `C103_all_lost`). During the first use,
  other threads see an empty list (`C103_loading`, lines 53-54).
* `update_cache` in two threads at once: both add the new packs, which are in the list twice then, so that `size()` and `sha_iter` count them twice (`C118_twice`), and
  one of the two stays when the pack is removed from the directory (`C118_counts`); both delete at the
  place of a removed pack, so that the next pack is lost until the directory changes again (`C118_lost`); or one raises AssertionError, IndexError or ValueError
  (`C118_assertion`, `C118_index`, `C118_value`; with the last one a new pack is lost). Apart from these exceptions both return True.
* The first use of a `PackedDB` in two threads: `_set_cache_` sets `_entities` to an empty list before packs are added, so that a thread that asks in between gets an empty list and
  does not find objects that are there (`C119_early`). Two threads that both found the attribute missing make two lists; packs may be in the list twice (`C119_twice`), or all but one are lost,
  with ValueError in the other thread (`C119_lost`). They stay lost until `update_cache` is called after the directory has changed, or with force.
* Sizes announced by deltas are allocated before anything is checked: a delta of `k + 2` bytes asks for `2^(7k)` bytes (`C100_announced`, `C100_few_bytes`);
  from `2^63` on `mmap` raises `OverflowError`, which `allocate_memory` does not catch. `allocateMemory` in the other modules has no such limit.
* A `DeltaApplyReader` that failed once – also for lack of memory at that moment – raises in all later calls, mostly a bare `AssertionError`
  from `msb_size`; `seek(0)` does not help and the stream has to be fetched anew (`C95_no_retry`, `C95_assertion`). At least nothing wrong is
  returned (`C95_all_or_nothing`).
