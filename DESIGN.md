# Verification design — AlayaLite

Source: `/repo` (C++ headers under `include/`, Python binding under `python/`). The code is only
read; nothing is built or run. Every Lean definition cites the file and lines it models.

## 1. Layout of the Lean project

* `Verif/Model/*.lean`  — executable models of the code (one file per component).
* `Verif/Spec/*.lean`   — small specifications that do not mention model helpers.
* `Verif/Lemmas/*.lean` — helper lemmas.
* `Verif/Props/Cxx*.lean` — the property theorems (names start with the property id, e.g. `C01_…`)
  together with one `example` per theorem that shows the hypotheses are satisfiable.
* Negations ("the code does not have the property") are called `Cxx_…_refuted`, are proved with a
  concrete witness, and come with a `…_partial` theorem that states what does hold.

## 2. Common modelling decisions

* Byte strings are `List UInt8`. Fixed-width integers are `Nat` with an explicit bound, or an explicit
  `% 2^w` where the code narrows (`static_cast<uint32_t>`). Overflow is modelled wherever the property
  is about it (C35, C38).
* Exceptions are `Except`/`Option` results; undefined behaviour (out-of-bounds access, null) is a
  separate outcome (`none`/`.ub`) and never silently totalised; theorems state the guard explicitly.
* Distances are elements of an arbitrary type with a decidable linear order (no NaN), except where
  IEEE bit patterns are the subject (C02). The SIMD kernels are modelled lane by lane over any commutative ring
  (C75) or any arithmetic with a few laws (C76); rounding errors are not bounded.
* RocksDB is an ordered map from byte strings to byte strings with atomic write batches (assumption on
  the library). `std::unordered_map` is an association list with unique keys; iteration order is an
  arbitrary list order (theorems hold for every order).
* The file system: a file is a byte list; `rename` is atomic; a crash during `write` leaves any prefix
  of the bytes being written; data that was fsynced is not lost. A crash can happen between any two steps.
* Concurrency: a shared object protected by a mutex is a transition system whose steps are the critical
  sections; an execution is an arbitrary list of steps (any interleaving, any number of threads).
  Weak memory effects outside of locks/atomics are not modelled.

## 3. Per property plan

| Id | Modelled | How it is proved |
|----|----------|------------------|
| C01 | `encode_int64`/`decode_int64`, hex printing/parsing on bytes | arithmetic: xor 2^63 = +2^63 mod 2^64; fixed-width hex is order isomorphic (induction on digits) |
| C02 | `encode_double`/`decode_double` on bit patterns | spec = exact integer value of the double (scaled by 2^1074); monotonicity of magnitude; the range-scan edge cases refuted with witnesses |
| C03 | serialize/deserialize of `ScalarData` | round-trip by induction on the metadata list; prefix rejection by "parser consumes exactly n bytes, and fails on any shorter input" |
| C04 | the two selective parsers incl. their `skip_*` helpers | simulation: both parsers advance to the same offsets; induction over entries |
| C05 | filter evaluator and raw evaluator | structural induction over filter trees: evaluation depends only on the collected fields; uses C04 |
| C06 | index keys and prefix scan | refutation (value "a" / "a_b"); positive partial: for values of fixed-width encodings (int, double, bool) and for strings for which no longer stored string value continues with "_" |
| C07 | key construction and parsing | zero-padded decimal: injective, order isomorphic, parse inverse; first bytes differ for other key spaces |
| C08 | `BinaryWriter`/`BinaryReader` | induction over the value sequence; bounds: a successful read returns a slice of the buffer |
| C09 | WAL frame encoder, header reader, frame scanner | round-trip by induction over frames |
| C10 | the scanner on prefixes | prefix lemma: scanning `take n (encode fs)` gives exactly the frames that end at or before n |
| C11 | the scanner and the pending map on arbitrary bytes | invariant over the scan loop |
| C12 | index-level log life cycle: append (possibly torn), crash, load (replay, conditional truncate) | refutation with a two-crash schedule; partial: holds when each recovery truncates, or no append was torn |
| C13 | `publish_snapshot` as a step list over (manifest, CURRENT, wal, snapshot dirs) | case analysis over the crash point with an abstract state machine; replay filter `> applied_through` |
| C14 | manifest text | induction over lines/characters; decimal printing/parsing inverse |
| C15 | op-id counter of `PyIndex` and of `RecoveryManager` | invariant; refutation for `RecoveryManager::next_operation_id` used alone |
| C16–C19 | RocksDB storage operations on the byte-level KV map | one invariant + refinement to `id ↦ record`; corollaries |
| C20, C21 | `SequentialStorage` | invariant over histories; save/load round-trip incl. the bitmap byte arithmetic |
| C22 | `RawSpace` counters | refutation (double remove) and partial (removes only of live ids) |
| C23 | `DynamicBitset` word arithmetic (and hierarchical bitset) | `Nat.testBit`/`BitVec` lemmas |
| C24 | `EpochVisitedSet` | invariant: stored epoch ≤ current epoch, reset on wrap |
| C25 | `LinearPool` | refinement to "sorted list truncated to capacity" |
| C26 | `NeighborPriorityQueue` | invariant (sorted, bounded), exact description of result |
| C27 | Vamana greedy search loop | termination measure (unvisited, unexpanded); invariants; completeness when L is large |
| C28 | `occlude_list`, `prune_neighbors` | loop invariants; floats abstracted as an ordered type with an arbitrary ratio function; termination by bounded alpha rounds |
| C29 | rerank and heap based top-k | permutation + sortedness |
| C30 | flat searcher heap loop | invariant: heap content = k smallest so far |
| C31 | multi-segment merge | top-k of concatenation of top-k's = top-k of concatenation |
| C32 | atomic counter dispatch | invariant over arbitrary schedules |
| C33–C35 | DiskCollection state machine with file-system steps | invariant over histories; crash points as prefixes of the step list; 64-bit arithmetic for the cap |
| C36, C37 | manifest text, decimal parser | induction |
| C38 | geometry arithmetic, record packing | `Nat` div/mod arithmetic, round-trip; header check overflow refuted |
| C39 | LRU write-back cache + disk | refinement to a flat page map |
| C40 | versioned fill protocol | transition system with arbitrary interleaving, inductive invariant |
| C41–C44 | allocator, tombstones, visited bitset, node cache | invariants over histories, serialise round-trips |
| C45 | label maps of `DiskANNIndex` | invariant over histories |
| C46 | search snapshot / label lookup vs remove+insert | refutation by a concrete schedule; partial: without slot reuse during the search |
| C47 | flush step list and load | refutation by concrete crash point; partial: complete flush round-trips |
| C48 | `AsyncGate` | invariant over interleavings |
| C49 | `merge_shards` core loop | induction over global ids; shuffle = arbitrary permutation |
| C50 | partition selection | induction over filter trees; value equality abstract (NaN noted) |
| C51 | Python dict filter compilation | refutation (field next to `$or`); partial for dicts without `$or` next to other keys |
| C52 | upsert at capacity | refutation; partial below capacity |
| C53 | durable index state machine | refinement to committed-operation list, using C10/C13 |
| C54 | three filter paths | equality of selected sets, for filters outside C06's defect class |
| C55 | `delete_by_filter` loop | refutation (empty item ids); partial |
| C56 | beam search | invariant for arbitrary completion order |
| C57 | reconnect | list lemmas |
| C59 | thread-local scratch of the greedy search | simulation: states equal up to stale contents give equal results; invariant that a finished search leaves a reusable scratch |
| C60 | records in pages: node writes, neighbour rewrites, reads, coordinate cache, flush | refinement to a map id → (vector, neighbours), on top of the page invariant of C39 |
| C61 | `Model/VamanaFile.lean`: writer and reader on byte strings | round trip by induction over the records; converse (canonicity) by inverting the record loop |
| C62 | merge output fed to the reader model of C61 | composition of C49 and C61; size bound from the degree bound |
| C63 | `Model/ShardAssign.lean`: top-k scan with sentinels and NaN, scatter loop | invariant of the scan (sorted, sentinels only while nothing was dropped), closed form of each shard |
| C64 | No-PQ beam search over a fixed graph | invariant: everything reachable is visited or waits to be; exactness from the candidate list never overflowing |
| C65 | neighbour regions of the scratch | ownership invariant (free + owned regions partition) through all steps |
| C66 | buffers, in-flight reads, completions, several queries | invariant over arbitrary schedules of search and kernel steps; counterexample schedules |
| C67 | `search_solo`, `initialize_search`, the way down through the overlay, LinearPool, rerank | invariant over the rounds; fuel bound = n+1; exactness by closure under expanded rows |
| C68 | `hybrid_search_solo` with every strategy, search iterator, search buffer, output array as 32-bit words, executor as an interface tied to the one of C54 | invariants of buffer and iterator on top of C67; all numbers of the cost estimate arbitrary; counterexamples |
| C69 | `insert_and_update`, `remove`, `update`, `search_solo_updated`, JobContext, rows, flags, vectors of any type | invariant over histories, refinement of a list of flagged vectors; search results from C67; counterexamples for reachability |
| C70 | `Worker::run`, `Scheduler`, the `search` coroutine, `batch_search` on an in-memory index | transition system, one atomic action per step; ownership invariant, ranking for progress under fairness; the coroutine refines `search_solo` (C67); counterexamples for misuse |
| C71 | `Graph`, `OverlayGraph`, `RawSpace` and `save_state`/`load_state` byte for byte | round trip of every part (C21 for the slots), then equality of the index the search and update models see; counterexamples |
| C72 | `ThreadPool` as a transition system of critical sections with arbitrary scheduler, one client program; the HNSW builder as such a program; `future.get` loop of the batch search | invariant over all schedules (counting, FIFO, no lost wake-up); progress by a decreasing measure and stability of useful moves under fairness; counterexamples |
| C73 | the NSG builder behind the kNN graph: entry search, linking with pruning, reverse links, copy, depth-first search, attaching; one thread, arbitrary draws; insertion into the storages it leaves | invariants by induction over every loop; termination by the number of unvisited vectors; endless loops proved for every amount of fuel; counterexamples |
| C74 | the two scalar quantisers and the distances of their codes; floats are rationals, infinities and NaN with an arbitrary rounding in the quantiser, exact rationals in the distances | induction over the data set and the coordinates; monotonicity and error propagation through subtraction, division, scaling and truncation; counterexamples |
| C75 | all distance kernels as loops over registers (lists of lanes) with loads that fail behind the end of the memory, over any commutative ring; the selection of a kernel from the processor features | loop invariants: lanes plus what is left is the total; every shuffle of the horizontal sums, the mask and the halves of the bytes computed; case analysis for the selection |
| C76 | every assembly block of the transform instruction by instruction on registers and memory operands, the loops around them, the generic transform, the rotator with both versions of signs and Kac's walk | symbolic execution of the blocks by kernel reduction and transfer to all values by a homomorphism; one lemma on loops whose iterations touch disjoint places; induction on passes for the Walsh–Hadamard sum; inner products doubled by each pass |
| C77 | bit packing, nibble layout, the three kernels on 16-bit lanes with the shuffles, blends and permutations as documented, the table and its quantisation with both rounding modes | loop invariants on the four accumulators modulo 2^16; case analysis over the 32 lanes for the final permutation; error of one entry at most half a step, summed |
| C78 | factors and bits of a neighbour, storing them in the arrays of a node, the query's tables, both builds of the estimate; rotation of C76, tables and kernels of C77, exact distances of C75 | the rotation keeps inner products; the estimate's error is the inner product of the rotated q - c with the part of o - c the code does not represent, bounded by Cauchy-Schwarz, plus the table error of C77 |
| C79 | `SearchBuffer` with cursor and checked bits, the hash set with its overflow set, the search loop, the supplement, the iterator and the search with a mask | invariant of the pool (sorted, cursor at the first unchecked entry) and of the loop (every edge of an expanded node leads to an expanded node, to an entry of the pool, or the pool is full of smaller estimates); the number of rounds is bounded by 33 per unexpanded node plus the unchecked entries; the hash set is shown to be a set |
| C80 | `QGBuilder`: random start, candidate search (on the search of C79), pruning, reverse edges as interleaved threads, supplement, entry point | invariant of the reverse phase (list and buffer of a node together hold distinct other nodes; whoever is in a buffer has passed the corresponding position of its own list) over all interleavings, with a measure for the end; lists stay good through every phase; fair random numbers end the random loops, pigeonhole |
| C81 | offsets of the parts of a node, the storage as bytes, `fit`, what `update_nei` writes, `save`/`load` with streams that may fail | arithmetic of the offsets; read-after-write and frame lemmas on bytes; induction over the rows; round trip field by field; the effect of a cut computed in general |
| C82 | the insertions of the HNSW builder as threads that take the locks of the code, the heuristic, the searches during construction, the visited lists, the copy into the searched graph | invariant over all schedules, a lexicographic measure for termination, waiting only for insertions that are further ahead for freedom of deadlock; the copied graph meets the hypotheses of C67 |
| C83 | the two parallel loops of the Vamana builder as threads whose steps are the locked sections, the search and pruning of a node, reverse edges, the second pass, the entry point | invariant over all schedules, a natural number that falls with every step; a second invariant for one thread; with C61 for the file and C27 for the search; concrete data and one schedule for the refuted parts |
| C84 | product quantisation tables: training, parallel loops drawing blocks from a counter, codes, query tables, tiles, symmetric table, files; arithmetic as a parameter | invariant of the counter loop over all schedules; formulas for every operation; sums over an ordered field for exact distances and the descent of k-means |
| C85 | the codes as buffers on a heap, threads that insert, remove and search step by step, with and without the shared lock | invariants over all interleavings (exclusion of readers and the writer; slots written only while invisible), counterexample runs |
| C86 | the partitioned Vamana build: sampling, k-means++ and Lloyd's rounds with arithmetic as a parameter, choice of the number of parts, memory estimate, dispatch; assignment, builder and merge by their own models | induction over the loops; ordered fields for exact k-means; C63, C61 and C83 for assignment, merge and builder; counterexamples |
| C87 | `Collection.reindex` on top of the index content (C52) and the recovery directory (C12): collection of rows, thread check, new native index with its recovery numbers, fit checkpoint with crash after any step | invariant of C12 re-established with the old `applied` number; refinement to the item map; refutations for the thread check, empty ids and the window |
| C88 | `Client` with several collections: path joining and resolution on byte strings, recovery directory and schema file by resolved path, memory and clock by name; each collection is the system of C12/C87 | frame argument: events of one name leave the other's directories alone (path algebra), then induction over the interleaving; C12 for the content; refutations for shared parents, odd names and explicit paths |
| C89 | Vamana segments: the constructor of the searcher check by check, its search (greedy search of C27 on the file contents), `finish` as file-system steps, flush with the searcher opening what was built, parameters in the manifest, open; the graph of a build is an argument (C83 says what builds give) | what opening checks gives the hypotheses of C27/C61; outcomes of a flush by cases over the fault, then an invariant over histories as in C33/C34; refutations by concrete runs and one invariant (`C89_stuck`) |
| C90 | search of a LASER segment: candidate pool, result array, visited set, buffer slots, requests with the device; one event is a step of the search, the execution of a read, a failed read or a refused submission; the caller's options and the single workspace | one invariant over all events (visited nodes, slots, pages, counts, offers) with a measure that drops at every event that changes something; fair schedules end by induction on it; the result by the invariants of C79's buffers; refutations by concrete schedules |
| C91 | import of a LASER segment (checks, copies or links, manifest, rename, searcher, publication) step by step over files, with a fault or crash at every step; the constructor of the searcher; the native loader (header, signs, medoids, PCA, cache) on bytes; open and recovery of a collection | invariant over all histories (listed segments open, labels unique) with the infrastructure of C34/C89; plan = hypotheses (iff); the directory written is read back by manifest round trip; loader on the writers' layouts by list lemmas; refutations by evaluation of concrete sources |
| C92 | the LASER builder: reading the graph file, base vectors, bytes of a node (order and offsets of all writes into the page scratch), page assemblers handed nodes in any order, flush of partly filled pages, first sector, cache files | invariant over the loop for an arbitrary permutation (each page holds exactly the nodes handed over); byte-wise extensionality against a layout in Spec/LaserIndex; graph reader by induction on the file; composition with the loader of C91; refutations from the general theorem or by evaluation |
| C93 | the pipeline of `laser.Index.fit`: checks, side file with the seed, six steps with their validators, resumption of the transform, crash in any step with arbitrary remains; `from_prefix` | Hoare-style chain over the steps (`StageOk`), once for a rebuild and once for files that the checks accept; invariant over histories (`Hist`); concrete environment over the builder of C92 in which all hypotheses hold; refutations from general theorems about what is reused |
| C94 | an index whose search space holds codes: the `Ix` of C69 over codes with a query computer that ignores the removed marks, the build space with its own rows, marks and id check, search with rerank | the update lemmas of C69 hold for any query computer; invariant that ties codes and marks of both spaces together; the walk keeps `ef` or all reachable rows, counting of removed rows among them |
| C95 | the three files of a quantised index byte by byte (graph and spaces of C71, codes followed by the quantiser), loading into a fresh job context, the view of the loaded index as the quantised index of C94 | round trip of every part with arbitrary rest and arbitrary fresh memory; equality of the views up to the record of removed rows; the invariants of C69 and C94 do not need that record |
| C96 | the reactor as a transition system: frames of the batches, submission queue, kernel, completion queue, the completion under dispatch, the lock, the poison flag, the counter; one action per atomic access | invariants over all executions: who holds the lock and what the submission queue holds; every read the kernel has ever taken is in exactly one place; the frames' counters and results as functions of the dispatched completions; a wave that has ended owns no outstanding read; progress by cases, termination by a measure |
| C97 | the reader as a transition system: phase, descriptor, stop flag, queue of reads, workers by program point, contexts with their completion queues, calls of get_events in progress; what is seen from outside is a trace of accepted, performed and handed-out reads | counting equations between the trace and the places a read or event can be in, for each read and each event, by induction over the execution; an invariant that everything in use belongs to a live context; end of get_events and close by a measure; waiting for ever by an invariant |
| C98 | from_kwargs, fill_none_values, to_cpp_params, the 33 branches of the factory, what PyIndex::fit builds, normalisation, file names, schema document (as decoded JSON); outcomes ok / exception / process exit / undefined behaviour; vectors over the reals | case-insensitive equality of names characterised letter by letter; every check as an iff; table membership against a rule; inner products of normalised vectors; round trip of the document |
| C99 | All handlers of the REST service over Client and Collection; state = the two maps, per collection metric and native index, directories with a schema; the native index and the file system are arbitrary functions (may fail anywhere), error texts are lists of characters, substring test modelled; FastAPI's validation and JSON encoding only as 'passed' / 'has a JSON form'; odd names are C88 | case analysis per request; induction over histories with a client's book; invariant 'has data' over requests and restarts; substring = infix; decimal text injective; demo native index for the refutations |
| C100 | SentenceChunker and SemanticChunker: re.split with the pattern's look-behinds and its matches of no characters as one pass over the characters; strip, Python slices with negative indices, the chunk loop (possibly endless), the window loop; tables of white space and word characters, the embedding and the comparison of two windows are arbitrary; FixSizeChunker is third-party and not modelled | induction over the text (each piece lies in the document; cuts sound and complete against a specification of sentence ends); the loop against a closed form of windows; induction over the pieces with the invariant 'no cut passed since the last one' |
| C101 | calc_recall (both languages), recall_at_k, calc_gt, find_exact_gt, percentiles; ids of any type, distances in any linear order, any function that sorts positions; 32-bit counters in C++; numpy's assignment of one number to a row; ratios are exact instead of floating | counting against the cardinality of an intersection of finite sets; loops against sums over rows; permutation and sortedness of the sorted positions; uniqueness of the nearest without ties |
| C102 | the readers and writers of .fvecs, .ivecs, .fbin and .ibin in utils.py, bench/_datasets.py, laser/_io.py and io_utils.hpp on byte strings; a row is its bytes; 32-bit wrap-around in C++; an exception, exit and a write outside an array are one failure | induction over the rows (completeness) and over the loop (soundness: what was accepted is the rows re-encoded) against an encoding of the file formats |
| C103 | SpinLock, SharedLock, FileLock as transition systems with one step per atomic operation, any number of threads, spurious failures of the weak exchange, assertions on or off; sequentially consistent memory, the counter does not overflow | invariants over all reachable states: the flag or counter equals the number of holders, a loaded value is never that of a writer, the owner is the one inside |
| C104 | load_dataset on the bytes of the three files, with the readers of C102 and find_exact_gt of C101; resize, 32-bit products, download as any change of the files; the lock is C103 | C102 for the arrays read, C101 for the recomputed rows, equality of resized arrays with the first rows |
| C105 | LASER's pack_binary (64-bit words), byte and nibble swaps, pack_codes_helper, byte tables modulo 256, the portable kernel, int16 conversion and estimate; the SIMD kernels are those of C77; floats as an ordered field, rotation and computation of the stored factors left out | packing proved equal to that of C77, kernels equal to the sum of table entries, tables exact below 256, rounding error per coordinate at most one step |
| C106 | `HashSetPool` and its use by any number of threads; steps are the two critical sections, `clear` outside the lock, calls on the set, and failure of a search; sets named by place in a list, destructor left out | invariant over all histories: pool without repetition, holders distinct and outside it, each busy set represents the marks of its thread |
| C107 | `ConcurrentQueue` as pool of workspaces of DiskANN searches, with polling `acquire` and `release` on both exits; steps are the critical sections; contents of a workspace left to C64-C66 | invariant over all histories (free and used workspaces partition the pool), counting by injections, progress from the partition |
| C108 | `gen_random` on arbitrary draws; the candidate pool of one node of the NN-descent builder under arbitrary offers, and its row; distances in a linear order, the standard heap functions trusted, `update` and the choice of offers left open | strict increase and range of the bumped draws; invariant over offers (true distances, nothing nearer lost, size, no repetition); sorting lemmas for the row |
| C109 | `submit_batch` of `IOUringEngine` with an arbitrary kernel (error or any number of entries taken at each submission), and the completions; what is transferred and failures to make the ring left out | loop invariants for chunk and batch (prefix in flight, marks of the rest), induction on the kernel's answers |
| C110 | `submit_async_read`, `check_completion`, `drain_async` of `IOUringEngine` with an arbitrary kernel and callbacks that submit reads; callbacks that poll or drain, and batches on the same ring, left out | invariant (callbacks run and reads under way are a permutation of the accepted reads; contexts and counter agree), induction over the operations |
| C111 | `MMapFile`, POSIX branch, with arbitrary answers of `open`, `fstat` and `mmap`; Windows branch, messages and file content left out | invariant (mappings and objects that hold them correspond one to one), induction over the operations |
| C112 | checks and pointer arithmetic of the Python DiskANN bindings; NumPy's contract of the flag C-contiguous is a hypothesis (`Arr.numpy`); the copying of results and the conversion of scalars left out | case analysis of the checks, row-major offsets |
| C113 | `relayout_adj`, one row; the order `std::sort` gives is a parameter; `read_freq` not modelled | induction on the row, counting (a sublist without repetitions of the same length is a permutation) |

## 4. Trusted base

* Lean 4.33 kernel. Axioms: at most `propext`, `Classical.choice`, `Quot.sound` (checked with
  `#print axioms` for every property theorem).
* The reading of the C++ code: the models are hand written; each definition cites its source lines.
* Assumptions on libraries/OS as listed in section 2.
* Not modelled: rounding errors of the distance kernels, the NN-descent builder beyond C108
  (the choice of offers, `update`) and its thread use (C72), io_uring/libaio below their interface (C90 lets a submitted read be executed at any later time), batches and callback reads mixed on one ring (C109, C110 take them apart), memory reclamation, Windows branches.

## 5. Disagreements between code and property found so far

Each entry names the theorem that proves it (a concrete witness in the model).

* C02 — range scan with a zero bound: `-0.0` sorts strictly below `+0.0`, so `>= 0.0` misses `-0.0`.
* C03 — strings of 2^32 bytes or more are truncated by the `uint32_t` length (`scalar_data.hpp` write side).
* C04/C05 — raw bytes with a duplicate key: full decoding keeps the last entry, selective decoding the first.
  `serialize` never writes such bytes. `deserialize_single_field("")` never finds the empty key.
* C18 — `count_` is only persisted by `flush`/close, so after a crash `count()` is stale
  (`C18_count_crash_refuted`).
* C06 — equality lookup is a key-prefix scan, so searching `"a"` also returns a record with `"a_b"`
  (`C06_string_prefix_refuted`), and a field name may collide with another field plus type tag
  (`C06_field_name_refuted`).
* C54 — the index fast path of `MetadataFilterExecutor` disagrees with evaluating the filter: `"a"`/`"a_b"`,
  `0.0`/`-0.0`, NaN bits, `>=` misses `+inf`, `> DBL_MAX` returns `DBL_MAX`, `>= NaN` (`C54_*_refuted`).
* C12 — `load` with a snapshot and nothing to replay keeps the torn tail of an interrupted append. Later frames are
  appended behind it, so the operations acknowledged after that recovery are unreachable for the next one
  (`C12_torn_tail_refuted`).
* C13 — snapshot directories are named by the millisecond clock. A second snapshot with the same name rewrites the
  current one in place; a crash leaves no usable snapshot (`C13_same_millisecond_refuted`).
* C14 — a manifest with lines missing (other than `snapshot_id`) is accepted with default values
  (`C14_missing_lines_accepted`, observation).
* C15 — the id of a call that threw is reused after `save` plus restart (`C15_aborted_id_reused_refuted`);
  `RecoveryManager::next_operation_id` ignores the snapshot (`C15_next_operation_id_refuted`).
* C52 — `upsert` of an existing item in a full index removes the old record; the following insert returns
  `invalid_id()` without an exception, so the rollback does not run and the record is lost
  (`C52_full_index_refuted`, and for every full index `C52_full_index_loses`).
* C58 — NOT with several parts evaluates only the first (`C58_not_several_refuted`; the code logs a warning);
  a stored NaN satisfies `>=` and `<=` (`C58_nan_refuted`).
* C22 — a removal of an id that is not live and an insert refused by a full storage are counted; the 32-bit counter of an
  empty space wraps to 2^32 - 1 (`C22_double_remove_refuted`, `C22_refused_calls_counted`).
* C25 — ids of 2^31 and above collide with the visited flag (`C25_large_id_refuted`); a pool of capacity 0 reads
  `data_[-1]` (`C25_capacity_zero_refuted`).
* C26 — deduplication is only by equal (id, distance) at the insertion position; an id offered with two distances is
  stored twice (`C26_inconsistent_distance`, observation; callers compute one distance per id).
- C28: `alpha = +inf` is accepted by DiskANN as `update_alpha` (diskann_index.hpp:129,1111) without a check. The ramp never passes
  it, so `robust_prune` keeps running rounds: if the pool holds only the node itself the loop never ends, and if rounds do run at
  infinite threshold a candidate can be selected twice. Negation proved in `C28_infinite_alpha_refuted`.
- C31 (observation): release builds use -Ofast (cmake/AlayaFlags.cmake:39), which lets the compiler fold `std::isnan` to false. The
  LASER ordering marks hits without distance by NaN; without the test they compare equal to everything and the rank order between
  such hits is lost (`C31_fast_math_observation`).
- C32: `DiskANNIndex::batch_search` uses a 32-bit counter (`fetch_add`) for the next query. With n = 2^32 - 1 and two workers the
  counter wraps and query 0 is executed again (`C32_counter_wrap_refuted`). An exception thrown in one of its workers terminates
  the process instead of reaching the caller (`C32_worker_exception_observation`).
- C36 (`disk/manifest` text files): `CollectionManifest::save` does not bound the text it writes while `load` refuses
  files above 1 MiB. After about 49 900 flushes the collection publishes a manifest that no later `open` accepts
  (`C36_collection_roundtrip_refuted`). The same `load` accepts a manifest listing one segment id twice (example beside
  the theorem).
- C35 (`DiskCollection::add_batch`): `open` takes any non-zero 64-bit `dim`; with `dim = 2^62` the per-row byte count
  `dim * 4 + 8` wraps to 8, so the pending-bytes cap does not bound the buffer (`C35_huge_dim_refuted`).
- C33 (`DiskCollection::flush`): `segments_.push_back` / `segment_dirs_.push_back` run after the manifest was published and
  before the pending rows are cleared. If one throws (out of memory), the rows stay pending while `segment_dirs_` does not know
  the new segment, so the uniqueness check of the next flush misses it and the same labels are published twice
  (`C33_push_failure_refuted`).
- C34 (`DiskCollection::flush`): `next_segment_id` is advanced only after `create_segment_from_pending` returns, but that
  function renames the segment into place before it constructs the searcher. If the searcher throws, every later flush picks
  the id of the orphan and fails until the collection is opened again (`C34_searcher_failure_refuted`). Rows with duplicate
  labels or non-finite components accepted by `add_batch` likewise make every later flush fail, with no call to drop them.
- C34 / C36: a collection grows past the manifest size limit by ordinary use and then cannot be opened (`C34_reopen_refuted`).
- C41 (`SlotAllocator::alloc`): `next_slot_++` on a `uint32_t` has no guard; after slot 2^32 - 1 the next fresh slot is 0, which
  is live (`C41_wrap_refuted`). `DiskANNIndex::allocate_update_slot_unlocked` does not guard either.
- C42 observation: `TombstoneBitmap::deserialize` computes `n_words * 64` in 64 bits; a damaged file with `n_words = 2^58` asks
  for capacity 0 and then stores through a null chunk pointer (example in Props/C42).
- C43 observation: `VisitedBitset::resize(n)` computes `(n + 63) / 64` in 64 bits and allocates nothing for `n` near 2^64 (example
  in Props/C43); callers pass slot counts.
- C38 (`read_disk_layout_header`): `dim * sizeof(float)` is computed modulo 2^64 before it is compared with `node_len`, so a damaged header
  with `dim = 2^62` is accepted and the first vector read runs outside its page (`C38_header_overflow_refuted`); `dim = 2^62 - 1`,
  `max_degree = 0` gives `node_len = 0` and `compute` divides by zero (`C38_header_division_refuted`).  The neighbour count inside a record is
  not validated either.
- C39 observation: without a page cache (capacity 0) a failed device write leaves the page neither old nor new; with a cache a failed eviction
  throws but the evicted page stays cached and dirty, so nothing is lost.
- C40 observation: `read_neighbor_group_stride` reads the device after a cache miss without looking at the version.  It does not install what it
  read, and its only caller holds the update lock, so no page can become dirty in between; the function is not safe for any other caller.
- C44 observation: `NodeCache::load` computes `node_count * node_len` modulo 2^64 and does not bound `node_len` before the read, so a damaged
  cache file can leave `map_` offsets outside `node_data_` (the model's `lookup` is then undefined; the theorems start from files `save` wrote).
  `update_neighbors` reads and rewrites a record in two separately locked steps; two writers of one node can lose an update.
- **C51**: a filter dict with `$or` beside other keys is translated to a disjunction of all of its parts
  (`collection.py:475-479` sets the logic operator of the whole filter), so `{"a": 1, "$or": [...]}` accepts rows with
  `a != 1`. An empty `$or` list accepts every row. Witnesses: `C51_or_beside_refuted`, `C51_empty_or_refuted`.
- **C48** (observation): `add` while a coroutine is parked does not wake it (documented as set-up only), and an object
  handed to a resume that the pool rejects after shut-down is lost together with its waiter (only logged). Both are
  modelled (`add`, `reject`/`lost`); the conservation theorem counts the lost objects.
- **C55**: `delete_by_filter` (`collection.py:354-380`) never ends when a full batch of matching records has no item id:
  the removal of each fails with an exception that `delete_by_id` (`collection.py:328-332`) swallows, and the next
  round fetches the same batch. With fewer such records than a batch it returns and reports removals that did not happen.
  On RaBitQ collections, which have no update job (`index.hpp:203-219, 599-625`), nothing is ever removed.
  Witnesses: `C55_anonymous_refuted`, `C55_overcount`, `C55_no_update_job_refuted`.
- **C50**: partitions are keyed by the bytes of `encode_value` (`materialized_view.hpp:201-218, 405-420`), so `x = 0.0`
  misses records holding `-0.0`, `x = NaN` returns NaN records that filter evaluation rejects, and a NaN repeated in an
  `IN` list returns the records twice. Witnesses: `C50_negative_zero_refuted`, `C50_nan_refuted`, `C50_nan_twice_refuted`.
- **C61** (observation): `save_graph` writes nodes of degree 0, but `VamanaReader` rejects a file containing one
  (`vamana_reader.hpp:149-153`), so a one-point graph cannot be loaded back (`C61_zero_degree_rejected`).
- **C49**: the sortedness check of `merge_shards` is not strict (`shard_merger.hpp:206`). An id map with a repeated id leaves
  the cursor on the second copy and silently drops every later record of that shard (`C49_duplicate_id_drops_rest`). The read of
  the neighbours is not checked (`shard_merger.hpp:299-300`): a shard graph cut inside its last record yields edges to local
  node 0 that no shard contains (`C49_truncated_shard_invents_edge`). With a global id of `2^32 - 1` the loop over
  `uint32_t gid` does not end (`noReturn`).
- **C62**: ids without a neighbour in any shard get a record of degree 0 (only a log line, `shard_merger.hpp:356-358`), which
  `VamanaReader` rejects together with the whole file (`C62_isolated_refuted`).
- **C63**: the top-k scan starts from entries `(FLT_MAX, 0)` (`kmeans_partition.hpp:155`); a point whose squared distances
  overflow keeps them and is written to shard 0 twice. The final count check cannot notice it (`C63_check_blind`), and the
  repeated id triggers the loss of edges described for C49. Witness: `C63_overflow_refuted`. An empty shard (possible after
  Lloyd leaves a centre zeroed) makes the whole build throw, because `load_fbin` rejects a count of 0.
- **C45**: `insert` takes its slot and increments `live_count_` before the code and the record are written
  (`diskann_index.hpp:836-840, 1485-1493`); if writing throws nothing is undone. The slot is neither live nor free from then
  on and `live_count()` stays too large (`C45_failed_insert_refuted`, for every continuation). In `batch_insert` the results
  of the tasks are dropped (`diskann_index.hpp:1804-1813`), so the call returns normally although some labels were not inserted
  (`C45_batch_swallows_refuted`; assumes that libcoro's `when_all` stores exceptions in its results, as its documentation says).
- **C46**: labels are looked up in the current `labels_` after the traversal (`diskann_index.hpp:489-497`), while nodes are
  filtered with the tombstones of the snapshot. A remove followed by the reuse of the slot in between makes the search return the new
  label with the distance of the old vector (`C46_reuse_refuted`), even a label whose insert has not been published yet
  (`C46_unpublished_label_refuted`).
- **C64**: `beam_search.hpp:181-183` says the pipelined and the deterministic mode "yield identical recall". With a search list shorter
  than the reachable part they do not (`C64_short_list_refuted`: list 1, the deterministic mode returns distance 5, a pipelined run 1).
- **C65**: the scratch of a `ThreadData` has `max(100, update_search_l, scratch_search_list_size)` neighbour regions
  (`diskann_index.hpp:375-386`), but the search list is `max(L, top_k)`. `search(query, 101, …)` on a healthy index of 102 nodes with
  default parameters throws "neighbor scratch exhausted" (`C65_large_topk_refuted`).
- **C66**: two defects. After a failed read the pipelined loops throw while other reads are in flight (`beam_search.hpp:433-436,
  699-702`); `search` returns the `ThreadData` to the pool (`diskann_index.hpp:483-486`) and the next query only clears its own
  bookkeeping, so it takes late completions (identified by node id) for its own and parses a buffer that has not been filled
  (`C66_late_completion_refuted`). Blocking reads (`aligned_file_reader.hpp:226-273`) count events without looking at their results, so
  a failed seed, chunk or rerank read is parsed as if it had succeeded (`C66_silent_failure_refuted`); with an update page cache the
  stale bytes are also installed as the page (`search_fill_page`).
- **C47**: `flush` (`diskann_index.hpp:1023-1054`) writes pages, then `diskann.meta`, `ids.bin`, cache and `slots.bin` one after the other
  and in place. After a fresh insert, a crash before `slots.bin` leaves labels and header that make the slot live while the allocator
  still has the old high-water mark, so the next insert overwrites a live vector (`C47_live_slot_handed_out_refuted`). A crash after the
  pages (or the mere eviction of a dirty page without any flush) and before `ids.bin` leaves the old label with the new vector when a
  slot was reused (`C47_wrong_vector_refuted`). A count mismatch between header and ids makes the directory unloadable. Only flushes
  that follow removals alone are safe.
- **C57**: `update_alpha` is not validated. With an infinite value the pruning selects a candidate again once `cur_alpha` has become
  infinite, so a neighbour is stored twice (`C57_infinite_alpha_refuted`).
- **C67**: `search_solo` refuses `ef < topk` but not `ef = topk = 0`; the first insertion then writes outside of the empty pool
  (`C67_ef_zero_refuted`). Nodes that are not reachable from the entry are never returned, whatever `ef`; the answer is padded with
  4294967295.
- **C68**: with 64-bit ids the filtered searches write the results through `reinterpret_cast<uint32_t *>` (`graph_hybrid_search_job.hpp:146`,
  `graph_search_job.hpp:859`), two ids into each slot, so ids are wrong and item ids empty (`C68_wide_ids_refuted`; the dispatch table
  has such an instance). A row at infinite distance is never stored in the result buffer (`C68_infinite_distance_refuted`). When every
  row matches the plain search is used without the fallback of the other branch, so fewer rows may come back
  (`C68_all_match_unreachable_refuted`). The iterative hint has no fallback either (`C68_iterative_incomplete_refuted`).
- **C69**: `update` (`graph_update_job.hpp:186`) fills the free part of a neighbour list with zeros, i.e. edges to row 0 including row 0
  itself (`C69_padding_refuted`). The list of a removed row is never updated, so after removing the only vector a new one is stored and
  never found (`C69_insert_after_removal_lost_refuted`); lists keep only the nearest candidates, so an outlier is unreachable after its
  insertion (`C69_inserted_unreachable_refuted`) and an insertion can cut off another row (`C69_insert_disconnects_refuted`). A plain
  search returns removed rows when fewer than `topk` others are found (`C69_removed_returned_refuted`). Removing an id not handed out
  yet makes a later insertion throw `out_of_range` from `removed_node_nbrs_.at` after the row has been stored
  (`C69_remove_unknown_refuted`).
- **C70**: `ef < topk` makes a single search throw, but `batch_search` never asks the coroutines for their exceptions and returns rows of
  zeros (`C70_small_ef_refuted`); `num_threads = 0` does the same (`C70_no_threads_refuted`). `Index.batch_search` in Python checks
  neither (`Collection` checks both). Workers started before the first `schedule` return at once and later coroutines are never run
  (`C70_begin_first_refuted`). `co_await scheduler.schedule()` puts a handle into the queue that the worker still holds
  (`C70_await_schedule_refuted`).
- **C71**: the record of removed rows that insertions use is not saved: after removals a reloaded (or recovered) index builds another graph than the running one (`C71_job_context_refuted`). With 64-bit ids the upper layers are written with four bytes per id, so half of the upper edges are lost and the entry point's upper half is indeterminate (`C71_id64_refuted`, `C71_id64_entry_refuted`). With 1000 or more indexed fields the field names are skipped and read as vectors (`C71_fields_refuted`). A graph file cut off before the upper layers loads silently without them (`C71_truncated_refuted`).
- **C72**: a batch of filtered searches over the shared pool is left at the first exception while the other searches still use the queries, the filter and the result arrays of the frame (`C72_batch_throw_refuted`). The completion counter has 32 bits and is compared for equality: with 2^32 tasks or a count that was overtaken the wait never returns (`C72_big_count_refuted`, `C72_low_count_refuted`). Exceptions of the builders' tasks stay in discarded futures: a failed insertion is counted as done (read from the code, not modelled).
- **C73**: with fewer vectors than `ef_construction` (default 200) the NSG builder never ends, because the pool is filled with distinct random ids (`C73_small_refuted`); it does not end either when linking fills every row, because the first traversal does not count its root and no vector has room for the edge that is then looked for (`C73_full_refuted`). `attach_unlinked` picks the first visited vector instead of an unvisited one, so vectors stay unreachable from the entry point and edges are repeated (`C73_reach_refuted`). The NSG, fusion and NN-descent builders write their rows without allocating them in the graph storage: the first insertion overwrites row 0, gets id 0 instead of the id of the vector, throws and leaves the row destroyed; the next one destroys row 1, and so on (`C73_insert_refuted`).
- **C74**: the 4-bit encoder puts the first code of a pair into the upper half of the byte and the distance functions take the lower half for the first coordinate, so the scales of the two coordinates are exchanged and nearer vectors can be reported as farther (`C74_sq4_swap_refuted`); with an odd dimension the last coordinate is ignored altogether (`C74_sq4_odd_refuted`). Values outside of the fitted range are clamped, so vectors inserted later may be at distance 0 from each other (`C74_insert_refuted`); NaN components and ranges wider than the largest float lead to an undefined conversion (`C74_nan_refuted`, `C74_overflow_refuted`).
- **C75**: the AVX-512 kernels are compiled for avx512f, avx512bw and avx512dq but selected on avx512f alone (`C75_knl_refuted`); `ALAYA_FORCE_DISKANN_COMPAT_L2=1` selects an AVX2 kernel without looking at the processor (`C75_force_refuted`).
- **C78**: with inner product or cosine the estimates approximate 1 - <q,o>, but exact distances are -<q,o>; a neighbour
  in the same place as the node gets an estimate that is one more than its distance (`C78_offset_refuted`).
- **C77**: RaBitQ accepts vectors of up to 4095 dimensions, but the 16-bit counters of the fast scan only hold 1024 padded
  dimensions; above, the estimate of an inner product can be off by the whole range (1088 ones give 60 instead of
  1088, `C77_wrap_refuted`). A query of zeros divides zero by zero and converts NaN to a byte outside AVX-512
  (`C77_zero_query_refuted`). AVX-512 rounds halves to even, the other builds away from zero
  (`C77_builds_differ_refuted`).
- **C79**: when fewer than k nodes are found (a component of the graph with less than k nodes), `search` and `batch_search`
  return the id 0 for the missing ones, which is not distinguishable from node 0 (`C79_distinct_refuted`); the search with a
  mask fills up with the invalid id.
- **C80**: fitting a RaBitQ index with 1 to 32 vectors does not end: `random_init` draws until it has 32 distinct other nodes
  (`C80_small_refuted`); `fit` has no guard (the materialized view builds graphs only for more than 128). `add_reverse_edges` iterates
  over a node's list without its lock while other threads may append to it.
- **C81**: `RaBitQSpace::load` does not look at the state of the stream; a short file loads and the missing chunks are whatever the
  memory held (`C81_truncated_refuted`). With 1000 or more indexed fields the fields are not read and the rotation is taken
  from their names (`C81_fields_refuted`).
- **C82**: the HNSW graph need not be connected: after inserting six different points, a search with a large `ef` for one of them does
  not return it (`C82_found_refuted`). With 64-bit ids the lists are copied as 32-bit words and the rows are wrong (`C82_wide_refuted`).
  `max_nbrs` 1 reads the last element of an empty vector (`C82_one_neighbour_refuted`); 2 and 3 divide by `log(1)`. The random generator
  of the levels and the entry point are used by the threads without a lock.
- **C83**: with two threads and 2049 vectors the entry point can end up without a neighbour: its own list overwrites the reverse edges the
  other thread has written since its search (`C83_medoid_lost_refuted`; needs one thread to be held up between its search and its write).
  The file is then rejected by the reader. With L = R = 1 this happens with one thread (`C83_list_one_refuted`). The comment
  `vamana_greedy_search.hpp:69-71`, that the builder always produces a graph reachable from the entry point, does not hold: three points
  with R = L = 2, or six equal points with R = 4, L = 8, of which four are lost (`C83_reach_refuted`). Which of several nearest vectors
  becomes the entry point depends on the order of the threads (`C83_medoid_order_refuted`).
- **C84**: `train` on a table that already holds codes leaves the codes, their number and the symmetric table as they were; with another
  number of chunks `pq_distance` of a stored id reads outside of the codes (`C84_retrain_refuted`). `load` changes shape and number of points
  before it checks the files, so that a failed load leaves an object that does so as well (`C84_failed_load_refuted`). `n * n_chunks` is
  not checked for overflow: 2^62 points with 4 chunks and an empty file of codes are accepted (`C84_load_wraps_refuted`). `encode_one` with id
  2^64-1 writes outside of the codes (`C84_last_id_refuted`). The index itself does none of this with files it wrote.
- **C85**: `pq_beam_search_async` (used by `search_pipelined` and by batch insertions) and the pruning of insertions read the codes without
  `pq_mutex_`; the comment at beam_search_async.hpp:253-258 claims that this is safe because only codes of invisible slots are written. But
  `encode_one` may have to move the whole array (pq_table.hpp:225), which frees what the search is about to read
  (`C85_unlocked_growth_refuted`); and a slot visible in the search's snapshot may be removed, reused and written while it runs
  (`C85_unlocked_reuse_refuted`). Reserving capacity and delaying reuse would repair both (`C85_unlocked_partial`). `num_points_` of the
  table is read without synchronisation as well.
- **C86**: `kmeanspp_init` redraws until it finds an index not yet picked (kmeans_partition.hpp:249-266). With one infinite or NaN coordinate in the
  sample the sum of the distances is infinite or NaN, every dart falls through to the last index, and from the third centre on (there are at
  least three) the loop never ends (`C86_nonfinite_refuted`, `C86_nonfinite_build_refuted`). Nothing checks the data before. With duplicates the
  centres coincide, Lloyd's rounds leave centres without points, which become zero vectors, a part may stay empty, and an empty part makes the whole
  build fail (`C86_equal_vectors_refuted`). The sizes of the parts are estimated from a sample only and never checked
  (`C86_sampled_sizes_refuted`). `round_up_8` wraps in 32 bits for dimensions above 2^32 - 8 (`C86_ram_wraps_refuted`).
- **C87**: `reindex` (`collection.py:382-458`) checks `num_threads` after it has closed the old index and removed its RocksDB directory, so
  `reindex(num_threads=0)` raises and leaves a collection whose `get_by_id` finds nothing (`C87_bad_threads_refuted`); after `close()` the next
  `insert` builds a new index over the same recovery directory and the old snapshot is deleted (`C87_broken_then_insert_loses`). The new native index takes
  its `applied_through` number from the old manifest (`index.hpp:155-159`), not from the last operation, and stores it in the `post_fit` snapshot;
  a crash between the replacement of CURRENT and the removal of the log (`recovery_manager.hpp:92-96`) makes `load` replay the log on a content that
  has it already: a pending insert throws because of its duplicate item id and the collection cannot be opened
  (`C87_window_cannot_open`, `C87_crash_window_refuted`). Rows with an empty item id are dropped (`C87_nameless_refuted`).
- **C88**: the recovery directory of a collection is `parent(rocksdb_path)/recovery` (`index.hpp:144-152`). Without a url the path is `./RocksDB/<name>`
  (`collection.py:52-53`), so all collections of a process share `./RocksDB/recovery`; explicit paths with one parent do too. The second first insert then
  replaces the snapshot of the first collection (`C88_shared_root_swaps`, `C88_no_url_refuted`, `C88_own_path_refuted`). Names are not checked:
  `delete_collection("", delete_on_disk=True)` removes the whole url, `".."` its parent, an absolute name that directory (`C88_delete_removes_all`,
  `C88_odd_dirs`, `C88_odd_names_refuted`). With an explicit `rocksdb_path` the schema of the first insert is written beside that path and
  the next client does not see the collection (`C88_listed_refuted`).
- **C89**: `flush` advances `next_segment_id` after `create_segment_from_pending` returned (`disk_collection.hpp:922-932`), but that call also opens the
  directory it has just renamed into place (`segment_factory.hpp:202-217`), and the reader rejects a node without neighbours. Then every further flush of
  the open collection fails with "already exists" and the pending rows are lost on reopen (`C89_retry_refuted`, `C89_stuck`). `x_vamana_seed` is written as
  64 bits and read as 32 (`disk_collection.hpp:602, 637`; `C89_large_seed_refuted`). The constructor accepts metrics the builder refuses
  (`C89_metric_refuted`). `alpha` is written with `std::to_string` (`C89_alpha_refuted`). Ties are cut by row (`C89_tie_refuted`).
  A negative number in a stored parameter is taken modulo 2^64 (`C89_negative_refuted`).
- **C90**: the last loop of `disk_search_qg` (`qg.hpp:655-667`) evaluates the nodes still in flight and puts their neighbours into the pool, but the pool is not
  looked at again: reachable nodes are missed and the answer depends on the order of completions (`C90_complete_refuted`). `copy_results` copies `k` ids
  whatever was inserted (`buffer.hpp:123`), so row 0 is returned for missing ones (`C90_missing_refuted`). The same node can take several places of the
  pool (`C90_ef_refuted`). `wait_for_nodes` does not look at the result of a read (`qg.hpp:538-548`; `C90_failed_refuted`). A beam width of 0 loops for
  ever (`C90_width_refuted`). A search that throws does not give back the workspace; the next call with the same options waits for ever
  (`C90_hang_refuted`).
- **C91**: `import_laser_segment` renames the directory before the searcher is built (`disk_collection.hpp:1012-1024`); if the searcher refuses, the directory
  stays and blocks the id until the collection is opened again, after which the names of the source no longer fit (`C91_retry_refuted`,
  `C91_publish_retry_refuted`). The constructor of the collection does not apply the importer's limits on metric and dimension (`C91_useless`). The
  searcher checks the artefacts named in the manifest but loads derived names (`laser_segment_searcher.hpp:245-262`; `C91_names_refuted`); the native
  loader tests no stream (`qg.hpp:849-969`, `pca_transform.hpp:96-126`; `C91_unchecked_refuted`, `C91_short_cache_refuted`).
- **C92**: `update_qg_out_of_memory` returns before the vector is read if a point has no neighbours (`qg.hpp:762-766`), so the point is stored as a zero
  vector (`C92_isolated_refuted`). A search scans `degree_bound_` ids whatever the degree (`qg.hpp:513-518, 707-711`), the unused ones are 0
  (`C92_edges_refuted`). `init_from_vamana` compares neither ids nor the number of nodes with the number of points (`qg_builder.hpp:458-487`;
  `C92_graph_refuted`, `C92_few_nodes_refuted`), the vectors are read without testing the stream (`qg_builder.hpp:194-232`; `C92_short_base_refuted`), and
  only the Python binding demands a degree that is a multiple of 32 (`C92_degree_refuted`).
- **C93**: only the seed is recorded beside the files and the validators look at sizes and headers (`_idempotence.py:23-121`), so with an unchanged seed
  `fit` returns the old index for other vectors or parameters (`C93_shape`, `C93_data_refuted`, `C93_params_refuted`, `C93_pca_refuted`), and for fewer vectors it
  hands the old graph to a builder that does not check ids (`C93_shrink_refuted`). `disable_medoid` removes nothing (`__init__.py:335`; `C93_medoid_refuted`,
  `C93_medoids_kept`). `skip_existing=False` with a matching seed rebuilds without withdrawing the seed file first (`__init__.py:300-303`;
  `C93_interrupt_refuted`), contrary to the comment above it. `pca_transform_and_save` resumes from the size of the file (`_pca.py:131-180`) even after the seed
  changed (`C93_resume_refuted`). Indexes of two degrees make `from_prefix` raise (`C93_degree_refuted`).
- **C94**: the query computers of `SQ8Space` and `SQ4Space` do not look at the removed marks (`sq8_space.hpp:431-437`), unlike `RawSpace` (`raw_space.hpp:449-455`),
  so removed rows near the query fill the `ef` places and the rerank can only push them behind nothing: a search may return removed rows although live ones were
  reached (`C94_removed_crowd_refuted`, `C94_only_removed_refuted`). `ef >= topk + removed rows` avoids it (`C94_enough`). Vectors outside of the fitted range get the
  code of its end and can be missed (`C94_out_of_range_refuted`).
- **C95**: `save_state` overwrites graph, vectors and codes in place, one after the other (`index.hpp:187-195`); if the process ends in between, the mix is
  loaded without an error and a search returns rows that do not exist (`C95_crash_refuted`). As for C71 the record of removed rows is not saved, so an insertion after
  loading can give another graph (`C95_job_context_refuted`).
- **C96**: `in_flight_` is raised after `io_uring_submit` has returned (`uring_reactor.hpp:281-284`), so a completion taken by another thread before that makes it
  wrap below zero (`C96_in_flight_refuted`; harmless under the shutdown contract). `kSubmitRetries` counts `EAGAIN`/`EBUSY` without any pause and without being reset by
  progress (`:280-300`); when it is used up the ring is poisoned for good, although the condition was temporary (`C96_transient_refuted`). The results of requests that
  were never submitted are not touched, so a reused request shows its old success (`C96_stale_refuted`).
- **C97**: `notify_completion` uses the context after it has published the event (`threadpool_file_reader.hpp:311-312`), so a thread that has received all its events and
  deregisters destroys the condition variable under the worker's hands (`C97_deregister_refuted`); the LASER builder does just that on this backend
  (`qg_builder.hpp:343-344, 421-422`: `deregister_all_threads` before `close`). `read` waits for a number of completions of the context, not for its own
  (`C97_read_refuted`), and ignores their results (`:205-210`, `C97_read_error_refuted`): the builder writes whatever is in the buffer into the cache file. `close` drops
  reads when the workers found the queue empty just before (`:281, 297`, `C97_close_performs_refuted`).
- **C98**: `PyIndex::fit` always builds an `HNSWBuilder` graph (`index.hpp:658`), whatever `index_type` says (`C98_index_type_refuted`). `valid_metric_type` ignores
  letter case, `normalize_vectors_for_cosine_metric` does not (`utils.py:107`): `metric="COSINE"` ranks by inner product (`C98_cosine_case_refuted`). `RawSpace<int8>` with
  COS calls `exit(-1)` (`raw_space.hpp:91`, `C98_exit_refuted`); the text of the factory's exception runs into `__builtin_unreachable` for NSG and FUSION
  (`index_type.hpp:54`, `C98_unsupported_refuted`). `valid_id_type` accepts 8- and 16-bit ids that no factory branch serves (`C98_accepted_refuted`); unknown
  keyword arguments and `has_scalar_data` are ignored (`schema.py:143-196`); `Collection.insert` overwrites `data_type` (`collection.py:252`); a NumPy `capacity` makes
  `json.dump` fail after everything was built (`C98_numpy_save_refuted`).
- **C99**: `Collection.insert` takes the dtype of `np.asarray(first_embedding)` (`collection.py:251`); over REST that is always float64, which `valid_dtype` refuses since float64 support was
  dropped, so the first insert into any collection is answered 400 and the service can only serve collections made with the Python client (`C99_first_insert`, `C99_empty_service`,
  `C99_insert_refuted`; `app/tests/test_client.py` expects 200). `delete_by_filter` reports `len(request.filter)` (`client.py:169`), i.e. the number of conditions: the empty filter removes everything and
  reports 0 (`C99_count_refuted`). `set_metric` is outside any `try` (`client.py:63`): 500 once there is data, any text accepted before (`C99_crash_refuted`, `C99_metric_refuted`). A failing `rmtree` leaves
  a deleted-but-400 collection, and after `reset` listed but closed collections (`C99_failed_delete_refuted`, `C99_failed_reset_refuted`). The status is chosen by searching the error text
  (`client.py:80, 182`, `C99_not_found_refuted`). A filter removal that never ends blocks the event loop (`C99_answers_refuted`). The documentation also shows another result format for queries than
  `batch_query` returns.
- **C100**: `SentenceChunker` never ends (and collects chunks until memory is gone) for any document with a sentence if `chunk_overlap >= chunk_size` (`sentence_chunker.py:50`, `C100_endless_refuted`);
  nothing checks the two. Its pattern ends in `\s*`, so a full stop with no blank behind it also splits: "3.14" and "e.g." are cut, and the guard for abbreviations never protects its first full stop
  (`C100_decimal_refuted`). With an overlap the last chunk may be a part of the one before (`C100_last_chunk_new_refuted`). `SemanticChunker` splits with `text.split(".")`, so all full stops (also in
  numbers) are gone from the chunks (`C100_full_stops_refuted`), and texts without full stops are never divided (`C100_questions_refuted`).
- **C101**: both `calc_recall` count a result found anywhere in the true row; the C++ tests pass the dataset's 100 true ids for `topk` 10 (`tests/index/nsg_test.cpp:218`), so their thresholds are for
  "10 of the nearest 100" (`C101_deep_refuted`, `C101_deep_cpp_refuted`). The C++ version counts repeated ids (`C101_repeated_refuted`). `find_exact_gt` reads beyond its candidates if fewer than `topk` are left
  (`evaluate.hpp:44-46`, `C101_few_refuted`). `calc_gt` of one item fills the row with it (`C101_one_item_refuted`). `percentiles` takes position `int(n*q/100)`: the median of two is the greater and p99 of up to
  100 queries is the maximum (`C101_median_refuted`, `C101_p99_refuted`).
- **C102**: `load_vecs`, `load_gt` (and `load_bvecs`) `reserve` the vector and read behind its end, so it stays empty (`io_utils.hpp:27-49, 87-107`, `C102_reserve_refuted`). `save_ivecs` writes the number of rows in
  front, which no reader expects (`C102_save_refuted`). `load_fvecs` (C++) takes a few trailing bytes for a dimension and accepts rows of different dimensions (`C102_trailing_refuted`, `C102_mixed_refuted`); `load_ivecs`
  with different dimensions overwrites rows (`C102_overwrite_refuted`). Python `load_fvecs` returns a truncated last row as a vector if it is the only one (`C102_short_refuted`).
- **C103**: `SharedLock::upgrade_lock` and `degrade_lock` use `compare_exchange_weak` once and check the result only in an `assert` (`locks.hpp:147-158`): in a release build two readers both become writers, and the lock may
  stay taken for ever (`C103_upgrade_refuted`, `C103_stuck_refuted`, `C103_degrade_stuck_refuted`). `FileLock` goes on without a lock if `open` fails or `flock` is interrupted (`locks.hpp:44-47`, `C103_open_refuted`,
  `C103_interrupted_refuted`). Readers can starve a writer (`C103_starve_refuted`).
- **C104**: `load_dataset` passes `ds.query_num_` to both `load_fvecs` and `load_ivecs` (`dataset_utils.hpp:163-164`), so the number of queries is the number of true rows (`C104_query_num_refuted`,
  `C104_zero_queries_refuted`). The recomputation after truncation always uses L2 and reads outside its candidates if `max_data_num_` is below the number of true ids (`C104_metric_refuted`, `C104_few_refuted`). The
  results of `wget` and `tar` are ignored and existing files are taken as complete (`C104_interrupted_refuted`).
- **C105**: `scalar::quantize` rounds `x + 0.5`, so the largest coordinate becomes 64 although six bits were meant (`scalar_quantize.hpp:60`, `qg_query.hpp:67`); four of them in a group add up to 256 and
  `pack_lut_impl` stores 0 (`fastscan_impl.hpp:148`, `C105_table_refuted`). The 16-bit counter is read as signed (`laser_dispatch.hpp:148`), which fails for some queries of 768 dimensions (`C105_counter_refuted`). A constant
  query divides by a zero width (`C105_constant_refuted`).
- **C106**: an exception between `acquire` and `release` (`graph_search_job.hpp:369-410`, `442-482`) loses the set: nothing frees it (`C106_lost_refuted`). `get(0xFFFFFFFF)` is true on an empty set
  (`hashset.hpp:100-103`, `C106_marker_refuted`).
- **C107** (observation): `acquire` polls the queue every 10 microseconds (`diskann_index.hpp:2192-2199`, `concurrent_queue.hpp:94-98`), so a waiting search has no place in a line and can be overtaken without
  end (`C107_turn_refuted`).
- **C108**: `gen_random` draws modulo `n` instead of `n - size` (`random.hpp:26`), so numbers moved up past `n` meet the smallest after the reduction (`C108_distinct_refuted`); `init_graph` puts the sample into the pool
  unchecked (`nndescent.hpp:182-190`), so a neighbour can stand twice in a row (`C108_repeat_refuted`). `insert` refuses what is farther than the farthest candidate even if the pool is not full (`nndescent.hpp:68`), so
  a node whose sample are its nearest neighbours keeps at most ten, and `build_graph` reads `max_nbrs_` of them (`nndescent.hpp:143-145`, `C108_short_refuted`).
- **C109**: when `io_uring_submit` fails, `submit_chunk` marks the requests as not submitted but leaves their entries in the submission queue (`io_uring_engine.hpp:353-373`). The next batch submits them, into buffers the caller may
  have freed, and takes their number for its own (`C109_leftover_refuted`); a ring filled by them is never emptied, because the loop gives up before it submits (`io_uring_engine.hpp:291`, `C109_full_refuted`).
- **C110**: when `io_uring_submit` fails, `submit_async_read` deletes the context but its entry stays in the submission queue (`io_uring_engine.hpp:149-153`). The next read submits it too; its completion calls through the freed context and
  `async_in_flight_` wraps below 0 (`C110_failed_refuted`). A failed wait ends `drain_async` with reads under way (`io_uring_engine.hpp:247-250`, `C110_wait_refuted`).
- **C113**: `relayout_adj` compares only lengths (`freq_relayout.hpp:70-74`); for a row with a repeated neighbour a visit row of another graph passes (`C113_other_refuted`) and a right one throws (`C113_repeat_refuted`), inside an OpenMP loop, where an
  exception ends the program.
