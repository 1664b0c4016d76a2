{"id": "C01", "title": "Integer index encoding preserves order and round-trips", "statement": "For every pair of int64 values a,b: encode_int64(a) compares (byte-wise, same length) with encode_int64(b) exactly as a compares with b, and decode_int64(encode_int64(a)) = a. A RocksDB range scan between two encoded bounds therefore visits exactly the integers in the closed interval.", "quantifier": "for all a,b in [-2^63, 2^63)", "why_tests_cant": "2^128 pairs; tests sample a handful of values around zero and the extremes", "anchors": ["include/utils/index_encoding.hpp: encode_int64, decode_int64"]}
{"id": "C02", "title": "Double index encoding preserves numeric order and round-trips bit-exactly", "statement": "For every pair of non-NaN doubles, the encoded hex strings compare as the IEEE values compare (with -0 placed directly below +0), and decode_double(encode_double(x)) has the same bit pattern as x for every x including NaNs and infinities. Range filters on double fields must agree with the numeric comparison they stand for.", "quantifier": "for all pairs of 64-bit patterns", "why_tests_cant": "all 2^64 bit patterns incl. subnormals, both zeros, infinities and NaN payloads", "anchors": ["include/utils/index_encoding.hpp: encode_double, decode_double", "include/storage/rocksdb_storage.hpp: get_ids_by_double_range"]}
{"id": "C03", "title": "ScalarData serialisation round-trips and no truncated record is accepted", "statement": "For every record whose strings are shorter than 4 GiB, deserialize(serialize(r)) yields r (same item id, document and metadata map), and deserialising any strict prefix of serialize(r) throws instead of returning a different record.", "quantifier": "for every record and every cut position", "why_tests_cant": "records are unbounded trees of strings; every cut point of every record must be refused", "anchors": ["include/utils/scalar_data.hpp: ScalarData::serialize, ScalarData::deserialize, deserialize_string, deserialize_metadata, deserialize_value"]}
{"id": "C04", "title": "Selective metadata decoding agrees with full decoding", "statement": "On any byte string that full deserialisation accepts, deserialize_selected_metadata with a wanted-field set returns exactly the wanted part of the full metadata map, and deserialize_single_metadata_value returns exactly the full map's value for that field (or nothing when absent).", "quantifier": "for every stored byte string and every set of wanted fields", "why_tests_cant": "two hand-written parsers must agree on every input, including duplicate keys and unusual orders", "anchors": ["include/utils/scalar_data.hpp: deserialize_selected_metadata, deserialize_single_metadata_value, skip_*"]}
{"id": "C05", "title": "Filter evaluation on raw records equals evaluation on full metadata", "statement": "For every filter tree and every stored record, the matcher that only decodes the fields mentioned in the filter gives the same verdict as MetadataFilter::evaluate on the fully decoded metadata; hence filtered search never shows a record the filter rejects or hides one it accepts because of the decoding shortcut.", "quantifier": "for every filter tree and record", "why_tests_cant": "filter trees are unbounded; the shortcut depends on the set of collected fields being complete for every tree shape", "anchors": ["include/utils/metadata_filter.hpp: MetadataFilter::evaluate", "include/utils/metadata_filter_matcher.hpp: evaluate_raw_value, collect_required_fields"]}
{"id": "C06", "title": "Secondary-index equality lookup returns exactly the matching records", "statement": "For an indexed field f and value v, get_ids_by_field_value(f,v) returns exactly the internal ids of the stored records whose metadata has f = v.", "quantifier": "for every history of inserts/updates/removes, every field name and value", "why_tests_cant": "depends on byte-level collisions of key prefixes over arbitrary strings; a test would have to guess the colliding pair", "anchors": ["include/storage/rocksdb_storage.hpp: get_ids_by_field_value, add_field_indexes_to_batch, remove_field_indexes_from_batch", "include/utils/index_encoding.hpp: make_field_index_key, make_field_index_prefix, extract_id_from_key"]}
{"id": "C07", "title": "Primary keys are collision free, ordered and invertible", "statement": "The RocksDB key of a record's internal id is injective, sorts like the integer id, parses back to the id, and never equals an item-id key, a field-index key, the count key, or (for another id) a legacy key.", "quantifier": "for all ids of the id type", "why_tests_cant": "all 2^32 / 2^64 ids and all user supplied item ids and field names", "anchors": ["include/storage/rocksdb_storage.hpp: data_key, legacy_data_key, parse_data_key, item_id_key"]}
{"id": "C08", "title": "Binary writer/reader round-trip with bounds safety", "statement": "Any sequence of u8/u32/u64/string/blob values written with BinaryWriter is read back identically by BinaryReader with the same sequence of reads, leaving the reader exhausted; and on any input no read returns bytes outside the buffer: a read that does not fit throws.", "quantifier": "for every sequence of typed values and every buffer", "why_tests_cant": "unbounded sequences and adversarial length fields", "anchors": ["include/utils/binary_io.hpp: BinaryWriter, BinaryReader"]}
{"id": "C09", "title": "Write-ahead-log frames read back exactly", "statement": "Appending any sequence of frames (payload at most 1 GiB, op id below 2^64) to a log file and scanning the file yields exactly that sequence of frames (type, mutation, op id, payload) with nothing left over.", "quantifier": "for every sequence of frames and payloads", "why_tests_cant": "payloads may contain the magic numbers themselves; sequences unbounded", "anchors": ["include/recovery/write_ahead_log.hpp: append_frame, read_frame_header, payload_size_is_plausible, replayable_records"]}
{"id": "C10", "title": "A log torn at any byte replays exactly the operations committed before the tear", "statement": "Take any log produced by append_prepare/append_commit calls and cut it at any byte. replayable_records on the cut file returns exactly the operations whose prepare and commit frames both lie completely inside the cut (and are newer than the snapshot): nothing partial, nothing invented, nothing committed is missed.", "quantifier": "for every operation history and every crash byte position", "why_tests_cant": "number of cut positions times number of histories is unbounded", "anchors": ["include/recovery/write_ahead_log.hpp: replayable_records, append_prepare, append_commit"]}
{"id": "C11", "title": "Replay is ordered, filtered by the snapshot and never replays an uncommitted operation", "statement": "On any byte content whatsoever of the log file, replayable_records returns records in ascending operation-id order, all with op id greater than applied_through, each backed by a complete prepare frame followed by a complete commit frame of the same op id and mutation.", "quantifier": "for every file content and every applied_through", "why_tests_cant": "adversarial file contents", "anchors": ["include/recovery/write_ahead_log.hpp: replayable_records"]}
{"id": "C12", "title": "Acknowledged writes survive any number of crash/recover cycles", "statement": "Once insert/upsert/remove has returned (commit frame fsynced) the operation is part of the state after every later crash and recovery, whatever the positions at which earlier appends were torn.", "quantifier": "for every history of acknowledged operations, torn appends, crashes and recoveries", "why_tests_cant": "needs a second crash after a first torn write; the space of multi-crash schedules is unbounded", "anchors": ["include/recovery/write_ahead_log.hpp: append_frame, replayable_records, truncate", "python/include/index.hpp: PyIndex::load, replay_recovery_log, checkpoint_recovery_snapshot"]}
{"id": "C13", "title": "Snapshot publication is crash-atomic", "statement": "Crash publish_snapshot between any two of its file-system steps: recovery then uses either the old snapshot with the complete old log or the new snapshot, and in both cases the recovered logical state equals the state before the crash; no committed operation is lost or applied twice.", "quantifier": "for every state, log content and crash point", "why_tests_cant": "crash points between rename, log removal and old snapshot deletion cannot be scheduled by tests", "anchors": ["include/recovery/recovery_manager.hpp: publish_snapshot, current_snapshot, remove_old_snapshots, write_text_atomically", "python/include/index.hpp: checkpoint_recovery_snapshot, load, replay_recovery_log"]}
{"id": "C14", "title": "Snapshot manifest text round-trips and damage is rejected", "statement": "For every manifest whose string fields contain no newline and no trailing carriage return and whose snapshot id is not empty, deserialize(serialize(m)) = m; a text whose numeric field is not a plain decimal in range is refused.", "quantifier": "for every manifest", "why_tests_cant": "unbounded strings, full numeric ranges", "anchors": ["include/recovery/snapshot_manifest.hpp: serialize, deserialize, parse_uint64_decimal, parse_uint32_decimal"]}
{"id": "C15", "title": "Operation ids are never reused", "statement": "After recovery the next operation id handed out is greater than every operation id present in any complete frame of the log and greater than the snapshot's applied_through id, so ids strictly increase over the life of an index.", "quantifier": "for every log content, snapshot and sequence of operations", "why_tests_cant": "needs arbitrary histories of snapshots, truncations and restarts", "anchors": ["include/recovery/recovery_manager.hpp: next_operation_id", "python/include/index.hpp: initialize_recovery, replay_recovery_log, next_operation_id_"]}
{"id": "C16", "title": "Item ids stay unique and resolvable", "statement": "After any sequence of insert / batch_insert / update / remove calls (successful or failing) on the scalar store, a non-empty item id is owned by at most one stored record, find_by_item_id returns exactly that record, and no lookup returns a removed record.", "quantifier": "for every history of operations", "why_tests_cant": "histories are unbounded, includes failing calls and item-id changing updates", "anchors": ["include/storage/rocksdb_storage.hpp: insert, batch_insert, update, remove, find_by_item_id, item_id_available, batch_find_item_id_owners"]}
{"id": "C17", "title": "The scalar store behaves like a map from internal id to record", "statement": "Every operation of RocksDBStorage has the effect and the return value of the corresponding operation on an abstract finite map id -> record; a call that reports failure changes nothing.", "quantifier": "for every history of operations", "why_tests_cant": "refinement over unbounded histories and over all record contents", "anchors": ["include/storage/rocksdb_storage.hpp: insert, batch_insert, update, remove, operator[], batch_get, is_valid, count"]}
{"id": "C18", "title": "The persisted record count equals the number of stored records", "statement": "After any history, count() equals the number of ids for which a record is stored.", "quantifier": "for every history", "why_tests_cant": "histories are unbounded; overwriting inserts and failed removes must be counted right", "anchors": ["include/storage/rocksdb_storage.hpp: insert, batch_insert, remove, load_count, save_count"]}
{"id": "C19", "title": "Secondary index stays consistent with the records", "statement": "After any history on a store with indexed fields, the set of field-index keys in RocksDB is exactly the set of keys generated by the stored records (no stale keys, no missing keys).", "quantifier": "for every history and set of indexed fields", "why_tests_cant": "unbounded histories; updates that change some fields; deletes", "anchors": ["include/storage/rocksdb_storage.hpp: add_field_indexes_to_batch, remove_field_indexes_from_batch, insert, update, remove, batch_insert"]}
{"id": "C20", "title": "Vector slots are never handed out twice and keep their content", "statement": "For any history of insert/reserve/remove/update on SequentialStorage, each successful insert returns a fresh slot, a valid slot reads back the last vector written to it, a removed slot stays invalid, and no operation changes another slot.", "quantifier": "for every history within capacity", "why_tests_cant": "unbounded histories", "anchors": ["include/storage/sequential_storage.hpp: insert, reserve, remove, update, is_valid"]}
{"id": "C21", "title": "Vector storage save/load round-trips", "statement": "Saving a SequentialStorage and loading it restores capacity, the fill position, every slot's bytes and the validity of every slot.", "quantifier": "for every content and capacity", "why_tests_cant": "all capacities (including those not divisible by 8 or 64) and all bit patterns", "anchors": ["include/storage/sequential_storage.hpp: save, load"]}
{"id": "C22", "title": "The available-record counter is the number of live records", "statement": "For every history of insert and remove calls RawSpace::get_avl_data_num() equals the number of ids that are inserted and not removed.", "quantifier": "for every history", "why_tests_cant": "double removes, removes of unknown ids and inserts at capacity only occur in particular histories", "anchors": ["include/space/raw_space.hpp: insert, remove, get_avl_data_num"]}
{"id": "C23", "title": "Bitsets behave as sets of integers", "statement": "DynamicBitset get/set/reset/set_all/clear act as membership/insert/delete/fill on a set of positions with no effect on other positions and no access outside the word array, for every size; HierarchicalBitset::find_first_set returns the least set position.", "quantifier": "for all sizes, positions and histories", "why_tests_cant": "all positions around word boundaries for all sizes", "anchors": ["include/utils/query_utils.hpp: DynamicBitset", "include/utils/query_utils.hpp: HierarchicalBitset"]}
{"id": "C24", "title": "Epoch-based visited set never shows a mark from an earlier query", "statement": "After reset(), no id is visited until it is marked again, however many resets have happened (including wrap-around of the epoch counter), and a mark made since the last reset is always seen.", "quantifier": "for every history of marks and resets, of any length", "why_tests_cant": "counter wrap-around needs more than 2^16 / 2^32 resets", "anchors": ["include/utils/query_utils.hpp: EpochVisitedSet"]}
{"id": "C25", "title": "Search candidate pool is the sorted best-capacity subset", "statement": "After any sequence of LinearPool::insert calls with distinct ids the pool holds, in ascending distance order, the `capacity` nearest of all candidates offered, and pop() returns each stored candidate at most once, nearest unvisited first.", "quantifier": "for every sequence of insertions and pops", "why_tests_cant": "all interleavings of inserts and pops, ties, and eviction of visited entries", "anchors": ["include/utils/query_utils.hpp: LinearPool insert, find_bsearch, pop, emplace_insert"]}
{"id": "C26", "title": "NeighborPriorityQueue is a bounded sorted set with exact eviction reports", "statement": "For any sequence of insert_with_result calls in which an id always comes with the same distance, the queue is sorted by (distance,id), has no duplicate entry, holds the capacity smallest entries offered, reports `inserted` exactly when the entry is newly in the queue, and reports as evicted exactly the entry that left; closest_unexpanded returns the smallest entry not yet expanded, each entry once.", "quantifier": "for every sequence of insertions and expansions", "why_tests_cant": "unbounded sequences, ties, duplicates", "anchors": ["include/index/graph/vamana/robust_prune.hpp: NeighborPriorityQueue::insert_with_result, closest_unexpanded"]}
{"id": "C27", "title": "Greedy graph search terminates, is duplicate free, sorted and stays inside the reachable set", "statement": "On every graph and query, VamanaGreedySearch::search terminates and returns at most top_k distinct ids in ascending (distance,id) order, each reachable from the entry point, each with its true distance; if the search list is at least as large as the reachable set the result is the exact top-k of the reachable set.", "quantifier": "for every finite graph, distance assignment, entry point, k and list size", "why_tests_cant": "all graphs including cycles, self loops, duplicates", "anchors": ["include/index/graph/vamana/vamana_greedy_search.hpp: VamanaGreedySearch::search"]}
{"id": "C28", "title": "Alpha-pruning returns a bounded subset of its candidates without self loops", "statement": "prune_neighbors returns at most `range` ids, all taken from the candidate pool, never the node itself, without duplicates when the pool has none, always contains the nearest admissible candidate, and terminates for every alpha.", "quantifier": "for every pool, distance function, alpha and degree bound", "why_tests_cant": "all pools and arbitrary (even non-metric) distance functions", "anchors": ["include/index/graph/vamana/robust_prune.hpp: occlude_list, prune_neighbors"]}
{"id": "C29", "title": "Exact rerank returns the true top-k of its candidates", "statement": "Reranking a candidate list by exact distance returns the min(k,n) candidates with smallest (distance,id), in ascending order.", "quantifier": "for every candidate list and k", "why_tests_cant": "all permutations, ties", "anchors": ["include/executor/jobs/graph_search_job.hpp: rerank", "python/include/materialized_view.hpp: insert_candidate, sort_candidates"]}
{"id": "C30", "title": "Flat segment search is exact", "statement": "DiskFlatSearcher::search returns exactly the min(k,n) rows with smallest (distance,label) in ascending order.", "quantifier": "for every segment content, query and k", "why_tests_cant": "all data sets, ties, k around n", "anchors": ["include/index/disk/disk_flat_searcher.hpp: search"]}
{"id": "C31", "title": "Multi-segment merge equals a search over the union", "statement": "DiskCollection::search over several segments returns the k best hits by (distance,label) of the union of the segments' hits, independent of how rows are distributed over segments; for Flat segments this is the exact top-k of all rows.", "quantifier": "for every partition of rows into segments", "why_tests_cant": "all partitions and tie patterns", "anchors": ["include/index/disk/disk_collection.hpp: search"]}
{"id": "C32", "title": "Parallel batch search equals sequential search", "statement": "For every number of worker threads and every interleaving of the workers, batch_search writes for each query exactly the row that a sequential search of that query writes; every query is executed exactly once and rows do not overlap.", "quantifier": "for every schedule of any number of workers", "why_tests_cant": "schedules are unbounded; tests see only a few", "anchors": ["include/index/disk/disk_collection.hpp: batch_search", "include/index/graph/diskann/diskann_index.hpp: batch_search"]}
{"id": "C33", "title": "Labels are unique across the whole disk collection", "statement": "After any history of add_batch and flush calls on a DiskCollection (including failing ones) no label occurs twice in the published segments, and a flush that would introduce a duplicate publishes nothing.", "quantifier": "for every history", "why_tests_cant": "histories are unbounded", "anchors": ["include/index/disk/disk_collection.hpp: add_batch, flush"]}
{"id": "C34", "title": "Flush is crash-atomic and segment ids are never reused", "statement": "Crash flush between any two file-system steps: reopening shows either the collection before the flush or after it, all listed segments are complete, and later flushes never pick the id of any segment directory that exists on disk, listed or orphaned.", "quantifier": "for every history and crash point", "why_tests_cant": "crash points and repeated crash/reopen cycles", "anchors": ["include/index/disk/disk_collection.hpp: flush, open, scan_orphans, open_listed_segments", "include/index/disk/disk_flat_builder.hpp: finish", "include/utils/platform_fs.hpp: atomic_replace, atomic_replace_no_overwrite"]}
{"id": "C35", "title": "add_batch respects the memory cap without arithmetic overflow and is all-or-nothing", "statement": "For all 64-bit n, dim and configured cap: add_batch either appends all n rows or throws leaving the pending rows unchanged; after success the pending bytes never exceed the cap, and the checks cannot be bypassed by integer overflow.", "quantifier": "for all 64-bit sizes", "why_tests_cant": "overflow corner cases over the full 64-bit range", "anchors": ["include/index/disk/disk_collection.hpp: add_batch"]}
{"id": "C36", "title": "Collection and segment manifests round-trip and refuse malformed text", "statement": "Saving any valid manifest and loading the text gives the same manifest; a text with a missing or duplicate required key, an unknown key outside x_, a bad number or a bad name is refused.", "quantifier": "for every manifest and every text", "why_tests_cant": "unbounded segment lists, extras and strings", "anchors": ["include/index/disk/segment_manifest.hpp: CollectionManifest::save, CollectionManifest::load, SegmentManifest::save, SegmentManifest::load, parse_kv_lines, strip"]}
{"id": "C37", "title": "Decimal parsing is exact with overflow detection", "statement": "detail::parse_uint64 accepts a text iff it is a non-empty string of decimal digits denoting a number below 2^64 and then returns that number.", "quantifier": "for every string", "why_tests_cant": "all strings, in particular around 2^64", "anchors": ["include/index/disk/segment_manifest.hpp: parse_uint64", "include/recovery/snapshot_manifest.hpp: parse_uint64_decimal"]}
{"id": "C38", "title": "Disk layout places records disjointly inside aligned pages", "statement": "For every dimension, degree bound and node id (within 64-bit arithmetic), the record of a node lies completely inside its page, pages are sector aligned and start after the header, records of different nodes do not overlap, and packing a node and viewing it gives back its vector and neighbours; the file size covers all records.", "quantifier": "for all dims, degrees, node ids", "why_tests_cant": "all geometries: several records per sector and records larger than a sector", "anchors": ["include/index/graph/diskann/disk_layout.hpp: DiskLayoutGeometry, pack_node_record, NodeRecordView"]}
{"id": "C39", "title": "The write-back page cache is transparent", "statement": "For any sequence of page reads, writes, flushes, with any cache capacity, every read returns the last page content written (or the disk's initial content), and after flush_dirty the disk holds the last content of every page; an evicted dirty page is written before it is dropped.", "quantifier": "for every operation sequence and capacity", "why_tests_cant": "all eviction orders and capacities", "anchors": ["include/index/graph/diskann/disk_page_cache.hpp", "include/index/graph/diskann/disk_page_io.hpp: read_page_locked_off, write_page_locked, flush_dirty_pages"]}
{"id": "C40", "title": "Concurrent cache fills never install stale pages", "statement": "For any interleaving of searches (peek, unlocked device read, fill) and updates (locked read-modify-write, eviction, flush), the bytes a search fill installs in the cache are the latest content of the page at that moment; a device read that raced with a write is discarded.", "quantifier": "for every interleaving of any number of threads", "why_tests_cant": "the race window between device read and fill cannot be hit reliably by tests", "anchors": ["include/index/graph/diskann/disk_page_io.hpp: search_peek_page, search_fill_page, read_page_snapshot, write_page_locked, page_version_locked"]}
{"id": "C41", "title": "The slot allocator never hands out a live slot", "statement": "For any history of alloc/publish/free where only allocated slots are freed once, alloc returns a slot that is not currently allocated, a slot is search-visible only between publish and free, and saving and loading the allocator preserves this state.", "quantifier": "for every history", "why_tests_cant": "unbounded histories with reuse", "anchors": ["include/index/graph/diskann/slot_allocator.hpp: alloc, publish, free, save, load"]}
{"id": "C42", "title": "Tombstone bitmap counts exactly the deleted ids", "statement": "After any history of set/clear (any ids below 2^32), is_deleted(id) is true iff the last operation on id was set, count() is the number of deleted ids, and a serialise/deserialise or a snapshot preserves all of it.", "quantifier": "for every history and id", "why_tests_cant": "chunk boundaries, growth, idempotent sets", "anchors": ["include/index/graph/diskann/tombstone_bitmap.hpp: set, clear, is_deleted, count, snapshot_into, serialize, deserialize"]}
{"id": "C43", "title": "Visited bitset claims each id exactly once per query", "statement": "Between two clears test_and_set(id) returns true exactly for the first call with id; after clear no id is marked, although clear touches only dirty words.", "quantifier": "for every history", "why_tests_cant": "unbounded histories; correctness of the dirty-word list", "anchors": ["include/index/graph/diskann/visited_bitset.hpp: test_and_set, clear, set, test"]}
{"id": "C44", "title": "Node cache lookups show the latest record", "statement": "After any history of upsert_node/update_neighbors/drop_disk_backed_overrides, a lookup returns the newest record written for the node, or its generated base record, or a miss in which case the disk (after flush) is current.", "quantifier": "for every history", "why_tests_cant": "unbounded histories mixing overrides and flush", "anchors": ["include/index/graph/diskann/node_cache.hpp: lookup_record, upsert_node, update_neighbors, drop_disk_backed_overrides"]}
{"id": "C45", "title": "Label bookkeeping of the updatable DiskANN index is exact", "statement": "For any history of insert / remove / remove_by_label / batch operations: contains_label(l) iff l was inserted and not removed since, live_count() equals the number of live labels, two live labels never share a slot, the slot's label is the label inserted, and rejected calls change nothing.", "quantifier": "for every history", "why_tests_cant": "unbounded histories with slot reuse and failing calls", "anchors": ["include/index/graph/diskann/diskann_index.hpp: insert, remove, remove_by_label, batch_remove_by_labels, allocate_update_slot_unlocked, publish_slots, remove_unlocked_with_neighbors"]}
{"id": "C46", "title": "A search concurrent with updates never reports a vector under a label it was never stored with", "statement": "For any interleaving of a search with removes and inserts, each (label, distance) pair returned is the distance to a vector that was stored under that label at some moment during the search.", "quantifier": "for every interleaving", "why_tests_cant": "needs the remove+reuse of a slot to fall between a search's snapshot and its label lookup", "anchors": ["include/index/graph/diskann/diskann_index.hpp: search, make_search_snapshot, publish_slots, allocate_update_slot_unlocked"]}
{"id": "C47", "title": "DiskANN flush survives a crash", "statement": "Crash flush() between any two of its file writes: a later load either sees a state in which every live slot has its label and the allocator will not hand out a live slot, or refuses to load.", "quantifier": "for every state and crash point", "why_tests_cant": "crash points between the four files", "anchors": ["include/index/graph/diskann/diskann_index.hpp: flush, load, write_meta, write_ids, read_ids", "include/index/graph/diskann/slot_allocator.hpp: save, load"]}
{"id": "C48", "title": "The coroutine gate neither loses nor duplicates pooled objects and never loses a wake-up", "statement": "For every interleaving of acquire and release, each pooled object is held by at most one coroutine or is on the free list, a parked waiter and a free object never coexist, and waiters are served in arrival order.", "quantifier": "for every interleaving of any number of coroutines", "why_tests_cant": "schedules are unbounded", "anchors": ["include/utils/coro_gate.hpp: AsyncGate acquire, release"]}
{"id": "C49", "title": "Merging shards keeps every edge source, bounds the degree and never invents edges", "statement": "For sorted, duplicate-free id maps merge_shards writes one record per global id in order, each with at most R distinct neighbours, without self loops, each neighbour coming from a shard edge of that node; if the union has at most R neighbours it is kept completely.", "quantifier": "for every set of shards and every shuffle", "why_tests_cant": "unbounded inputs, all shuffle permutations", "anchors": ["include/index/graph/vamana/shard_merger.hpp: merge_shards"]}
{"id": "C50", "title": "Materialised-view partition selection is sound and complete for the filter", "statement": "When analyze_materialized_view_filter declares a filter eligible with value list V, every record that satisfies the filter has its partition field in V; if it also declares the filter covered, the filter is satisfied exactly by the records whose field is in V.", "quantifier": "for every filter tree, field and record", "why_tests_cant": "unbounded filter trees", "anchors": ["python/include/materialized_view.hpp: analyze_materialized_view_filter, collect_conjunctive_filter_conditions, intersect_metadata_values"]}
{"id": "C51", "title": "The Python filter dictionary is the conjunction of its entries", "statement": "The filter built from a Python dict matches a record iff every entry of the dict matches it ($and: all parts, $or: some part, field: the comparison).", "quantifier": "for every nested dict", "why_tests_cant": "unbounded nesting, key order", "anchors": ["python/src/alayalite/collection.py: _build_filter", "include/utils/metadata_filter.hpp: MetadataFilter::evaluate"]}
{"id": "C52", "title": "Upsert replaces exactly one record and never loses it", "statement": "After upsert(id, ...) returns without an exception, a lookup of the item id gives exactly the new record and all other items are unchanged.", "quantifier": "for every history and capacity", "why_tests_cant": "only fails at particular fill levels after unbounded histories", "anchors": ["python/include/index.hpp: upsert, upsert_nondurable", "include/executor/jobs/graph_update_job.hpp: insert_and_update, insert_spaces", "include/storage/sequential_storage.hpp: insert"]}
{"id": "C53", "title": "Recovery reproduces the pre-crash logical state", "statement": "For every history of durable insert/upsert/remove operations, snapshots at arbitrary moments and a crash at an arbitrary point, the item-id -> record map after recovery equals the map after all committed operations (the one in-flight operation may be present or absent).", "quantifier": "for every history, snapshot schedule and crash point", "why_tests_cant": "unbounded histories times crash points", "anchors": ["python/include/index.hpp: insert, upsert, remove, replay_record, replay_recovery_log, checkpoint_recovery_snapshot", "include/recovery/write_ahead_log.hpp"]}
{"id": "C54", "title": "Filter execution by index fast path, bitset and scan agree", "statement": "For every filter, building the blocked bitset through the index fast path, through batched raw evaluation, and scan_with_filter select the same set of live records.", "quantifier": "for every store content and filter", "why_tests_cant": "three code paths must agree on all inputs", "anchors": ["include/utils/metadata_filter_matcher.hpp: build_blocked_bitset, lookup_indexed_ids, build_index_fast_path", "include/storage/rocksdb_storage.hpp: scan_with_filter"]}
{"id": "C55", "title": "delete_by_filter terminates and removes exactly the matching records", "statement": "Collection.delete_by_filter(f, n) terminates for every batch size n>0, afterwards no record matches f, no non-matching record is removed, and the return value is the number of removed records.", "quantifier": "for every collection, filter and batch size", "why_tests_cant": "termination over all collections", "anchors": ["python/src/alayalite/collection.py: delete_by_filter, delete_by_id, filter_query", "include/storage/rocksdb_storage.hpp: scan_with_filter"]}
{"id": "C56", "title": "Tombstoned nodes are never returned by a disk search", "statement": "Every id returned by disk_greedy_search / cached_beam_search is below num_points of the snapshot, not tombstoned in the snapshot, and occurs once; distances ascend and there are at most top_k.", "quantifier": "for every graph (including cyclic, dangling or corrupt neighbour ids), tombstone set and I/O completion order", "why_tests_cant": "all graphs and all completion orders of asynchronous reads", "anchors": ["include/index/graph/diskann/beam_search.hpp: disk_greedy_search, cached_beam_search, scan_and_insert_neighbors"]}
{"id": "C57", "title": "Reconnect keeps neighbour lists well formed", "statement": "After update_node / insert reconnect the stored neighbour list of a node has at most max_degree entries, no self loop, no duplicates and no node that is deleted, and every explicit new edge is kept when the pool fits.", "quantifier": "for every graph state and candidate pool", "why_tests_cant": "unbounded pools and histories", "anchors": ["include/index/graph/diskann/diskann_index.hpp: update_node_impl_from_snapshot, prune_and_write, prune_candidate_pool, select_insert_neighbors_exact"]}
{"id": "C58", "title": "A metadata filter accepts exactly the records that satisfy it as a boolean formula", "statement": "MetadataFilter::evaluate(m) is true iff m satisfies the filter read as a formula: an empty filter holds, AND = all parts, OR = some part, NOT = negation of its part; a condition holds iff the field is present and its value stands in the named relation (numeric, lexicographic or membership, same type) to the operand.", "quantifier": "for every filter tree and every metadata map", "why_tests_cant": "filter trees and metadata maps are unbounded", "anchors": ["include/utils/metadata_filter.hpp: MetadataFilter::evaluate, FilterCondition::evaluate, compare, contains_string"]}
{"id": "C59", "title": "A graph search does not depend on earlier searches of the thread", "statement": "VamanaGreedySearch::search reuses one scratch buffer (visited marks, result queue, neighbour buffer) per thread. The result of a search is the same as with a fresh buffer, whatever searches (over the same or other graphs of any size, with any parameters) ran before it on the thread.", "quantifier": "for every sequence of earlier searches, every graph and every query", "why_tests_cant": "sequences of searches over graphs of all sizes; a stale mark shows only for particular combinations", "anchors": ["include/index/graph/vamana/vamana_greedy_search.hpp: search", "include/index/graph/vamana/robust_prune.hpp: NeighborPriorityQueue::reserve, clear"]}
{"id": "C60", "title": "The node store of a disk index returns the last record written for every node", "statement": "After any history of write_node, write_node_neighbors, read_node, read_node_async, read_coords_cached and flush on one DiskPageIO, every read of a node returns the vector and neighbour list last written for it (records that share its page are untouched, nodes beyond the end of the file appear when written), and after a complete flush the device holds exactly these records.", "quantifier": "for every geometry, page cache capacity, sharding, history and placement of failing device writes", "why_tests_cant": "read-modify-write of shared pages under every eviction order and failure point is an unbounded set of histories", "anchors": ["include/index/graph/diskann/disk_page_io.hpp: write_node, write_node_neighbors, read_node, read_node_async, read_coords_cached, flush_dirty_pages"]}
{"id": "C61", "title": "A saved Vamana graph loads back exactly and nothing else loads", "statement": "For a graph with at least one node, degrees between 1 and R, neighbours in range and no self loops, VamanaReader on the file written by save_graph yields exactly that graph, R and start node; conversely every file it accepts is byte for byte the saved form of the graph it returns, which meets these invariants; every proper prefix or extension of a saved file is rejected.", "quantifier": "for every graph and every byte string", "why_tests_cant": "all byte strings, including corrupt and truncated files", "anchors": ["include/index/graph/vamana/vamana_writer.hpp: save_graph", "include/index/graph/vamana/vamana_reader.hpp: VamanaReader"]}
{"id": "C62", "title": "A merged graph file is accepted by the graph reader", "statement": "For well-formed shards and an in-range medoid, the file written by merge_shards is accepted by VamanaReader and yields the merged adjacency lists, R and the medoid.", "quantifier": "for every set of shards and every shuffle", "why_tests_cant": "unbounded inputs; depends on which ids end up without neighbours", "anchors": ["include/index/graph/vamana/shard_merger.hpp: merge_shards", "include/index/graph/vamana/vamana_reader.hpp: VamanaReader"]}
{"id": "C63", "title": "Shard assignment puts every vector into exactly k_base different nearest shards", "statement": "shard_data_by_centroids writes every base vector to exactly k_base different shards, none farther than a shard left out; each id map is strictly ascending and position i of the data file holds the vector of the i-th id.", "quantifier": "for every base file, every set of centres and every k_base", "why_tests_cant": "all inputs including extreme coordinates; ties", "anchors": ["include/index/graph/vamana/shard_assigner.hpp: shard_data_by_centroids", "include/index/graph/vamana/kmeans_partition.hpp: compute_closest_centers"]}
{"id": "C64", "title": "An exhaustive disk search is exact and independent of I/O timing", "statement": "A No-PQ DiskANN search whose list size is at least the number of live nodes reachable from the medoid through live nodes returns exactly the top_k nearest of those nodes (ties by id), in pipelined and deterministic mode alike.", "quantifier": "for every graph, query, cache state and order in which reads complete", "why_tests_cant": "unbounded graphs and completion orders", "anchors": ["include/index/graph/diskann/beam_search.hpp: search_nopq", "include/index/graph/diskann/search_scratch.hpp: NeighborPriorityQueue"]}
{"id": "C65", "title": "A disk search never runs out of scratch memory and leaves it reusable", "statement": "A No-PQ DiskANN search on a healthy index does not throw for lack of neighbour regions, whatever top_k and search_list_size, and after it all regions are free again.", "quantifier": "for every graph, query, parameters and completion order", "why_tests_cant": "unbounded graphs, parameters and completion orders; leaks show only after many queries", "anchors": ["include/index/graph/diskann/search_scratch.hpp: NeighborScratch", "include/index/graph/diskann/diskann_index.hpp: load, search"]}
{"id": "C66", "title": "A disk search uses only bytes its own reads delivered", "statement": "Every node record a DiskANN search computes with is the record the device holds for that node; a failed read makes the query it belongs to throw and does not affect later queries.", "quantifier": "for every sequence of queries on a search thread, every completion order and every set of failing reads", "why_tests_cant": "needs read failures at particular moments and adversarial completion orders", "anchors": ["include/index/graph/diskann/beam_search.hpp: search_nopq, search_pq", "include/index/graph/laser/utils/aligned_file_reader.hpp: execute_io, get_events", "include/index/graph/diskann/diskann_index.hpp: search"]}
{"id": "C67", "title": "An in-memory graph search is sound, ends, and is exact when ef is large enough", "statement": "On a well-formed graph of n nodes a search with ef ≥ topk ends without leaving its arrays and returns topk slots: distinct nodes reachable from the entry, with their true distances, nearest first, then padding. The way down through the upper layers ends at a node not farther than the entry point. When ef is at least the number of reachable nodes the answer is the exact top-k of them, and for a strongly connected base layer with ef ≥ n the exact top-k of all nodes. With a quantised search space the answer is the exact top-k, by unquantised distance, of the candidates kept.", "quantifier": "for every graph, upper layers, query, topk, ef", "why_tests_cant": "unbounded graphs; termination and bounds for all of them; exactness for every distance function", "anchors": ["include/executor/jobs/graph_search_job.hpp: search_solo, search", "include/index/graph/graph.hpp: initialize_search", "include/index/graph/overlay_graph.hpp: initialize", "include/index/neighbor.hpp: LinearPool"]}
{"id": "C68", "title": "A filtered search returns only matching rows, nearest first, with their item ids, and enough of them", "statement": "A search with a metadata filter ends without exception or access outside of its arrays and returns topk slots: at most topk distinct rows that satisfy the filter, nearest first, each with its own item id, then empty slots. Unless the caller asks for iterative filtering, it returns min(topk, number of matching rows) rows, and when ef covers a connected index these are the exact nearest matching rows. The brute-force search always returns the exact nearest matching rows. Bad topk/ef are refused.", "quantifier": "for every graph, distance function, filter, index hit list, hint, topk, ef, cost estimate", "why_tests_cant": "the choice of strategy depends on data sizes and a floating-point cost estimate; soundness must hold on every path for unbounded spaces", "anchors": ["include/executor/jobs/graph_hybrid_search_job.hpp: hybrid_search_solo, execute_bitset_prefilter, execute_iterative_filter, execute_brute_force, hybrid_search_brute_force_solo, copy_results_to", "include/executor/jobs/graph_search_job.hpp: copy_results_to", "include/executor/vector_iterator.hpp: GraphVectorIterator"]}
{"id": "C69", "title": "Insertions and removals keep an in-memory index in order", "statement": "After any sequence of insertions and removals of existing rows no call has thrown or left its arrays; insertions return consecutive ids until the index is full and then the full marker, every row keeps its vector, exactly the removed rows are marked, and all neighbour lists name existing rows. A search afterwards is sound and lists removed rows only after all others; on a connected graph with ef covering it and topk rows left it returns exactly the nearest rows that have not been removed. An inserted vector can be found.", "quantifier": "for every history, vector type, distance, order of the hash containers, topk, ef", "why_tests_cant": "unbounded histories; ties and container order are not under the control of a test; reachability depends on the whole history", "anchors": ["include/executor/jobs/graph_update_job.hpp: insert_and_update, remove, update", "include/executor/jobs/graph_search_job.hpp: search_solo_updated, search_solo", "include/executor/jobs/job_context.hpp: JobContext", "include/space/raw_space.hpp: insert, remove, QueryComputer", "include/index/graph/graph.hpp: insert, update, remove"]}
{"id": "C70", "title": "Parallel batch search over an in-memory index equals single searches", "statement": "On an unquantised in-memory index a batch search with ef >= topk and at least one thread always returns, and row i of its result is exactly what a single search for query i returns, for any number of threads and queries and any interleaving of the threads. No query is lost, searched twice or searched by two threads at a time.", "quantifier": "for every graph, query batch, topk, ef, thread count and fair schedule (safety: every schedule)", "why_tests_cant": "the interleavings of the worker threads over the shared queue and counters are unbounded and not under the control of a test", "anchors": ["include/executor/worker.hpp: Worker::run", "include/executor/scheduler.hpp: Scheduler::begin, join, schedule, resume", "include/executor/task_queue.hpp: TaskQueue", "include/executor/jobs/graph_search_job.hpp: search (coroutine)", "python/include/index.hpp: batch_search, batch_search_with_distance"]}
{"id": "C71", "title": "Save and load of an in-memory index", "statement": "Saving an unquantised in-memory index with 32-bit ids and loading the files gives an index with the same metric, dimension, counters, scalar configuration, rows, removed marks, entry points and upper layers, so every search returns what it returned before, whatever was inserted and removed. If no row had been removed since the index was built or loaded, every later history of insertions and removals also behaves as without the reload.", "quantifier": "for every index reachable by the API whose numbers fit their types and which has less than 1000 indexed fields, every content of uninitialised memory, every query and every later history", "why_tests_cant": "the contents of graph, layers, bitmaps and configuration are unbounded and part of what is loaded comes from uninitialised memory", "anchors": ["include/index/graph/graph.hpp: Graph::save, load", "include/index/graph/overlay_graph.hpp: OverlayGraph::save, load", "include/space/raw_space.hpp: RawSpace::save, load, save_scalar_config, load_scalar_config", "include/storage/sequential_storage.hpp: save, load", "python/include/index.hpp: save_state, load_state"]}
{"id": "C72", "title": "Thread pool of the builders", "statement": "The thread pool executes every enqueued task exactly once and starts tasks in the order of enqueueing. A client that waits for the number of tasks it has enqueued since the last reset, and resets only after such a wait, is released only when exactly those tasks have ended, is released eventually under every fair schedule with at least one thread, and its destruction of the pool ends with all tasks executed and all threads ended. The HNSW builder is such a client for 1 to 2^32-1 vectors. A batch of searches none of which throws is left only when none of them is running.", "quantifier": "for every number of threads, every program of the client, every interleaving, every choice of the woken thread and every spurious wake-up", "why_tests_cant": "lost wake-ups and early returns depend on interleavings a test cannot enumerate", "anchors": ["include/utils/thread_pool.hpp: ThreadPool, enqueue, wait_until_all_tasks_completed, reset_task, ~ThreadPool", "include/index/graph/hnsw/hnsw_builder.hpp: build_graph", "include/index/graph/knng/nndescent.hpp: join, update, generate_control_set", "include/index/graph/nsg/nsg_builder.hpp: link", "python/include/index.hpp: batch_hybrid_search, get_hybrid_batch_pool"]}
{"id": "C73", "title": "NSG builder", "statement": "A graph returned by the NSG builder has one row per vector, each with at most the configured number of neighbours, all of them existing vectors and stored in front of the empty places, and its entry point is an existing vector. The phase that selects neighbours ends if there are at least as many vectors as the construction pool holds; the traversal that looks for unconnected vectors visits exactly what can be reached; edges added later remove nothing that could be reached. (Checked and found false: that the builder ends on every data set, that every vector can be reached from the entry point of the result, that vectors can be inserted into the finished index.)", "quantifier": "for every kNN graph, every distance function, every number of neighbours and pool size, every sequence of random draws, every sort", "why_tests_cant": "the outcome depends on the random draws and on the geometry of the data; a test with one data set says nothing about the others, and a hang shows only on particular sizes", "anchors": ["include/index/graph/nsg/nsg_builder.hpp: build_graph, init, search_on_graph, link, sync_prune, add_reverse_links, tree_grow, dfs, attach_unlinked, insert_into_pool", "include/index/graph/fusion_graph.hpp: build_graph", "include/executor/jobs/graph_update_job.hpp: insert_and_update, insert_spaces", "include/storage/sequential_storage.hpp: insert, remove"]}
{"id": "C74", "title": "Scalar quantisation", "statement": "After fitting, every component of every fitted vector lies in the stored range of its coordinate, and both ends of the range are components of fitted vectors. The code of a finite value is defined, at most 255 (or 15), does not decrease as the value grows, and is the least and the greatest code at the two ends of the range. With relative rounding errors at most e a value in the range is decoded within 1/255 + 5e (1/15 + 5e) of the width of the range. The distance and inner product of two 8-bit coded vectors are those of the decoded vectors, and the distance is within 4(1/255 + 5e) of the squared size of the box from the true one. (Checked and found false: the same for 4 bits; that vectors outside of the fitted range are told apart; that NaN and ranges that overflow are handled.)", "quantifier": "for every data set, every dimension, every monotone rounding of the floating-point operations that keeps 0, 1 and the greatest code, every pair of vectors", "why_tests_cant": "the 4-bit tests use the same range for all coordinates and even dimensions, where the exchange of the two halves of a byte cancels; rounding errors depend on the values", "anchors": ["include/space/quant/sq8.hpp: fit, quantize, encode", "include/space/quant/sq4.hpp: fit, quantize, encode", "include/simd/distance_l2.ipp: l2_sqr_sq8_generic, l2_sqr_sq4_generic", "include/simd/distance_ip.ipp: ip_sqr_sq8_generic, ip_sqr_sq4_generic"]}
{"id": "C75", "title": "Vector distance kernels", "statement": "Squared distance and inner product, for full-precision vectors, 8-bit and 4-bit codes, computed by any of the kernels (generic, AVX2, AVX-512, DiskANN order) is in exact arithmetic the sum over all coordinates, each exactly once (negated for the inner product, so that smaller is closer), and no element behind the given dimension is read. So the value does not depend on the processor or on the environment variables that select the kernel. On processors where avx512f implies avx512bw, avx512dq, avx2 and fma every kernel selected automatically can be executed. (Checked and found false: the last without that condition, and when the DiskANN order is requested on a processor without AVX2.)", "quantifier": "for every dimension, every pair of vectors, every range of the codes, every processor, every value of the environment variables", "why_tests_cant": "the kernels have different paths for each remainder of the dimension, and a test machine has only one processor", "anchors": ["include/simd/distance_l2.ipp: l2_sqr_generic, l2_sqr_avx2, l2_sqr_avx2_diskann_compat, l2_sqr_avx512, l2_sqr_sq8_*, l2_sqr_sq4_*, get_l2_sqr_func", "include/simd/distance_ip.ipp: ip_sqr_generic, ip_sqr_avx2, ip_sqr_avx512, ip_sqr_sq8_*, ip_sqr_sq4_*", "include/simd/cpu_features.hpp: select_fp32_distance_level", "include/utils/platform.hpp: ALAYA_TARGET_AVX512"]}
{"id": "C76", "title": "Random rotation of the RaBitQ space", "statement": "The rotator exists exactly for dimensions 64 to 4095. For every choice of the random signs, rotating keeps inner products and distances (in exact arithmetic), and reads and writes only inside the padded vector. The fast transform inside it is the Walsh-Hadamard transform for each of its eighteen variants (generic, AVX2 assembly, AVX-512 assembly; sizes 64 to 2048) and changes nothing outside its window. All variants give the same numbers, with rounding too, so a vector rotated on one machine can be compared with one rotated on another. A rotator restored from a file rotates as the saved one.", "quantifier": "for every dimension, every padding, all random sign bits, all vectors, every processor and compilation mode, every rounding", "why_tests_cant": "the assembly has 700 distinct instructions and the result depends on all of them; a test machine executes one variant, and the signs are random", "anchors": ["include/simd/fht.ipp: fwht_generic_template, helper_float_6_avx2 … helper_float_11_avx512, helper_float_6 … helper_float_11", "include/utils/rabitq_utils/rotator.hpp: FhtKacRotator, flip_sign, kacs_walk, vec_rescale, choose_rotator"]}
{"id": "C77", "title": "RaBitQ look-up tables", "statement": "During a RaBitQ search the inner product of the query with a neighbour's one-bit code is read from tables, 32 neighbours at a time. For any number of neighbours and any codes, the AVX-512, the AVX2 and the portable kernel give, for the same table, the same counter for every neighbour: the sum of the entries its own bits select (modulo 2^16), with no read outside the buffers. Up to 1024 padded dimensions, for any query that is not zero, the counter gives the inner product up to dim/8 steps of the table, so up to dim*M/255 where M bounds the query's coordinates.", "quantifier": "for every query, every set of codes, every block of 32 neighbours, every padded dimension that is a multiple of 16, every instruction set", "why_tests_cant": "a test machine runs one of the three kernels, and a wrong nibble, lane or carry only moves an estimate, which graph search hides behind its recall", "anchors": ["include/utils/rabitq_utils/fastscan.hpp: pack_codes, get_column, accumulate, accumulate_scalar, pack_lut", "include/utils/rabitq_utils/lut.hpp: Lut, scalar_quantize_normal, scalar_quantize_optimized", "include/space/quant/rabitq.hpp: pack_binary, batch_quantize"]}
{"id": "C78", "title": "RaBitQ distance estimates", "statement": "For a node with up to 32 neighbours RaBitQ stores one bit per dimension and two numbers per neighbour, and estimates a query's distances to all of them. In exact arithmetic, up to 1024 padded dimensions and for any query that is not zero, storing and estimating succeed whichever instruction sets built and search the index; the distance to the node itself is exact; and with u = |o-c|^2 for node c and neighbour o, l the sum of the magnitudes of their rotated difference, D the padded dimension, the estimate of |q-o|^2 is off by at most 2*sqrt(|q-c|^2 * u * (D*u/l^2 - 1)) for the code plus 4*u/l * D*|q|/255 for the tables. Whatever the random rotation is, D*u/l^2 is at most D. A neighbour in the same place as the node, and up to the table error one whose rotated difference has equal magnitudes, is estimated exactly. For inner product and cosine the same holds with half the bound around 1 - <q,o>. (Checked and found false: that this is the distance the index reports, which is -<q,o>.)", "quantifier": "for every dimension with a rotator and at most 1024 padded dimensions, every random rotation, every node, set of neighbours and query, every metric, every instruction set at build and at search time", "why_tests_cant": "recall tests average over many queries and hide a wrong factor; no test can bound the error of every estimate", "anchors": ["include/space/quant/rabitq.hpp: cal_fac_and_qc, batch_quantize", "include/space/rabitq_space.hpp: update_nei, set_metric_function, QueryComputer", "include/utils/rabitq_utils/fastscan.hpp: estimate_distances, accumulate_and_estimate_distances"]}
{"id": "C79", "title": "What a RaBitQ search returns", "statement": "For every RaBitQ graph (32 edges per node, all to existing nodes), every query, entry point, k and ef >= k, a search ends without reading outside of the index. The ids it writes are distinct existing nodes, nearest first by exact distance, and are the k nearest of all nodes whose exact distance was computed; these include the entry point and every node that was expanded. An edge of an expanded node is left aside only if its estimate is infinite or ef different offers to expanded nodes have estimates that are no larger; expanded nodes can be reached from the entry point, and with finite estimates and ef above 32 times the number of nodes plus one all reachable nodes are expanded. Nodes one step from an expanded node are taken in only when fewer than k were expanded, and fewer than k ids are written only when all of these have been taken in; with distinct neighbours at least min(k, 33) ids are written. With ef < k an error is reported. A search with a mask returns the k nearest unblocked nodes among the expanded ones and all nodes one step from these, each once, and fills up with the invalid id. (Checked and found false: that the ids returned by search and batch_search are distinct; entries for which no node was found hold the id 0.)", "quantifier": "for every graph, every estimate and exact distance function, every mask, k, ef, entry point and previous content of the result array", "why_tests_cant": "tests measure recall on a few connected graphs; which neighbours a beam search may drop, duplicates in the beam, collisions in the hash set and disconnected graphs need all graphs and all orders of distances", "anchors": ["include/executor/jobs/graph_search_job.hpp: rabitq_search_solo, rabitq_search, rabitq_supplement_result", "include/executor/vector_iterator.hpp: RaBitQVectorIterator", "include/utils/rabitq_utils/search_utils/buffer.hpp: SearchBuffer", "include/utils/rabitq_utils/search_utils/hashset.hpp: HashBasedBooleanSet", "python/include/index.hpp: search, batch_search"]}
{"id": "C80", "title": "The RaBitQ graph builder delivers a regular graph", "statement": "Fitting a RaBitQ index with at least 33 vectors ends and gives every node exactly 32 neighbours that are distinct, exist and differ from the node, whatever the vectors, the random numbers and the interleaving of the threads: such a graph meets the assumptions of C79. While reverse edges are added in parallel no list exceeds 32 entries, no entry is entered twice, none that was there is lost, no thread gets stuck. Neighbours chosen from a larger pool are not occluded by one another, and what is left out is occluded unless 32 were chosen. The entry point is a nearest node to the centre for every distribution of the nodes over threads. (Checked and found false: that fitting ends for every non-empty collection; with 1 to 32 vectors it never does.)", "quantifier": "for every number of vectors, distance and estimate function, angle test, sequence of random numbers, number of threads and interleaving", "why_tests_cant": "tests build a few graphs with many points; duplicates under concurrent insertion depend on the schedule, the missing end for small collections needs collections nobody tests, and the degree must be 32 for every node because the search reads 32 entries", "anchors": ["include/index/graph/qg/qg_builder.hpp: QGBuilder, build_graph, iter, search_new_neighbors, add_reverse_edges, angle_based_supplement, heuristic_prune, cal_ep, random_init", "python/include/index.hpp: fit", "include/space/rabitq_space.hpp: update_nei, kDegreeBound"]}
{"id": "C81", "title": "Layout and files of a RaBitQ space", "statement": "For every dimension and number of vectors, the vector, the codes, the two kinds of factors and the neighbour ids of all nodes lie inside the allocated storage at multiples of four bytes and do not overlap: storing the neighbours of a node is read back and changes nothing else. Fitting stores every row under its number and refuses more rows than the capacity. Saving and loading gives back the whole space (vectors, codes, factors, neighbours, rotation, entry point, metric, settings), whatever fresh memory holds, so that searches answer as before. (Checked and found false: that a file cut short is noticed; that a space with a thousand or more indexed fields can be loaded.)", "quantifier": "for every dimension, number of vectors, content, settings, cut of the file and content of fresh memory", "why_tests_cant": "an overlap shows only for certain dimensions and nodes and then only as a slightly worse recall; reading behind the end of a short file depends on what memory holds", "anchors": ["include/space/rabitq_space.hpp: initialize_offsets, update_nei, fit, save, load, save_scalar_config, load_scalar_config, get_data_by_id, get_edges", "include/storage/static_storage.hpp: StaticStorage", "include/utils/rabitq_utils/rotator.hpp: choose_rotator, save, load"]}
{"id": "C82", "title": "Building an HNSW graph with several threads", "statement": "For all vectors, distances, numbers of threads, drawn levels and interleavings, building an HNSW graph with at least four neighbours per node stays inside its arrays, never deadlocks and comes to an end. The graph then has a row for every vector with distinct ids of other vectors (at least one if there are two vectors), filled up with the empty id; the upper layers lead only to vectors that exist on that layer; the entry point is on the highest layer. So every search on it ends and returns distinct vectors with their distances, nearest first. The lists of visited nodes show exactly what the running search has marked, however often they are reused. (Checked and found false: that every vector can be found with a large ef; that 64-bit ids give the same graph; that one neighbour per node works.)", "quantifier": "for every number of vectors, distance function, number of threads, schedule of the threads, drawn levels, choice among equally distant candidates and number of earlier uses of a visited list", "why_tests_cant": "deadlocks and broken lists depend on the interleaving of the threads and on random levels; a test runs a few of them", "anchors": ["include/index/graph/hnsw/hnswlib.hpp: HNSW, add_point, search_base_layer, mutually_connect_new_element, get_neighbors_by_heuristic2", "include/index/graph/hnsw/hnsw_builder.hpp: HNSWBuilder::build_graph", "include/index/graph/hnsw/visited_list_pool.hpp: VisitedList, VisitedListPool"]}
{"id": "C83", "title": "Building a Vamana graph with several threads", "statement": "For all vectors, distances, valid parameters (R, L, max candidates at least 1, finite alpha at least 1), numbers of threads and interleavings, building a Vamana graph stays inside its arrays, never deadlocks and comes to an end. The graph then has one list per vector with at most R distinct ids of other vectors, and every vector but the entry point has a neighbour. If the entry point has one, too (always so with one thread, two vectors and L at least 2), the file written is read back as this graph. Every search on the graph ends and returns distinct vectors with their distances, nearest first. The entry point is a vector nearest to the centroid, however the vectors are divided among the threads. (Checked and found false: that the entry point always has a neighbour, without which the file is rejected; that every vector can be reached from it; that it does not depend on the order of the threads.)", "quantifier": "for every number of vectors, distance function, parameters, number of threads, schedule of the threads and division of the vectors among them", "why_tests_cant": "lost lists depend on the interleaving of the threads, unreachable vectors on the data; a test runs a few schedules on random vectors", "anchors": ["include/index/graph/vamana/vamana_builder.hpp: VamanaBuilder::build, calculate_entry_point, iterate_to_fixed_point, search_for_point_and_prune, inter_insert, link", "include/index/graph/vamana/robust_prune.hpp: prune_neighbors", "include/index/graph/vamana/vamana_reader.hpp: VamanaReader", "include/index/graph/vamana/vamana_greedy_search.hpp: greedy_search"]}
{"id": "C84", "title": "Product quantisation: training, codes and distances", "statement": "For all vectors, shapes and random numbers, training a product quantisation table, encoding vectors, adding single vectors and computing distances stays inside the arrays as long as the sizes are as announced. Any number of threads in any order gives the same table and codes as one. A code names, for every chunk, the first of the nearest centroids. After any sequence of single updates each row holds the code of the last vector given for it, skipped rows are zero. The distances of a batch equal those of single calls, bit for bit. In exact arithmetic a distance is the squared distance to the point that the code stands for, the symmetric distance that between two such points; k-means iterations never increase the training error; and with at most 256 training vectors nothing is lost: distances to them are the true ones. Saving and loading gives the same table, files of other sizes are rejected. (Checked and found false: that a table can be used after it is trained again without encoding, or after a load that failed; that sizes beyond 64 bits are rejected on load; that the largest id can be encoded.)", "quantifier": "for every dimension, number of chunks, training set, sequence of updates, batch of ids, number of threads and schedule; for every arithmetic unless exact arithmetic is named", "why_tests_cant": "tests compare a few tables with fixed seeds and thread counts; that threads never matter, that batches equal single calls and that the error never grows are statements about all data", "anchors": ["include/index/graph/diskann/pq_table.hpp: PQTable::train, train_chunk, kmeanspp_init, argmin_centroid, encode, encode_one, encode_to_code, preprocess_query, pq_distance, pq_distance_batch, pq_symmetric_distance, save, load"]}
{"id": "C85", "title": "Compressed codes under concurrent insertions and removals", "statement": "For every interleaving of insertions, removals and searches, a search that holds the shared lock reads codes that exist and that nobody writes at the same time, even when an insertion has to move the codes; while it runs no code changes. An insertion changes the code of no slot but its own, and that slot then holds the code it was given. A search that takes no lock is as safe if nothing is removed meanwhile and the codes were given room for all insertions. (Checked and found false: that a search without the lock is safe because insertions write codes of invisible slots only. An insertion that moves the codes frees what the search reads, and a slot the search still considers visible may be removed, reused and rewritten.)", "quantifier": "for every number of threads, initial codes, capacity, growth of the buffer and interleaving of steps", "why_tests_cant": "a use after free that needs a reallocation between two instructions of another thread shows in no deterministic test; the safe case needs all interleavings", "anchors": ["include/index/graph/diskann/diskann_index.hpp: encode_pq_slot, search, search_pipelined, run_update_search, run_update_search_async, select_insert_neighbors_pq, score_candidates_pq, publish_slots", "include/index/graph/diskann/beam_search_async.hpp: pq_beam_search_async", "include/index/graph/diskann/pq_table.hpp: encode_one, pq_distance, pq_distance_batch"]}
{"id": "C86", "title": "Building a Vamana index in parts that fit into memory", "statement": "If the estimate for all vectors fits the budget, the build writes the graph of one builder. Otherwise the number of parts is the first of 3, 5, 7, … (at most 1023 and the size of the sample) whose estimated sizes fit; every vector is put into the two parts with the nearest centres, and the file written has one list per vector, with neighbours that exist, are different, are not the vector itself, share a part with it, and are at most R; with one thread and two or more vectors in every part every list has a neighbour and the file can be loaded. The centres are trained by k-means: as many as asked for, pairwise different vectors of the sample to begin with (exact arithmetic, enough different vectors, one random number each), and rounds that never increase the sum of the distances; that sum is the least the centres allow. If the sample is the whole data, every part fits the budget. Wrong parameters are rejected; the entry point is a vector nearest to the mean. (Checked and found false: that the build ends for every data file – one coordinate that is infinite or not a number makes the choice of centres loop forever; that it succeeds for every finite one – with equal vectors a part may be empty and the build fails; that parts fit the budget when the sample is smaller; that the estimate grows with the dimension.)", "quantifier": "for every data set, arithmetic (or every ordered field, for the exact statements), sample, sequence of random numbers, budget, degree, shuffle and execution of the builders", "why_tests_cant": "a test builds a few data sets with well separated vectors and fixed seeds; that no random numbers whatsoever end the loop, or that no graph has a neighbour outside the parts, is a statement about all of them", "anchors": ["include/index/graph/vamana/build_dispatch.hpp: build_vamana, run_single_shard, run_partition_merge, gen_random_slice", "include/index/graph/vamana/kmeans_partition.hpp: kmeanspp_init, lloyds_iter, run_lloyds, compute_closest_centers, estimate_cluster_sizes, kmeans_train", "include/index/graph/vamana/budget_estimator.hpp: estimate_ram_usage_bytes, determine_num_parts_with_ram_budget", "include/index/graph/vamana/shard_assigner.hpp", "include/index/graph/vamana/shard_merger.hpp", "include/index/graph/vamana/vamana_builder.hpp"]}
{"id": "C87", "title": "Rebuilding a collection keeps its records", "statement": "After any history of calls, snapshots, crashes and restarts, a completed Collection.reindex leaves every item id with the record it had (its vector normalised once more under the cosine metric); the rebuilt collection holds exactly the live rows with an item id, in their order, without removed slots, and goes on like a new collection, crashes included. A crash during the rebuild leaves a collection that opens and finds every item, if it happens outside the step between the replacement of CURRENT and the removal of the log, or if the collection was saved just before. A rejected thread count leaves the recovery directory alone: a restart finds the old content. (Checked and found false: that a rejected thread count leaves the collection usable – the check comes after the old index was closed and its database removed, and closing and inserting again then discards the old records for good; that every row is kept – rows with an empty item id are dropped; that a crash at any point is harmless – with one insert since the last save, a crash in that step makes the collection impossible to open.)", "quantifier": "for every collection content with distinct item ids, history, thread count, normalisation, crash point and amount of log that reached the disk", "why_tests_cant": "the harmful step lies between two system calls inside a function; a test would have to stop the process exactly there, with exactly the operations pending that make the replay fail", "anchors": ["python/src/alayalite/collection.py: reindex, close, insert, get_by_id", "python/src/alayalite/index.py: fit", "python/include/index.hpp: initialize_recovery, fit, checkpoint_recovery_snapshot, get_scalar_data_by_internal_id, get_data_by_id, get_data_num", "include/recovery/recovery_manager.hpp: publish_snapshot, current_snapshot"]}
{"id": "C88", "title": "Collections of one client do not influence each other", "statement": "For a client with a url and collections with ordinary names (no separator, not empty, not '.' or '..') created without an explicit rocksdb_path: after any interleaved history of first inserts, calls, saves, crashes, restarts and deletions, each collection is in exactly the state its own events alone would give; in particular its content is that of its first insert since its last disk deletion followed by its own acknowledged calls. The next client of the url lists exactly the collections that had a first insert or a save after their last disk deletion. (Checked and found false: that this holds for any name – deleting a collection named '', '.' or '..' on disk removes the data of all collections, an absolute name removes that directory; that it holds without a url or for different explicit paths with a common parent – all of these share one recovery directory, and a restarted collection shows the records of the other; that a collection with an explicit rocksdb_path is listed by the next client.)", "quantifier": "for every url, working directory, set of names, interleaved history, record content, clock advance and crash point", "why_tests_cant": "tests use one or two well-named collections in fresh directories; the interference appears only across restarts, for paths that share a parent, or for names nobody would try", "anchors": ["python/src/alayalite/client.py: __init__, create_collection, delete_collection, save_collection", "python/src/alayalite/collection.py: Collection.__init__, insert, save, load", "python/include/index.hpp: initialize_recovery", "include/recovery/recovery_manager.hpp: current_snapshot"]}
{"id": "C89", "title": "Vamana segments of a disk collection: search, flush and recovery", "statement": "For a disk collection with Vamana segments and metric L2: a search of any segment directory that opens ends, reads only inside its files and returns distinct rows (at most top_k), with their stored labels and their distances, ordered by distance (ties by row), each reachable from the entry point; with every row reachable and ef at least their number it is the exact top-k. After any history of add_batch, flush (any result of the build, an error or crash at any file-system step) and reopen: a flush either leaves what opening shows unchanged or adds one segment with exactly the pending rows under a new name; listed segments open; no label occurs twice; no existing segment directory is ever changed; reopening brings back the parameters and the pending limit. Creating and opening refuse every parameter set outside 1 <= R <= L, 1 <= alpha <= largest float; a damaged stored number makes opening fail. A flush of at least two finite rows with new labels succeeds if the entry point of the graph of the build has a neighbour. (Checked and found false: that a flush that threw can be retried – with an entry point without neighbours, possible with L = R = 1 or with two threads, the directory stays in place with the next id and every further flush of the open collection fails; that a collection with a seed of more than 32 bits can be opened again; that a metric the constructor accepts can be flushed; that alpha survives reopening – it is stored with six decimals; that ties are cut by label as in flat segments.)", "quantifier": "for every history, fault point, build result, parameters, rows, query, top_k and ef", "why_tests_cant": "crash points, build results that depend on thread timing, and histories multiply; the failing cases need an entry point without neighbours or parameters at their limits", "anchors": ["include/index/disk/vamana_segment_builder.hpp: VamanaSegmentBuilder::finish", "include/index/disk/vamana_segment_searcher.hpp: VamanaSegmentSearcher, search", "include/index/disk/segment_factory.hpp: create_segment_from_pending", "include/index/disk/disk_collection.hpp: flush, open, load_vamana_params_from_manifest, validate_vamana_params"]}
{"id": "C90", "title": "Search in a LASER segment with asynchronous reads", "statement": "A search in a LASER segment (beam width from 1 to 1024, top_k above 0), whatever the times and the order in which the device executes the reads: it never leaves its arrays, throws no exception, never runs out of buffers, evaluates a node only on a page that holds it, and keeps at most one and a half times the beam width of reads in flight; if the search and the device go on it ends. It returns min(top_k, count) labels: those of the nearest, by exact distance, of the nodes visited, nearest first and without repetition, then the label of row 0 for every node that is missing. The nodes visited can be reached from the entry point and the nearest medoid; an edge of a visited node was left aside only if ef other offers were at least as good, or if the node was one of the last (at most half of the beam width). With beam width 1 and ef above the number of edges the answer is the exact top-k of the reachable nodes, whatever the device does. As long as no search throws, no call of the segment hangs or throws, for every sequence of options. (Checked and found false: that with enough ef every reachable node is found for beam widths above 1, and that the answer does not depend on the device – edges of the nodes that arrive last are not followed; that ef = number of rows is enough for completeness; that rows returned were found or are distinct – row 0 stands in for missing ones; that a failed read is noticed; that a search with beam width 0 ends; that a segment can be used after a search threw – the same call again waits for ever holding the mutex.)", "quantifier": "for every index with valid ids, query (exact and estimated distances), options, old content of the buffers, order and time of completions, and sequence of calls", "why_tests_cant": "completions arrive in an order no test controls; a lost neighbour, a stale page or a slot used twice shows only for particular interleavings", "anchors": ["include/index/graph/laser/qg/qg.hpp: QuantizedGraph::disk_search_qg, scan_neighbors, set_params, destroy_thread_data", "include/index/graph/laser/utils/buffer.hpp: SearchBuffer, ResultBuffer", "include/index/graph/laser/utils/aligned_file_reader.hpp: LinuxAlignedFileReader::submit_reqs, poll_events", "include/index/graph/laser/utils/concurrent_queue.hpp: ConcurrentQueue::pop", "include/index/disk/laser_segment_searcher.hpp: LaserSegmentSearcher::search"]}
{"id": "C91", "title": "Import of LASER segments into a disk collection", "statement": "Whatever happened before (imports, refused adds, errors at any step, crashes, reopenings), an import of native LASER files is atomic: opening the collection afterwards shows what it showed before or exactly one more segment, under a new name, with exactly the given labels and with the index file, entry point, rotation signs, medoids, PCA and cached nodes of the source; a success report means the latter. Every listed segment opens; labels are unique over all segments; no segment directory is ever overwritten or removed; reopening loses nothing. An import without faults succeeds exactly if: labels are non-empty, distinct and new, the metric is l2, the dimension is a power of two of at least 128, the parameters of the manifest are valid, the four required files of the next id are there, not empty, no optional file is empty, the count in the index is the number of labels, and the native loader accepts the files. Files in the layouts of their writers are loaded exactly. An import is free of undefined behaviour if no file of the source has one to seven bytes and the memory budget converts. While the directory of the next segment exists every import raises and changes nothing. (Checked and found false: that a corrected source can be imported after the searcher refused one – the directory stays, and after a reopening the file names, which contain the id, no longer fit; that the same source fits after the manifest could not be written; that a collection which can be created can be filled – every metric and dimension is accepted, but with another metric than l2 or another dimension no import ever succeeds; that a damaged source is refused – an index of eight bytes, missing signs, a PCA of another dimension and cached ids beyond the count are published; that the files named in the manifest are the files loaded; that a cache file of three bytes is refused – it is undefined behaviour.)", "quantifier": "for every source directory, label list, stored parameters, history of operations with faults or a crash at every file-system step", "why_tests_cant": "tests import one good source; crash points, leftover directories, and damaged files that pass the checks are not sampled", "anchors": ["include/index/disk/laser_segment_importer.hpp: LaserSegmentImporter::import_from", "include/index/disk/laser_segment_searcher.hpp: LaserSegmentSearcher::LaserSegmentSearcher", "include/index/disk/segment_factory.hpp: laser_import_params_from_manifest, SegmentFactory", "include/index/disk/disk_collection.hpp: DiskCollection::import_laser_segment, open", "include/index/graph/laser/qg/qg.hpp: QuantizedGraph::load_disk_index, load_medoids, load_cache", "include/utils/pca_transform.hpp: PCATransform::load"]}
{"id": "C92", "title": "Out-of-core build of a native LASER index", "statement": "From a Vamana graph file over n points, in which every point has between one and R neighbours, and a file with their n vectors, the build of a LASER index (R a multiple of 32, main dimension a multiple of 64) leaves, for every order in which its threads finish their points: an index file whose first sector names n, main dimension, the graph's start point, node length, nodes per page and the exact file size; for every point, at the page and slot that a search reads for it, exactly its vector, its codes and factors, and R ids of which the first are its neighbours in order and the rest zero; no byte of a node is touched by another; and a cache of distinct points with the highest in-degrees whose stored nodes equal those of the index. A LASER segment loads these files with that start point, index and cached nodes. A graph file cut short at any byte is refused. No write leaves its buffer. (Checked and found false: that every point keeps its vector – a point without neighbours, e.g. in an index of one point, is stored as zeros; that a search follows edges of the graph only – the unused id slots are scanned too and lead to point 0; that a vector file cut short, or a graph with fewer nodes than points, is refused; that a graph with larger ids, more nodes or more neighbours than declared is refused – it is undefined behaviour; that the C++ interface may be used with a degree that is not a multiple of 32 – codes overwrite the neighbour ids.)", "quantifier": "for every graph, set of vectors, geometry, quantiser with outputs of the right lengths, and every order in which parallel threads hand over their nodes", "why_tests_cant": "tests build one index with one thread schedule and search it; the order of page assembly, partly filled pages, and exact bytes of every slot cannot be enumerated", "anchors": ["include/index/graph/laser/qg/qg_builder.hpp: QGBuilder::build, PageAssembler, QGBuilder::init_from_vamana", "include/index/graph/laser/qg/qg.hpp: QuantizedGraph::update_qg_out_of_memory, initialize, get_page_offset, offset_to_node", "include/index/graph/laser/quantization/rabitq.hpp: rabitq_codes", "include/index/graph/laser/qg/qg.hpp: QuantizedGraph::load_disk_index"]}
{"id": "C93", "title": "Refitting a LASER index: reuse of files, crashes, reopening", "statement": "laser.Index.fit with a seed other than that of the last finished fit under the prefix, or with skip_existing=False, that returns has rebuilt everything: raw vectors, PCA (or its absence), medoids, Vamana graph and index all come from the vectors, parameters and seed of this call, whatever files of earlier, failed or killed calls lie under the prefix. The same call repeated returns and writes no file but the seed file. After any sequence of calls on the same vectors with the same parameters – any seeds, calls with skip_existing=True cut short or killed at any step leaving anything in the files of that step – every further call is free of undefined behaviour and, if it returns, leaves only files of its own vectors, parameters and seed. Files under another degree or main dimension stay as they are. If raw vectors, PCA, base or medoids of a finished fit are removed, the same call puts exactly these files back. A transform that was cut short is continued to the same file, whatever its size. Vectors of fewer than 128 dimensions and a main dimension that is not a power of two between 64 and the dimension are refused before any file is touched. An index that fit left is opened by from_prefix with the same number of points, dimension, main dimension and degree. (Checked and found false, with the same seed and skip_existing=True: that other vectors of the same shape, another graph parameter, disable_medoid=True or main_dim switched off give an index for these arguments – the old graph, index, medoids or rotated base are kept; that a call with fewer vectors is safe – the old graph leads the builder out of its arrays. Also false: that a killed call with skip_existing=False is noticed by the next call; that a prefix with indexes of two degrees can be opened; that with a new seed and 100000 or more vectors the vectors are transformed with the new PCA – whole blocks of the old transform are kept.)", "quantifier": "for every set of vectors, parameters, seeds, every history of calls with a crash at any step leaving arbitrary (not longer) contents, and all outputs of PCA, medoids, graph and index builders that pass the code's own header checks", "why_tests_cant": "tests refit once or twice with fixed seeds and delete single files; they cannot enumerate crash points, leftover contents and sequences of calls", "anchors": ["python/src/alayalite/laser/__init__.py: Index.fit, Index.from_prefix", "python/src/alayalite/laser/_idempotence.py: validate_seed_sidecar, write_seed_sidecar, validate_vamana_index, validate_pca_base, validate_medoids, validate_laser_index", "python/src/alayalite/laser/_pca.py: pca_transform_and_save", "python/src/alayalite/laser/_medoid.py: generate_and_save_medoids"]}
{"id": "C94", "title": "Insertions, removals and searches on a quantised in-memory index", "statement": "On an in-memory index with SQ8 or SQ4 codes any sequence of insertions and removals of existing rows runs without exception and without leaving the arrays: insertions return consecutive ids until the index is full and then the full marker, every row keeps its vector and the code of that vector, and exactly the removed rows are marked in both spaces. A search with ef >= topk returns distinct rows with their true distances, nearest first, removed rows last; they are the best topk, by true distance, of min(ef, number of reachable rows) rows reached. On a connected graph, if ef is at least topk plus the number of removed rows and topk rows are left, exactly topk rows are returned and none of them has been removed; if ef covers the index, they are exactly the topk nearest rows left, however coarse the codes are. (Checked and found false: that ef >= topk suffices to get rows that have not been removed, as on an unquantised index where live rows displace removed ones; that an inserted vector outside of the range of the vectors the index was built from is found by a search for it.)", "quantifier": "for all vectors, codes and distances, all graphs in order, all histories of insertions and removals, all queries, topk and ef", "why_tests_cant": "tests run a few fixed insertions and deletions on small quantised indexes with a generous ef; they cannot cover all histories and codes", "anchors": ["include/executor/jobs/graph_update_job.hpp: insert_and_update, insert_spaces, remove", "include/executor/jobs/graph_search_job.hpp: search_solo, rerank", "include/space/sq8_space.hpp: fit, insert, remove, QueryComputer", "include/space/sq4_space.hpp: fit, insert, remove, QueryComputer"]}
{"id": "C95", "title": "Saving and loading a quantised in-memory index", "statement": "Saving an in-memory index with SQ8 or SQ4 codes and loading its three files gives an index with the same graph, vectors, codes, marks of removed rows, quantiser ranges, metric, dimension, counters and scalar configuration, whatever the new memory held. Every search on it returns what the saved index returns. If nothing had been removed since the index was built or loaded, every later history of insertions and removals returns the same ids and ends in the same index; in any case every later history runs without exception and ends with exactly the rows, vectors, codes and marks that the calls describe, as on an index that was never saved. (Checked and found false: that an insertion after a removal gives the same index whether or not it was saved and loaded in between; that a process that ends while it saves leaves files that load as the old or the new index.)", "quantifier": "for all indexes whose storages come from API calls, all contents of fresh memory, all queries, all later histories, ids of four bytes (of eight without upper layers)", "why_tests_cant": "tests save and load a few small indexes and compare a few answers; they cannot cover all contents, all contents of fresh memory, or all later histories", "anchors": ["python/include/index.hpp: save_state, load_state", "include/space/sq8_space.hpp: save, load", "include/space/sq4_space.hpp: save, load", "include/space/quant/sq8.hpp: save, load", "include/space/quant/sq4.hpp: save, load", "include/index/graph/graph.hpp: save, load"]}
{"id": "C96", "title": "Reads of concurrent coroutines through one shared io_uring", "statement": "Any number of coroutines on any threads read batches through one UringReactor. read_batch that returns: the kernel has ended each read of the batch exactly once, each request holds the result of its own read, and the number returned is that of the requests whose result is not the size asked for. If it throws, the ring is unusable, the reads from some position on never reach the kernel, and those before it have ended with their results stored. Either way, once it has ended nothing – no completion, no later batch – touches the frame, the requests or the buffers again. No completion is dispatched into a batch that has ended, the submission queue is never found full, the counters never leave their range. While a batch has not ended something can be done for it, and only finitely much (apart from interrupted calls): all batches end and the ring is empty; then the destructor waits for nothing, otherwise exactly as long as reads are outstanding. Without a permanent failure and with fewer than 1024 requests of the kernel to repeat, no batch throws. After a failure the kernel gets no read any more and every later batch throws. (Checked and found false: that the counter of reads in flight is exact at every moment – it can be below zero; that temporary failures of the kernel do no lasting harm – 1024 times EAGAIN in one submission make every later read fail; that after an exception a request whose result equals its size was read.)", "quantifier": "for every number of batches and reads, every ring depth, every interleaving of submitting, polling and reaping threads, every order and every result of the kernel's completions, every portion in which it takes reads, every failure of io_uring_submit", "why_tests_cant": "tests run a few batches against a healthy kernel; interleavings, partial submissions and kernel failures cannot be provoked, let alone enumerated (the code marks these paths as excluded from coverage)", "anchors": ["include/storage/io/uring_reactor.hpp: UringReactor::read_batch, submit_reads, try_reap, dispatch_cqe, on_slot_complete, ~UringReactor", "include/index/graph/diskann/disk_page_io.hpp: set_reactor"]}
{"id": "C97", "title": "Reads through the thread-pool file reader", "statement": "Any number of threads submit batches of reads to one ThreadPoolFileReader and collect completions by poll_events and get_events. Whatever the callers do, no read is performed that was not accepted, none twice, and no event is handed out that does not report a performed read of that very context with its id and its result, none twice; once as many events were handed out for a context as reads were accepted, they are exactly the reports of these reads. While the context is registered nothing is lost. Once a read (of a context whose reads have different ids) was reported its buffer is not touched again. get_events returns exactly the number of events asked for; it returns if that many reads are outstanding on its context, otherwise it waits until something is submitted. close always ends; then no worker runs, nothing is queued, the descriptor is closed, no context is left, submissions are refused and no read is performed. A batch of more than 1024 reads is refused as a whole; there are 1 to 128 workers whatever the environment says. If contexts are registered while in use, threads are deregistered (other than by close) only while no worker is occupied with their context, and nothing is called during close, no destroyed context and no closed descriptor is ever used. (Checked and found false: that a thread may deregister once all its reads were reported – a worker may still have to notify through the destroyed context; that read() returns only when its own reads are done – with reads outstanding it may return on theirs; that read() reports failed or short reads; that reads submitted before close are performed.)", "quantifier": "for every number of threads, contexts, workers and reads, every interleaving of their atomic actions, every order in which the queues hand out their elements, every result of every read", "why_tests_cant": "tests run one or two interleavings with small files; the windows between an enqueue and a notification or between an empty queue and the stop flag are a few instructions wide", "anchors": ["include/index/graph/laser/utils/threadpool_file_reader.hpp: ThreadPoolFileReader, ThreadPoolContext", "include/index/graph/laser/utils/aligned_file_reader.hpp: AlignedFileReader", "include/index/graph/laser/qg/qg_builder.hpp: deregister_all_threads, cache_reader->read"]}
{"id": "C98", "title": "Parameters of an in-memory index: accepted, used, saved and loaded", "statement": "create_index and create_collection accept exactly the documented parameter values, whatever the case of their letters, and raise otherwise; accepted values are kept. Fitting uses every given value and the documented default for every missing one, takes the component type from the vectors and refuses vectors of another type than the configured one. Documented values in a supported combination (plain vectors with 32/64-bit ids; scalar quantisation and RaBitQ of float vectors) can be fitted, nothing else is. Search distances are the documented ones – squared Euclidean, negative inner product, and, with the metric written in small letters, negative cosine, independent of the lengths of the vectors, also when a collection normalises a query twice. A saved index is loaded with the same native configuration, file names and treatment of vectors, and saving it again writes the same schema; schema files of earlier versions load with defaults, files without a required key do not load; the files of one index have different names. (Checked and found false: that index_type nsg or fusion yields such a graph – it is always HNSW; that metric=\"COSINE\" means cosine – it is accepted but nothing is normalised; that documented values work or raise – cosine with int8 ends the process, an unsupported combination with nsg or fusion is undefined behaviour; that what create_index accepts can be fitted; that unknown parameters are refused and has_scalar_data is honoured; that a collection respects its configured component type; that every fitted index can be saved – not with a NumPy capacity.)", "quantifier": "for all parameter texts, numbers, dtypes and their combinations, all pairs of real vectors, all schema documents", "why_tests_cant": "the space of parameter combinations is large and its odd corners (letter case, defaults, unsupported pairs) are tried by chance; tests compare search results with tolerance and do not notice another graph type", "anchors": ["python/src/alayalite/schema.py: IndexParams", "python/src/alayalite/common.py: valid_*", "python/src/alayalite/utils.py: normalize_vectors_for_cosine_metric", "python/src/alayalite/index.py: Index.fit, save, load", "python/src/alayalite/collection.py: Collection.insert, load", "python/include/dispatch_generated.hpp: IndexFactory::create", "python/include/index.hpp: PyIndex::fit", "include/index/index_type.hpp: IndexTypeToString", "include/space/raw_space.hpp: RawSpace"]}
{"id": "C99", "title": "The REST service: answers, listing, isolation, restart", "statement": "The service answers create with 200 exactly if no collection or index has the name, otherwise 409 without effect; a request about a collection it does not have is answered 404 without effect, and, if no failure text speaks of something that does not exist, 404 means exactly that; 500 occurs only in three described situations. As long as directories can be removed, list returns exactly the names of a book in which every creation, deletion and reset answered 200 is noted, in order and without repetition, over any number of requests. A request touches no other collection in memory or on disk. Insert and upsert into a collection with data are answered 200 exactly if every item was taken, in order; a 400 means that the items before the refused one were taken and those after it were not tried; different numbers are different ids. Delete_by_id attempts every id in order and ignores unknown ones; delete_by_filter answered 200 has repeated finding and removing until fewer than 1000 were found. A query is answered 200 exactly if there is data, at least one thread, limit ≤ ef_search (defaults 1 and 10) and the native search gives a result with a JSON form; it changes nothing. A collection saved with 200 is listed after every restart unless deleted or reset on disk. But no request ever gives data to a collection that had none: the first insert of any items is answered 400, and a service started on an empty directory never holds, returns or keeps anything. (Checked and found false: that the documented sequence create, insert works; that unknown metrics are refused; that there is no 500 with a working file system; that the number reported by delete_by_filter counts the items; that failed inserts, deletes and resets leave things as they were; that 404 always means a missing collection; that creations and deletions outlast a restart; that any limit up to the number of items works without ef_search; that every request is answered.)", "quantifier": "for all sequences of requests and restarts, all behaviours of the native index and of the file system", "why_tests_cant": "the tests of the service try a handful of sequences on one file system that never fails; they need the built native module, and the one that inserts would show the refusal only for its own vectors", "anchors": ["app/routers/client.py: all handlers", "app/models/collection.py: request models", "python/src/alayalite/client.py: Client", "python/src/alayalite/collection.py: Collection.insert, upsert, delete_by_id, delete_by_filter, batch_query, save, set_metric", "python/src/alayalite/common.py: valid_dtype"]}
{"id": "C100", "title": "Cutting documents into chunks loses nothing", "statement": "The sentences of the sentence chunker lie in the document in order with nothing but white space before, between and behind them; none is empty or has white space at an end. Two sentences are separated only at a place where a sentence may end (a terminator . ? ! or its Chinese form, not a capital letter, a small letter and a full stop, not word character, full stop, word character and one more), and at every such place. With 0 ≤ overlap < size the chunker ends and returns exactly the windows of size sentences, one starting size - overlap sentences after the other, sentences joined with a blank: every chunk has between one and size sentences, every sentence is in a chunk, and consecutive chunks share the last overlap places of the first. Without overlap the chunks together carry the non-white text of the document once, in order. The pieces of the semantic chunker lie in the document in order with nothing but white space and full stops around them; its chunks are consecutive non-empty groups of the pieces; a group ends exactly at the first place where it has at least a window of pieces, another piece follows, and the windows before and behind are less similar than the threshold. (Checked and found false: that the sentence chunker ends for every overlap; that every chunk has something new; that a negative overlap keeps all sentences; that decimal numbers, abbreviations such as e.g. and closing quotation marks stay with their sentence; that a sentence ending like a title is told from the next; that the semantic chunker returns the text with its full stops and cuts at question and exclamation marks.)", "quantifier": "for all documents, tables of white space and word characters, chunk sizes and overlaps, embedding functions, thresholds and window sizes", "why_tests_cant": "there are no tests of the chunkers; tests would try some documents, and the endless loop cannot be observed by a test that ends", "anchors": ["python/src/alayalite/rag/chunker/sentence_chunker.py: SentenceChunker.chunking", "python/src/alayalite/rag/chunker/semantic_chunker.py: SemanticChunker.chunking, _should_split, _split_into_sentences"]}
{"id": "C101", "title": "Recall, exact neighbours and percentiles mean what they say", "statement": "calc_recall (Python) returns the number of different ids each result row shares with its true row, summed over the queries and divided by queries times columns, and raises exactly if a true row is missing or there is nothing to divide by; recall_at_k is the same for the first k of both and raises exactly if the numbers of rows differ or are zero or k is 0; calc_recall (C++), while the numbers fit in 32 bits, counts the places of the result that hold a true id, which is the recall if no row repeats an id. Recall lies between 0 and 1, does not depend on the order of ids or queries, and is 1 exactly if every row has only true ids, each once. calc_gt and find_exact_gt return for every query the topk nearest items (not deleted ones), each once and in order of distance, however ties are broken, if there are that many. Against such rows, with no two items at the same distance, recall is 1 exactly if every row of the result holds the nearest. A percentile is one of the values, more than q percent are not above it, at most q percent below it, and it grows with q. (Checked and found false: that C++ recall 1 means all true ids were found; that recall against longer true rows measures the nearest; that an exact result has recall 1 when there are ties; that calc_gt raises for too few items; that find_exact_gt is safe for too few items and reports arrays of the wrong length; that recall_at_k is not negative and reaches 1 for perfect results; that the 50th percentile of two values is not the greater and the 99th of up to 100 values not the greatest.)", "quantifier": "for all results, true rows, numbers of queries, columns and items, distances, deleted sets, and sorting functions", "why_tests_cant": "the other tests judge the indexes by these measures, so a wrong measure would hide in them; their own tests use a handful of rows of one to three ids without repetition or ties", "anchors": ["python/src/alayalite/utils.py: calc_recall, calc_gt", "python/src/alayalite/bench/_metrics.py: recall_at_k, percentiles", "include/utils/evaluate.hpp: find_exact_gt, calc_recall"]}
{"id": "C102", "title": "Files of vectors are read as they were written", "statement": "For every .fvecs/.ivecs file of at least one row, all of the same dimension, the Python readers, the readers of the benchmarks and the C++ load_fvecs and load_ivecs return exactly its rows, their number and dimension. The benchmark readers return rows for no other files than these with at most three bytes behind them (all else raises). If the C++ load_fvecs returns, the file is a sequence of whole rows and at most three bytes and the numbers returned are those of the rows, unless a row announces 2^30 numbers or more. The benchmark readers of .fbin/.ibin return rows exactly for files with the header and all the rows it announces. read_fbin of what write_fbin has written returns the rows from the start asked for, as many as asked for and there are; read_ibin the same if there are that many. (Checked and found false: that the Python readers notice a row cut short; that load_fvecs checks that rows have the same dimension and returns the dimension of the rows if there are a few bytes behind them; that it notices a row of 2^30 numbers that is not there; that load_ivecs keeps rows of different dimensions apart; that save_ivecs writes what a reader reads; that load_vecs and load_gt return the numbers; that read_ibin treats a chunk beyond the end like read_fbin; that the readers agree on the empty file.)", "quantifier": "for all rows, dimensions, files and contents of trailing bytes, start positions and chunk sizes", "why_tests_cant": "tests write a few rows and read them back with one of the readers; none compares the readers with each other or damages a file at an arbitrary place", "anchors": ["python/src/alayalite/utils.py: load_fvecs, load_ivecs", "python/src/alayalite/bench/_datasets.py: _load_fvecs, _load_ivecs, _load_fbin, _load_ibin", "python/src/alayalite/laser/_io.py: read_fbin, read_ibin, write_fbin, write_ibin", "include/utils/io_utils.hpp: load_fvecs, load_ivecs, load_vecs, load_gt, save_ivecs"]}
{"id": "C103", "title": "Locks exclude each other and are never lost", "statement": "SpinLock: never two holders; while nobody holds it the next attempt (lock or try_lock) succeeds, while somebody does none succeeds. SharedLock: never two writers and never a writer beside a reader, if assertions are compiled in or no lock is converted; a writer's attempt that is not disturbed succeeds exactly if nobody holds the lock, a reader's exactly if there is no writer. FileLock: if open and flock succeed, never two processes inside, and a process that waits can get the lock while nobody is inside. (Checked and found false: that upgrade_lock and degrade_lock are safe in a release build; that the lock can be had again after that; that degrade_lock by the only holder does not end a debug build; that a writer gets its turn if every reader leaves; that FileLock excludes other processes if its file cannot be opened or flock is interrupted.)", "quantifier": "for all numbers of threads or processes, all sequences of calls by threads that hold what they give back, all interleavings of their atomic operations and all spurious failures of compare_exchange_weak", "why_tests_cant": "tests run a few threads in the orders the machine happens to choose, on hardware where compare_exchange_weak does not fail spuriously", "anchors": ["include/utils/locks.hpp: SpinLock, SpinLockGuard, SharedLock, FileLock", "include/executor/scheduler.hpp: enqueue_lock_", "include/utils/dataset_utils.hpp: load_dataset"]}
{"id": "C104", "title": "A test dataset is loaded as its files say", "statement": "load_dataset on well-formed files with as many true rows as queries returns the first max_data_num items and max_query_num queries (all if 0 or if there are fewer), their numbers and dimensions; if all items are kept the true rows are those of the file for the queries kept, otherwise for every query kept the ids of the exact nearest among the items kept, each once and in order of distance, if at least as many items are kept as there are true ids per query. Items and queries of different dimensions are refused. If the three files exist nothing is downloaded. (Checked and found false: that the number of queries is that of the query file; that a limit never adds queries; that recomputing the true rows is safe for any limit; that files left by an interrupted extraction are noticed; that the true rows do not depend on the metric used for recomputation.)", "quantifier": "for all files, rows, dimensions, limits, distance functions into a linear order and sorting functions", "why_tests_cant": "the tests of the indexes get their data and expected results from this function; it is itself not tested, and only two pairs of limits are ever used", "anchors": ["include/utils/dataset_utils.hpp: load_dataset, DatasetConfig, Dataset", "include/utils/io_utils.hpp: load_fvecs, load_ivecs", "include/utils/evaluate.hpp: find_exact_gt"]}
{"id": "C105", "title": "Scanning a node's neighbours in the LASER index estimates every neighbour's distance", "statement": "For a rotated query of at most 512 dimensions (a multiple of 64) that is not constant and in which no aligned group of four coordinates consists only of the largest value: the query can be prepared, and scanning a node gives one estimate per neighbour, in the order of the neighbours, the same on AVX-512, AVX2 and other processors up to rounding. Each differs from the estimate for the query itself by at most |dq| * dim * R / 63, where dq is the stored factor of the neighbour and R the largest difference of two coordinates of the query. For any dimension and any table of bytes the counters are the sums modulo 2^16 of the entries selected by the neighbour's bits. (Checked and found false: that this holds with a group of four largest coordinates, where a table entry overflows; for more dimensions, where a counter is read as a negative number; that any query, such as one of zeros, can be prepared.)", "quantifier": "for all dimensions, queries, neighbours' codes and factors, numbers of neighbours and the three builds of the kernel", "why_tests_cant": "the tests measure recall for a few random datasets, in which the overflows are rare or absorbed by the final reranking; a wrong permutation of codes only lowers recall", "anchors": ["include/index/graph/laser/space/bitwise.hpp: pack_binary", "include/index/graph/laser/quantization/fastscan_impl.hpp: pack_codes, pack_codes_helper, pack_lut_impl", "include/index/graph/laser/utils/scalar_quantize.hpp: quantize", "include/index/graph/laser/qg/qg_query.hpp: QGQuery::query_prepare", "include/index/graph/laser/qg/qg_scanner.hpp: QGScanner::scan_neighbors", "include/simd/laser_dispatch.hpp: accumulate_impl_generic, accumulate_impl_avx512, accumulate_impl_avx2, convert_accum_to_float_generic, appro_dist_impl_generic"]}
{"id": "C106", "title": "Concurrent quantized searches do not see each other's visited vectors", "statement": "Quantized searches take their visited set from a shared pool. However many threads search, in whatever order their steps happen and whoever used a set before: two searches never have the same set, a set in use is not in the pool, no step is undefined, and a search sees as visited exactly the vectors it has marked itself since it acquired its set. If no search fails, every set is in the pool or in use and another is made only when all are in use. (Checked and found false: that the sets stay accounted for when searches end with an exception, each of which loses its set; that id 0xFFFFFFFF is unvisited in a fresh set.)", "quantifier": "for all initial pool sizes, capacities, numbers of threads, interleavings, ids below 0xFFFFFFFF and lengths of the history", "why_tests_cant": "a set shared by two searches or not emptied only drops some neighbours, in rare interleavings, and shows as slightly lower recall; the tests run few threads and few schedules", "anchors": ["include/utils/rabitq_utils/search_utils/visited_pool.hpp: HashSetPool::acquire, HashSetPool::release", "include/utils/rabitq_utils/search_utils/hashset.hpp: HashBasedBooleanSet::clear, get, set", "include/executor/jobs/graph_search_job.hpp: rabitq_search, rabitq_search_solo"]}
{"id": "C107", "title": "Concurrent disk searches share a fixed number of workspaces without loss, sharing or deadlock", "statement": "However many threads search a loaded DiskANN index, in whatever order their steps happen and whichever searches throw: each workspace is either free, exactly once, or used by exactly one search; at most as many searches run at once as there are workspaces; a search does not wait while fewer run; and for all parameters of load, a search that waits gets a workspace at its next look after any running search has ended or thrown, of which there is always one. (Checked and found false: that searches are served in the order in which they asked; one can be overtaken any number of times.)", "quantifier": "for all parameters, numbers of threads, interleavings and lengths of the history", "why_tests_cant": "a lost workspace shows only after as many failures as there are workspaces, as a hang; two searches in one workspace need a rare interleaving", "anchors": ["include/index/graph/laser/utils/concurrent_queue.hpp: ConcurrentQueue::push, ConcurrentQueue::pop, ConcurrentQueue::wait_for_push_notify", "include/index/graph/diskann/diskann_index.hpp: DiskANNIndex::load, DiskANNIndex::search, run_update_search, acquire, release"]}
{"id": "C108", "title": "Neighbours in a k-NN graph are other vectors, nearest first, and no nearer candidate is lost", "statement": "For the k-NN graph from which NSG indexes are built: whatever numbers are drawn, a random sample has the size asked for and only ids of vectors, without repetition if no number drawn modulo n exceeds n - size. Whatever other vectors are offered to a node, in whatever order the threads get its lock, its candidates are vectors sampled or offered, never itself, with their true distances, at most as many as the limit; every vector sampled or offered is a candidate or at least as far as all candidates; and they do not repeat if the sample did not. If there are k candidates the row of the graph holds k of them, nearest first, and no other candidate is nearer. (Checked and found false: that samples, and rows, never repeat an id; that a node has k candidates once k other vectors were offered, so that the row is read past the end.)", "quantifier": "for all numbers drawn, numbers of vectors, sample sizes, distances, limits, sequences of offers and k", "why_tests_cant": "the tests build one graph of random vectors with a fixed seed and look at its recall; a repeated neighbour or garbage at the end of a short row needs particular draws or a cluster", "anchors": ["include/utils/random.hpp: gen_random", "include/index/graph/knng/nndescent.hpp: Nhood::insert, init_graph, join, build_graph", "include/index/neighbor.hpp: Neighbor"]}
{"id": "C109", "title": "A batch of reads or writes through the io_uring engine submits a prefix and says how many", "statement": "For a batch of different requests on a thread's ring without leftovers, of any size and queue depth, whatever the kernel answers to each submission: the number returned is that of the requests submitted; these are the first ones, each once and in order; the others are marked as not submitted, and no other request is touched. If every submission takes something the whole batch is submitted. Completions in any order give each request its own result. (Checked and found false: that requests reported as not submitted are not executed; after a failed submission they stay prepared, the next batch sends them and counts them as its own; and when they fill the ring no later batch submits anything.)", "quantifier": "for all batches, queue depths, sequences of kernel answers and orders of completion", "why_tests_cant": "the kernel of a test machine takes every submission at once; partial and failed submissions cannot be provoked", "anchors": ["include/storage/io/io_uring_engine.hpp: IOUringEngine::submit_reads, submit_writes, submit_batch, prepare_chunk, submit_chunk, wait"]}
{"id": "C110", "title": "Every asynchronous read that was accepted has its callback run once, with its own result", "statement": "For reads with callbacks on one thread's ring, submitted by the thread or from within callbacks, in any interleaving with completions, polls and drains, as long as no submission fails: a callback runs only for a read that was accepted, at most once, in the order in which the kernel completed the reads and with the result it gave; no freed context is used; the count of reads under way is exact. check_completion returns the number of callbacks it ran and leaves no completed read without its callback, also not one submitted by a callback. When the count is 0 every accepted read had its callback and all contexts are freed, and drain_pending gets there once the reads have completed. (Checked and found false: that a read which was refused is not executed; after a failed submission it stays prepared with a freed context, the next read sends it, its callback runs through the freed context and the count wraps around. Also false: that drain_pending always leaves nothing behind; a failing wait ends it early.)", "quantifier": "for all sequences of reads, completions, polls and drains, all numbers of entries the kernel takes at each submission, all reads submitted by callbacks", "why_tests_cant": "order of completions, partial submissions and reads submitted while completions are processed depend on the kernel; a test sees one interleaving", "anchors": ["include/storage/io/io_uring_engine.hpp: IOUringEngine::submit_async_read, check_completion, drain_pending, ThreadRing::drain_async"]}
{"id": "C111", "title": "A file mapping has one owner until it is unmapped, and no descriptor is left open", "statement": "For every sequence of creating, opening, moving, assigning (also to itself) and destroying mapped files, with any system call of an opening failing: every mapping is held, with its length, by exactly one object; what an object holds is mapped and not empty; nothing is unmapped twice or with another length; no file descriptor stays open; when the objects are gone nothing is mapped. Opening a regular, non-empty file gives a mapping of its size if the system grants all, otherwise nothing changes. A move hands over what the source held, leaves the source empty and unmaps what the target held. The typed view fills the mapping exactly, or throws.", "quantifier": "for all sequences of operations, all answers of the system, all file sizes and element sizes", "why_tests_cant": "failures of fstat and mmap cannot be provoked and a leaked mapping or descriptor shows nothing; a test tries a few orders of moves", "anchors": ["include/storage/mmap_file.hpp: MMapFile (constructors, operator=, as, open_impl, release)"]}
{"id": "C112", "title": "The DiskANN index reads exactly the elements of the NumPy arrays it is given, or refuses them", "statement": "For every NumPy array handed to build, search, batch_search, insert, batch_insert and batch_remove of the Python DiskANN index: the call is accepted exactly when the arrays have the element type, number of axes, C-contiguity and sizes stated (not empty where required, dimension of the index, as many labels as vectors, fewer than 2^32 rows in batches) and the counts are positive; the index then gets the number of rows unchanged and component j of vector i that it reads is element (i, j) of the array, label i is element i, also for slices whose strides are unusual along axes with one entry; nothing is read outside the array.", "quantifier": "for all arrays (types, shapes, strides that NumPy allows with the flag, contents), dimensions and counts", "why_tests_cant": "all shapes and strides are meant, among them arrays with more than 2^32 rows and slices that NumPy calls contiguous though their strides are not those of their shape", "anchors": ["python/src/diskann_bindings.cpp: require_array, checked_u32, PyDiskANNIndex::build, search, batch_search, insert, batch_insert, batch_remove, require_vector"]}
{"id": "C113", "title": "Reordering an adjacency row by visit frequency keeps its neighbours", "statement": "For every adjacency row without repetitions and every visit row, whatever the order of equal frequencies: reordering succeeds exactly when the visit row names neighbours of the row, none twice; the new row then has the visited neighbours first, most visited first, and after them the others in the order they had; it has the same neighbours as before. (Checked and found false for rows with repetitions: the check of the length accepts a visit row of another graph, and refuses a right one.)", "quantifier": "for all adjacency rows, visit rows and orders of equal frequencies", "why_tests_cant": "that the check of the length alone finds every visit file of another graph is a statement about all pairs of rows", "anchors": ["include/index/graph/laser/utils/freq_relayout.hpp: relayout_adj"]}
