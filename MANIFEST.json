{
 "claims": [
  {
   "property": "C01",
   "status": "proved",
   "theorems": [
    "Alaya.C01_encode_int64_lt_iff",
    "Alaya.C01_encode_int64_length",
    "Alaya.C01_encode_int64_injective",
    "Alaya.C01_decode_encode_int64",
    "Alaya.C01_range_iff"
   ],
   "note": "Order, injectivity, round-trip and closed-range membership for all 2^64 values on the printed 16 hex digits."
  },
  {
   "property": "C02",
   "status": "partial",
   "theorems": [
    "Alaya.C02_encode_double_lt_iff",
    "Alaya.C02_ieee_lt_imp",
    "Alaya.C02_decode_encode_double",
    "Alaya.C02_encode_double_length",
    "Alaya.C02_range_iff_partial",
    "Alaya.C02_range_zero_refuted"
   ],
   "note": "Order and bit-exact round-trip proved for all bit patterns. The range part is refuted at zero bounds (-0 lies below +0) and proved for non-zero bounds."
  },
  {
   "property": "C03",
   "status": "proved",
   "theorems": [
    "Alaya.C03_roundtrip",
    "Alaya.C03_serialize_prefix_free",
    "Alaya.C03_truncated_refused",
    "Alaya.C03_long_string_refuted",
    "Alaya.C03_serialized_size"
   ],
   "note": "Round-trip (also with trailing bytes), prefix-freeness, refusal of every strict prefix and exact serialized_size, for records whose strings are shorter than 2^32 bytes; the longer case is refuted."
  },
  {
   "property": "C04",
   "status": "partial",
   "theorems": [
    "Alaya.C04_selected_agrees_partial",
    "Alaya.C04_single_agrees_partial",
    "Alaya.C04_serialized_condition",
    "Alaya.C04_stored_selected",
    "Alaya.C04_stored_single",
    "Alaya.C04_duplicate_keys_refuted",
    "Alaya.C04_single_empty_field_refuted"
   ],
   "note": "Both selective decoders agree with full decoding on every record written by serialize and on every accepted input whose keys are distinct. Refuted for raw inputs with duplicate keys (full keeps the last, selective the first) and for the empty field name."
  },
  {
   "property": "C05",
   "status": "partial",
   "theorems": [
    "Alaya.C05_raw_eval_stored",
    "Alaya.C05_raw_eval_accepted_partial",
    "Alaya.C05_duplicate_keys_refuted"
   ],
   "note": "Raw filter evaluation equals evaluation on the decoded record for every stored record and every filter tree, and the collected fields are exactly the mentioned ones. For arbitrary accepted raw bytes it needs distinct keys; refuted otherwise."
  },
  {
   "property": "C06",
   "status": "partial",
   "theorems": [
    "Alaya.C06_equality_characterised",
    "Alaya.C06_equality_exact_partial",
    "Alaya.C06_string_prefix_refuted",
    "Alaya.C06_field_name_refuted",
    "Alaya.C06_int_range_exact",
    "Alaya.C06_double_range_exact_partial"
   ],
   "note": "Equality lookup characterised exactly for every represented state; equal to the matching records when no stored string continues the searched one with an underscore and field names are separated; both collision kinds refuted by witnesses. Integer ranges exact; double ranges exact for non-zero bounds."
  },
  {
   "property": "C07",
   "status": "proved",
   "theorems": [
    "Alaya.C07_data_key_injective",
    "Alaya.C07_data_key_order",
    "Alaya.C07_data_key_parse",
    "Alaya.C07_legacy_key_disjoint",
    "Alaya.C07_key_spaces_disjoint",
    "Alaya.C07_field_key_id"
   ],
   "note": "For 32- and 64-bit ids: injective, numeric order, parse inverse (also of legacy keys), legacy/padded keys never coincide for different ids, other key spaces disjoint, id recovered from a field-index key."
  },
  {
   "property": "C08",
   "status": "proved",
   "theorems": [
    "Alaya.BinIO.C08_roundtrip",
    "Alaya.BinIO.C08_roundtrip_exhausted",
    "Alaya.BinIO.C08_no_out_of_bounds",
    "Alaya.BinIO.C08_read_blob_slice",
    "Alaya.BinIO.C08_read_blob_too_long",
    "Alaya.BinIO.C08_truncated_refused"
   ],
   "note": "Round-trip for every value sequence, no out-of-bounds access for any byte string and any read sequence, over-long blob and truncated input refused."
  },
  {
   "property": "C09",
   "status": "proved",
   "theorems": [
    "Alaya.Wal.C09_frames_round_trip",
    "Alaya.Wal.C09_reader_accepts_exactly_frames",
    "Alaya.Wal.C09_writer_emits_frames",
    "Alaya.Wal.C09_oversized_refused"
   ],
   "note": "Reader accepts exactly the frame format, writer emits it, every sequence of accepted appends is read back frame by frame, payloads above 2^30 refused, for all ids, kinds and payload bytes."
  },
  {
   "property": "C10",
   "status": "proved",
   "theorems": [
    "Alaya.Wal.C10_torn_frames",
    "Alaya.Wal.C10_torn_history"
   ],
   "note": "For every history of logged operations and every cut position, replay yields exactly the committed operations whose commit frame is complete; any torn frame ends the scan."
  },
  {
   "property": "C11",
   "status": "proved",
   "theorems": [
    "Alaya.Wal.C11_scan_maximal",
    "Alaya.Wal.C11_replay_sound",
    "Alaya.Wal.C11_replay_complete",
    "Alaya.Wal.C11_missing_file"
   ],
   "note": "Scan is maximal, replay is sound and complete against an independent definition of a committed record, sorted, filtered by applied_through, max id exact; for arbitrary file bytes."
  },
  {
   "property": "C12",
   "status": "partial",
   "theorems": [
    "Alaya.Recovery.C12_torn_tail_refuted",
    "Alaya.Recovery.C12_acked_survive_partial",
    "Alaya.Recovery.C12_single_recovery"
   ],
   "note": "For an arbitrary index content type, every history of calls, torn appends, crashes, snapshots and (crashed) recoveries keeps every returned operation, provided each completed recovery leaves no torn tail; without a completed recovery in between no condition is needed. The full statement is refuted: load keeps a torn tail when nothing is replayed and later acknowledged frames behind it are lost."
  },
  {
   "property": "C13",
   "status": "partial",
   "theorems": [
    "Alaya.Recovery.C13_save_atomic",
    "Alaya.Recovery.C13_load_atomic",
    "Alaya.Recovery.C13_save_complete",
    "Alaya.Recovery.C13_same_millisecond_refuted"
   ],
   "note": "save and the checkpoint inside load are atomic at every crash point on every reachable state, if the millisecond clock advanced since the last snapshot and earlier recoveries were clean (C12). Refuted for two snapshots with the same millisecond."
  },
  {
   "property": "C14",
   "status": "proved",
   "theorems": [
    "Alaya.C14_round_trip",
    "Alaya.C14_index_manifest_valid",
    "Alaya.C14_bad_number_refused",
    "Alaya.C14_empty_id_refused",
    "Alaya.C14_missing_lines_accepted"
   ],
   "note": "Round-trip of every valid manifest and of every manifest the index writes; numeric damage and a missing id refused. Observation: other missing lines are accepted with defaults."
  },
  {
   "property": "C15",
   "status": "partial",
   "theorems": [
    "Alaya.Recovery.C15_next_fresh",
    "Alaya.Recovery.C15_returned_ids_increase",
    "Alaya.Recovery.C15_aborted_id_reused_refuted",
    "Alaya.Recovery.C15_next_operation_id_refuted"
   ],
   "note": "After load the next id exceeds every logged id and applied_through, for every disk content; ids of returned operations strictly increase over every history. Refuted for ids of calls that threw (reused after save and restart) and for RecoveryManager::next_operation_id."
  },
  {
   "property": "C16",
   "status": "proved",
   "theorems": [
    "Alaya.C16_item_ids_unique",
    "Alaya.C16_find_exact",
    "Alaya.C16_duplicate_refused"
   ],
   "note": "For every history of insert/batch_insert/update/remove/flush/reopen on the byte-level RocksDB model: non-empty item ids unique, find_by_item_id exact, a clashing insert/update refused without effect."
  },
  {
   "property": "C17",
   "status": "proved",
   "theorems": [
    "Alaya.C17_step_refines",
    "Alaya.C17_history_refines",
    "Alaya.C17_reads",
    "Alaya.C17_scan"
   ],
   "note": "Forward simulation of the byte-level store against a map id -> record, for every history and for every represented start state (including legacy keys); reads and scan_with_filter characterised; a call returning false leaves the store unchanged."
  },
  {
   "property": "C18",
   "status": "partial",
   "theorems": [
    "Alaya.C18_count_eq_valid",
    "Alaya.C18_count_history_partial",
    "Alaya.C18_count_crash_refuted"
   ],
   "note": "count() = number of valid ids after every history including flush and clean reopen. Refuted after a crash: the persisted counter is the one of the last flush."
  },
  {
   "property": "C19",
   "status": "proved",
   "theorems": [
    "Alaya.C19_field_index_exact"
   ],
   "note": "After every history the keys of the field-index space are exactly those generated by stored records."
  },
  {
   "property": "C20",
   "status": "proved",
   "theorems": [
    "Alaya.Seq.C20_slot_store",
    "Alaya.Seq.C20_slots_fresh",
    "Alaya.Seq.C20_removed_stays_invalid",
    "Alaya.Seq.C20_reads_last_write",
    "Alaya.Seq.C20_slots_aligned"
   ],
   "note": "Every history of insert/reserve/remove/update refines the slot list (valid bit, last written bytes); slots are handed out fresh, never reused, never out of bounds, aligned. Capacity bounds of the allocation are explicit (InitOk)."
  },
  {
   "property": "C21",
   "status": "proved",
   "theorems": [
    "Alaya.Seq.C21_save_load"
   ],
   "note": "load(save(s)) shows the same slots and behaves the same under every further history, whatever follows in the file."
  },
  {
   "property": "C22",
   "status": "partial",
   "theorems": [
    "Alaya.Seq.C22_double_remove_refuted",
    "Alaya.Seq.C22_refused_calls_counted",
    "Alaya.Seq.C22_avl_exact_partial"
   ],
   "note": "Exact on histories without a refused call; refuted by double removal and by refused inserts/removals, which are counted (32-bit wrap of an empty space)."
  },
  {
   "property": "C23",
   "status": "proved",
   "theorems": [
    "Alaya.C23_dynamic_bitset_is_set",
    "Alaya.C23_set_reset_frame",
    "Alaya.C23_out_of_range_is_ub",
    "Alaya.C23_hierarchical_find_first"
   ],
   "note": "DynamicBitset equals a set of positions for every call history, single-bit operations leave the other bits alone, out-of-range is a distinct undefined outcome; HierarchicalBitset.find_first is the least member for every history of set calls."
  },
  {
   "property": "C24",
   "status": "proved",
   "theorems": [
    "Alaya.C24_epoch_visited_exact"
   ],
   "note": "EpochVisitedSet equals a set cleared by clear() for every call history, including wrap-around of the epoch counter."
  },
  {
   "property": "C25",
   "status": "partial",
   "theorems": [
    "Alaya.Pools.C25_holds_best_partial",
    "Alaya.Pools.C25_pops_nearest_once_partial",
    "Alaya.Pools.C25_large_id_refuted",
    "Alaya.Pools.C25_capacity_zero_refuted"
   ],
   "note": "Proved for every history with distinct ids below 2^31 and capacity > 0: holds the nearest cap candidates in order, pops the nearest unpopped once. Refuted for ids >= 2^31 and capacity 0."
  },
  {
   "property": "C26",
   "status": "proved",
   "theorems": [
    "Alaya.Pools.C26_holds_smallest",
    "Alaya.Pools.C26_reports_exact",
    "Alaya.Pools.C26_expands_smallest_once",
    "Alaya.Pools.C26_inconsistent_distance"
   ],
   "note": "Every history: sorted, holds the smallest entries, exact inserted/evicted reports, expands the smallest unexpanded once. Deduplication by id needs one distance per id (C26_inconsistent_distance shows the need)."
  },
  {
   "property": "C27",
   "status": "proved",
   "theorems": [
    "Alaya.Pools.C27_search_sound",
    "Alaya.Pools.C27_exact_when_list_large",
    "Alaya.Pools.C27_bad_parameters"
   ],
   "note": "Every graph, entry point and distance function: terminates, returns reachable ids, sorted, without duplicates; exact k nearest reachable nodes when the list size is at least the number of reachable nodes; bad parameters throw."
  },
  {
   "property": "C28",
   "status": "partial",
   "theorems": [
    "Alaya.Pools.C28_subset",
    "Alaya.Pools.C28_nodup_partial",
    "Alaya.Pools.C28_nearest",
    "Alaya.Pools.C28_terminates_partial",
    "Alaya.Pools.C28_unselected_occluded",
    "Alaya.Pools.C28_infinite_alpha_refuted",
    "Alaya.Pools.C28_infinite_alpha_duplicates"
   ],
   "note": "Pruning with the repeated ×1.2 ramp: results are a subset of the pool, nearest kept, at most R, every unselected candidate occluded; termination for every alpha except +inf (at most 487 rounds) and no duplicates for alpha below FLT_MAX. The unrestricted statement is false: with alpha=+inf the loop never ends on a pool holding only the node itself and can select a neighbour twice (C28_infinite_alpha_refuted, C28_infinite_alpha_duplicates)."
  },
  {
   "property": "C29",
   "status": "proved",
   "theorems": [
    "Alaya.TopK.C29_rerank_exact",
    "Alaya.TopK.C29_view_candidates_exact",
    "Alaya.TopK.C29_order_independent"
   ],
   "note": "Re-ranking a candidate list and the materialized-view candidate heap return the k best by (distance, id), independent of the order of the candidates, for every heap satisfying the std heap contract."
  },
  {
   "property": "C30",
   "status": "proved",
   "theorems": [
    "Alaya.DiskFlat.C30_search_exact",
    "Alaya.DiskFlat.C30_bad_query",
    "Alaya.DiskFlat.C30_built_segment_exact"
   ],
   "note": "Flat segment built from add_batch calls and finished: search returns exactly the k best rows by (distance, label); bad queries refused. Assumes the kernel gives non-NaN distances (rows and query are checked finite)."
  },
  {
   "property": "C31",
   "status": "proved",
   "theorems": [
    "Alaya.DiskColl.C31_merge_union",
    "Alaya.DiskColl.C31_exact_topk",
    "Alaya.DiskColl.C31_partition_independent",
    "Alaya.DiskColl.C31_flat_collection_exact",
    "Alaya.DiskColl.C31_laser_rank_order",
    "Alaya.DiskColl.C31_fast_math_observation"
   ],
   "note": "Merging per-segment results gives the top k of the union; independent of how rows are split in segments; exact when each segment is Flat; LASER rank order. C31_fast_math_observation records that -Ofast builds may drop the std::isnan test the LASER ordering relies on."
  },
  {
   "property": "C32",
   "status": "partial",
   "theorems": [
    "Alaya.Batch.C32_parallel_equals_sequential_partial",
    "Alaya.Batch.C32_collection_equals_sequential",
    "Alaya.Batch.C32_error_reported",
    "Alaya.Batch.C32_rows_whole",
    "Alaya.Batch.C32_confined",
    "Alaya.Batch.C32_counter_wrap_refuted",
    "Alaya.Batch.C32_worker_exception_observation"
   ],
   "note": "For any number of workers and any schedule, when all joined, the buffers equal the sequential run; errors reported; rows written whole and only inside their own row. Proved without restriction for DiskCollection (64-bit counter); for DiskANNIndex only when n + workers < 2^32, and C32_counter_wrap_refuted shows it false at n = 2^32-1. An exception in a DiskANN worker terminates the process (C32_worker_exception_observation)."
  },
  {
   "property": "C33",
   "status": "partial",
   "theorems": [
    "Alaya.DiskColl2.C33_labels_unique_partial",
    "Alaya.DiskColl2.C33_duplicate_refused",
    "Alaya.DiskColl2.C33_push_failure_refuted"
   ],
   "note": "Model of DiskCollection (disk_flat): add_batch, flush with a fault or crash at any file-system step, reopen. After every history from creation in which the two push_back calls following publication do not throw, every listed segment is complete and no label occurs twice; a flush that would introduce a duplicate changes nothing. False without that restriction: a bad_alloc in segments_.push_back leaves the pending rows and segment_dirs_ without the new segment, and the next flush publishes the same labels again (C33_push_failure_refuted)."
  },
  {
   "property": "C34",
   "status": "partial",
   "theorems": [
    "Alaya.DiskColl2.C34_flush_atomic_partial",
    "Alaya.DiskColl2.C34_listed_complete",
    "Alaya.DiskColl2.C34_never_overwritten",
    "Alaya.DiskColl2.C34_ids_not_reused_partial",
    "Alaya.DiskColl2.C34_searcher_failure_refuted",
    "Alaya.DiskColl2.C34_reopen_refuted"
   ],
   "note": "Same model. Flush hit by any fault after any history: opening shows the previous collection or that plus one segment holding exactly the pending rows; listed segments always complete and listed once; existing segment directories are never changed; ids on disk not picked again. Limits: manifest must stay within 1 MiB (C34_reopen_refuted: 50 000 fault-free rounds give a collection that cannot be opened), and a failing searcher construction or directory scan lets the next flush pick an existing id and fail (C34_searcher_failure_refuted). The missing fsync of the temporary directory before the rename is outside the crash model."
  },
  {
   "property": "C35",
   "status": "partial",
   "theorems": [
    "Alaya.DiskColl2.C35_add_batch_exact_partial",
    "Alaya.DiskColl2.C35_constructed",
    "Alaya.DiskColl2.C35_empty",
    "Alaya.DiskColl2.C35_history_within_cap",
    "Alaya.DiskColl2.C35_huge_dim_refuted"
   ],
   "note": "Model of DiskCollection::add_batch and its accounting. For every dim with 4*dim+8 < 2^64 a call is accepted exactly when the accounted bytes stay within the cap, and a refused call changes nothing (C35_add_batch_exact_partial); collections made by the constructor have a 32-bit dim, so the statement is unrestricted for them (C35_constructed). open() accepts a manifest with dim = 2^62, for which the per-row size wraps to a small number and the cap is bypassed (C35_huge_dim_refuted)."
  },
  {
   "property": "C36",
   "status": "partial",
   "theorems": [
    "Alaya.DiskManifest.C36_segment_load_exact",
    "Alaya.DiskManifest.C36_collection_load_exact",
    "Alaya.DiskManifest.C36_text_unambiguous",
    "Alaya.DiskManifest.C36_segment_refuses",
    "Alaya.DiskManifest.C36_collection_refuses",
    "Alaya.DiskManifest.C36_segment_roundtrip_partial",
    "Alaya.DiskManifest.C36_collection_roundtrip_partial",
    "Alaya.DiskManifest.C36_collection_roundtrip_refuted"
   ],
   "note": "Model of the key=value manifest text: parser, segment manifest, collection manifest. load succeeds exactly on the texts that describe a manifest according to an independent grammar, and returns that manifest; everything else is refused. Round trip holds for every valid manifest whose text fits the 1 MiB limit of load; save has no such limit, so a collection of 50 000 segments writes a manifest it cannot read back (C36_collection_roundtrip_refuted)."
  },
  {
   "property": "C37",
   "status": "proved",
   "theorems": [
    "Alaya.C37_parse_uint64_exact",
    "Alaya.C37_parse_uint64_decimal_exact",
    "Alaya.C37_parse_uint32_decimal_exact",
    "Alaya.C37_print_parse"
   ],
   "note": "All three decimal parsers accept exactly the plain decimal strings in range with the right value; printing round-trips."
  },
  {
   "property": "C38",
   "status": "proved",
   "theorems": [
    "Alaya.DiskLayout.C38_record_in_page",
    "Alaya.DiskLayout.C38_records_disjoint",
    "Alaya.DiskLayout.C38_file_covers",
    "Alaya.DiskLayout.C38_pack_view",
    "Alaya.DiskLayout.C38_write_read",
    "Alaya.DiskLayout.C38_header_overflow_refuted",
    "Alaya.DiskLayout.C38_header_division_refuted"
   ],
   "note": "Model of DiskLayoutGeometry, pack_node_record, NodeRecordView, write_disk_layout and the header reader, all arithmetic modulo 2^64. For every geometry whose file fits in 64 bits: records inside their aligned page, after the header, pairwise disjoint, covered by the file size; a written file read back gives every vector and neighbour list. Two refutations document that the header reader accepts dims outside the range (overflowing size check; division by zero)."
  },
  {
   "property": "C39",
   "status": "proved",
   "theorems": [
    "Alaya.DiskPages.C39_read_latest",
    "Alaya.DiskPages.C39_total",
    "Alaya.DiskPages.C39_evicted_on_disk",
    "Alaya.DiskPages.C39_flush_complete",
    "Alaya.DiskPages.C39_flush_returns"
   ],
   "note": "Model of DiskPageCache (LRU list + map) and the sharded page reads/writes/flushes of DiskPageIO, any capacity, device writes failing anywhere and leaving junk. Every read or cache hit returns the last bytes written; uncached pages are current on the device; a flush over all cached pages leaves every page current; no operation is undefined. With capacity 0 device writes are assumed not to fail."
  },
  {
   "property": "C40",
   "status": "proved",
   "theorems": [
    "Alaya.DiskPages.C40_fill_latest",
    "Alaya.DiskPages.C40_raced_discarded",
    "Alaya.DiskPages.C40_cache_coherent"
   ],
   "note": "Transition system over the same model with any number of searches between peek and fill; a device read overlapping a device write of its page delivers arbitrary bytes. In every schedule the fill returns and installs the latest contents, and a raced read always meets a changed version."
  },
  {
   "property": "C41",
   "status": "partial",
   "theorems": [
    "Alaya.DiskSlots.C41_alloc_fresh_partial",
    "Alaya.DiskSlots.C41_visible_partial",
    "Alaya.DiskSlots.C41_free_total_partial",
    "Alaya.DiskSlots.C41_save_load_partial",
    "Alaya.DiskSlots.C41_wrap_refuted"
   ],
   "note": "Model of SlotAllocator over TombstoneBitmap. After any history of alloc/publish/free/save+load (publish and free for held slots only) with fewer than 2^32 slots handed out: alloc returns a slot not held, a handed-out slot is visible exactly between publish and free, free and held slots partition the ids handed out, save+load preserves free list, counter and bitmap. Full statement false: the 32-bit counter wraps and alloc hands out the live slot 0 (C41_wrap_refuted)."
  },
  {
   "property": "C42",
   "status": "proved",
   "theorems": [
    "Alaya.DiskSlots.C42_set_semantics",
    "Alaya.DiskSlots.C42_set_throws",
    "Alaya.DiskSlots.C42_serialize_roundtrip",
    "Alaya.DiskSlots.C42_snapshot"
   ],
   "note": "Model of TombstoneBitmap with its chunk table, growth, count, snapshot and file format. After any history, is_deleted = last operation was set, count = number of such ids, snapshot and serialize+deserialize (with any trailing bytes) preserve all of it; set throws exactly for ids of more than 32 bits. Atomics are plain fields (mutators run under the exclusive lock)."
  },
  {
   "property": "C43",
   "status": "proved",
   "theorems": [
    "Alaya.DiskSlots.C43_claims_once",
    "Alaya.DiskSlots.C43_clear_empties"
   ],
   "note": "Model of VisitedBitset with words and dirty list. After any history of set/test_and_set/clear/resize (sizes up to 2^32) no call is undefined; test_and_set(id) is true exactly when id was not marked since the set was last emptied; clear leaves every word zero; ids out of range throw."
  },
  {
   "property": "C44",
   "status": "proved",
   "theorems": [
    "Alaya.NodeCache.C44_seen_current",
    "Alaya.NodeCache.C44_lookup",
    "Alaya.NodeCache.C44_total",
    "Alaya.NodeCache.C44_update_neighbors",
    "Alaya.NodeCache.C44_save_load",
    "Alaya.NodeCache.C44_generate"
   ],
   "note": "Model of NodeCache (base records, overrides, generate, save/load) on top of the node store. Every history of inserts, neighbour rewrites, reads, complete flushes and restarts, over a device that does not fail: a lookup is the last record of the node or a miss with the device current, whichever page a search looks at; update_neighbors, save/load and the breadth-first generate are specified exactly. Sequential: the two steps of update_neighbors are not interleaved with other writers."
  },
  {
   "property": "C45",
   "status": "partial",
   "theorems": [
    "Alaya.DiskAnn.C45_history_partial",
    "Alaya.DiskAnn.C45_clean_history",
    "Alaya.DiskAnn.C45_rejected_unchanged",
    "Alaya.DiskAnn.C45_failed_insert_refuted",
    "Alaya.DiskAnn.C45_batch_swallows_refuted"
   ],
   "note": "All parts for every history, with batches as arbitrary interleavings of their critical sections; live_count() is exact only when no I/O exception occurs (refuted otherwise). Bound: fewer than 2^32 slots taken."
  },
  {
   "property": "C46",
   "status": "partial",
   "theorems": [
    "Alaya.DiskAnn.C46_no_crash",
    "Alaya.DiskAnn.C46_no_reuse_partial",
    "Alaya.DiskAnn.C46_reuse_refuted",
    "Alaya.DiskAnn.C46_unpublished_label_refuted"
   ],
   "note": "Proved when no slot is reused between the snapshot and the label lookup; refuted otherwise (old distance under a new label, even a label whose insert is not finished). No interleaving makes the lookup fail."
  },
  {
   "property": "C47",
   "status": "partial",
   "theorems": [
    "Alaya.DiskAnn.C47_count_mismatch_refused",
    "Alaya.DiskAnn.C47_crash_partial",
    "Alaya.DiskAnn.C47_removals_partial",
    "Alaya.DiskAnn.C47_complete_partial",
    "Alaya.DiskAnn.C47_live_slot_handed_out_refuted",
    "Alaya.DiskAnn.C47_wrong_vector_refuted"
   ],
   "note": "Proved: a crash at any byte of a flush that changes only removals, a completed flush, and any crash during a flush leaves a directory that loads as some mixture or is refused. Refuted for flushes after inserts: a live slot may be handed out again, and an old label may carry a new vector. PQ table and cache files are left out."
  },
  {
   "property": "C48",
   "status": "proved",
   "theorems": [
    "Alaya.CoroGate.C48_conserved",
    "Alaya.CoroGate.C48_exclusive",
    "Alaya.CoroGate.C48_no_lost_wakeup",
    "Alaya.CoroGate.C48_fifo",
    "Alaya.CoroGate.C48_served_in_time",
    "Alaya.CoroGate.C48_no_deadlock",
    "Alaya.CoroGate.C48_add_while_parked"
   ],
   "note": "Coroutine gate as a transition system over arbitrary schedules of acquire, release, add, resume and reject steps; rejected resumes (shut-down pool) are a separate step and count as lost."
  },
  {
   "property": "C49",
   "status": "proved",
   "theorems": [
    "Alaya.Vamana.C49_merge",
    "Alaya.Vamana.C49_output_determines",
    "Alaya.Vamana.C49_duplicate_id_drops_rest",
    "Alaya.Vamana.C49_truncated_shard_invents_edge"
   ],
   "note": "merge_shards on byte strings with an arbitrary shuffle. Hypothesis: strictly ascending id maps and complete shard files as written by save_graph; outside it two defects are shown by witnesses."
  },
  {
   "property": "C50",
   "status": "proved",
   "theorems": [
    "Alaya.MatView.C50_selection",
    "Alaya.MatView.C50_values_distinct",
    "Alaya.MatView.C50_partitions_partial",
    "Alaya.MatView.C50_negative_zero_refuted",
    "Alaya.MatView.C50_nan_refuted",
    "Alaya.MatView.C50_nan_twice_refuted"
   ],
   "note": "The statement is proved with the equality the filter itself uses. Beyond the statement, exactness of the partition lookup by encoded value is partial: it holds without NaN and negative zero and is refuted for both."
  },
  {
   "property": "C51",
   "status": "partial",
   "theorems": [
    "Alaya.PyFilter.C51_complete",
    "Alaya.PyFilter.C51_exact_partial",
    "Alaya.PyFilter.C51_or_beside_refuted",
    "Alaya.PyFilter.C51_empty_or_refuted",
    "Alaya.PyFilter.C51_fields_build"
   ],
   "note": "Every dict form is modelled. Exactness is proved for dicts where $or stands alone with a non-empty list; the two remaining forms are refuted with witnesses."
  },
  {
   "property": "C52",
   "status": "partial",
   "theorems": [
    "Alaya.Py.C52_full_index_refuted",
    "Alaya.Py.C52_full_index_loses",
    "Alaya.Py.C52_upsert_partial",
    "Alaya.Py.C52_upsert_below_capacity"
   ],
   "note": "For every history and every index, an upsert that returns a valid id stores exactly the new record and leaves all other items alone; below capacity it always does. Refuted in a full index: the item is lost without an exception, for every full index."
  },
  {
   "property": "C53",
   "status": "proved",
   "theorems": [
    "Alaya.Py.C53_recovered_lookup",
    "Alaya.Py.C53_live_is_map"
   ],
   "note": "For every content, history of calls and snapshots, crash point and crashes during restart, load succeeds and every item lookup equals the running index after the returned calls (interrupted call as a whole or not at all); while slots are left this is the map the calls describe. Assumes the millisecond clock advances between snapshots (C13) and one completed recovery (C12)."
  },
  {
   "property": "C54",
   "status": "partial",
   "theorems": [
    "Alaya.C54_blocked_bitset_exact_partial",
    "Alaya.C54_scan_agrees_partial",
    "Alaya.C54_string_prefix_refuted",
    "Alaya.C54_negative_zero_refuted",
    "Alaya.C54_nan_refuted",
    "Alaya.C54_infinity_refuted",
    "Alaya.C54_gt_max_refuted",
    "Alaya.C54_compare_nan_refuted"
   ],
   "note": "Blocked bitset (index, batched and single paths) and scan_with_filter agree for every filter tree except single indexed conditions outside FilterSafe; six witnesses show the disagreement there (underscore continuation, -0.0, NaN, infinity, DBL_MAX, comparison with NaN)."
  },
  {
   "property": "C55",
   "status": "partial",
   "theorems": [
    "Alaya.Py.C55_returns_iff",
    "Alaya.Py.C55_safe",
    "Alaya.Py.C55_delete_partial",
    "Alaya.Py.C55_anonymous_refuted",
    "Alaya.Py.C55_overcount",
    "Alaya.Py.C55_no_update_job",
    "Alaya.Py.C55_no_update_job_refuted"
   ],
   "note": "delete_by_filter terminates and removes exactly the matching records when every matching record has an item id and the index can remove; refuted without an item id and for index types without removal."
  },
  {
   "property": "C56",
   "status": "proved",
   "theorems": [
    "Alaya.DiskBeam.C56_greedy_pipelined",
    "Alaya.DiskBeam.C56_greedy_deterministic",
    "Alaya.DiskBeam.C56_beam_pipelined",
    "Alaya.DiskBeam.C56_beam_deterministic"
   ],
   "note": "Both functions, pipelined and deterministic, with and without PQ/rerank, for every record the reads may return and every completion order; also: no undefined access, and the loops end. Hypothesis: the medoid is below num_points. Distances are integers (no NaN)."
  },
  {
   "property": "C57",
   "status": "partial",
   "theorems": [
    "Alaya.Reconnect.C57_update_partial",
    "Alaya.Reconnect.C57_edges_kept",
    "Alaya.Reconnect.C57_ends_partial",
    "Alaya.Reconnect.C57_insert_exact_partial",
    "Alaya.Reconnect.C57_insert_pq_partial",
    "Alaya.Reconnect.C57_safety_net",
    "Alaya.Reconnect.C57_infinite_alpha_refuted"
   ],
   "note": "Proved for update_alpha below FLT_MAX and distances without NaN, for any stored list, any removed-neighbour table and slots published while the call runs; refuted for infinite alpha (a neighbour stored twice)."
  },
  {
   "property": "C58",
   "status": "partial",
   "theorems": [
    "Alaya.C58_filter_meaning_partial",
    "Alaya.C58_not_several_refuted",
    "Alaya.C58_nan_refuted"
   ],
   "note": "Verdict equals the truth of the formula for every tree whose NOTs have one part and records without NaN; both exceptions refuted by witnesses."
  },
  {
   "property": "C59",
   "status": "proved",
   "theorems": [
    "Alaya.Pools.C59_independent_of_earlier_searches",
    "Alaya.Pools.C59_scratch_stays_ok"
   ],
   "note": "The result is a function of graph, query and parameters for every reusable scratch state; every search leaves a reusable scratch state."
  },
  {
   "property": "C60",
   "status": "proved",
   "theorems": [
    "Alaya.DiskNodes.C60_read_latest",
    "Alaya.DiskNodes.C60_total",
    "Alaya.DiskNodes.C60_flush_durable"
   ],
   "note": "Model of write_node, write_node_neighbors, read_node, read_node_async, read_coords_cached and flush on top of the page cache of C39. Every history, device writes failing anywhere (except with capacity 0): each read returns the last record written for the node, neighbours in the same page are untouched, a complete flush leaves the device current."
  },
  {
   "property": "C61",
   "status": "proved",
   "theorems": [
    "Alaya.Vamana.C61_load_save",
    "Alaya.Vamana.C61_load_sound",
    "Alaya.Vamana.C61_other_length_rejected",
    "Alaya.Vamana.C61_zero_degree_rejected",
    "Alaya.Vamana.C61_empty_list_rejected"
   ],
   "note": "save_graph and the VamanaReader constructor on bytes; the reader accepts exactly the saved forms of graphs meeting the documented invariants."
  },
  {
   "property": "C62",
   "status": "partial",
   "theorems": [
    "Alaya.Vamana.C62_readable_partial",
    "Alaya.Vamana.C62_isolated_refuted"
   ],
   "note": "Proved when every global id has an edge in some shard; refuted for isolated or missing ids."
  },
  {
   "property": "C63",
   "status": "partial",
   "theorems": [
    "Alaya.Vamana.C63_shard_contents",
    "Alaya.Vamana.C63_assign_partial",
    "Alaya.Vamana.C63_check_blind",
    "Alaya.Vamana.C63_overflow_refuted"
   ],
   "note": "Top-k selection and scatter loop for arbitrary distance rows; proved for finite distances, refuted when squared distances overflow."
  },
  {
   "property": "C64",
   "status": "proved",
   "theorems": [
    "Alaya.DiskBeam.C64_pipelined",
    "Alaya.DiskBeam.C64_deterministic",
    "Alaya.DiskBeam.C64_unique",
    "Alaya.DiskBeam.C64_order_independent",
    "Alaya.DiskBeam.C64_short_list_refuted"
   ],
   "note": "Both modes, every completion order and cache state, given search_list_size at least the number of live nodes reachable through live nodes. C64_short_list_refuted: for shorter lists the header claim that both modes have identical recall is false. Distances are integers."
  },
  {
   "property": "C65",
   "status": "partial",
   "theorems": [
    "Alaya.DiskBeam.C65_pipelined_partial",
    "Alaya.DiskBeam.C65_deterministic_partial",
    "Alaya.DiskBeam.C65_large_topk_refuted"
   ],
   "note": "Proved when max(search_list_size, top_k) is at most the number of neighbour regions and stored degrees are at most R; refuted without the first: load never sizes the scratch for top_k."
  },
  {
   "property": "C66",
   "status": "partial",
   "theorems": [
    "Alaya.DiskIo.C66_no_failure_partial",
    "Alaya.DiskIo.C66_late_completion_refuted",
    "Alaya.DiskIo.C66_silent_failure_refuted"
   ],
   "note": "Proved for every schedule without a failed read; refuted with one: late completions are taken by the next query, and blocking reads do not look at the results."
  },
  {
   "property": "C67",
   "status": "partial",
   "theorems": [
    "Alaya.MemSearch.C67_search_sound",
    "Alaya.MemSearch.C67_exact_when_ef_large",
    "Alaya.MemSearch.C67_exact_when_connected",
    "Alaya.MemSearch.C67_rerank",
    "Alaya.MemSearch.C67_small_ef_refused",
    "Alaya.MemSearch.C67_ef_zero_refuted"
   ],
   "note": "Proved for ef ≥ 1 and ids below 2^31, with and without upper layers: the walk ends, stays inside its arrays, and its answer is sound; exact when ef covers the reachable nodes; rerank exact. Refuted for ef = topk = 0 (write outside the pool). NaN distances are left out."
  },
  {
   "property": "C68",
   "status": "partial",
   "theorems": [
    "Alaya.Hybrid.C68_filtered_search_partial",
    "Alaya.Hybrid.C68_brute_force_exact",
    "Alaya.Hybrid.C68_executor",
    "Alaya.Hybrid.C68_bad_parameters_refused",
    "Alaya.Hybrid.C68_wide_ids_refuted",
    "Alaya.Hybrid.C68_all_match_unreachable_refuted",
    "Alaya.Hybrid.C68_infinite_distance_refuted",
    "Alaya.Hybrid.C68_iterative_incomplete_refuted"
   ],
   "note": "Proved for 32-bit ids and non-empty filters: every path ends, returns only matching rows, distinct, sorted, with their item ids; complete when some row does not match and distances are finite; exact when ef covers a connected graph. The consistency of the executor is proved from the model of C54. Refuted: 64-bit ids (results packed two per slot), all rows match on a disconnected graph, infinite distances, iterative hint. NaN distances are left out."
  },
  {
   "property": "C69",
   "status": "partial",
   "theorems": [
    "Alaya.GraphUpdate.C69_history_partial",
    "Alaya.GraphUpdate.C69_insert",
    "Alaya.GraphUpdate.C69_remove",
    "Alaya.GraphUpdate.C69_search",
    "Alaya.GraphUpdate.C69_search_exact",
    "Alaya.GraphUpdate.C69_insert_after_removal_lost_refuted",
    "Alaya.GraphUpdate.C69_inserted_unreachable_refuted",
    "Alaya.GraphUpdate.C69_insert_disconnects_refuted",
    "Alaya.GraphUpdate.C69_padding_refuted",
    "Alaya.GraphUpdate.C69_removed_returned_refuted",
    "Alaya.GraphUpdate.C69_remove_unknown_refuted"
   ],
   "note": "Proved: histories never throw or leave their arrays, ids and contents are as specified, the graph stays well formed, removed rows come last, exactness on connected graphs; a found neighbour with room links to the new row. Refuted: that an inserted vector can be found, that it leaves others reachable, that lists are free of padding edges to row 0, that removed rows are never returned, that removing an unknown id is harmless. One space for search and build; failures while storing the scalar record are left out."
  },
  {
   "property": "C70",
   "status": "proved",
   "theorems": [
    "Alaya.Sched.C70_safe",
    "Alaya.Sched.C70_all_done",
    "Alaya.Sched.C70_returns",
    "Alaya.Sched.C70_batch_search",
    "Alaya.Sched.C70_small_ef_refuted",
    "Alaya.Sched.C70_no_threads_refuted",
    "Alaya.Sched.C70_begin_first_refuted",
    "Alaya.Sched.C70_await_schedule_refuted"
   ],
   "note": "Both evaluation orders of the counter comparison. Return needs a fair schedule and pops that succeed while the queue has entries (the lock-free queue is not modelled); safety needs neither. Refuted as misuse: ef < topk and zero threads give rows of zeros instead of an error; workers started before scheduling never run anything; co_await scheduler.schedule() hands the same coroutine to two workers."
  },
  {
   "property": "C71",
   "status": "proved",
   "theorems": [
    "Alaya.IndexFile.C71_graph",
    "Alaya.IndexFile.C71_space",
    "Alaya.IndexFile.C71_save_load",
    "Alaya.IndexFile.C71_search",
    "Alaya.IndexFile.C71_history",
    "Alaya.IndexFile.C71_updates",
    "Alaya.IndexFile.C71_fields_refuted",
    "Alaya.IndexFile.C71_job_context_refuted",
    "Alaya.IndexFile.C71_id64_refuted",
    "Alaya.IndexFile.C71_id64_entry_refuted",
    "Alaya.IndexFile.C71_truncated_refuted"
   ],
   "note": "Unquantised spaces; 64-bit ids without upper layers are covered as well. Refuted outside of the hypotheses: 64-bit ids with upper layers (half of the upper edges and the upper half of the entry point are lost), 1000 or more indexed fields, files cut off before the upper layers, and insertions after removals before the save."
  },
  {
   "property": "C72",
   "status": "proved",
   "theorems": [
    "Alaya.Pool.C72_safe",
    "Alaya.Pool.C72_destroyed",
    "Alaya.Pool.C72_terminates",
    "Alaya.Pool.C72_phases",
    "Alaya.Pool.C72_hnsw",
    "Alaya.Pool.C72_hnsw_build",
    "Alaya.Pool.C72_batch",
    "Alaya.Pool.C72_big_count_refuted",
    "Alaya.Pool.C72_no_threads_refuted",
    "Alaya.Pool.C72_low_count_refuted",
    "Alaya.Pool.C72_no_reset_refuted",
    "Alaya.Pool.C72_batch_throw_refuted"
   ],
   "note": "One client thread; tasks end; sequentially consistent. Refuted outside of the hypotheses: a count of 2^32 or more, no threads, a count that is too low, a missing reset, a batch in which a search throws (the frame is left while other searches write into it)."
  },
  {
   "property": "C73",
   "status": "partial",
   "theorems": [
    "Alaya.Nsg.C73_rows_partial",
    "Alaya.Nsg.C73_link_terminates",
    "Alaya.Nsg.C73_dfs",
    "Alaya.Nsg.C73_keeps",
    "Alaya.Nsg.C73_small_refuted",
    "Alaya.Nsg.C73_full_refuted",
    "Alaya.Nsg.C73_full_case_refuted",
    "Alaya.Nsg.C73_reach_refuted",
    "Alaya.Nsg.C73_insert_refuted",
    "Alaya.Nsg.C73_insert_case_refuted"
   ],
   "note": "One thread; the NN-descent phase is an arbitrary graph. The claims a user would expect of the finished index fail: the builder need not end, vectors may be unreachable, insertions throw and destroy rows."
  },
  {
   "property": "C74",
   "status": "partial",
   "theorems": [
    "Alaya.Sq.C74_fit",
    "Alaya.Sq.C74_codes",
    "Alaya.Sq.C74_error",
    "Alaya.Sq.C74_sq8_distance",
    "Alaya.Sq.C74_sq8_error",
    "Alaya.Sq.encode4_pack",
    "Alaya.Sq.C74_sq4_swapped",
    "Alaya.Sq.C74_sq4_even_partial",
    "Alaya.Sq.C74_sq4_odd_refuted",
    "Alaya.Sq.C74_sq4_one_refuted",
    "Alaya.Sq.C74_sq4_swap_refuted",
    "Alaya.Sq.C74_clamp_refuted",
    "Alaya.Sq.C74_insert_refuted",
    "Alaya.Sq.C74_empty_refuted",
    "Alaya.Sq.C74_nan_refuted",
    "Alaya.Sq.C74_overflow_refuted"
   ],
   "note": "Rounding inside the distance kernels is not modelled (exact rationals). The 4-bit distances agree with the decoded vectors only when the two coordinates of each byte have the same range and the dimension is even; what they compute otherwise is C74_sq4_swapped."
  },
  {
   "property": "C75",
   "status": "partial",
   "theorems": [
    "Alaya.Simd.C75_float",
    "Alaya.Simd.C75_sq8",
    "Alaya.Simd.C75_sq4",
    "Alaya.Simd.C75_same",
    "Alaya.Simd.C75_runs_partial",
    "Alaya.Simd.C75_knl_refuted",
    "Alaya.Simd.C75_force_refuted",
    "Alaya.Simd.C75_sq4_refuted"
   ],
   "note": "Exact arithmetic (any commutative ring); rounding makes the kernels differ in the last digits and is not modelled. Missing in C75_runs_partial: processors with avx512f only, where the claim is false."
  },
  {
   "property": "C76",
   "status": "proved",
   "theorems": [
    "Alaya.Fht.C76_transform",
    "Alaya.Fht.C76_same_transform",
    "Alaya.Fht.C76_rounding_law",
    "Alaya.Fht.C76_dims",
    "Alaya.Fht.C76_same_rotation",
    "Alaya.Fht.C76_isometry",
    "Alaya.Fht.C76_saved"
   ],
   "note": "Isometry in exact real arithmetic; equality of the variants for every arithmetic with the five laws of Law, which rounded numbers have (C76_rounding_law). Not covered: signed zeros, infinities, NaN. MatrixRotator (Eigen QR) is not modelled."
  },
  {
   "property": "C77",
   "status": "proved",
   "theorems": [
    "Alaya.FastScan.C77_lookup",
    "Alaya.FastScan.C77_inner_product",
    "Alaya.FastScan.C77_zero_query_refuted",
    "Alaya.FastScan.C77_wrap_refuted",
    "Alaya.FastScan.C77_builds_differ_refuted",
    "Alaya.FastScan.C77_case"
   ],
   "note": "Table arithmetic is exact (a field), integers are as in C++. Refuted parts: above 1024 padded dimensions the counters wrap, a zero query is undefined in the portable and AVX2 builds, tables may differ between builds where an entry falls on a half."
  },
  {
   "property": "C78",
   "status": "proved",
   "theorems": [
    "Alaya.RaBitQ.C78_estimate",
    "Alaya.RaBitQ.C78_even",
    "Alaya.RaBitQ.C78_offset_refuted"
   ],
   "note": "Real numbers instead of floats except for the bytes of the tables and the 16-bit counters. Not claimed: the probabilistic bounds of the RaBitQ paper."
  },
  {
   "property": "C79",
   "status": "proved",
   "theorems": [
    "Alaya.Props.C79_search",
    "Alaya.Props.C79_hits",
    "Alaya.Props.C79_count",
    "Alaya.Props.C79_throws",
    "Alaya.Props.C79_masked",
    "Alaya.Props.C79_distinct_refuted",
    "Alaya.Props.C79_exhaustive"
   ],
   "note": "Estimates and exact distances are arbitrary integer-valued functions (NaN excluded). The coroutine version has the same statements and is not modelled separately. Ids of 32 bits."
  },
  {
   "property": "C80",
   "status": "partial",
   "theorems": [
    "Alaya.Props.C80_build",
    "Alaya.Props.C80_searchable",
    "Alaya.Props.C80_ends",
    "Alaya.Props.C80_reverse",
    "Alaya.Props.C80_prune",
    "Alaya.Props.C80_entry",
    "Alaya.Props.C80_small_refuted"
   ],
   "note": "The part about small collections is refuted: with 1 to 32 vectors random_init looks for 32 distinct other nodes for ever. Distances are integers (NaN excluded); the bisection for the angle threshold is left out since every call starts from the same lists. A node's own list is read without its lock while other threads append to it (a data race in the terms of C++); the model reads its length at the beginning, as a range-for does."
  },
  {
   "property": "C81",
   "status": "partial",
   "theorems": [
    "Alaya.Props.C81_layout",
    "Alaya.Props.C81_update",
    "Alaya.Props.C81_fit",
    "Alaya.Props.C81_roundtrip",
    "Alaya.Props.C81_truncated_refuted",
    "Alaya.Props.C81_fields_refuted",
    "Alaya.Props.C81_room"
   ],
   "note": "Proved except for the two parts found false: a file cut inside the chunks loads without an error and the rest is whatever memory held; with 1000 or more indexed fields the rotation is read from the names of the fields. Floats are kept as four bytes. A file that ends inside the RocksDB settings is not modelled further."
  },
  {
   "property": "C82",
   "status": "partial",
   "theorems": [
    "Alaya.Hnsw.C82_safe",
    "Alaya.Hnsw.C82_no_deadlock",
    "Alaya.Hnsw.C82_ends",
    "Alaya.Hnsw.C82_graph",
    "Alaya.Hnsw.C82_search",
    "Alaya.Hnsw.C82_visited",
    "Alaya.Hnsw.C82_found_refuted",
    "Alaya.Hnsw.C82_wide_refuted",
    "Alaya.Hnsw.C82_one_neighbour_refuted"
   ],
   "note": "Proved except for the three parts found false. Steps are sections between lock operations; the unlocked reads of the entry point and of the random generator are treated as atomic. Two or three neighbours per node make the level an infinite number converted to int, which the model leaves out (the drawn level is a parameter)."
  },
  {
   "property": "C83",
   "status": "partial",
   "theorems": [
    "Alaya.VBuild.C83_safe",
    "Alaya.VBuild.C83_ends",
    "Alaya.VBuild.C83_graph",
    "Alaya.VBuild.C83_file",
    "Alaya.VBuild.C83_file_rejected",
    "Alaya.VBuild.C83_one_thread",
    "Alaya.VBuild.C83_search",
    "Alaya.VBuild.C83_medoid",
    "Alaya.VBuild.C83_medoid_order_refuted",
    "Alaya.VBuild.C83_medoid_lost_refuted",
    "Alaya.VBuild.C83_list_one_refuted",
    "Alaya.VBuild.C83_reach_refuted"
   ],
   "note": "Proved except for the parts found false. Distances are integers that are only compared; the update of the occlusion factors is arbitrary; alpha below the largest float."
  },
  {
   "property": "C84",
   "status": "partial",
   "theorems": [
    "Alaya.PQ.C84_train",
    "Alaya.PQ.C84_train_workers",
    "Alaya.PQ.C84_workers",
    "Alaya.PQ.C84_workers_exist",
    "Alaya.PQ.C84_train_rejects",
    "Alaya.PQ.C84_lloyd",
    "Alaya.PQ.C84_encode",
    "Alaya.PQ.C84_nearest",
    "Alaya.PQ.C84_updates",
    "Alaya.PQ.C84_distance",
    "Alaya.PQ.C84_batch",
    "Alaya.PQ.C84_batch_valid",
    "Alaya.PQ.C84_symmetric_rejects",
    "Alaya.PQ.C84_distance_exact",
    "Alaya.PQ.C84_symmetric_exact",
    "Alaya.PQ.C84_small_exact",
    "Alaya.PQ.C84_files",
    "Alaya.PQ.C84_load",
    "Alaya.PQ.C84_retrain_refuted",
    "Alaya.PQ.C84_failed_load_refuted",
    "Alaya.PQ.C84_load_wraps_refuted",
    "Alaya.PQ.C84_last_id_refuted",
    "Alaya.PQ.C84_symmetric_from_rejects",
    "Alaya.PQ.C84_from_codebook"
   ],
   "note": "Proved except for the parts found false. Distances are exact in an ordered field; for floats the theorems on codes, batches, threads and updates hold for any arithmetic. The vectors chosen by k-means++ are arbitrary."
  },
  {
   "property": "C85",
   "status": "partial",
   "theorems": [
    "Alaya.PQShare.C85_locked",
    "Alaya.PQShare.C85_locked_frozen",
    "Alaya.PQShare.C85_step",
    "Alaya.PQShare.C85_unlocked_partial",
    "Alaya.PQShare.C85_unlocked_frozen_partial",
    "Alaya.PQShare.C85_unlocked_growth_refuted",
    "Alaya.PQShare.C85_unlocked_reuse_refuted"
   ],
   "note": "Proved for searches that hold the lock. For the coroutine searches, which do not, safety is proved only without removals and with reserved capacity, which the index does not reserve; both conditions are shown to be needed."
  },
  {
   "property": "C86",
   "status": "partial",
   "theorems": [
    "Alaya.VPart.C86_seed",
    "Alaya.VPart.C86_seed_exact",
    "Alaya.VPart.C86_lloyd",
    "Alaya.VPart.C86_assign",
    "Alaya.VPart.C86_nonfinite_refuted",
    "Alaya.VPart.C86_nonfinite_build_refuted",
    "Alaya.VPart.C86_number",
    "Alaya.VPart.C86_gives_up",
    "Alaya.VPart.C86_sizes",
    "Alaya.VPart.C86_ram_mono",
    "Alaya.VPart.C86_ram_enough",
    "Alaya.VPart.C86_ram_wraps_refuted",
    "Alaya.VPart.C86_rejects",
    "Alaya.VPart.C86_single",
    "Alaya.VPart.C86_build",
    "Alaya.VPart.C86_loadable",
    "Alaya.VPart.C86_medoid",
    "Alaya.VPart.C86_equal_vectors_refuted",
    "Alaya.VPart.C86_sampled_sizes_refuted"
   ],
   "note": "Everything claimed is proved, except what was found false: the build need not end (non-finite coordinates), may fail on equal vectors, may exceed the budget when sampling, and the estimate wraps for dimensions near 2^32."
  },
  {
   "property": "C87",
   "status": "partial",
   "theorems": [
    "Alaya.Py.C87_bad_threads_refuted",
    "Alaya.Py.C87_nameless_refuted",
    "Alaya.Py.C87_lookup_partial",
    "Alaya.Py.C87_compact",
    "Alaya.Py.C87_then_history",
    "Alaya.Py.C87_crash_partial",
    "Alaya.Py.C87_crash_after_save",
    "Alaya.Py.C87_window_cannot_open",
    "Alaya.Py.C87_broken_restart",
    "Alaya.Py.C87_broken_then_insert_loses",
    "Alaya.Py.C87_crash_window_refuted",
    "Alaya.Py.C87_nothing"
   ],
   "note": "Three parts of the statement are false in the code and refuted; the positive part is proved outside them. fit itself is assumed not to throw; raw spaces."
  },
  {
   "property": "C88",
   "status": "partial",
   "theorems": [
    "Alaya.Client.C88_isolated_partial",
    "Alaya.Client.C88_content",
    "Alaya.Client.C88_listed_iff",
    "Alaya.Client.C88_odd_dirs",
    "Alaya.Client.C88_delete_removes_all",
    "Alaya.Client.C88_odd_names_refuted",
    "Alaya.Client.C88_no_url_one_root",
    "Alaya.Client.C88_shared_root_swaps",
    "Alaya.Client.C88_no_url_refuted",
    "Alaya.Client.C88_own_path_refuted",
    "Alaya.Client.C88_listed_refuted",
    "Alaya.Client.C88_failed"
   ],
   "note": "Proved for ordinary names with the client's own paths; four wider statements are false in the code and refuted. No symbolic links; sequential use of the client."
  },
  {
   "property": "C89",
   "status": "partial",
   "theorems": [
    "Alaya.VamanaSeg.C89_search",
    "Alaya.VamanaSeg.C89_exact",
    "Alaya.VamanaSeg.C89_refused",
    "Alaya.VamanaSeg.C89_flush_atomic_partial",
    "Alaya.VamanaSeg.C89_listed_complete",
    "Alaya.VamanaSeg.C89_labels_unique_partial",
    "Alaya.VamanaSeg.C89_never_overwritten",
    "Alaya.VamanaSeg.C89_reopen",
    "Alaya.VamanaSeg.C89_flush",
    "Alaya.VamanaSeg.C89_built",
    "Alaya.VamanaSeg.C89_stuck",
    "Alaya.VamanaSeg.C89_retry_refuted",
    "Alaya.VamanaSeg.C89_large_seed_refuted",
    "Alaya.VamanaSeg.C89_metric_refuted",
    "Alaya.VamanaSeg.C89_alpha_refuted",
    "Alaya.VamanaSeg.C89_tie_refuted",
    "Alaya.VamanaSeg.C89_params",
    "Alaya.VamanaSeg.C89_params_open",
    "Alaya.VamanaSeg.C89_params_damaged",
    "Alaya.VamanaSeg.C89_negative_refuted"
   ],
   "note": "Manifests above 1 MiB and failing push_back calls after publication are excluded (refuted in C33/C34); six wider statements are refuted. Distances are integers (order of the floats, NaN left out); the text of alpha is a parameter with stated assumptions; locks, symlinks and fsync are left out."
  },
  {
   "property": "C90",
   "status": "partial",
   "theorems": [
    "Alaya.Props.C90_bound",
    "Alaya.Props.C90_bound_list",
    "Alaya.Props.C90_medoid",
    "Alaya.Props.C90_safe",
    "Alaya.Props.C90_ends",
    "Alaya.Props.C90_answer",
    "Alaya.Props.C90_ids",
    "Alaya.Props.C90_offers",
    "Alaya.Props.C90_exhaustive",
    "Alaya.Props.C90_starts",
    "Alaya.Props.C90_starts_none",
    "Alaya.Props.C90_labels",
    "Alaya.Props.C90_call",
    "Alaya.Props.C90_segment",
    "Alaya.Props.C90_query",
    "Alaya.Props.C90_case",
    "Alaya.Props.C90_case_run",
    "Alaya.Props.C90_complete_refuted",
    "Alaya.Props.C90_missing_refuted",
    "Alaya.Props.C90_ef_refuted",
    "Alaya.Props.C90_failed_refuted",
    "Alaya.Props.C90_many_refuted",
    "Alaya.Props.C90_width_refuted",
    "Alaya.Props.C90_width_case",
    "Alaya.Props.C90_hang_refuted",
    "Alaya.Props.C90_recovers"
   ],
   "note": "Everything the statement asserts is proved; the wider statements in parentheses are refuted. Distances are integers (order of the floats, NaN left out); the estimates are arbitrary; the kernel's queue is a set of requests executed one by one."
  },
  {
   "property": "C91",
   "status": "partial",
   "theorems": [
    "Alaya.LaserSeg.C91_import_atomic_partial",
    "Alaya.LaserSeg.C91_listed_complete",
    "Alaya.LaserSeg.C91_labels_unique_partial",
    "Alaya.LaserSeg.C91_never_overwritten",
    "Alaya.LaserSeg.C91_reopen",
    "Alaya.LaserSeg.C91_import",
    "Alaya.LaserSeg.C91_native",
    "Alaya.LaserSeg.C91_defined",
    "Alaya.LaserSeg.C91_stuck",
    "Alaya.LaserSeg.C91_create",
    "Alaya.LaserSeg.C91_useless",
    "Alaya.LaserSeg.C91_retry_refuted",
    "Alaya.LaserSeg.C91_publish_retry_refuted",
    "Alaya.LaserSeg.C91_short_cache_refuted",
    "Alaya.LaserSeg.C91_unchecked_refuted",
    "Alaya.LaserSeg.C91_names_refuted"
   ],
   "note": "Proved as stated, except manifests above 1 MiB (atomicity is stated below that size); the wider statements in parentheses are refuted. Float texts and the memory-budget arithmetic are parameters; hard links are taken as copies; failing allocations left out."
  },
  {
   "property": "C92",
   "status": "partial",
   "theorems": [
    "Alaya.LaserBuild.C92_build",
    "Alaya.LaserBuild.C92_pages",
    "Alaya.LaserBuild.C92_size",
    "Alaya.LaserBuild.C92_node",
    "Alaya.LaserBuild.C92_decode",
    "Alaya.LaserBuild.C92_truncated",
    "Alaya.LaserBuild.C92_cache",
    "Alaya.LaserBuild.C92_import",
    "Alaya.LaserBuild.C92_isolated_refuted",
    "Alaya.LaserBuild.C92_edges_refuted",
    "Alaya.LaserBuild.C92_short_base_refuted",
    "Alaya.LaserBuild.C92_few_nodes_refuted",
    "Alaya.LaserBuild.C92_graph_refuted",
    "Alaya.LaserBuild.C92_degree_refuted"
   ],
   "note": "Proved as stated; the wider statements in parentheses are refuted. Rotation and RaBitQ arithmetic are parameters of which the lengths of the outputs are used; the sort by in-degree is a parameter (any permutation with falling in-degree); I/O errors left out; threads enter as the order of the critical sections, their scratch buffers are private in the code."
  },
  {
   "property": "C93",
   "status": "partial",
   "theorems": [
    "Alaya.LaserFit.C93_fresh",
    "Alaya.LaserFit.C93_again",
    "Alaya.LaserFit.C93_history",
    "Alaya.LaserFit.C93_reopen",
    "Alaya.LaserFit.C93_shape",
    "Alaya.LaserFit.C93_data_refuted",
    "Alaya.LaserFit.C93_params_refuted",
    "Alaya.LaserFit.C93_medoid_refuted",
    "Alaya.LaserFit.C93_medoids_kept",
    "Alaya.LaserFit.C93_index_kept",
    "Alaya.LaserFit.C93_pca_refuted",
    "Alaya.LaserFit.C93_shrink_refuted",
    "Alaya.LaserFit.C93_degree_refuted",
    "Alaya.LaserFit.C93_interrupt_refuted",
    "Alaya.LaserFit.C93_resume",
    "Alaya.LaserFit.C93_resume_refuted",
    "Alaya.LaserFit.C93_refused",
    "Alaya.LaserFit.C93_accepted",
    "Alaya.LaserFit.C93_continue",
    "Alaya.LaserFit.C93_mend"
   ],
   "note": "Proved as stated; the wider statements in parentheses are refuted. PCA, medoid, Vamana and LASER builders are parameters with outputs that pass the code's header checks (met by the builder of C92); side file with disable_medoid=True: medoid files must be absent at the start; PCA with n >= 100000 excluded (refuted); the base file found at the start is not longer than the one to be written; seeds are non-negative; I/O errors other than exceptions and crashes left out."
  },
  {
   "property": "C94",
   "status": "partial",
   "theorems": [
    "Alaya.QuantIndex.C94_history",
    "Alaya.QuantIndex.C94_fit",
    "Alaya.QuantIndex.C94_search",
    "Alaya.QuantIndex.C94_enough",
    "Alaya.QuantIndex.C94_exact",
    "Alaya.QuantIndex.C94_removed_crowd_refuted",
    "Alaya.QuantIndex.C94_only_removed_refuted",
    "Alaya.QuantIndex.C94_out_of_range_refuted"
   ],
   "note": "Proved as stated; the two statements in parentheses are refuted. The encoder and the distance between codes are arbitrary functions (C74 describes the real ones); scalar records are stored successfully; graph and quantised space are filled together; distances are integers below the largest float."
  },
  {
   "property": "C95",
   "status": "partial",
   "theorems": [
    "Alaya.QuantFile.C95_save_load",
    "Alaya.QuantFile.C95_search",
    "Alaya.QuantFile.C95_updates",
    "Alaya.QuantFile.C95_history",
    "Alaya.QuantFile.C95_job_context_refuted",
    "Alaya.QuantFile.C95_crash_refuted"
   ],
   "note": "Proved as stated; the two statements in parentheses are refuted. Scalar records live in RocksDB and are not part of the files; the encoder and the distances are arbitrary functions of metric, dimension and quantiser; file system calls succeed. As for C71 a scalar configuration with 1000 or more indexed fields is not read back (C71_fields_refuted)."
  },
  {
   "property": "C96",
   "status": "partial",
   "theorems": [
    "Alaya.UringReactor.C96_no_ub",
    "Alaya.UringReactor.C96_wave",
    "Alaya.UringReactor.C96_exception",
    "Alaya.UringReactor.C96_final",
    "Alaya.UringReactor.C96_progress",
    "Alaya.UringReactor.C96_terminates",
    "Alaya.UringReactor.C96_end",
    "Alaya.UringReactor.C96_drained",
    "Alaya.UringReactor.C96_all_ended",
    "Alaya.UringReactor.C96_room",
    "Alaya.UringReactor.C96_counters",
    "Alaya.UringReactor.C96_calm",
    "Alaya.UringReactor.C96_poisoned",
    "Alaya.UringReactor.C96_in_flight_refuted",
    "Alaya.UringReactor.C96_transient_refuted",
    "Alaya.UringReactor.C96_stale_refuted"
   ],
   "note": "Proved as stated; the three statements in parentheses are refuted. Memory is sequentially consistent; the kernel may take reads in any portions, complete them in any order with any result, and loses none (IORING_FEAT_NODROP); the contents of the buffers, sizes of 2^32 and more, io_uring_wait_cqe failing in the destructor and pool.schedule() throwing are not modelled."
  },
  {
   "property": "C97",
   "status": "partial",
   "theorems": [
    "Alaya.ThreadReader.C97_no_ub",
    "Alaya.ThreadReader.C97_close_only",
    "Alaya.ThreadReader.C97_at_most_once",
    "Alaya.ThreadReader.C97_complete",
    "Alaya.ThreadReader.C97_nothing_lost",
    "Alaya.ThreadReader.C97_buffer",
    "Alaya.ThreadReader.C97_get_count",
    "Alaya.ThreadReader.C97_get_ends",
    "Alaya.ThreadReader.C97_bounded",
    "Alaya.ThreadReader.C97_get_waits",
    "Alaya.ThreadReader.C97_close",
    "Alaya.ThreadReader.C97_closed",
    "Alaya.ThreadReader.C97_no_read_closed",
    "Alaya.ThreadReader.C97_register",
    "Alaya.ThreadReader.C97_batch",
    "Alaya.ThreadReader.C97_worker_count",
    "Alaya.ThreadReader.C97_deregister_refuted",
    "Alaya.ThreadReader.C97_read_refuted",
    "Alaya.ThreadReader.C97_read_error_refuted",
    "Alaya.ThreadReader.C97_close_performs_refuted"
   ],
   "note": "Proved as stated; the four statements in parentheses are refuted. Memory is sequentially consistent; the queues are bags that may be found empty at any time (a call returns under fair scheduling: C97_get_ends gives a continuation from every state, C97_bounded bounds all others); contents of the buffers, null contexts, failures of close(2) and of starting threads are not modelled; a batch enters the queue in one action."
  },
  {
   "property": "C98",
   "status": "partial",
   "theorems": [
    "Alaya.PyParams.C98_create",
    "Alaya.PyParams.C98_create_keeps",
    "Alaya.PyParams.C98_fit_follows",
    "Alaya.PyParams.C98_fit_dtype",
    "Alaya.PyParams.C98_fit_works",
    "Alaya.PyParams.C98_fit_only",
    "Alaya.PyParams.C98_graph",
    "Alaya.PyParams.C98_collection",
    "Alaya.PyParams.C98_metric",
    "Alaya.PyParams.C98_cosine_scale",
    "Alaya.PyParams.C98_collection_distance",
    "Alaya.PyParams.C98_save_load",
    "Alaya.PyParams.C98_old_schema",
    "Alaya.PyParams.C98_load_requires",
    "Alaya.PyParams.C98_files",
    "Alaya.PyParams.C98_index_type_refuted",
    "Alaya.PyParams.C98_only_hnsw",
    "Alaya.PyParams.C98_cosine_case_refuted",
    "Alaya.PyParams.C98_cosine_meaning_refuted",
    "Alaya.PyParams.C98_exit_refuted",
    "Alaya.PyParams.C98_unsupported_refuted",
    "Alaya.PyParams.C98_accepted_refuted",
    "Alaya.PyParams.C98_unknown_refuted",
    "Alaya.PyParams.C98_scalar_refuted",
    "Alaya.PyParams.C98_collection_dtype_refuted",
    "Alaya.PyParams.C98_numpy_save_refuted"
   ],
   "note": "Proved as stated; the statements in parentheses are refuted. Arguments of undocumented Python types, JSON text, numpy dtypes in foreign byte order and rounding are not modelled; the native index after its construction is C67–C71, C94, C95."
  },
  {
   "property": "C99",
   "status": "partial",
   "theorems": [
    "Alaya.Rest.C99_create",
    "Alaya.Rest.C99_list_request",
    "Alaya.Rest.C99_missing",
    "Alaya.Rest.C99_found",
    "Alaya.Rest.C99_status",
    "Alaya.Rest.C99_others",
    "Alaya.Rest.C99_proper",
    "Alaya.Rest.C99_list",
    "Alaya.Rest.C99_failed_keeps",
    "Alaya.Rest.C99_set_metric",
    "Alaya.Rest.C99_delete",
    "Alaya.Rest.C99_ids",
    "Alaya.Rest.C99_insert",
    "Alaya.Rest.C99_upsert",
    "Alaya.Rest.C99_delete_by_id",
    "Alaya.Rest.C99_delete_by_filter",
    "Alaya.Rest.C99_query",
    "Alaya.Rest.C99_first_insert",
    "Alaya.Rest.C99_only_old",
    "Alaya.Rest.C99_empty_service",
    "Alaya.Rest.C99_saved",
    "Alaya.Rest.C99_insert_refuted",
    "Alaya.Rest.C99_metric_refuted",
    "Alaya.Rest.C99_crash_refuted",
    "Alaya.Rest.C99_count_refuted",
    "Alaya.Rest.C99_count",
    "Alaya.Rest.C99_partial_insert_refuted",
    "Alaya.Rest.C99_failed_delete_refuted",
    "Alaya.Rest.C99_failed_reset_refuted",
    "Alaya.Rest.C99_not_found_refuted",
    "Alaya.Rest.C99_create_lasts_refuted",
    "Alaya.Rest.C99_delete_lasts_refuted",
    "Alaya.Rest.C99_limit_refuted",
    "Alaya.Rest.C99_limit",
    "Alaya.Rest.C99_answers_refuted"
   ],
   "note": "Proved as stated; the statements in parentheses are refuted. FastAPI, numpy (dtype of a list of Python floats) and the operating system are trusted as described in Model/Rest.lean; closing a collection is assumed to succeed."
  },
  {
   "property": "C100",
   "status": "partial",
   "theorems": [
    "Alaya.Chunker.C100_sentences",
    "Alaya.Chunker.C100_cuts_only",
    "Alaya.Chunker.C100_cuts_all",
    "Alaya.Chunker.C100_sentence_chunks",
    "Alaya.Chunker.C100_windows",
    "Alaya.Chunker.C100_no_overlap",
    "Alaya.Chunker.C100_parts",
    "Alaya.Chunker.C100_semantic",
    "Alaya.Chunker.C100_example_sentences",
    "Alaya.Chunker.C100_example_ends",
    "Alaya.Chunker.C100_example_chunks",
    "Alaya.Chunker.C100_example_semantic",
    "Alaya.Chunker.C100_endless_refuted",
    "Alaya.Chunker.C100_endless_documents",
    "Alaya.Chunker.C100_last_chunk_new_refuted",
    "Alaya.Chunker.C100_negative_overlap_refuted",
    "Alaya.Chunker.C100_decimal_refuted",
    "Alaya.Chunker.C100_title_refuted",
    "Alaya.Chunker.C100_quote_refuted",
    "Alaya.Chunker.C100_full_stops_refuted",
    "Alaya.Chunker.C100_questions_refuted"
   ],
   "note": "Proved as stated; the statements in parentheses are refuted. That every place where a sentence may end is a cut needs the blank to be white space and the terminators not. The semantic part needs one embedding per piece and a window of at least one."
  },
  {
   "property": "C101",
   "status": "partial",
   "theorems": [
    "Alaya.Recall.C101_python",
    "Alaya.Recall.C101_bounds",
    "Alaya.Recall.C101_order",
    "Alaya.Recall.C101_at_k",
    "Alaya.Recall.C101_cpp",
    "Alaya.Recall.C101_cpp_recall",
    "Alaya.Recall.C101_exact_python",
    "Alaya.Recall.C101_exact_cpp",
    "Alaya.Recall.C101_exact_recall",
    "Alaya.Recall.C101_percentile",
    "Alaya.Recall.C101_percentile_mono",
    "Alaya.Recall.C101_example_gt",
    "Alaya.Recall.C101_example_gt_cpp",
    "Alaya.Recall.C101_example_recall",
    "Alaya.Recall.C101_example_percentile",
    "Alaya.Recall.C101_repeated_refuted",
    "Alaya.Recall.C101_deep_refuted",
    "Alaya.Recall.C101_deep_cpp_refuted",
    "Alaya.Recall.C101_ties_refuted",
    "Alaya.Recall.C101_one_item_refuted",
    "Alaya.Recall.C101_few_refuted",
    "Alaya.Recall.C101_uneven_refuted",
    "Alaya.Recall.C101_overflow_refuted",
    "Alaya.Recall.C101_negative_refuted",
    "Alaya.Recall.C101_short_refuted",
    "Alaya.Recall.C101_median_refuted",
    "Alaya.Recall.C101_p99_refuted"
   ],
   "note": "Proved as stated; the statements in parentheses are refuted. Division is exact (the code rounds to float or double); distances are never NaN."
  },
  {
   "property": "C102",
   "status": "partial",
   "theorems": [
    "Alaya.VecFiles.C102_read",
    "Alaya.VecFiles.C102_bench",
    "Alaya.VecFiles.C102_fvecs_sound",
    "Alaya.VecFiles.C102_bin",
    "Alaya.VecFiles.C102_fbin",
    "Alaya.VecFiles.C102_example_rows",
    "Alaya.VecFiles.C102_example_read",
    "Alaya.VecFiles.C102_short_refuted",
    "Alaya.VecFiles.C102_one_byte_refuted",
    "Alaya.VecFiles.C102_mixed_refuted",
    "Alaya.VecFiles.C102_trailing_refuted",
    "Alaya.VecFiles.C102_huge_refuted",
    "Alaya.VecFiles.C102_overwrite_refuted",
    "Alaya.VecFiles.C102_outside_refuted",
    "Alaya.VecFiles.C102_save_refuted",
    "Alaya.VecFiles.C102_reserve_refuted",
    "Alaya.VecFiles.C102_chunk_refuted",
    "Alaya.VecFiles.C102_empty_refuted"
   ],
   "note": "Proved as stated; the statements in parentheses are refuted. Opening files succeeds; start positions of read_fbin and read_ibin lie within the file."
  },
  {
   "property": "C103",
   "status": "partial",
   "theorems": [
    "Alaya.Locks.C103_spin",
    "Alaya.Locks.C103_shared",
    "Alaya.Locks.C103_file",
    "Alaya.Locks.C103_example_shared",
    "Alaya.Locks.C103_example_spin",
    "Alaya.Locks.C103_example_file",
    "Alaya.Locks.C103_upgrade_refuted",
    "Alaya.Locks.C103_stuck_refuted",
    "Alaya.Locks.C103_degrade_refuted",
    "Alaya.Locks.C103_degrade_stuck_refuted",
    "Alaya.Locks.C103_assert_refuted",
    "Alaya.Locks.C103_starve_refuted",
    "Alaya.Locks.C103_open_refuted",
    "Alaya.Locks.C103_interrupted_refuted"
   ],
   "note": "Proved as stated; the statements in parentheses are refuted. Memory is sequentially consistent; SharedLock::reset and the Windows FileLock are not modelled."
  },
  {
   "property": "C104",
   "status": "partial",
   "theorems": [
    "Alaya.Dataset.C104_no_download",
    "Alaya.Dataset.C104_dimensions",
    "Alaya.Dataset.C104_load",
    "Alaya.Dataset.C104_example",
    "Alaya.Dataset.C104_query_num_refuted",
    "Alaya.Dataset.C104_zero_queries_refuted",
    "Alaya.Dataset.C104_few_refuted",
    "Alaya.Dataset.C104_interrupted_refuted",
    "Alaya.Dataset.C104_metric_refuted"
   ],
   "note": "Proved as stated; the statements in parentheses are refuted. Distances are exact values in a linear order."
  },
  {
   "property": "C105",
   "status": "partial",
   "theorems": [
    "Alaya.LaserScan.C105_lookup",
    "Alaya.LaserScan.C105_scan",
    "Alaya.LaserScan.C105_table_refuted",
    "Alaya.LaserScan.C105_counter_refuted",
    "Alaya.LaserScan.C105_constant_refuted"
   ],
   "note": "Proved as stated, over ordered fields; the statements in parentheses are refuted. That the third stored factor is dq times (set bits less unset bits) is a hypothesis."
  },
  {
   "property": "C106",
   "status": "partial",
   "theorems": [
    "Alaya.VPool.C106_exclusive",
    "Alaya.VPool.C106_marks",
    "Alaya.VPool.C106_defined",
    "Alaya.VPool.C106_reuse",
    "Alaya.VPool.C106_lost_refuted",
    "Alaya.VPool.C106_marker_refuted"
   ],
   "note": "Proved as stated, over sequentially consistent interleavings; the statements in parentheses are refuted."
  },
  {
   "property": "C107",
   "status": "partial",
   "theorems": [
    "Alaya.SPool.C107_conserved",
    "Alaya.SPool.C107_bound",
    "Alaya.SPool.C107_no_wait",
    "Alaya.SPool.C107_progress",
    "Alaya.SPool.C107_turn_refuted"
   ],
   "note": "Proved as stated, over sequentially consistent interleavings; the statement in parentheses is refuted. The LASER search, which does not give its workspace back when it throws, is C90."
  },
  {
   "property": "C108",
   "status": "partial",
   "theorems": [
    "Alaya.NND.C108_sample",
    "Alaya.NND.C108_distinct",
    "Alaya.NND.C108_pool",
    "Alaya.NND.C108_row",
    "Alaya.NND.C108_distinct_refuted",
    "Alaya.NND.C108_repeat_refuted",
    "Alaya.NND.C108_short_refuted"
   ],
   "note": "Proved as stated; the statements in parentheses are refuted. The races of update() between threads are not modelled."
  },
  {
   "property": "C109",
   "status": "partial",
   "theorems": [
    "Alaya.UBatch.C109_prefix",
    "Alaya.UBatch.C109_complete",
    "Alaya.UBatch.C109_results",
    "Alaya.UBatch.C109_leftover_refuted",
    "Alaya.UBatch.C109_full_refuted"
   ],
   "note": "Proved as stated; the statements in parentheses are refuted."
  },
  {
   "property": "C110",
   "status": "partial",
   "theorems": [
    "Alaya.UAsync.C110_once",
    "Alaya.UAsync.C110_check",
    "Alaya.UAsync.C110_drained",
    "Alaya.UAsync.C110_drain",
    "Alaya.UAsync.C110_failed_refuted",
    "Alaya.UAsync.C110_wait_refuted"
   ],
   "note": "Proved as stated; the statements in parentheses are refuted."
  },
  {
   "property": "C111",
   "status": "proved",
   "theorems": [
    "Alaya.MMap.C111_owner",
    "Alaya.MMap.C111_open",
    "Alaya.MMap.C111_released",
    "Alaya.MMap.C111_move",
    "Alaya.MMap.C111_as"
   ],
   "note": "Proved as stated."
  },
  {
   "property": "C112",
   "status": "proved",
   "theorems": [
    "Alaya.DPy.C112_build",
    "Alaya.DPy.C112_build_accepts",
    "Alaya.DPy.C112_search",
    "Alaya.DPy.C112_insert",
    "Alaya.DPy.C112_batch_search",
    "Alaya.DPy.C112_batch_insert",
    "Alaya.DPy.C112_batch_remove",
    "Alaya.DPy.C112_accepts"
   ],
   "note": "Proved as stated; that NumPy sets the flag C-contiguous only for arrays with the strides of their shape (except along axes with one entry, or empty arrays) is a hypothesis."
  },
  {
   "property": "C113",
   "status": "partial",
   "theorems": [
    "Alaya.Relayout.C113_row",
    "Alaya.Relayout.C113_perm",
    "Alaya.Relayout.C113_other_refuted",
    "Alaya.Relayout.C113_repeat_refuted"
   ],
   "note": "Proved as stated; the statements in parentheses are refuted. The function is in a public header but nothing in the repository calls it."
  }
 ]
}
