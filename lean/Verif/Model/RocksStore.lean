import Verif.Model.KV
import Verif.Model.RocksKeys
import Verif.Model.Filter
import Verif.Spec.RecordMap

/-
/repo/include/storage/rocksdb_storage.hpp: the scalar store.

Simplifications: RocksDB calls do not fail with I/O errors; every public operation is atomic (it holds
`write_mutex_`, lines 205, 269, 363, 399, or reads a RocksDB snapshot); the database is open and writable.
-/
namespace Alaya

/-- Static configuration: id type and `indexed_fields_` (rocksdb_storage.hpp:59). -/
structure StoreCfg where
  id : IdCfg
  fields : List Bytes
  deriving Repr

/-- Database content and `cached_count_` (rocksdb_storage.hpp:1033-1037). -/
structure Store where
  kv : KV
  count : Nat
  deriving DecidableEq, Repr

/-- `get_data_value`: (resolved key, value). rocksdb_storage.hpp:783-807. -/
def getData (c : IdCfg) (kv : KV) (id : Nat) : Option (Bytes × Bytes) :=
  match kv.get (dataKey c id) with
  | some v => some (dataKey c id, v)
  | none =>
    if legacyKey id = dataKey c id then none
    else
      match kv.get (legacyKey id) with
      | some v => some (legacyKey id, v)
      | none => none

/-- The index keys of one record, in the order of `indexed_fields_`.
rocksdb_storage.hpp:1008-1031 (shared by add and remove). -/
def fieldKeys (fields : List Bytes) (id : Nat) (data : ScalarData) : List Bytes :=
  fields.filterMap fun f => (data.metadata.get f).map fun v => fieldIndexKey f (encodeValue v) id

/-- `add_field_indexes`. rocksdb_storage.hpp:1008-1017. -/
def addFieldIndexes (fields : List Bytes) (id : Nat) (data : ScalarData) : List BatchOp :=
  (fieldKeys fields id data).map fun k => .put k []

/-- `remove_field_indexes`. rocksdb_storage.hpp:1022-1031. -/
def removeFieldIndexes (fields : List Bytes) (id : Nat) (data : ScalarData) : List BatchOp :=
  (fieldKeys fields id data).map fun k => .del k

/-- `delete_item_id_index`. rocksdb_storage.hpp:998-1003. -/
def deleteItemIdx (item : Bytes) : List BatchOp := if item = [] then [] else [.del (itemKey item)]

/-- `Put(item key, id)` guarded by non-empty item id. rocksdb_storage.hpp:235-239, 339-343, 427-430. -/
def putItemIdx (c : IdCfg) (item : Bytes) (id : Nat) : List BatchOp :=
  if item = [] then [] else [.put (itemKey item) (leBytes c.size id)]

/-- `find_by_item_id`. rocksdb_storage.hpp:449-461. -/
def findByItemId (c : IdCfg) (kv : KV) (item : Bytes) : Option Nat :=
  match kv.get (itemKey item) with
  | none => none
  | some v => if v.length ≠ c.size then none else some (leNat v)

/-- `item_id_available(item, allowed_id)`. rocksdb_storage.hpp:463-471, 993-996. -/
def itemAvailable (c : IdCfg) (kv : KV) (item : Bytes) (id : Nat) : Bool :=
  if item = [] then true
  else
    match findByItemId c kv item with
    | none => true
    | some o => o == id

/-- Old record as found by `get_data_value` + `deserialize`; `.bad` = `deserialize` throws. -/
def oldData (c : IdCfg) (kv : KV) (id : Nat) : PR (Option (Bytes × ScalarData)) :=
  match getData c kv id with
  | none => .ok none
  | some p => (ScalarData.deserialize p.2).bind fun r => .ok (some (p.1, r))

/-- The batch entries of one inserted record. rocksdb_storage.hpp:224-242 and 323-347. -/
def insertOps (cfg : StoreCfg) (old : Option (Bytes × ScalarData)) (id : Nat) (data : ScalarData) :
    List BatchOp :=
  (match old with
   | none => []
   | some p =>
     (if p.1 ≠ dataKey cfg.id id then [.del p.1] else []) ++ deleteItemIdx p.2.itemId ++
       removeFieldIndexes cfg.fields id p.2) ++
  [.put (dataKey cfg.id id) data.serialize] ++ putItemIdx cfg.id data.itemId id ++
  addFieldIndexes cfg.fields id data

/-- `insert`. rocksdb_storage.hpp:204-254. -/
def Store.insert (cfg : StoreCfg) (s : Store) (id : Nat) (data : ScalarData) : PR (Store × Bool) :=
  (oldData cfg.id s.kv id).bind fun old =>
  if itemAvailable cfg.id s.kv data.itemId id then
    .ok (⟨s.kv.write (insertOps cfg old id data), if old.isNone then s.count + 1 else s.count⟩, true)
  else .ok (s, false)

/-- `batch_item_ids.emplace` failing: a non-empty item id occurs twice. rocksdb_storage.hpp:288-294. -/
def batchDup : List Bytes → List Bytes → Bool
  | _, [] => false
  | seen, i :: rest =>
    if i = [] then batchDup seen rest
    else if i ∈ seen then true
    else batchDup (i :: seen) rest

/-- Ids `start, start+1, …` in the (wrapping) id type. rocksdb_storage.hpp:283-284. -/
def batchIds (c : IdCfg) (start : Nat) (recs : List ScalarData) : List (Nat × ScalarData) :=
  match recs with
  | [] => []
  | r :: rest => (start, r) :: batchIds c ((start + 1) % c.bound) rest

/-- Lookup of all old records. rocksdb_storage.hpp:299-306. -/
def oldAll (c : IdCfg) (kv : KV) : List (Nat × ScalarData) →
    PR (List (Nat × ScalarData × Option (Bytes × ScalarData)))
  | [] => .ok []
  | e :: rest =>
    (oldData c kv e.1).bind fun old =>
    (oldAll c kv rest).bind fun os => .ok ((e.1, e.2, old) :: os)

/-- `batch_insert`. rocksdb_storage.hpp:268-357. -/
def Store.batchInsert (cfg : StoreCfg) (s : Store) (start : Nat) (recs : List ScalarData) :
    PR (Store × Bool) :=
  if batchDup [] (recs.map (·.itemId)) then .ok (s, false)
  else
    (oldAll cfg.id s.kv (batchIds cfg.id start recs)).bind fun rs =>
    if rs.all (fun e => itemAvailable cfg.id s.kv e.2.1.itemId e.1) then
      .ok (⟨s.kv.write (rs.flatMap fun e => insertOps cfg e.2.2 e.1 e.2.1),
            s.count + (rs.filter fun e => e.2.2.isNone).length⟩, true)
    else .ok (s, false)

/-- `remove`. rocksdb_storage.hpp:362-393. -/
def Store.remove (cfg : StoreCfg) (s : Store) (id : Nat) : PR (Store × Bool) :=
  (oldData cfg.id s.kv id).bind fun old =>
  match old with
  | none => .ok (s, false)
  | some p =>
    .ok (⟨s.kv.write ([.del p.1] ++ deleteItemIdx p.2.itemId ++ removeFieldIndexes cfg.fields id p.2),
          if s.count > 0 then s.count - 1 else s.count⟩, true)

/-- `update`. rocksdb_storage.hpp:398-444. -/
def Store.update (cfg : StoreCfg) (s : Store) (id : Nat) (data : ScalarData) : PR (Store × Bool) :=
  (oldData cfg.id s.kv id).bind fun old =>
  match old with
  | none => .ok (s, false)
  | some p =>
    if itemAvailable cfg.id s.kv data.itemId id then
      .ok (⟨s.kv.write
        ((if p.1 ≠ dataKey cfg.id id then [.del p.1] else []) ++
         [.put (dataKey cfg.id id) data.serialize] ++
         (if p.2.itemId ≠ data.itemId then deleteItemIdx p.2.itemId ++ putItemIdx cfg.id data.itemId id
          else []) ++
         removeFieldIndexes cfg.fields id p.2 ++ addFieldIndexes cfg.fields id data), s.count⟩, true)
    else .ok (s, false)

/-- `save_count` (called by `flush` and `close_db`). rocksdb_storage.hpp:975-985, 666-672, 711-729. -/
def Store.saveCount (s : Store) : Store := ⟨s.kv.put countKey (leBytes 8 s.count), s.count⟩

/-- Opening an existing database: `cached_count_(0)` then `load_count`.
rocksdb_storage.hpp:81-84, 965-973. -/
def Store.openDb (kv : KV) : Store :=
  ⟨kv, match kv.get countKey with
       | none => 0
       | some v => if v.length = 8 then leNat v else 0⟩

/-- Clean close and reopen. -/
def Store.reopen (s : Store) : Store := Store.openDb s.saveCount.kv

/-- Process crash and reopen: RocksDB keeps the written batches, `save_count` is not run. -/
def Store.crashReopen (s : Store) : Store := Store.openDb s.kv

/-- One client call. -/
def Store.step (cfg : StoreCfg) (s : Store) : Spec.StoreOp → PR (Store × Bool)
  | .insert id r => s.insert cfg id r
  | .batchInsert start recs => s.batchInsert cfg start recs
  | .update id r => s.update cfg id r
  | .remove id => s.remove cfg id
  | .flush => .ok (s.saveCount, true)
  | .reopen => .ok (s.reopen, true)

/-- A history of client calls. -/
def Store.run (cfg : StoreCfg) (s : Store) : List Spec.StoreOp → PR (Store × List Bool)
  | [] => .ok (s, [])
  | op :: ops =>
    (s.step cfg op).bind fun r =>
    (Store.run cfg r.1 ops).bind fun rs => .ok (rs.1, r.2 :: rs.2)

/-- `operator[]`: default record when missing. rocksdb_storage.hpp:116-124. -/
def Store.at (cfg : StoreCfg) (s : Store) (id : Nat) : PR ScalarData :=
  match getData cfg.id s.kv id with
  | none => .ok ⟨[], [], []⟩
  | some p => ScalarData.deserialize p.2

/-- `is_valid`. rocksdb_storage.hpp:158-161. -/
def Store.isValid (cfg : StoreCfg) (s : Store) (id : Nat) : Bool := (getData cfg.id s.kv id).isSome

/-- `batch_get_raw_values`: empty string for missing entries. rocksdb_storage.hpp:144-153, 809-865. -/
def Store.rawValue (cfg : StoreCfg) (s : Store) (id : Nat) : Bytes :=
  match getData cfg.id s.kv id with
  | none => []
  | some p => p.2

/-- One element of `batch_get`. rocksdb_storage.hpp:476-490. -/
def Store.batchGetOne (cfg : StoreCfg) (s : Store) (id : Nat) : PR ScalarData :=
  if s.rawValue cfg id = [] then .ok ⟨[], [], []⟩ else ScalarData.deserialize (s.rawValue cfg id)

/-- One element of `batch_get_item_id_only`. rocksdb_storage.hpp:172-196. -/
def Store.itemIdOnly (cfg : StoreCfg) (s : Store) (id : Nat) : Bytes :=
  match splitN 4 (s.rawValue cfg id) with
  | none => []
  | some p =>
    match splitN (leNat p.1) p.2 with
    | none => []
    | some q => q.1

/-- Collecting loop of `scan_with_filter`. rocksdb_storage.hpp:514-530. -/
def scanLoop (c : IdCfg) (p : ScalarData → Bool) : KV → PR (List (Nat × ScalarData))
  | [] => .ok []
  | e :: rest =>
    if dataPre.isPrefixOf e.1 then
      (parseDataKey c e.1).bind fun id =>
      match id with
      | none => scanLoop c p rest
      | some id =>
        (ScalarData.deserialize e.2).bind fun sd =>
        (scanLoop c p rest).bind fun rs =>
        .ok (if p sd then (id, sd) :: rs else rs)
    else .ok []

/-- `scan_with_filter`; `std::sort` by id (ids are distinct, so the result does not depend on the sorting
algorithm). rocksdb_storage.hpp:502-540. -/
def Store.scan (cfg : StoreCfg) (s : Store) (p : ScalarData → Bool) (limit : Nat) :
    PR (List (Nat × ScalarData)) :=
  (scanLoop cfg.id p (s.kv.seek dataPre)).bind fun rs =>
  let rs := rs.mergeSort fun a b => decide (a.1 ≤ b.1)
  .ok (if limit > 0 ∧ rs.length > limit then rs.take limit else rs)

/-- Collect `extract_id_from_key` of the visited keys; `none` = exception. -/
def extractAll (c : IdCfg) : List Bytes → Option (List Nat)
  | [] => some []
  | k :: ks =>
    match extractId c k with
    | none => none
    | some i => (extractAll c ks).map (i :: ·)

/-- `get_ids_by_field_value`. rocksdb_storage.hpp:548-569. -/
def idsByFieldValue (c : IdCfg) (kv : KV) (field : Bytes) (v : MetaValue) : Option (List Nat) :=
  extractAll c ((kv.prefixScan (fieldIndexPrefix field (encodeValue v))).map Prod.fst)

/-- Loop of the two range queries: the visited keys that are taken. `tag` is "i_" or "d_".
rocksdb_storage.hpp:591-613, 638-657. -/
def rangeLoop (fp tag endEnc : Bytes) : KV → List Bytes
  | [] => []
  | e :: rest =>
    if fp.isPrefixOf e.1 then
      if e.1.length < fp.length + 2 ∨ (e.1.drop fp.length).take 2 ≠ tag then rangeLoop fp tag endEnc rest
      else
        match rsplit us e.1 with
        | none => rangeLoop fp tag endEnc rest
        | some p =>
          if p.1.length ≤ fp.length + 2 then rangeLoop fp tag endEnc rest
          else if endEnc < p.1.drop (fp.length + 2) then []
          else e.1 :: rangeLoop fp tag endEnc rest
    else []

/-- `get_ids_by_int_range`. rocksdb_storage.hpp:578-616. -/
def idsByIntRange (c : IdCfg) (kv : KV) (field : Bytes) (lo hi : BitVec 64) : Option (List Nat) :=
  extractAll c (rangeLoop (fieldPrefix field) [105, 95] (encodeInt64 hi)
    (kv.seek (fieldPrefix field ++ [105, 95] ++ encodeInt64 lo)))

/-- `get_ids_by_double_range`. rocksdb_storage.hpp:625-660. -/
def idsByDoubleRange (c : IdCfg) (kv : KV) (field : Bytes) (lo hi : BitVec 64) : Option (List Nat) :=
  extractAll c (rangeLoop (fieldPrefix field) [100, 95] (encodeDouble hi)
    (kv.seek (fieldPrefix field ++ [100, 95] ++ encodeDouble lo)))

end Alaya
