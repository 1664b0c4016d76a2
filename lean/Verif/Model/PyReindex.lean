import Verif.Model.PyIndex

/-
`Collection.reindex` (/repo/python/src/alayalite/collection.py:382-458) with `Collection.close` (560-570), the fit that
follows (/repo/python/src/alayalite/index.py:107-167, /repo/python/include/index.hpp:560-689), and the lookups and inserts of
a collection (collection.py:238-296, 334-352).

Simplified: the index content is that of `Model/PyIndex` (raw space), a record read through `scalar_data_to_pydict` and
passed to `build_scalar_data_vec` comes back unchanged, `fit` itself does not throw.
-/
namespace Alaya.Py
open Recovery

/-- What `get_scalar_data_by_internal_id` returns; a slot without record reads as the empty record.
/repo/python/include/index.hpp:816-827, /repo/include/storage/rocksdb_storage.hpp:116-124. -/
def Index.scalarAt (s : Index) (i : Nat) : ScalarData :=
  match (s.slots[i]?).join with
  | none => ⟨[], [], []⟩
  | some r => r.2

/-- `get_data_by_id`; the bytes of a removed slot are not read by `reindex`.
/repo/python/include/index.hpp:482-503. -/
def Index.vectorAt (s : Index) (i : Nat) : Bytes :=
  match (s.slots[i]?).join with
  | none => []
  | some r => r.1

/-- The loop that collects the rows. /repo/python/src/alayalite/collection.py:409-425. -/
def Index.collect (s : Index) : List Row :=
  (List.range s.slots.length).filterMap fun i =>
    if (s.scalarAt i).itemId = [] then none else some (s.vectorAt i, s.scalarAt i)

/-- `fit` of the collected rows: slots `0, 1, …` in order. `norm` is the normalisation applied by `Index.fit` (the
identity unless the metric is cosine). /repo/python/src/alayalite/index.py:146,
/repo/include/space/raw_space.hpp:132-157. -/
def Index.rebuilt (norm : Bytes → Bytes) (s : Index) : Index :=
  { s with slots := s.collect.map fun r => some (norm r.1, r.2) }

/-- The recovery numbers of a newly constructed native index. /repo/python/include/index.hpp:144-162. -/
def freshMem (d : Disk Index) (s : Index) : Mem Index :=
  let applied := ((currentSnapshot d).map SnapManifest.appliedThrough).getD 0
  ⟨s, max (Wal.replayable d.wal 0).2 applied + 1, applied⟩

/-- The thread count check: the argument if given, else the parameter of the collection, else 1.
/repo/python/src/alayalite/collection.py:440-449. -/
def threadsOk (arg param : Option Int) : Bool :=
  match arg with
  | some n => decide (0 < n)
  | none =>
    match param with
    | some n => decide (0 < n)
    | none => true

/-- The checkpoint at the end of the fit of a new native index: its steps and its memory.
/repo/python/include/index.hpp:687. -/
def fitSteps (y : Sys Index) (dt : Nat) (s : Index) : List (CkStep Index) :=
  ckptSteps (y.clock + dt) (freshMem y.disk s).lastCommitted (str "post_fit") s y.disk

/-- A new native index fitted with content `s` over the recovery directory. -/
def fitNew (y : Sys Index) (dt : Nat) (s : Index) : Sys Index :=
  ⟨runSteps y.disk (fitSteps y dt s), y.clock + dt, some (freshMem y.disk s)⟩

/-- How a call of `reindex` ends: it did nothing, it raised before anything happened, it raised with the old index closed
and no new one (`mem = none`), or it rebuilt the index. -/
inductive Reindexed where
  | nothing | notReady | broken | rebuilt
  deriving DecidableEq, Repr

/-- `reindex` up to its effect on the running index and the recovery directory. The removal of the active RocksDB
directory (collection.py:434-435) is not state: `load` replaces it by the snapshot's copy.
/repo/python/src/alayalite/collection.py:382-458. -/
def reindex (norm : Bytes → Bytes) (arg param : Option Int) (dt : Nat) (y : Sys Index) : Sys Index × Reindexed :=
  match y.mem with
  | none => (y, .notReady)
  | some m =>
    if m.state.slots.length = 0 then (y, .nothing)
    else if m.state.collect = [] then (y, .nothing)
    else if threadsOk arg param then (fitNew y dt (m.state.rebuilt norm), .rebuilt)
    else ({ y with mem := none }, .broken)

/-- A crash after `j` file-system steps of the fit of a `reindex`. -/
def reindexCrash (norm : Bytes → Bytes) (dt j cut : Nat) (y : Sys Index) : Sys Index :=
  match y.mem with
  | none => y
  | some m => ⟨(runSteps y.disk ((fitSteps y dt (m.state.rebuilt norm)).take j)).crash cut, y.clock + dt, none⟩

/-- `get_by_id` of one id; without a native index the answer is empty. /repo/python/src/alayalite/collection.py:334-352. -/
def lookup (y : Sys Index) (item : Bytes) : Option Row :=
  match y.mem with
  | none => none
  | some m => m.state.get item

end Alaya.Py
