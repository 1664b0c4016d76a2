import Verif.Model.BinaryIO
import Verif.Model.ScalarData
import Verif.Model.Recovery

/-
The mutating calls of PyIndex with scalar data: /repo/python/include/index.hpp and
/repo/include/executor/jobs/graph_update_job.hpp, for a raw space (search space = build space), compiled with NDEBUG.

The content is the sequence of slots handed out so far: `some` row = valid, `none` = removed.  Graph edges are not
content (they influence search results, not lookups).  The scalar store is used through its refinement (C17): one record
per valid slot.  The three storages (graph, vectors, scalar records) hand out the same slot numbers, so the drift
exceptions of `insert_spaces` do not occur.
-/
namespace Alaya.Py
open Wal

/-- Vector bytes and record. -/
abbrev Row := Bytes × ScalarData

/-- `vecLen` = `data_dim_ * sizeof(DataType)`, `cap` = capacity of graph and space, `slots[i]` = row of internal id `i`
(`item_cnt_` = length: /repo/include/space/raw_space.hpp:164-175, 225). -/
structure Index where
  vecLen : Nat
  cap : Nat
  slots : List (Option Row)
  deriving DecidableEq, Repr

/-- The (first) slot with this item id. -/
def slotOf (item : Bytes) : List (Option Row) → Nat → Option Nat
  | [], _ => none
  | some r :: rest, i => if r.2.itemId = item then some i else slotOf item rest (i + 1)
  | none :: rest, i => slotOf item rest (i + 1)

/-- `find_by_item_id`; records with an empty item id have no entry.
/repo/include/storage/rocksdb_storage.hpp:235-239, 449-461. -/
def Index.find (s : Index) (item : Bytes) : Option Nat := if item = [] then none else slotOf item s.slots 0

/-- `get_scalar_data(item_id)` and the vector of that id; `none` = exception.
/repo/include/space/raw_space.hpp:258-268, /repo/python/include/index.hpp:366-377. -/
def Index.get (s : Index) (item : Bytes) : Option Row :=
  match s.find item with
  | none => none
  | some i => (s.slots[i]?).join

/-- `contains`. /repo/python/include/index.hpp:782-792. -/
def Index.contains (s : Index) (item : Bytes) : Bool := (s.find item).isSome

/-- Outcome of a nondurable call: the exception, or the new content and the returned id (`none` = `invalid_id()`). -/
abbrev Out := Option (Index × Option Nat)

/-- `insert_nondurable` = `insert_and_update`: duplicate item id throws; a full graph returns `invalid_id()` without
an exception and (with NDEBUG, the asserts are not evaluated) without touching the spaces.
/repo/python/include/index.hpp:323-330, /repo/include/executor/jobs/graph_update_job.hpp:80-116, 199-213,
/repo/include/storage/sequential_storage.hpp:64-71. -/
def Index.insertNd (s : Index) (row : Row) : Out :=
  if s.contains row.2.itemId then none
  else if s.slots.length ≥ s.cap then some (s, none)
  else some ({ s with slots := s.slots ++ [some row] }, some s.slots.length)

/-- `remove_nondurable(item_id)`: throws when missing.
/repo/python/include/index.hpp:357-363, /repo/include/executor/jobs/graph_update_job.hpp:140-159,
/repo/include/space/raw_space.hpp:192-202. -/
def Index.removeItem (s : Index) (item : Bytes) : Option Index :=
  match s.find item with
  | none => none
  | some i => some { s with slots := s.slots.set i none }

/-- `remove_nondurable(id)`. An id that was never handed out is undefined behaviour in the live call (`graph_->edges`
reads past the storage); modelled as an exception.
/repo/python/include/index.hpp:349-355, /repo/include/executor/jobs/graph_update_job.hpp:118-133. -/
def Index.removeId (s : Index) (id : Nat) : Option Index :=
  if id < s.slots.length then some { s with slots := s.slots.set id none } else none

/-- `upsert_nondurable`. The rollback branch needs an exception of the second insert.
/repo/python/include/index.hpp:379-406. -/
def Index.upsertNd (s : Index) (row : Row) : Out :=
  if s.contains row.2.itemId then
    match s.get row.2.itemId, s.removeItem row.2.itemId with
    | some old, some s1 =>
      match s1.insertNd row with
      | some r => some r
      | none =>
        match s1.insertNd old with
        | some _ => none
        | none => none
    | _, _ => none
  else s.insertNd row

/-- A durable call of the Python API. -/
inductive Call where
  | insert (ef : Nat) (row : Row)
  | upsert (ef : Nat) (row : Row)
  | removeItem (item : Bytes)
  | removeId (id : Nat)
  deriving DecidableEq, Repr

/-- Mutation type of the call. /repo/python/include/index.hpp:710-765. -/
def Call.kind : Call → Mutation
  | .insert _ _ => .insert
  | .upsert _ _ => .upsert
  | .removeItem _ => .removeByItemId
  | .removeId _ => .removeByInternalId

/-- The logged payload. /repo/python/include/index.hpp:299-321. -/
def Call.payload : Call → Bytes
  | .insert ef row => BinIO.writeAll [.u32 ef, .blob row.1, .blob row.2.serialize]
  | .upsert ef row => BinIO.writeAll [.u32 ef, .blob row.1, .blob row.2.serialize]
  | .removeItem item => BinIO.writeAll [.string item]
  | .removeId id => BinIO.writeAll [.u64 id]

/-- The decoding part of `replay_record`; `none` = exception. /repo/python/include/index.hpp:408-461. -/
def decode (vecLen : Nat) (kind : Mutation) (payload : Bytes) : Option Call :=
  match kind with
  | .insert =>
    match (BinIO.readAll [.u32, .blob, .blob] ⟨payload, 0⟩).1 with
    | [.ok (.u32 ef), .ok (.blob v), .ok (.blob b)] =>
      if v.length ≠ vecLen then none
      else match ScalarData.deserialize b with
        | .ok sd => some (.insert ef (v, sd))
        | _ => none
    | _ => none
  | .upsert =>
    match (BinIO.readAll [.u32, .blob, .blob] ⟨payload, 0⟩).1 with
    | [.ok (.u32 ef), .ok (.blob v), .ok (.blob b)] =>
      if v.length ≠ vecLen then none
      else match ScalarData.deserialize b with
        | .ok sd => some (.upsert ef (v, sd))
        | _ => none
    | _ => none
  | .removeByItemId =>
    match (BinIO.readAll [.string] ⟨payload, 0⟩).1 with
    | [.ok (.string item)] => some (.removeItem item)
    | _ => none
  | .removeByInternalId =>
    match (BinIO.readAll [.u64] ⟨payload, 0⟩).1 with
    | [.ok (.u64 id)] => some (.removeId id)
    | _ => none

/-- The nondurable part of a call on a running index. /repo/python/include/index.hpp:691-775. -/
def Index.exec (s : Index) : Call → Option Index
  | .insert _ row => (s.insertNd row).map Prod.fst
  | .upsert _ row => (s.upsertNd row).map Prod.fst
  | .removeItem item => s.removeItem item
  | .removeId id => s.removeId id

/-- The same when replayed: removals of missing items and ids are skipped.
/repo/python/include/index.hpp:428-460. -/
def Index.replay (s : Index) : Call → Option Index
  | .insert _ row => (s.insertNd row).map Prod.fst
  | .upsert _ row => (s.upsertNd row).map Prod.fst
  | .removeItem item => if s.contains item then s.removeItem item else some s
  | .removeId id => if id < s.slots.length then s.removeId id else some s

/-- `validate_insert_item_id_available`, only for insert. /repo/python/include/index.hpp:332-347, 699. -/
def Index.refuses (s : Index) : Call → Bool
  | .insert _ row => s.contains row.2.itemId
  | _ => false

/-- The durable index as an instance of the recovery model: a live call is identified with its logged payload
(`decode_encode` shows that nothing is lost). -/
def sem : Recovery.Sem Index where
  refuse s kind payload :=
    match decode s.vecLen kind payload with
    | none => false
    | some c => s.refuses c
  exec s kind payload := (decode s.vecLen kind payload).bind s.exec
  replay s kind payload := (decode s.vecLen kind payload).bind s.replay

/-- The event of a call. -/
def Call.event (c : Call) : Recovery.Event := .op c.kind c.payload
def Call.crashEvent (c : Call) (cut : Nat) : Recovery.Event := .opCrash c.kind c.payload cut

end Alaya.Py
