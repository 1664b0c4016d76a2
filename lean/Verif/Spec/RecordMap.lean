import Verif.Model.ScalarData

/-
Abstract scalar store: a finite map from internal id to record, as the list of its entries in ascending id
order, and what each public operation means on it.  Does not mention keys, encodings or RocksDB.
-/
namespace Alaya.Spec

/-- Finite map, ascending by id. -/
abbrev RecordMap := List (Nat × ScalarData)

/-- Lookup. -/
def RecordMap.get (m : RecordMap) (id : Nat) : Option ScalarData :=
  match m with
  | [] => none
  | (i, r) :: rest => if i = id then some r else RecordMap.get rest id

/-- Insert or replace. -/
def RecordMap.put (m : RecordMap) (id : Nat) (r : ScalarData) : RecordMap :=
  match m with
  | [] => [(id, r)]
  | (i, x) :: rest =>
    if id < i then (id, r) :: (i, x) :: rest
    else if i = id then (id, r) :: rest
    else (i, x) :: RecordMap.put rest id r

/-- Remove. -/
def RecordMap.del (m : RecordMap) (id : Nat) : RecordMap := m.filter fun e => !(e.1 == id)

/-- Is the item id free for the record `id`: empty item ids are always allowed, others must not belong to
another record. -/
def RecordMap.itemFree (m : RecordMap) (item : Bytes) (id : Nat) : Bool :=
  item.isEmpty || m.all fun e => e.1 == id || !(e.2.itemId == item)

/-- The record that owns a (non-empty) item id. -/
def RecordMap.owner (m : RecordMap) (item : Bytes) : Option Nat :=
  if item.isEmpty then none else (m.find? fun e => e.2.itemId == item).map Prod.fst

/-- `insert(id, r)`: insert or replace; refused when the item id belongs to another record. -/
def RecordMap.insert (m : RecordMap) (id : Nat) (r : ScalarData) : RecordMap × Bool :=
  if m.itemFree r.itemId id then (m.put id r, true) else (m, false)

/-- `update(id, r)`: only existing records. -/
def RecordMap.update (m : RecordMap) (id : Nat) (r : ScalarData) : RecordMap × Bool :=
  if (m.get id).isSome && m.itemFree r.itemId id then (m.put id r, true) else (m, false)

/-- `remove(id)`. -/
def RecordMap.remove (m : RecordMap) (id : Nat) : RecordMap × Bool :=
  if (m.get id).isSome then (m.del id, true) else (m, false)

/-- `batch_insert`: all or nothing; the non-empty item ids of the batch must be distinct and free. -/
def RecordMap.batchInsert (m : RecordMap) (recs : List (Nat × ScalarData)) : RecordMap × Bool :=
  if ((recs.map fun e => e.2.itemId).filter (!·.isEmpty)).Nodup ∧
      ∀ e ∈ recs, m.itemFree e.2.itemId e.1 = true then
    (recs.foldl (fun m e => m.put e.1 e.2) m, true)
  else (m, false)

/-- A client call that can change the store. -/
inductive StoreOp where
  | insert (id : Nat) (r : ScalarData)
  | batchInsert (start : Nat) (recs : List ScalarData)
  | update (id : Nat) (r : ScalarData)
  | remove (id : Nat)
  | flush
  | reopen

/-- Consecutive ids of a batch in an id type with `bound` values. -/
def batchPairs (bound start : Nat) (recs : List ScalarData) : List (Nat × ScalarData) :=
  (List.range recs.length).zipWith (fun i r => ((start + i) % bound, r)) recs

/-- Meaning of a call: new map and returned value (flush and clean reopen change nothing). -/
def RecordMap.apply (bound : Nat) (m : RecordMap) : StoreOp → RecordMap × Bool
  | .insert id r => m.insert id r
  | .batchInsert start recs => m.batchInsert (batchPairs bound start recs)
  | .update id r => m.update id r
  | .remove id => m.remove id
  | .flush => (m, true)
  | .reopen => (m, true)

/-- Meaning of a history: final map and the list of returned values. -/
def RecordMap.applyAll (bound : Nat) (m : RecordMap) : List StoreOp → RecordMap × List Bool
  | [] => (m, [])
  | op :: ops =>
    let r := m.apply bound op
    let rs := RecordMap.applyAll bound r.1 ops
    (rs.1, r.2 :: rs.2)

end Alaya.Spec
