import Verif.Model.Bytes

/-
RocksDB as an ordered map from byte strings to byte strings (assumption on the library): `Get`, an
atomic `WriteBatch` of `Put`/`Delete`, and an iterator positioned by `Seek` that walks the keys in byte-wise
order.  Used through /repo/include/storage/rocksdb_storage.hpp.
-/
namespace Alaya

/-- Content of the database, ascending by key. -/
abbrev KV := List (Bytes × Bytes)

/-- `db->Get(key)`; `none` = NotFound. -/
def KV.get (kv : KV) (k : Bytes) : Option Bytes :=
  match kv with
  | [] => none
  | (k', v) :: rest => if k' = k then some v else KV.get rest k

/-- `Put`. -/
def KV.put (kv : KV) (k v : Bytes) : KV :=
  match kv with
  | [] => [(k, v)]
  | (k', v') :: rest =>
    if k < k' then (k, v) :: (k', v') :: rest
    else if k' = k then (k, v) :: rest
    else (k', v') :: KV.put rest k v

/-- `Delete`. -/
def KV.del (kv : KV) (k : Bytes) : KV := kv.filter fun e => !(e.1 == k)

/-- One entry of a `WriteBatch`. -/
inductive BatchOp where
  | put (k v : Bytes)
  | del (k : Bytes)
  deriving DecidableEq, Repr

/-- Effect of one entry. -/
def KV.step (kv : KV) : BatchOp → KV
  | .put k v => kv.put k v
  | .del k => kv.del k

/-- `db->Write(batch)`: all entries in order, atomically. -/
def KV.write (kv : KV) (b : List BatchOp) : KV := b.foldl KV.step kv

/-- `iter->Seek(k)`: the entries from the first key `≥ k` on. -/
def KV.seek (kv : KV) (k : Bytes) : KV := kv.dropWhile fun e => decide (e.1 < k)

/-- `for (iter->Seek(p); Valid && key.starts_with(p); Next)`: the visited entries. -/
def KV.prefixScan (kv : KV) (p : Bytes) : KV := (kv.seek p).takeWhile fun e => p.isPrefixOf e.1

end Alaya
