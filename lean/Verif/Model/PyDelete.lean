import Verif.Model.PyIndex

/-
`Collection.delete_by_filter` and the calls it makes: /repo/python/src/alayalite/collection.py.

`p` is the compiled filter (C18, C51 and C58 say what it means).  The scalar scan is used through its refinement
(`C17_scan`, `C54_scan_agrees_partial`): the records of the valid slots, in ascending id order, cut at the limit.
-/
namespace Alaya.Py

/-- The live records accepted by the filter, in id order. -/
def matching (p : ScalarData → Bool) (l : List (Option Row)) : List Row :=
  l.filterMap fun o => match o with
    | some r => if p r.2 then some r else none
    | none => none

/-- The `"id"` list of `filter_query` (`limit > 0`).
/repo/python/src/alayalite/collection.py:209-236, /repo/python/include/index.hpp:1061-1077,
/repo/include/storage/rocksdb_storage.hpp:502-540. -/
def Index.filterIds (s : Index) (p : ScalarData → Bool) (limit : Nat) : List Bytes :=
  ((matching p s.slots).take limit).map (·.2.itemId)

/-- One `remove_by_item_id` inside `try … except RuntimeError: pass`.  `upd` = the index has an update job; without one
(RaBitQ search space, /repo/python/include/index.hpp:203-219, 599-625) every removal throws a RuntimeError.
/repo/python/src/alayalite/collection.py:328-332, /repo/python/include/index.hpp:357-363. -/
def tryRemove (upd : Bool) (s : Index) (item : Bytes) : Index := if upd then (s.removeItem item).getD s else s

/-- `delete_by_id`. /repo/python/src/alayalite/collection.py:321-332. -/
def deleteIds (upd : Bool) (s : Index) (ids : List Bytes) : Index := ids.foldl (tryRemove upd) s

/-- The `while` loop of `delete_by_filter`, `fuel` passes at most; `none` = still running.
/repo/python/src/alayalite/collection.py:369-380. -/
def delLoop (upd : Bool) (p : ScalarData → Bool) (batch : Nat) : Nat → Nat → Index → Option (Nat × Index)
  | 0, _, _ => none
  | fuel + 1, total, s =>
    let ids := s.filterIds p batch
    let s' := deleteIds upd s ids
    if ids.length = batch then delLoop upd p batch fuel (total + ids.length) s'
    else some (total + ids.length, s')

/-- `delete_by_filter(f, batch)` returns `n` and leaves the index in state `s'`.  `batch > 0` (asserted by
`filter_query`). /repo/python/src/alayalite/collection.py:354-380. -/
def Returns (upd : Bool) (p : ScalarData → Bool) (batch : Nat) (s : Index) (n : Nat) (s' : Index) : Prop :=
  ∃ fuel, delLoop upd p batch fuel 0 s = some (n, s')

end Alaya.Py
