import Verif.Model.DiskSlots

/-
Label bookkeeping of the updatable DiskANN index: /repo/include/index/graph/diskann/diskann_index.hpp.

Vectors, neighbour lists and pages are left out (C44, C60, C57): only what the label calls read and write is kept.  The
update calls hold `update_serial_mutex_`, so calls do not overlap; the tasks inside one `batch_insert` do, and are
an arbitrary list of their critical sections.
-/
namespace Alaya.DiskAnn
open Alaya Alaya.DiskSlots

/-- `kNoLabel`. diskann_index.hpp:813 -/
def noLabel : Nat := 18446744073709551615

/-- `slot_alloc_`, `labels_`, `label_to_slot_`, `max_slot_id_`, `live_count_` (unbounded: C45 shows that it stays between 0 and the
number of slots). diskann_index.hpp:2345-2346, 2396-2397 -/
structure Idx where
  slots : Slots
  labels : List Nat
  map : Nat → Option Nat
  maxSlot : Nat
  live : Int

/-- `labels_.resize(slot + 1, kNoLabel)` if needed, then assignment. diskann_index.hpp:2165-2170 -/
def setLabel (labels : List Nat) (slot l : Nat) : List Nat :=
  (if slot ≥ labels.length then labels ++ List.replicate (slot + 1 - labels.length) noLabel else labels).set slot l

/-- `allocate_update_slot_unlocked`; `none` = the tombstone bitmap throws. diskann_index.hpp:1485-1493 -/
def allocStep (s : Idx) (l : Nat) : Option (Nat × Idx) :=
  match s.slots.alloc with
  | none => none
  | some (slot, sl) => some (slot,
      { s with slots := sl, maxSlot := max s.maxSlot sl.next, labels := setLabel s.labels slot l, live := s.live + 1 })

/-- `publish_slots` for one slot; `none` = `labels_` is read out of range. diskann_index.hpp:1818-1824 -/
def publishStep (s : Idx) (slot : Nat) : Option Idx :=
  match s.labels[slot]? with
  | none => none
  | some l => some { s with slots := s.slots.publish slot, map := fun m => if m = l then some slot else s.map m }

/-- `validate_removable_slot`. diskann_index.hpp:1607-1614 -/
def removable (s : Idx) (id : Nat) : Bool := decide (id < s.maxSlot) && !s.slots.tomb.isDeleted id

/-- `remove_unlocked_with_neighbors`; `none` = `labels_` is read out of range, or the bitmap throws.
diskann_index.hpp:1678-1688 -/
def removeStep (s : Idx) (id : Nat) : Option Idx :=
  match s.labels[id]? with
  | none => none
  | some l => match s.slots.release id with
    | none => none
    | some sl => some { s with
        slots := sl
        map := fun m => if m = l ∧ s.map l = some id then none else s.map m
        live := s.live - 1 }

/-- How a call ends: refused by its validation, ended by an exception from I/O, or returned. `crash` collects the outcomes
that C45 rules out (out-of-range reads, bitmap overflow). -/
inductive Res where
  | rejected
  | failed
  | ok
  | crash
  deriving DecidableEq, Repr

/-- Where an I/O exception may end `insert`: in the neighbour search, while the node or its code is written, while the
neighbours are reconnected. diskann_index.hpp:834-844 -/
inductive Fault where
  | none
  | search
  | write
  | reconnect
  deriving DecidableEq, Repr

/-- The critical sections of the tasks of a `batch_insert`. A task whose sections are missing from the list ended by an
exception before; `when_all` keeps the exception in its result, which is not looked at.
diskann_index.hpp:1773-1801, 1804-1813 -/
inductive BEv where
  | alloc (i : Nat)
  | publish (i : Nat)
  deriving DecidableEq, Repr

/-- Progress of the tasks: the slot of each, and whether it was published. -/
structure Tasks where
  slot : Nat → Option Nat
  done : Nat → Bool

/-- One critical section of task `i`; sections out of order do not occur and are skipped. -/
def batchStep (ls : List Nat) (s : Idx) (t : Tasks) : BEv → Option (Idx × Tasks)
  | .alloc i => match t.slot i, ls[i]? with
    | none, some l => match allocStep s l with
      | none => none
      | some (x, s') => some (s', { t with slot := fun j => if j = i then some x else t.slot j })
    | _, _ => some (s, t)
  | .publish i => match t.slot i with
    | some x =>
      if t.done i then some (s, t)
      else match publishStep s x with
        | none => none
        | some s' => some (s', { t with done := fun j => if j = i then true else t.done j })
    | none => some (s, t)

/-- All sections of a batch. -/
def batchRun (ls : List Nat) (s : Idx) (t : Tasks) : List BEv → Option (Idx × Tasks)
  | [] => some (s, t)
  | e :: es => match batchStep ls s t e with
    | none => none
    | some (s', t') => batchRun ls s' t' es

/-- Removing a list of slots under the lock. diskann_index.hpp:1645-1648 -/
def removeAll (s : Idx) : List Nat → Option Idx
  | [] => some s
  | id :: ids => match removeStep s id with
    | none => none
    | some s' => removeAll s' ids

/-- `validate_insert_label(s)_unlocked`. diskann_index.hpp:1495-1528 -/
def insertable (s : Idx) (ls : List Nat) : Bool :=
  ls.all (fun l => decide (l ≠ noLabel)) && decide ls.Nodup && ls.all fun l => (s.map l).isNone

/-- Loop of `batch_remove_by_labels`: slots of the labels, `none` if a label is repeated or unknown.
diskann_index.hpp:973-981 -/
def lookupAll (s : Idx) : List Nat → Option (List Nat)
  | [] => some []
  | l :: ls => if ls.contains l then none else match s.map l with
    | none => none
    | some x => (lookupAll s ls).map (x :: ·)

/-- The calls. `ok = false`: reading the neighbours of the removed nodes throws. Afterwards the safety net may throw as well; that
changes no label state and is not distinguished. -/
inductive Op where
  | insert (l : Nat) (f : Fault)
  | batchInsert (ls : List Nat) (evs : List BEv)
  | remove (id : Nat) (ok : Bool)
  | removeByLabel (l : Nat) (ok : Bool)
  | batchRemove (ids : List Nat) (ok : Bool)
  | batchRemoveByLabels (ls : List Nat) (ok : Bool)
  deriving DecidableEq, Repr

/-- `remove_internal_locked`, `batch_remove_internal_locked`. diskann_index.hpp:1622-1652 -/
def doRemove (s : Idx) (ids : List Nat) (ok : Bool) : Idx × Res :=
  if ids.all (removable s) && decide ids.Nodup then
    if ok then match removeAll s ids with
      | none => (s, .crash)
      | some s' => (s', .ok)
    else (s, .failed)
  else (s, .rejected)

/-- One call. diskann_index.hpp:819-984 -/
def step (s : Idx) : Op → Idx × Res
  | .insert l f =>
    if insertable s [l] then
      if f = .search then (s, .failed)
      else match allocStep s l with
        | none => (s, .crash)
        | some (x, s1) =>
          if f = .write then (s1, .failed)
          else match publishStep s1 x with
            | none => (s1, .crash)
            | some s2 => (s2, if f = .reconnect then .failed else .ok)
    else (s, .rejected)
  | .batchInsert ls evs =>
    if insertable s ls then match batchRun ls s ⟨fun _ => none, fun _ => false⟩ evs with
      | none => (s, .crash)
      | some (s', _) => (s', .ok)
    else (s, .rejected)
  | .remove id ok => doRemove s [id] ok
  | .removeByLabel l ok => match s.map l with
    | none => (s, .rejected)
    | some x => doRemove s [x] ok
  | .batchRemove ids ok => doRemove s ids ok
  | .batchRemoveByLabels ls ok => match lookupAll s ls with
    | none => (s, .rejected)
    | some ids => doRemove s ids ok

/-- A history. -/
def run (s : Idx) : List Op → Idx
  | [] => s
  | o :: os => run (step s o).1 os

/-- The results of a history. -/
def results (s : Idx) : List Op → List Res
  | [] => []
  | o :: os => (step s o).2 :: results (step s o).1 os

/-- `contains_label`. diskann_index.hpp:806-809 -/
def containsLabel (s : Idx) (l : Nat) : Bool := (s.map l).isSome

/-- A freshly built and loaded index: no `slots.bin`, all slots live. diskann_index.hpp:306-341, 1539-1555; the build rejects reserved
and repeated labels. -/
def fresh (ls : List Nat) : Option Idx :=
  (Slots.mk' ls.length).map fun sl =>
    ⟨sl, ls, fun l => if l ∈ ls then some (ls.idxOf l) else none, ls.length, ls.length⟩

end Alaya.DiskAnn
