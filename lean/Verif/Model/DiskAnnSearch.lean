import Verif.Model.DiskAnnLabels

/-
A DiskANN search that runs while the index is updated: /repo/include/index/graph/diskann/diskann_index.hpp:423-504.

The traversal itself is the subject of C56; here a search is a snapshot, then any number of record reads of slots
the snapshot shows as live, then the label lookup.  Each is one critical section, and so are the parts of the updates; a schedule
is an arbitrary list of them.  A record read is atomic (the page protocol is the subject of C40), a vector is a number,
and the distance is represented by the vector it is computed from.
-/
namespace Alaya.DiskAnn
open Alaya Alaya.DiskSlots

/-- Index, vectors in the node records, slots taken by inserts that are under way, and the search: its snapshot and
what it has read so far, then its output. -/
structure Sys where
  idx : Idx
  vec : Nat → Nat
  pending : List Nat
  snap : Option (Nat × Tomb)
  read : List (Nat × Nat)
  out : Option (List (Nat × Nat))

/-- Critical sections. -/
inductive Ev where
  | alloc (l : Nat)
  | write (x v : Nat)
  | publish (x : Nat)
  | abort (x : Nat)
  | remove (x : Nat)
  | snapshot
  | readRec (x : Nat)
  | lookup
  deriving DecidableEq, Repr

/-- The slot is one the search may return: below `max_slot_id` and not deleted in its snapshot.
beam_search.hpp:253-261, 452-462; diskann_index.hpp:1089-1103 -/
def inSnap (s : Nat × Tomb) (x : Nat) : Bool := decide (x < s.1) && !s.2.isDeleted x

/-- One critical section; one that cannot occur in the state is skipped.
`alloc`, `write`, `publish`: insert, diskann_index.hpp:836-842. An insert does not start while
another one of the same label is under way (`update_serial_mutex_`, and 1513-1528 within a batch). `abort`: an exception ends an insert
after it took its slot. `remove`: 1622-1652, 1678-1688. `snapshot`: 1089-1103 (no copy is made
of an empty tombstone set, which is the same set). `readRec`: a distance computed by the traversal. `lookup`: 489-497. -/
def sysStep (σ : Sys) : Ev → Option Sys
  | .alloc l => if insertable σ.idx [l] && σ.pending.all (fun x => decide (σ.idx.labels[x]? ≠ some l)) then match allocStep σ.idx l with
      | none => none
      | some (x, i) => some { σ with idx := i, pending := x :: σ.pending }
    else some σ
  | .write x v => if x ∈ σ.pending then some { σ with vec := fun y => if y = x then v else σ.vec y } else some σ
  | .publish x => if x ∈ σ.pending then match publishStep σ.idx x with
      | none => none
      | some i => some { σ with idx := i, pending := σ.pending.erase x }
    else some σ
  | .abort x => some { σ with pending := σ.pending.erase x }
  | .remove x => if removable σ.idx x then match removeStep σ.idx x with
      | none => none
      | some i => some { σ with idx := i }
    else some σ
  | .snapshot => some { σ with snap := some (σ.idx.maxSlot, σ.idx.slots.tomb), read := [], out := none }
  | .readRec x => match σ.snap with
    | none => some σ
    | some s => if inSnap s x then some { σ with read := (x, σ.vec x) :: σ.read } else some σ
  | .lookup => match σ.snap with
    | none => some σ
    | some _ => some { σ with
        out := some (σ.read.map fun p => (match σ.idx.labels[p.1]? with | some l => l | none => noLabel, p.2)) }

/-- A schedule, with all states it passes through, oldest first. -/
def sysRun (σ : Sys) : List Ev → Option (List Sys)
  | [] => some [σ]
  | e :: es => match sysStep σ e with
    | none => none
    | some σ' => (sysRun σ' es).map (σ :: ·)

/-- An index that was just loaded; slot `i` holds vector `i`. -/
def sysFresh (ls : List Nat) : Option Sys := (fresh ls).map fun i => ⟨i, fun x => x, [], none, [], none⟩

end Alaya.DiskAnn
