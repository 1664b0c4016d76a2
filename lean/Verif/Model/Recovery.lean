import Verif.Model.Wal
import Verif.Model.SnapshotManifest

/-
/repo/include/recovery/recovery_manager.hpp and the durable part of PyIndex
(/repo/python/include/index.hpp:144-162, 255-297, 408-558, 691-775).

The index content is an abstract type `σ`; what `insert_nondurable`/`upsert_nondurable`/`remove_nondurable` do to it
is the parameter `Sem.exec` (`none` = exception, content unchanged — assumption), and what `replay_record` does is
`Sem.replay`.  Files are modelled at the granularity of the steps between which a crash can happen.  A crash
loses all memory and the bytes of the log after the last fsync beyond an arbitrary cut; rename and unlink are atomic
and durable.  The active RocksDB directory is not state: `load` replaces it by the snapshot's copy.
-/
namespace Alaya.Recovery
open Wal

/-- Effect of the nondurable operations and of `replay_record` on the index content. `refuse`: the call throws
before anything is logged (`validate_insert_item_id_available`, /repo/python/include/index.hpp:332-347, 699). -/
structure Sem (σ : Type) where
  refuse : σ → Mutation → Bytes → Bool
  exec : σ → Mutation → Bytes → Option σ
  replay : σ → Mutation → Bytes → Option σ

/-- A directory `snapshots/<id>`: component files (graph, data, quantizer, RocksDB checkpoint) as one value, `none` =
missing or only partly written; `manifest.txt`. -/
structure SnapDir (σ : Type) where
  state : Option σ
  manifest : Option Bytes
  deriving DecidableEq, Repr

/-- The recovery directory. `durable` = number of leading bytes of the log known to be on stable storage. -/
structure Disk (σ : Type) where
  wal : Option Bytes
  durable : Nat
  current : Option Bytes
  snaps : List (Bytes × SnapDir σ)
  deriving DecidableEq, Repr

/-- A running index: content, `next_recovery_op_id_`, `last_committed_recovery_op_id_`. -/
structure Mem (σ : Type) where
  state : σ
  next : Nat
  lastCommitted : Nat
  deriving DecidableEq, Repr

/-- Disk, wall clock in ms, running process (`none` = crashed/not started). -/
structure Sys (σ : Type) where
  disk : Disk σ
  clock : Nat
  mem : Option (Mem σ)
  deriving DecidableEq, Repr

variable {σ : Type}

/-- Directory lookup. -/
def findDir (id : Bytes) : List (Bytes × SnapDir σ) → Option (SnapDir σ)
  | [] => none
  | e :: l => if e.1 = id then some e.2 else findDir id l

/-- Replace or create a directory. -/
def setDir (id : Bytes) (d : SnapDir σ) : List (Bytes × SnapDir σ) → List (Bytes × SnapDir σ)
  | [] => [(id, d)]
  | e :: l => if e.1 = id then (id, d) :: l else e :: setDir id d l

/-- Drop trailing newline, carriage return and space characters. /repo/include/recovery/recovery_manager.hpp:217-220. -/
def trimEnd (s : Bytes) : Bytes :=
  (s.reverse.dropWhile (fun c => c == chNL || c == chCR || c == 32)).reverse

/-- `trim`. /repo/include/recovery/recovery_manager.hpp:216-226. -/
def trim (s : Bytes) : Bytes := (trimEnd s).dropWhile (fun c => c == 32)

/-- `current_snapshot`. /repo/include/recovery/recovery_manager.hpp:106-131. -/
def currentSnapshot (d : Disk σ) : Option SnapManifest :=
  match d.current with
  | none => none
  | some text =>
    if trim text = [] then none
    else
      match findDir (trim text) d.snaps with
      | none => none
      | some dir =>
        match dir.manifest with
        | none => none
        | some raw => SnapManifest.deserialize raw

/-- Snapshot directory name. /repo/include/recovery/recovery_manager.hpp:67-70. -/
def snapshotName (ms : Nat) : Bytes := str "snapshot-" ++ decStr ms

/-- The manifest written by `checkpoint_recovery_snapshot`. /repo/python/include/index.hpp:285-294 (file names of the
raw-space instantiation). -/
def manifestFor (ms applied : Nat) (reason : Bytes) : SnapManifest :=
  { snapshotId := snapshotName ms, reason := reason, appliedThrough := applied, createdMs := ms,
    graphFile := str "graph.snapshot", dataFile := str "data.snapshot", quantFile := [],
    rocksdbDir := str "rocksdb" }

/-- The file-system effects of one checkpoint, in order; a crash can happen between any two. -/
inductive CkStep (σ : Type) where
  /-- `create_directories` (an existing directory is kept). /repo/include/recovery/recovery_manager.hpp:71 -/
  | mkdir (id : Bytes)
  /-- component files begun, not complete. /repo/python/include/index.hpp:274-282 -/
  | filesPartial (id : Bytes)
  /-- component files complete -/
  | filesDone (id : Bytes) (s : σ)
  /-- `manifest.txt` replaced atomically. /repo/include/recovery/recovery_manager.hpp:91 -/
  | manifest (id : Bytes) (text : Bytes)
  /-- `CURRENT` replaced atomically. /repo/include/recovery/recovery_manager.hpp:92 -/
  | current (text : Bytes)
  /-- log removed. /repo/include/recovery/recovery_manager.hpp:96 -/
  | truncate
  /-- files of an old snapshot partly removed. /repo/include/recovery/recovery_manager.hpp:189-214 -/
  | removePartial (id : Bytes)
  /-- old snapshot removed -/
  | remove (id : Bytes)
  deriving DecidableEq, Repr

/-- Effect of one step. -/
def CkStep.run (d : Disk σ) : CkStep σ → Disk σ
  | .mkdir id =>
    match findDir id d.snaps with
    | some _ => d
    | none => { d with snaps := setDir id ⟨none, none⟩ d.snaps }
  | .filesPartial id =>
    match findDir id d.snaps with
    | some dir => { d with snaps := setDir id { dir with state := none } d.snaps }
    | none => d
  | .filesDone id s =>
    match findDir id d.snaps with
    | some dir => { d with snaps := setDir id { dir with state := some s } d.snaps }
    | none => d
  | .manifest id text =>
    match findDir id d.snaps with
    | some dir => { d with snaps := setDir id { dir with manifest := some text } d.snaps }
    | none => d
  | .current text => { d with current := some text }
  | .truncate => { d with wal := none, durable := 0 }
  | .removePartial id =>
    match findDir id d.snaps with
    | some dir => { d with snaps := setDir id { dir with state := none } d.snaps }
    | none => d
  | .remove id => { d with snaps := d.snaps.filter (fun e => decide (e.1 ≠ id)) }

/-- Steps of `remove_old_snapshots`: every other directory, partly then completely removed.
/repo/include/recovery/recovery_manager.hpp:189-214. -/
def removeSteps (keep : Bytes) (snaps : List (Bytes × SnapDir σ)) : List (CkStep σ) :=
  (snaps.filter (fun e => decide (e.1 ≠ keep))).flatMap (fun e => [.removePartial e.1, .remove e.1])

/-- All steps of `checkpoint_recovery_snapshot` at time `ms`.
/repo/python/include/index.hpp:255-297, /repo/include/recovery/recovery_manager.hpp:65-98. -/
def ckptSteps (ms applied : Nat) (reason : Bytes) (s : σ) (d : Disk σ) : List (CkStep σ) :=
  let id := snapshotName ms
  [.mkdir id, .filesPartial id, .filesDone id s, .manifest id (manifestFor ms applied reason).serialize,
   .current (id ++ [chNL]), .truncate] ++ removeSteps id d.snaps

/-- Run steps. -/
def runSteps (d : Disk σ) (ss : List (CkStep σ)) : Disk σ := ss.foldl CkStep.run d

/-- A crash keeps the durable bytes of the log and any prefix beyond them. -/
def Disk.crash (d : Disk σ) (cut : Nat) : Disk σ :=
  match d.wal with
  | none => { d with durable := 0 }
  | some bs => { d with wal := some (bs.take (max d.durable cut)), durable := (bs.take (max d.durable cut)).length }

/-- The log content (a missing file reads as no frames). -/
def walBytes (d : Disk σ) : Bytes :=
  match d.wal with
  | none => []
  | some bs => bs

/-- Append frames; the commit frame is followed by fsync. /repo/include/recovery/write_ahead_log.hpp:314-360. -/
def appendBytes (d : Disk σ) (bs : Bytes) (sync : Bool) : Disk σ :=
  { d with wal := some (walBytes d ++ bs),
           durable := if sync then (walBytes d ++ bs).length else d.durable }

/-- Replay of the records; `none` = `replay_record` threw. /repo/python/include/index.hpp:463-479. -/
def replayAll (sem : Sem σ) : σ → List Record → Option σ
  | s, [] => some s
  | s, r :: rs =>
    match sem.replay s r.kind r.payload with
    | none => none
    | some s' => replayAll sem s' rs

/-- Largest op id of the replayed records. /repo/python/include/index.hpp:472. -/
def maxCommitted (applied : Nat) (rs : List Record) : Nat := (rs.map Record.opId).foldl max applied

/-- `initialize_recovery` + `load` up to the decision about a checkpoint: the running index, and whether a
checkpoint follows. `none` = no usable snapshot (the code would fall back to user-supplied files; not modelled) or an
exception. `replayable` is the sorted result; see `C10_torn_history` for its uniqueness.
/repo/python/include/index.hpp:144-162, 463-479, 513-558. -/
def loadMem (sem : Sem σ) (d : Disk σ) : Option (Mem σ × Bool) :=
  match currentSnapshot d with
  | none => none
  | some m =>
    match findDir m.snapshotId d.snaps with
    | none => none
    | some dir =>
      match dir.state with
      | none => none
      | some s =>
        let applied := m.appliedThrough
        let next0 := max (replayable d.wal 0).2 applied + 1
        let recs := replayable d.wal applied
        match replayAll sem s recs.1 with
        | none => none
        | some s' => some (⟨s', max next0 (recs.2 + 1), maxCommitted applied recs.1⟩, !recs.1.isEmpty)

/-- `RecoveryManager::next_operation_id`: `replayable_records` overwrites the lower bound taken from the snapshot.
/repo/include/recovery/recovery_manager.hpp:55-63, write_ahead_log.hpp:136-232. -/
def nextOperationId (d : Disk σ) : Nat :=
  let _lower := (currentSnapshot d).map SnapManifest.appliedThrough
  (replayable d.wal 0).2 + 1

/-- What can happen to an index. -/
inductive Event where
  /-- insert/upsert/remove call, completed or thrown -/
  | op (kind : Mutation) (payload : Bytes)
  /-- crash inside such a call -/
  | opCrash (kind : Mutation) (payload : Bytes) (cut : Nat)
  /-- crash while idle -/
  | crash (cut : Nat)
  /-- `save` -/
  | checkpoint (dt : Nat)
  /-- crash after `j` steps of `save` -/
  | checkpointCrash (dt j cut : Nat)
  /-- start + `load` -/
  | recover (dt : Nat)
  /-- start + `load`, crash after `j` steps of its checkpoint (at once when there is none) -/
  | recoverCrash (dt j cut : Nat)
  deriving DecidableEq, Repr

/-- A durable operation call; `none` in the first component: exception.
/repo/python/include/index.hpp:691-775: prepare, execute, commit. A payload above 2^30 throws in
`append_prepare`. -/
def opCall (sem : Sem σ) (d : Disk σ) (m : Mem σ) (kind : Mutation) (payload : Bytes) : Disk σ × Mem σ :=
  if sem.refuse m.state kind payload then (d, m)
  else if payload.length > maxPayload then (d, { m with next := m.next + 1 })
  else
    let d1 := appendBytes d (frameBytes (prepareFrame ⟨m.next, kind, payload⟩)) false
    match sem.exec m.state kind payload with
    | none => (d1, { m with next := m.next + 1 })
    | some s' => (appendBytes d1 (frameBytes (commitFrame m.next kind)) true, ⟨s', m.next + 1, m.next⟩)

/-- One event. Events that do not apply (an operation on a crashed index, a recovery of a running one) are
ignored. `none` = the recovery failed. -/
def step (sem : Sem σ) (y : Sys σ) : Event → Option (Sys σ)
  | .op kind payload =>
    match y.mem with
    | none => some y
    | some m =>
      let r := opCall sem y.disk m kind payload
      some { y with disk := r.1, mem := some r.2 }
  | .opCrash kind payload cut =>
    match y.mem with
    | none => some y
    | some m => some { y with disk := { (opCall sem y.disk m kind payload).1 with durable := y.disk.durable }.crash cut, mem := none }
  | .crash cut =>
    match y.mem with
    | none => some y
    | some _ => some { y with disk := y.disk.crash cut, mem := none }
  | .checkpoint dt =>
    match y.mem with
    | none => some y
    | some m => some { y with disk := runSteps y.disk (ckptSteps (y.clock + dt) m.lastCommitted (str "manual_save") m.state y.disk)
                              clock := y.clock + dt }
  | .checkpointCrash dt j cut =>
    match y.mem with
    | none => some y
    | some m => some ⟨(runSteps y.disk ((ckptSteps (y.clock + dt) m.lastCommitted (str "manual_save") m.state y.disk).take j)).crash cut,
        y.clock + dt, none⟩
  | .recover dt =>
    match y.mem with
    | some _ => some y
    | none =>
      match loadMem sem y.disk with
      | none => none
      | some p =>
        if p.2 then
          some ⟨runSteps y.disk (ckptSteps (y.clock + dt) p.1.lastCommitted (str "post_recovery") p.1.state y.disk), y.clock + dt, some p.1⟩
        else some ⟨y.disk, y.clock + dt, some p.1⟩
  | .recoverCrash dt j cut =>
    match y.mem with
    | some _ => some y
    | none =>
      match loadMem sem y.disk with
      | none => none
      | some p =>
        if p.2 then
          some ⟨(runSteps y.disk ((ckptSteps (y.clock + dt) p.1.lastCommitted (str "post_recovery") p.1.state y.disk).take j)).crash cut, y.clock + dt, none⟩
        else some ⟨y.disk, y.clock + dt, none⟩

/-- A history. -/
def run (sem : Sem σ) : Sys σ → List Event → Option (Sys σ)
  | y, [] => some y
  | y, e :: es =>
    match step sem y e with
    | none => none
    | some y' => run sem y' es

/-- The system right after `fit` on a new index: the `post_fit` checkpoint has been published.
/repo/python/include/index.hpp:687. -/
def afterFit (s : σ) (ms : Nat) : Sys σ :=
  ⟨runSteps ⟨none, 0, none, []⟩ (ckptSteps ms 0 (str "post_fit") s ⟨none, 0, none, []⟩), ms, some ⟨s, 1, 0⟩⟩

end Alaya.Recovery
