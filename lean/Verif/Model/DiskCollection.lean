import Verif.Model.DiskManifest

/-
`DiskCollection` (engine disk_flat): add_batch, flush, open.
/repo/include/index/disk/disk_collection.hpp, disk_flat_builder.hpp, segment_factory.hpp.

The file system holds `collection_manifest.txt` and the entries of `segments/` (name → files).  A write of a file is a
sequence of steps, one per prefix of its content, so a crash or an error may leave any prefix.  `rename` is one step.  The
temporary manifest file is never read and is not stored.  Locks, symlinks and the best-effort directory fsync are left out.
Temporary names are a parameter.
-/
namespace Alaya.DiskColl2
open Alaya Alaya.DiskFlat Alaya.DiskManifest

structure Disk where
  /-- `collection_manifest.txt` -/
  man : Option Bytes
  /-- entries of `segments/` -/
  segs : List (Bytes × KV)
  deriving DecidableEq, Repr

def Disk.dir (d : Disk) (n : Bytes) : Option KV := (d.segs.find? (fun e => e.1 == n)).map (·.2)

def Disk.rmDir (d : Disk) (n : Bytes) : Disk := { d with segs := d.segs.filter (fun e => !(e.1 == n)) }

def Disk.setDir (d : Disk) (n : Bytes) (c : KV) : Disk := { d with segs := (n, c) :: (d.rmDir n).segs }

inductive FStep where
  /-- `create_directories` -/
  | mkdir (n : Bytes)
  /-- the file has this content now -/
  | put (n f c : Bytes)
  /-- `atomic_replace_no_overwrite` -/
  | mv (a b : Bytes)
  /-- write the temporary collection manifest -/
  | tmpMan
  /-- rename it to `collection_manifest.txt` -/
  | pub (c : Bytes)
  deriving DecidableEq, Repr

def Disk.apply (d : Disk) : FStep → Disk
  | .mkdir n => if (d.dir n).isSome then d else d.setDir n []
  | .put n f c => match d.dir n with
    | none => d
    | some dir => d.setDir n (dir.put f c)
  | .mv a b => match d.dir a with
    | none => d
    | some dir => if (d.dir b).isSome then d else (d.rmDir a).setDir b dir
  | .tmpMan => d
  | .pub c => { d with man := some c }

def Disk.run (d : Disk) (l : List FStep) : Disk := l.foldl Disk.apply d

/-- `write_all_fsync`: every prefix of the content is a possible intermediate state. platform_fs.hpp:441-518 -/
def writeSteps (n f c : Bytes) : List FStep := (List.range (c.length + 1)).map (fun j => .put n f (c.take j))

def idsName : Bytes := str "ids.u64.bin"
def vecName : Bytes := str "vectors.f32.bin"
def manName : Bytes := str "manifest.txt"

/-- The manifest `finish` writes. disk_flat_builder.hpp:244-253 -/
def segManOf (name : Bytes) (s : Segment) : SegMan :=
  { segmentId := name, engine := .flat, metric := s.metric, dim := s.dim, count := s.count, idsFile := idsName,
    vectorsFile := vecName, extras := [] }

/-- The file-system steps of `finish` after the checks. disk_flat_builder.hpp:189-255 -/
def segSteps (tmp name : Bytes) (s : Segment) : List FStep :=
  .mkdir tmp :: (writeSteps tmp idsName s.ids ++ writeSteps tmp vecName s.vectors ++
    writeSteps tmp manName (segManOf name s).save ++ [.mv tmp name])

/-- `DiskFlatSegmentSearcher(segment_dir)`; `none` = throws. disk_flat_searcher.hpp:76-110, segment_factory.hpp:239-260 -/
def loadSegment (dir : Option KV) : Option Segment :=
  match dir with
  | none => none
  | some files =>
  match files.get manName with
  | none => none
  | some t =>
  match SegMan.load t with
  | none => none
  | some sm =>
  if sm.engine ≠ .flat then none
  else
  match files.get sm.idsFile, files.get sm.vectorsFile with
  | some i, some v =>
    let s : Segment := ⟨sm.dim, sm.count, sm.metric, i, v⟩
    if s.opens then some s else none
  | _, _ => none

/-- The labels in an ids file. -/
def labelsOf (ids : Bytes) (count : Nat) : List Nat := (List.range count).map (fun i => leNat ((ids.drop (8 * i)).take 8))

/-- `load_segment_ids_view` (`count * 8` taken without wrap: such a segment cannot be opened). disk_collection.hpp:503-527 -/
def idsView (dir : Option KV) : Option (List Nat) :=
  match dir with
  | none => none
  | some files =>
  match files.get manName with
  | none => none
  | some t =>
  match SegMan.load t with
  | none => none
  | some sm =>
  match files.get sm.idsFile with
  | none => none
  | some i => if i.length = sm.count * 8 then some (labelsOf i sm.count) else none

/-- The in-memory collection. -/
structure Mem where
  man : ColMan
  /-- `segment_dirs_` (in lockstep with `segments_`) -/
  dirs : List Bytes
  pendV : List Nat
  pendL : List Nat
  cap : Nat
  deriving DecidableEq, Repr

/-- `add_batch`; `none` = throws (nothing changed).  `allocFail`: a `reserve` throws.  disk_collection.hpp:824-882 -/
def addBatch (m : Mem) (n : Nat) (vectors labels : List Nat) (allocFail : Bool) : Option Mem :=
  if m.man.engine = .laser then none
  else if n = 0 then some m
  else
    let perRow := (m.man.dim * 4 % U64 + 8) % U64
    if U64 ≤ 2 * n then none
    else if U64 ≤ 2 * n * perRow then none
    else if 2 * n * perRow > m.cap then none
    else
      let total := m.pendL.length + n
      if U64 ≤ total then none
      else if U64 ≤ 2 * total then none
      else if U64 ≤ 2 * total * perRow then none
      else if 2 * total * perRow > m.cap then none
      else if allocFail then none
      else some { m with pendV := m.pendV ++ vectors.take (n * m.man.dim % U64), pendL := m.pendL ++ labels.take n }

/-- Where an exception or a crash hits `flush`. -/
inductive Fault where
  | none
  /-- the process dies after this many file-system steps -/
  | crash (i : Nat)
  /-- this step of building the segment throws; what the clean-up leaves of the temporary directory -/
  | seg (i : Nat) (left : Option KV)
  /-- constructing the searcher throws -/
  | searcher
  /-- publishing throws before step 0 (copy, temporary file) or 1 (rename) -/
  | publish (i : Nat)
  /-- 0: `segments_.push_back` throws; otherwise `segment_dirs_.push_back` -/
  | push (i : Nat)
  deriving DecidableEq, Repr

inductive Res where
  | ok
  | err
  | crashed
  deriving DecidableEq, Repr

/-- What the guard leaves. disk_flat_builder.hpp:84-92 -/
def leave (d : Disk) (tmp : Bytes) : Option KV → Disk
  | none => d.rmDir tmp
  | some c => d.setDir tmp c

/-- All labels in the segments of `segment_dirs_`; `none` = throws. disk_collection.hpp:902-912 -/
def allIds (d : Disk) : List Bytes → Option (List Nat)
  | [] => some []
  | n :: ns => match idsView (d.dir n), allIds d ns with
    | some a, some b => some (a ++ b)
    | _, _ => none

/-- Everything up to the point where the segment files are known; `none` = throws before touching the file system.
`some (name, none)`: a zero row under COS, found after the ids file was written.
disk_collection.hpp:884-932, segment_factory.hpp:193-200, disk_flat_builder.hpp:120-230 -/
def plan (K : Kernel) (d : Disk) (m : Mem) : Option (Bytes × Builder × Option Segment) :=
  if !(decide m.pendL.Nodup) then none
  else
  match allIds d m.dirs with
  | none => none
  | some ls =>
  if m.pendL.any (fun l => ls.contains l) then none
  else
  let name := formatSegmentId m.man.next
  let dim32 := m.man.dim % 4294967296
  if dim32 = 0 then none
  else
  match Builder.addBatch ⟨dim32, m.man.metric, [], [], false⟩ m.pendV m.pendL with
  | none => none
  | some b =>
  if !(validSegmentId name) then none
  else if (d.dir name).isSome then none
  else some (name, b, b.finish K)

/-- The manifest published by `flush`. disk_collection.hpp:940-942 -/
def nextMan (m : Mem) (name : Bytes) : ColMan := { m.man with segs := m.man.segs ++ [name], next := m.man.next + 1 }

/-- The in-memory state when everything succeeded. disk_collection.hpp:948-955 -/
def committed (m : Mem) (name : Bytes) : Mem :=
  { m with man := nextMan m name, dirs := m.dirs ++ [name], pendV := [], pendL := [] }

/-- `flush`. disk_collection.hpp:884-966 -/
def flush (K : Kernel) (tmp : Bytes) (f : Fault) (d : Disk) (m : Mem) : Disk × Option Mem × Res :=
  if m.pendL = [] then (d, some m, .ok)
  else
  match plan K d m with
  | none => (d, some m, .err)
  | some (_, b, none) =>
    let pre := FStep.mkdir tmp :: writeSteps tmp idsName (b.labels.flatMap (leBytes 8))
    match f with
    | .crash i => (d.run (pre.take i), none, .crashed)
    | .seg _ left => (leave d tmp left, some m, .err)
    | _ => (d.rmDir tmp, some m, .err)
  | some (name, _, some s) =>
    let a := segSteps tmp name s
    let b := [FStep.tmpMan, FStep.pub (nextMan m name).save]
    let advanced : Mem := { m with man := { m.man with next := m.man.next + 1 } }
    match f with
    | .crash i => (d.run ((a ++ b).take i), none, .crashed)
    | .seg i left => if i < a.length then (leave (d.run (a.take i)) tmp left, some m, .err)
        else (d.run (a ++ b), some (committed m name), .ok)
    | .searcher => (d.run a, some m, .err)
    | .publish i => (d.run (a ++ b.take (min i 1)), some advanced, .err)
    | .push 0 => (d.run (a ++ b), some { m with man := nextMan m name }, .err)
    | .push _ => (d.run (a ++ b), some { m with man := nextMan m name }, .err)
    | .none => (d.run (a ++ b), some (committed m name), .ok)

/-- `std::stoull(name.substr(4))` of a valid segment name. disk_collection.hpp:1289, 1295 -/
def idNum (s : Bytes) : Nat := parseDigits 10 decVal 0 (s.drop 4)

/-- `max_on_disk`. disk_collection.hpp:1277-1297 -/
def maxOnDisk (d : Disk) : Nat :=
  d.segs.foldl (fun mx e => if validSegmentId e.1 then max mx (idNum e.1) else mx) 0

def defaultCap : Nat := 536870912

/-- `DiskCollection::open`; `none` = throws.  `scanFail`: the directory cannot be listed.  Engines other than disk_flat are
outside this model.  disk_collection.hpp:769-816, 1252-1306 -/
def openC (scanFail : Bool) (d : Disk) : Option Mem :=
  match d.man with
  | none => none
  | some t =>
  match ColMan.load t with
  | none => none
  | some man =>
  if man.engine ≠ .flat then none
  else
  match (match man.extras.get (str "x_max_pending_bytes") with
    | none => some defaultCap
    | some v => stoullAll v) with
  | none => none
  | some cap =>
  if !(man.segs.all (fun s => (loadSegment (d.dir s)).isSome)) then none
  else
    let next := if scanFail then man.next else max man.next (maxOnDisk d + 1)
    some { man := { man with next := next }, dirs := man.segs, pendV := [], pendL := [], cap := cap }

/-- The constructor. disk_collection.hpp:678-767 -/
def create (dim : Nat) (metric : Metric) (cap : Nat) : Disk × Mem :=
  let man : ColMan := { dim := dim, metric := metric, engine := .flat, next := 1, segs := [],
                        extras := [(str "x_max_pending_bytes", decStr cap)] }
  (⟨some man.save, []⟩, { man := man, dirs := [], pendV := [], pendL := [], cap := cap })

/-- A step of a history. -/
inductive Op where
  | add (vectors labels : List Nat) (allocFail : Bool)
  | flush (tmp : Bytes) (f : Fault)
  /-- drop the object (or come back after a crash) and open again -/
  | reopen (scanFail : Bool)
  deriving Repr

structure St where
  disk : Disk
  mem : Option Mem
  deriving DecidableEq, Repr

def step (K : Kernel) (s : St) : Op → St
  | .add v l a => match s.mem with
    | none => s
    | some m => match addBatch m l.length v l a with
      | none => s
      | some m' => { s with mem := some m' }
  | .flush tmp f => match s.mem with
    | none => s
    | some m => let r := flush K tmp f s.disk m; ⟨r.1, r.2.1⟩
  | .reopen sf => ⟨s.disk, openC sf s.disk⟩

def runOps (K : Kernel) (s : St) (ops : List Op) : St := ops.foldl (step K) s

end Alaya.DiskColl2
