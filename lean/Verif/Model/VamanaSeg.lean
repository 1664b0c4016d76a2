import Verif.Model.DiskCollection
import Verif.Model.VamanaFile
import Verif.Model.GreedySearch

/-
Vamana segments of a disk collection: /repo/include/index/disk/vamana_segment_builder.hpp, vamana_segment_searcher.hpp,
segment_factory.hpp, disk_collection.hpp.

Files, steps and faults are those of `Model/DiskCollection`.  The graph a build ends with is a parameter (what builds can
end with: C83).  `save_graph` writes through a buffered stream and rewrites its header, so the file may have any contents
before it is complete (`mids`).  Floats are bit patterns, the text of `alpha` is a parameter (`FloatText`).  Distances are
integers standing for the order of the float distances, NaN is left out.  Left out as well: locks, symlinks, fsync.
-/
namespace Alaya.VamanaSeg
open Alaya Alaya.TopK Alaya.DiskFlat Alaya.DiskManifest Alaya.DiskColl2

/-- `std::to_string(float)` and `std::stof` with a check for trailing characters (`none` = throws). -/
structure FloatText where
  print : Nat → Bytes
  parse : Bytes → Option Nat

/-- `VamanaSegmentBuildParams`; `alpha` is a bit pattern. vamana_segment_builder.hpp:37-43 -/
structure Params where
  R : Nat
  L : Nat
  alpha : Nat
  seed : Nat
  threads : Nat
  deriving DecidableEq, Repr

/-- Finite and at least 1: the bit patterns from 1.0 to the largest float. disk_collection.hpp:588-594, 618 -/
def alphaOk (bits : Nat) : Bool := decide (0x3F800000 ≤ bits) && decide (bits < 0x7F800000)

/-- `validate_vamana_params`. disk_collection.hpp:607-621 -/
def Params.ok (p : Params) : Bool := decide (p.R ≠ 0) && decide (p.L ≠ 0) && decide (p.R ≤ p.L) && alphaOk p.alpha

def graphName : Bytes := str "graph.index"

/-- The graph of a finished build and its entry point. -/
structure Built where
  graph : List (List Nat)
  medoid : Nat
  deriving DecidableEq, Repr

/-- The manifest `finish` writes (`std::map`: keys ascending). vamana_segment_builder.hpp:194-209 -/
def manOf (F : FloatText) (p : Params) (name : Bytes) (s : Segment) (medoid : Nat) : SegMan :=
  { segmentId := name, engine := .vamana, metric := s.metric, dim := s.dim, count := s.count, idsFile := idsName,
    vectorsFile := vecName,
    extras := [(str "x_L", decStr p.L), (str "x_R", decStr p.R), (str "x_alpha", F.print p.alpha), (str "x_graph_file", graphName),
      (str "x_medoid", decStr medoid), (str "x_seed", decStr p.seed)] }

/-- The data files of a segment: the rows as they are. vamana_segment_builder.hpp:167-172 -/
def dataOf (b : Builder) : Segment :=
  ⟨b.dim, b.labels.length, b.metric, b.labels.flatMap (leBytes 8), b.vectors.flatMap (leBytes 4)⟩

/-- The file-system steps of `finish` before the rename. vamana_segment_builder.hpp:142-209 -/
def preSteps (F : FloatText) (p : Params) (x : Built) (mids : List Bytes) (tmp name : Bytes) (s : Segment) : List FStep :=
  .mkdir tmp :: (writeSteps tmp idsName s.ids ++ writeSteps tmp vecName s.vectors ++
    ((mids ++ [Vamana.saveGraph x.graph p.R x.medoid 0]).map (fun c => .put tmp graphName c)) ++
    writeSteps tmp manName (manOf F p name s x.medoid).save)

/-- All steps of `finish`. vamana_segment_builder.hpp:142-213 -/
def segSteps (F : FloatText) (p : Params) (x : Built) (mids : List Bytes) (tmp name : Bytes) (s : Segment) : List FStep :=
  preSteps F p x mids tmp name s ++ [.mv tmp name]

/-- An open segment. -/
structure VSeg where
  seg : Segment
  graph : Vamana.Loaded
  deriving DecidableEq, Repr

/-- The constructor of `VamanaSegmentSearcher`; `none` = throws.  An empty `vectors_file` names the directory itself, which is
not a regular file.  vamana_segment_searcher.hpp:65-174 -/
def openSeg (dir : Option KV) : Option VSeg :=
  match dir with
  | none => none
  | some files =>
  match files.get manName with
  | none => none
  | some t =>
  match SegMan.load t with
  | none => none
  | some sm =>
  if sm.engine ≠ .vamana then none
  else if sm.dim = 0 ∨ sm.count = 0 then none
  else if sm.dim > 4294967295 then none
  else if sm.count > 4294967295 then none
  else if sm.metric ≠ .l2 then none
  else if U64 ≤ sm.count * sm.dim then none
  else if U64 ≤ sm.count * sm.dim * 4 then none
  else if U64 ≤ sm.count * 8 then none
  else if sm.vectorsFile = [] then none
  else
  match files.get sm.vectorsFile with
  | none => none
  | some v =>
  if v.length ≠ sm.count * sm.dim * 4 then none
  else
  match files.get sm.idsFile with
  | none => none
  | some i =>
  if i.length ≠ sm.count * 8 then none
  else
  match sm.extras.get (str "x_graph_file") with
  | none => none
  | some gf =>
  if gf = [] then none
  else if !(validBasename gf) then none
  else
  match files.get gf with
  | none => none
  | some gb =>
  match Vamana.readGraph gb with
  | none => none
  | some g =>
  if sm.count ≠ g.graph.length then none
  else some ⟨⟨sm.dim, sm.count, sm.metric, i, v⟩, g⟩

/-- The distance the kernel computes for a row; reads outside the file are checked in `search`.
vamana_greedy_search.hpp:121, 131 -/
def VSeg.dist (K : Kernel) (s : VSeg) (query : List Nat) (i : Nat) : Int :=
  K.dist .l2 query ((readRow s.seg.vectors (i * s.seg.dim * 4) s.seg.dim).getD [])

/-- The labels of the hits; `none` = a read outside the mapping. vamana_segment_searcher.hpp:221-227 -/
def labelHits (s : VSeg) : List (Nat × Int) → Option (List Hit)
  | [] => some []
  | h :: hs => match readAt s.seg.ids (8 * h.1) 8, labelHits s hs with
    | some l, some out => some (⟨l, h.2⟩ :: out)
    | _, _ => none

/-- `search`; `none` = undefined behaviour (or out of fuel), `some none` = throws.  Every visited row must lie in the file.
vamana_segment_searcher.hpp:182-228 -/
def VSeg.search (K : Kernel) (s : VSeg) (query : List Nat) (topk ef fuel : Nat) (sc : Pools.Scratch) :
    Option (Option (Pools.Scratch × List Hit)) :=
  if topk = 0 then some none
  else if ef = 0 then some none
  else if !(query.all finite32) then some none
  else
    let count := s.graph.graph.length % 4294967296
    let k := min topk count
    let e := max (min ef count) k
    match Pools.search s.graph.graph s.graph.start (s.dist K query) k e fuel sc with
    | none => none
    | some none => some none
    | some (some (sc', hits)) =>
      if sc'.touched.all (fun i => (readRow s.seg.vectors (i * s.seg.dim * 4) s.seg.dim).isSome) then
        match labelHits s hits with
        | none => none
        | some out => some (some (sc', out))
      else none

/-- Everything up to the first file-system step; `none` = throws before it.
disk_collection.hpp:884-932, segment_factory.hpp:202-217, vamana_segment_builder.hpp:64-136 -/
def plan (d : Disk) (m : Mem) : Option (Bytes × Segment) :=
  if !(decide m.pendL.Nodup) then none
  else
  match allIds d m.dirs with
  | none => none
  | some ls =>
  if m.pendL.any (fun l => ls.contains l) then none
  else if m.pendL.length < 2 then none
  else
  let name := formatSegmentId m.man.next
  let dim32 := m.man.dim % 4294967296
  if dim32 = 0 then none
  else
  match Builder.addBatch ⟨dim32, m.man.metric, [], [], false⟩ m.pendV m.pendL with
  | none => none
  | some b =>
  if m.man.metric ≠ .l2 then none
  else if !(validSegmentId name) then none
  else if (d.dir name).isSome then none
  else some (name, dataOf b)

/-- `flush`: as for flat segments, but the searcher opens what was built and may refuse it; `next_segment_id` is advanced
only after that.  disk_collection.hpp:884-966, segment_factory.hpp:202-217 -/
def flush (F : FloatText) (p : Params) (x : Built) (mids : List Bytes) (tmp : Bytes) (f : Fault) (d : Disk) (m : Mem) :
    Disk × Option Mem × Res :=
  if m.pendL = [] then (d, some m, .ok)
  else
  match plan d m with
  | none => (d, some m, .err)
  | some (name, s) =>
    let a := segSteps F p x mids tmp name s
    let b := [FStep.tmpMan, FStep.pub (nextMan m name).save]
    let advanced : Mem := { m with man := { m.man with next := m.man.next + 1 } }
    let opens := (openSeg ((d.run a).dir name)).isSome
    match f with
    | .crash i => if opens then (d.run ((a ++ b).take i), none, .crashed) else (d.run (a.take i), none, .crashed)
    | .seg i left => if i < a.length then (leave (d.run (a.take i)) tmp left, some m, .err)
        else if opens then (d.run (a ++ b), some (committed m name), .ok) else (d.run a, some m, .err)
    | .searcher => (d.run a, some m, .err)
    | .publish i => if opens then (d.run (a ++ b.take (min i 1)), some advanced, .err) else (d.run a, some m, .err)
    | .push _ => if opens then (d.run (a ++ b), some { m with man := nextMan m name }, .err) else (d.run a, some m, .err)
    | .none => if opens then (d.run (a ++ b), some (committed m name), .ok) else (d.run a, some m, .err)

/-- `parse_u32_extra`; `none` = throws. disk_collection.hpp:529-547 -/
def u32Extra (kv : KV) (key : Bytes) (fallback : Nat) : Option Nat :=
  match kv.get key with
  | none => some fallback
  | some v => match stoullAll v with
    | none => none
    | some n => if n ≤ 4294967295 then some n else none

/-- The members when nothing is stored: R 64, L 200, alpha 1.2, seed 1234, all threads. vamana_segment_builder.hpp:37-43 -/
def defaultParams : Params := ⟨64, 200, 0x3F99999A, 1234, 0⟩

/-- `load_vamana_params_from_manifest`. disk_collection.hpp:596-605 -/
def loadParams (F : FloatText) (kv : KV) : Option Params :=
  match u32Extra kv (str "x_vamana_R") defaultParams.R, u32Extra kv (str "x_vamana_L") defaultParams.L,
    (match kv.get (str "x_vamana_alpha") with
      | none => some defaultParams.alpha
      | some v => F.parse v),
    u32Extra kv (str "x_vamana_seed") defaultParams.seed, u32Extra kv (str "x_vamana_num_threads") defaultParams.threads with
  | some r, some l, some a, some s, some t => some ⟨r, l, a, s, t⟩
  | _, _, _, _, _ => none

/-- `DiskCollection::open` of a Vamana collection; `none` = throws.  Listed segments of other engines are left out.
disk_collection.hpp:769-816, 1252-1306 -/
def openC (F : FloatText) (scanFail : Bool) (d : Disk) : Option (Mem × Params) :=
  match d.man with
  | none => none
  | some t =>
  match ColMan.load t with
  | none => none
  | some man =>
  if man.engine ≠ .vamana then none
  else
  match (match man.extras.get (str "x_max_pending_bytes") with
    | none => some defaultCap
    | some v => stoullAll v) with
  | none => none
  | some cap =>
  match loadParams F man.extras with
  | none => none
  | some p =>
  if man.metric ≠ .l2 then none
  else if !p.ok then none
  else if !(man.segs.all (fun s => (openSeg (d.dir s)).isSome)) then none
  else
    let next := if scanFail then man.next else max man.next (maxOnDisk d + 1)
    some ({ man := { man with next := next }, dirs := man.segs, pendV := [], pendL := [], cap := cap }, p)

/-- The stored parameters. disk_collection.hpp:632-645 -/
def extrasOf (F : FloatText) (cap : Nat) (p : Params) : KV :=
  [(str "x_max_pending_bytes", decStr cap), (str "x_vamana_L", decStr p.L), (str "x_vamana_R", decStr p.R),
    (str "x_vamana_alpha", F.print p.alpha), (str "x_vamana_num_threads", decStr p.threads), (str "x_vamana_seed", decStr p.seed)]

/-- The constructor with the engine disk_vamana; `none` = throws. disk_collection.hpp:678-767 -/
def create (F : FloatText) (dim : Nat) (metric : Metric) (cap : Nat) (p : Params) : Option (Disk × Mem) :=
  if dim = 0 then none
  else if !p.ok then none
  else
    let man : ColMan := { dim := dim, metric := metric, engine := .vamana, next := 1, segs := [], extras := extrasOf F cap p }
    some (⟨some man.save, []⟩, { man := man, dirs := [], pendV := [], pendL := [], cap := cap })

/-- A step of a history; a flush comes with what its build would end with. -/
inductive Op where
  | add (vectors labels : List Nat) (allocFail : Bool)
  | flush (x : Built) (mids : List Bytes) (tmp : Bytes) (f : Fault)
  /-- drop the object (or come back after a crash) and open again -/
  | reopen (scanFail : Bool)
  deriving Repr

/-- A collection on disk, and in memory if it is open. -/
structure St where
  disk : Disk
  mem : Option (Mem × Params)
  deriving DecidableEq, Repr

def step (F : FloatText) (s : St) : Op → St
  | .add v l a => match s.mem with
    | none => s
    | some (m, p) => match addBatch m l.length v l a with
      | none => s
      | some m' => { s with mem := some (m', p) }
  | .flush x mids tmp f => match s.mem with
    | none => s
    | some (m, p) => let r := flush F p x mids tmp f s.disk m; ⟨r.1, r.2.1.map (fun m' => (m', p))⟩
  | .reopen sf => ⟨s.disk, openC F sf s.disk⟩

def runOps (F : FloatText) (s : St) (ops : List Op) : St := ops.foldl (step F) s

end Alaya.VamanaSeg
