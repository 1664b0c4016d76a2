import Verif.Model.VamanaSeg

/-
LASER segments of a disk collection: import of native files, open, recovery.
/repo/include/index/disk/laser_segment_importer.hpp, laser_segment_searcher.hpp, segment_factory.hpp, disk_collection.hpp,
/repo/include/index/graph/laser/qg/qg.hpp, utils/pca_transform.hpp.

Files, steps and faults are those of `Model/DiskCollection`; the source directory is a map from names to contents of regular
files, read once (a hard link is taken as a copy made in one step).  Assertions are off (default build).  `none` = undefined
behaviour, `some none` = an exception.  Floats are bit patterns; the texts of floats and the number of cached nodes a memory
budget allows are parameters (`Env`).  Left out: locks, symlinks, fsync, failing allocations.
-/
namespace Alaya.LaserSeg
open Alaya Alaya.DiskFlat Alaya.DiskManifest Alaya.DiskColl2

/-- Library functions on floats. -/
structure Env where
  /-- `operator<<` on a float -/
  print : Nat → Bytes
  /-- `std::stof` with a check for trailing characters; `none` = throws -/
  parse : Bytes → Option Nat
  /-- `min(size_t(budget * 10^9 * 0.8) / node_len, size_t(0.15 * n))`; `none` = the conversion is undefined. qg.hpp:889-895 -/
  online : Nat → Nat → Nat → Option Nat

/-- `LaserSegmentImportParams`; `budget` is a bit pattern. laser_segment_importer.hpp:35-42 -/
structure Params where
  R : Nat
  mainDim : Nat
  ef : Nat
  beam : Nat
  budget : Nat
  copy : Bool
  deriving DecidableEq, Repr

/-- `parse_uint32_extra`. segment_factory.hpp:79-103 -/
def u32Of (kv : KV) (key : Bytes) (fallback : Nat) : Option Nat :=
  match kv.get key with
  | none => some fallback
  | some v =>
    if v = [] ∨ v.head? = some 45 then none
    else match stoullAll v with
      | none => none
      | some n => if n ≤ 4294967295 then some n else none

/-- `parse_laser_float_extra`. segment_factory.hpp:105-126 -/
def floatOf (E : Env) (kv : KV) (key : Bytes) (fallback : Nat) : Option Nat :=
  match kv.get key with
  | none => some fallback
  | some v => if v = [] then none else E.parse v

/-- `parse_bool_extra`. segment_factory.hpp:128-143 -/
def boolOf (kv : KV) (key : Bytes) (fallback : Bool) : Option Bool :=
  match kv.get key with
  | none => some fallback
  | some v => if v = str "true" ∨ v = str "1" then some true else if v = str "false" ∨ v = str "0" then some false else none

/-- `laser_import_params_from_manifest`; the defaults are those of the struct (0.5F is 0x3F000000). segment_factory.hpp:145-158 -/
def loadParams (E : Env) (kv : KV) : Option Params :=
  match u32Of kv (str "x_R") 64, u32Of kv (str "x_main_dim") 0, u32Of kv (str "x_default_ef") 200,
    u32Of kv (str "x_default_beam_width") 4, floatOf E kv (str "x_laser_search_dram_budget_gb") 0x3F000000,
    boolOf kv (str "x_laser_copy_files") true with
  | some r, some md, some ef, some bw, some b, some c => some ⟨r, md, ef, bw, b, c⟩
  | _, _, _, _, _, _ => none

/-! ### Names of the native files -/

/-- `"dsqg_" + seg_basename`. laser_segment_importer.hpp:261 -/
def prefixOf (name : Bytes) : Bytes := str "dsqg_" ++ name

/-- `prefix_R{R}_MD{main_dim}.index`. laser_segment_importer.hpp:262-263, qg.hpp:173-176 -/
def indexName (pre : Bytes) (R md : Nat) : Bytes := pre ++ str "_R" ++ decStr R ++ str "_MD" ++ decStr md ++ str ".index"

/-- File name and manifest key of the required files, from the name of the index file. laser_segment_importer.hpp:266-273 -/
def required (idx : Bytes) : List (Bytes × Bytes) :=
  [(idx, str "x_laser_index_file"), (idx ++ str "_rotator", str "x_laser_rotator_file"),
    (idx ++ str "_cache_ids", str "x_laser_cache_ids_file"), (idx ++ str "_cache_nodes", str "x_laser_cache_nodes_file")]

/-- The same for the optional files. laser_segment_importer.hpp:274-278 -/
def optional (pre : Bytes) : List (Bytes × Bytes) :=
  [(pre ++ str "_medoids", str "x_laser_medoids_file"), (pre ++ str "_medoids_indices", str "x_laser_medoids_indices_file"),
    (pre ++ str "_pca.bin", str "x_laser_pca_file")]

/-! ### Import -/

/-- `is_power_of_two` of a 32-bit number. laser_segment_importer.hpp:67 -/
def pow2 (n : Nat) : Bool := (List.range 32).any (fun k => n == 2 ^ k)

/-- Consecutive assignments to a map (or files written to an empty directory). -/
def kvOf (ws : List (Bytes × Bytes)) : KV := ws.foldl (fun kv e => kv.put e.1 e.2) []

/-- The files copied from the source: required, then the optional ones that exist. laser_segment_importer.hpp:297-309 -/
def copied (src : KV) (pre idx : Bytes) : List (Bytes × Bytes) :=
  (required idx ++ optional pre).filterMap (fun a => (src.get a.1).map (fun c => (a.1, c)))

/-- Entries of the manifest in the order of the assignments. laser_segment_importer.hpp:324-341 -/
def extraList (E : Env) (p : Params) (src : KV) (pre idx : Bytes) (md : Nat) : List (Bytes × Bytes) :=
  [(str "x_laser_filename_prefix", pre)] ++ (required idx).map (fun a => (a.2, a.1)) ++
    ((optional pre).filter (fun a => (src.get a.1).isSome)).map (fun a => (a.2, a.1)) ++
    [(str "x_R", decStr p.R), (str "x_main_dim", decStr md), (str "x_default_ef", decStr p.ef),
      (str "x_default_beam_width", decStr p.beam), (str "x_laser_native_format_version", str "1"),
      (str "x_platform_requires", str "linux+libaio"), (str "x_laser_search_dram_budget_gb", E.print p.budget),
      (str "x_laser_distance_field_supported", str "false")]

/-- laser_segment_importer.hpp:315-341 -/
def manOf (E : Env) (p : Params) (src : KV) (name : Bytes) (dim n : Nat) : SegMan :=
  { segmentId := name, engine := .laser, metric := .l2, dim := dim, count := n, idsFile := idsName, vectorsFile := [],
    extras := kvOf (extraList E p src (prefixOf name) (indexName (prefixOf name) p.R dim) dim) }

/-- What an import is about to write. -/
structure Plan where
  name : Bytes
  /-- the native files -/
  arts : List (Bytes × Bytes)
  ids : Bytes
  man : SegMan
  /-- copy or hard link -/
  copy : Bool
  deriving DecidableEq, Repr

/-- The steps for one native file. laser_segment_importer.hpp:162-175 -/
def artSteps (copy : Bool) (tmp : Bytes) (e : Bytes × Bytes) : List FStep :=
  if copy then writeSteps tmp e.1 e.2 else [.put tmp e.1 e.2]

/-- The steps before the rename. laser_segment_importer.hpp:294-342 -/
def preSteps (tmp : Bytes) (p : Plan) : List FStep :=
  .mkdir tmp :: (p.arts.flatMap (artSteps p.copy tmp) ++ writeSteps tmp idsName p.ids ++ writeSteps tmp manName p.man.save)

/-- laser_segment_importer.hpp:294-345 -/
def segSteps (tmp : Bytes) (p : Plan) : List FStep := preSteps tmp p ++ [.mv tmp p.name]

/-- The first eight bytes of a file as a number; `none` = throws. platform_fs.hpp:314-366 -/
def headCount (f : Option Bytes) : Option Nat :=
  match f with
  | none => none
  | some c => if c.length < 8 then none else some (leNat (c.take 8))

/-- `require_regular_nonempty`: a regular file that is not empty. laser_segment_importer.hpp:114-135 -/
def nonEmpty : Option Bytes → Bool
  | none => false
  | some c => !(c == [])

/-- Everything before the first file-system step; `none` = throws.  The main dimension is 0 or the dimension, so it is the
dimension.  disk_collection.hpp:968-1012, segment_factory.hpp:270-289, laser_segment_importer.hpp:177-294 -/
def plan (E : Env) (src : KV) (labels : List Nat) (tmp : Bytes) (d : Disk) (m : Mem) : Option Plan :=
  if m.man.engine ≠ .laser then none
  else if labels = [] then none
  else if !(decide labels.Nodup) then none
  else
  match allIds d m.dirs with
  | none => none
  | some ls =>
  if labels.any (fun l => ls.contains l) then none
  else
  match loadParams E m.man.extras with
  | none => none
  | some p =>
  let dim := m.man.dim % 4294967296
  let name := formatSegmentId m.man.next
  if dim = 0 then none
  else if !(pow2 dim) then none
  else if dim < 128 then none
  else if p.mainDim ≠ 0 ∧ p.mainDim ≠ dim then none
  else if !(validSegmentId name) then none
  else if (d.dir name).isSome then none
  else if m.man.metric ≠ .l2 then none
  else if U64 ≤ labels.length * 8 then none
  else
  let pre := prefixOf name
  let idx := indexName pre p.R dim
  if !((required idx).all (fun a => nonEmpty (src.get a.1))) then none
  else if headCount (src.get idx) ≠ some labels.length then none
  else if (d.dir tmp).isSome then none
  else some ⟨name, copied src pre idx, labels.flatMap (leBytes 8), manOf E p src name dim labels.length, p.copy⟩

/-! ### The native index -/

/-- What `read` leaves in `n` zeroed bytes. -/
def fill (n : Nat) (b : Bytes) : Bytes := b.take n ++ List.replicate (n - b.length) 0

/-- `static_cast<uint64_t>` of an `int` given by its 32 bits. -/
def sext (n : Nat) : Nat := if n < 2 ^ 31 then n else n + (2 ^ 64 - 2 ^ 32)

/-- The 32-bit numbers in a buffer of `4 * n` bytes. -/
def words (n : Nat) (b : Bytes) : List Nat := (List.range n).map (fun i => leNat ((b.drop (4 * i)).take 4))

/-- `PCATransform` after `load`: dimension, mean and matrix as bytes. -/
structure Pca where
  dim : Nat
  mean : Bytes
  matrix : Bytes
  deriving DecidableEq, Repr

/-- A `QuantizedGraph` after `load_disk_index`. -/
structure Native where
  entry : Nat
  nodeLen : Nat
  /-- the index file, read by searches -/
  index : Bytes
  /-- what was read of the signs; if short, the others keep the random values of the constructor -/
  rotator : Bytes
  medoids : List Nat
  /-- vectors of the medoids (bytes) -/
  medoidVecs : Bytes
  pca : Option Pca
  /-- ids and images of the cached nodes; for equal ids the last one counts -/
  cached : List (Nat × Bytes)
  deriving DecidableEq, Repr

/-- Vectors can hold fewer elements than this (4-byte elements). -/
def maxSize : Nat := 2 ^ 61

/-- `load_medoids`: ids and vectors. qg.hpp:902-940 -/
def loadMedoids (files : KV) (pre : Bytes) (dim : Nat) : Option (Option (List Nat × Bytes)) :=
  match files.get (pre ++ str "_medoids"), files.get (pre ++ str "_medoids_indices") with
  | some v, some i =>
    if i.length < 8 then none
    else
    let n := sext (leNat (i.take 4)) * sext (leNat ((i.drop 4).take 4)) % U64
    if maxSize ≤ n then some none
    else if v.length < 4 then some none
    else
    let num := leNat (v.take 4)
    if num ≠ n % 2 ^ 32 then some none
    else if leNat (fill 4 (v.drop 4)) ≠ dim % 2 ^ 32 then some none
    else
    let sz := sext num * dim % U64
    if maxSize ≤ sz then some none
    else some (some (words n (fill (4 * n) (i.drop 8)), fill (4 * sz) (v.drop 8)))
  | _, _ => some (some ([], []))

/-- `PCATransform::load`, if the file exists. qg.hpp:879-884, pca_transform.hpp:96-126 -/
def loadPca (files : KV) (pre : Bytes) : Option (Option (Option Pca)) :=
  match files.get (pre ++ str "_pca.bin") with
  | none => some (some none)
  | some c =>
    if c.length < 8 then none
    else
    let n := leNat (c.take 8)
    if maxSize ≤ n then some none
    else if maxSize ≤ n * n % U64 then some none
    else some (some (some ⟨n, fill (4 * n) (c.drop 8), fill (4 * (n * n % U64)) ((c.drop 8).drop (4 * n))⟩))

/-- `load_cache`. qg.hpp:942-969 -/
def loadCache (E : Env) (files : KV) (idx : Bytes) (nodeLen count budget : Nat) : Option (List (Nat × Bytes)) :=
  match E.online budget nodeLen count, files.get (idx ++ str "_cache_ids"), files.get (idx ++ str "_cache_nodes") with
  | some k, some i, some n =>
    if i.length < 8 ∨ n.length < 8 then none
    else
    let num := min k (min (leNat (i.take 8)) (leNat (n.take 8)))
    let ids := words num (fill (4 * num) (i.drop 8))
    let nodes := fill (num * nodeLen) (n.drop 16)
    some ((List.range num).map (fun j => (ids.getD j 0, (nodes.drop (j * nodeLen)).take nodeLen)))
  | _, _, _ => none

/-- `QuantizedGraph(...)` and `load_disk_index`.  The constructor accepts the main dimensions for which there is a transform.
qg.hpp:254-309, 849-900, rotator.hpp:59-88, 112-130 -/
def loadNative (E : Env) (files : KV) (pre : Bytes) (R md dim count budget : Nat) : Option (Option Native) :=
  if !([64, 128, 256, 512, 1024, 2048].contains md) then some none
  else
  let nodeLen := (32 * dim + 128 * R + R * md) / 8
  let idx := indexName pre R md
  match files.get idx with
  | none => some none
  | some f =>
  let entry := leNat ((fill 4096 f).drop 16 |>.take 8) % 2 ^ 32
  match loadMedoids files pre dim with
  | none => none
  | some none => some none
  | some (some (ms, mv)) =>
  match loadPca files pre with
  | none => none
  | some none => some none
  | some (some pca) =>
  match loadCache E files idx nodeLen count budget with
  | none => none
  | some cached =>
    some (some ⟨entry, nodeLen, f, ((files.get (idx ++ str "_rotator")).getD []).take (4 * md), ms, mv, pca, cached⟩)

/-! ### The searcher -/

/-- An open segment. -/
structure LSeg where
  dim : Nat
  count : Nat
  R : Nat
  mainDim : Nat
  ids : Bytes
  nat : Native
  deriving DecidableEq, Repr

def LSeg.labels (s : LSeg) : List Nat := labelsOf s.ids s.count

/-- `laser_required_extra`; `none` = throws. laser_segment_searcher.hpp:60-69 -/
def reqExtra (kv : KV) (key : Bytes) : Option Bytes :=
  match kv.get key with
  | none => none
  | some v => if v = [] then none else some v

/-- `laser_parse_u32_extra`. laser_segment_searcher.hpp:71-82 -/
def u32Req (kv : KV) (key : Bytes) : Option Nat :=
  match reqExtra kv key with
  | none => none
  | some v => match parseUint64 v with
    | none => none
    | some n => if n = 0 ∨ n > 4294967295 then none else some n

/-- `laser_parse_float_extra_default`. laser_segment_searcher.hpp:84-104 -/
def budgetOf (E : Env) (kv : KV) : Option Nat :=
  match kv.get (str "x_laser_search_dram_budget_gb") with
  | none => some 0x3F000000
  | some v => if v = [] then some 0x3F000000 else E.parse v

/-- `laser_validate_manifest_artifact`. laser_segment_searcher.hpp:131-169 -/
def artOk (files kv : KV) (key : Bytes) (req : Bool) : Bool :=
  match kv.get key with
  | none => !req
  | some v => !(v == []) && validBasename v && nonEmpty (files.get v)

/-- Manifest keys of the native files, and whether they are required. laser_segment_searcher.hpp:245-254 -/
def artKeys : List (Bytes × Bool) :=
  [(str "x_laser_index_file", true), (str "x_laser_rotator_file", true), (str "x_laser_cache_ids_file", true),
    (str "x_laser_cache_nodes_file", true), (str "x_laser_medoids_file", false), (str "x_laser_medoids_indices_file", false),
    (str "x_laser_pca_file", false)]

/-- The constructor of `LaserSegmentSearcher`. laser_segment_searcher.hpp:178-291 -/
def openSeg (E : Env) (dir : Option KV) : Option (Option LSeg) :=
  match dir with
  | none => some none
  | some files =>
  match files.get manName with
  | none => some none
  | some t =>
  match SegMan.load t with
  | none => some none
  | some sm =>
  if sm.engine ≠ .laser then some none
  else if sm.dim = 0 ∨ sm.count = 0 then some none
  else if sm.dim > 4294967295 then some none
  else if sm.count > 4294967295 then some none
  else if sm.metric ≠ .l2 then some none
  else
  match reqExtra sm.extras (str "x_laser_filename_prefix") with
  | none => some none
  | some pre =>
  if !(validBasename pre) then some none
  else
  match u32Req sm.extras (str "x_R") with
  | none => some none
  | some R =>
  match u32Req sm.extras (str "x_main_dim") with
  | none => some none
  | some md =>
  match reqExtra sm.extras (str "x_laser_index_file") with
  | none => some none
  | some ix =>
  if !(validBasename ix) then some none
  else if indexName pre R md ≠ ix then some none
  else if headCount (files.get ix) ≠ some sm.count then some none
  else if !(artKeys.all (fun a => artOk files sm.extras a.1 a.2)) then some none
  else
  match budgetOf E sm.extras with
  | none => some none
  | some b =>
  match loadNative E files pre R md sm.dim sm.count b with
  | none => none
  | some none => some none
  | some (some nat) =>
  match files.get sm.idsFile with
  | none => some none
  | some i => if i.length ≠ sm.count * 8 then some none else some (some ⟨sm.dim, sm.count, R, md, i, nat⟩)

/-! ### The collection -/

/-- The open collection when an import succeeded. disk_collection.hpp:1024-1026 -/
def pushed (m : Mem) (name : Bytes) : Mem := { m with man := nextMan m name, dirs := m.dirs ++ [name] }

/-- `import_laser_segment`; a crash before or at the rename never reaches the searcher.
disk_collection.hpp:968-1034, segment_factory.hpp:270-300 -/
def importSeg (E : Env) (src : KV) (labels : List Nat) (tmp : Bytes) (f : Fault) (d : Disk) (m : Mem) : Option (Disk × Option Mem × Res) :=
  match plan E src labels tmp d m with
  | none => some (d, some m, .err)
  | some p =>
    let a := segSteps tmp p
    let b := [FStep.tmpMan, FStep.pub (nextMan m p.name).save]
    let advanced : Mem := { m with man := { m.man with next := m.man.next + 1 } }
    let early : Option (Disk × Option Mem × Res) := match f with
      | .crash i => if i ≤ a.length then some (d.run (a.take i), none, .crashed) else none
      | .seg i left => if i < a.length then some (leave (d.run (a.take i)) tmp left, some m, .err) else none
      | .searcher => some (d.run a, some m, .err)
      | _ => none
    match early with
    | some r => some r
    | none =>
      match openSeg E ((d.run a).dir p.name) with
      | none => none
      | some none => some (d.run a, some m, .err)
      | some (some _) => match f with
        | .crash i => some (d.run ((a ++ b).take i), none, .crashed)
        | .publish i => some (d.run (a ++ b.take (min i 1)), some advanced, .err)
        | .push _ => some (d.run (a ++ b), some { m with man := nextMan m p.name }, .err)
        | _ => some (d.run (a ++ b), some (pushed m p.name), .ok)

/-- The listed segments one after the other; the first that throws ends the call. disk_collection.hpp:1252-1270 -/
def openSegs (E : Env) (d : Disk) : List Bytes → Option (Option (List LSeg))
  | [] => some (some [])
  | n :: ns => match openSeg E (d.dir n) with
    | none => none
    | some none => some none
    | some (some s) => match openSegs E d ns with
      | none => none
      | some none => some none
      | some (some l) => some (some (s :: l))

/-- `DiskCollection::open` of a LASER collection.  Listed segments of other engines are left out.
disk_collection.hpp:769-816, 1252-1306 -/
def openC (E : Env) (scanFail : Bool) (d : Disk) : Option (Option (Mem × List LSeg)) :=
  match d.man with
  | none => some none
  | some t =>
  match ColMan.load t with
  | none => some none
  | some man =>
  if man.engine ≠ .laser then some none
  else
  match (match man.extras.get (str "x_max_pending_bytes") with
    | none => some defaultCap
    | some v => stoullAll v) with
  | none => some none
  | some cap =>
  match openSegs E d man.segs with
  | none => none
  | some none => some none
  | some (some l) =>
    let next := if scanFail then man.next else max man.next (maxOnDisk d + 1)
    some (some ({ man := { man with next := next }, dirs := man.segs, pendV := [], pendL := [], cap := cap }, l))

/-- The constructor with the engine disk_laser: only the memory limit is stored. disk_collection.hpp:678-767 -/
def create (dim : Nat) (metric : Metric) (cap : Nat) : Option (Disk × Mem) :=
  if dim = 0 then none
  else
    let man : ColMan := { dim := dim, metric := metric, engine := .laser, next := 1, segs := [],
                          extras := [(str "x_max_pending_bytes", decStr cap)] }
    some (⟨some man.save, []⟩, { man := man, dirs := [], pendV := [], pendL := [], cap := cap })

/-- A step of a history. -/
inductive Op where
  | add (vectors labels : List Nat) (allocFail : Bool)
  | imp (src : KV) (labels : List Nat) (tmp : Bytes) (f : Fault)
  /-- drop the object (or come back after a crash) and open again -/
  | reopen (scanFail : Bool)
  deriving Repr

/-- A collection on disk, and in memory if it is open. -/
structure St where
  disk : Disk
  mem : Option Mem
  deriving DecidableEq, Repr

/-- One step; `none` = undefined behaviour. -/
def step (E : Env) (s : St) : Op → Option St
  | .add v l a => match s.mem with
    | none => some s
    | some m => match addBatch m l.length v l a with
      | none => some s
      | some m' => some { s with mem := some m' }
  | .imp src l tmp f => match s.mem with
    | none => some s
    | some m => match importSeg E src l tmp f s.disk m with
      | none => none
      | some r => some ⟨r.1, r.2.1⟩
  | .reopen sf => match openC E sf s.disk with
    | none => none
    | some none => some ⟨s.disk, none⟩
    | some (some (m, _)) => some ⟨s.disk, some m⟩

def runOps (E : Env) : St → List Op → Option St
  | s, [] => some s
  | s, op :: ops => match step E s op with
    | none => none
    | some s' => runOps E s' ops

end Alaya.LaserSeg
