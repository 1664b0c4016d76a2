import Verif.Model.DecimalParse
import Verif.Model.KV
import Verif.Model.DiskFlat

/-
Manifest texts of disk collections and segments: /repo/include/index/disk/segment_manifest.hpp.

A file is its bytes.  `std::map<std::string, std::string>` is a list ascending by key (`KV`; `std::string` compares bytes as
unsigned).  `none` = an exception (the message is not modelled).
-/
namespace Alaya.DiskManifest
open Alaya Alaya.DiskFlat

/-- `DiskIndexType`. types.hpp -/
inductive Engine where
  | flat
  | vamana
  | laser
  deriving DecidableEq, Repr

/-- `index_type_to_string`. types.hpp:54-64 -/
def Engine.name : Engine → Bytes
  | .flat => str "disk_flat"
  | .vamana => str "disk_vamana"
  | .laser => str "disk_laser"

/-- `index_type_from_string`. types.hpp:66-77 -/
def Engine.ofName (s : Bytes) : Option Engine :=
  if s = str "disk_flat" then some .flat
  else if s = str "disk_vamana" then some .vamana
  else if s = str "disk_laser" then some .laser
  else none

/-- `metric_to_string` (NONE is not representable in `Metric`). segment_manifest.hpp:101-109 -/
def metricName : Metric → Bytes
  | .l2 => str "L2"
  | .ip => str "IP"
  | .cos => str "COS"

/-- `kMetricMap[...]` followed by the test for NONE. metric_type.hpp:22-37 -/
def metricOfName (s : Bytes) : Option Metric :=
  if s = str "L2" then some .l2
  else if s = str "IP" then some .ip
  else if s = str "COS" then some .cos
  else none

/-- `is_ascii_ws`. segment_manifest.hpp:29 -/
def isWs (c : UInt8) : Bool := c == 32 || c == 9 || c == 13 || c == 10

/-- `strip`. segment_manifest.hpp:31-39 -/
def strip (s : Bytes) : Bytes := ((s.dropWhile isWs).reverse.dropWhile isWs).reverse

/-- `is_valid_basename`. segment_manifest.hpp:71-84 -/
def validBasename (s : Bytes) : Bool :=
  !(s == []) && !(s == str ".") && !(s == str "..") && s.all (fun c => !(c == 47) && !(c == 0))

/-- `is_valid_segment_id`. segment_manifest.hpp:86-99 -/
def validSegmentId (s : Bytes) : Bool :=
  s.length == 12 && s.take 4 == str "seg_" && (s.drop 4).all (fun c => decide (48 ≤ c.toNat ∧ c.toNat ≤ 57))

/-- The pieces between separators (`find(sep, pos)`, `substr`); a text with n separators has n + 1 pieces. -/
def splitSep (sep : UInt8) (cur : Bytes) : Bytes → List Bytes
  | [] => [cur]
  | c :: cs => if c = sep then cur :: splitSep sep [] cs else splitSep sep (cur ++ [c]) cs

/-- Split at the first '='. -/
def splitEq1 : Bytes → Option (Bytes × Bytes)
  | [] => none
  | c :: cs => if c = 61 then some ([], cs) else (splitEq1 cs).map (fun p => (c :: p.1, p.2))

/-- The loop of `parse_kv_lines` over the lines. segment_manifest.hpp:142-164 -/
def parseKvLoop : List Bytes → Option (List (Bytes × Bytes))
  | [] => some []
  | l :: ls =>
    let s := strip l
    if s = [] then parseKvLoop ls
    else if s.head? = some 35 then parseKvLoop ls
    else
      match splitEq1 s with
      | none => none
      | some (a, b) => (parseKvLoop ls).map (fun r => (strip a, strip b) :: r)

/-- `parse_kv_lines`: `while (pos <= body.size())` visits every piece between newlines. segment_manifest.hpp:139-166 -/
def parseKvLines (body : Bytes) : Option (List (Bytes × Bytes)) := parseKvLoop (splitSep 10 [] body)

/-- `parse_segments_csv` (the loop ends with the last piece because the value has no trailing comma).
segment_manifest.hpp:168-193 -/
def parseSegmentsCsv (v : Bytes) : Option (List Bytes) :=
  if v = [] then none
  else if v.head? = some 44 ∨ v.getLast? = some 44 then none
  else
    let ps := splitSep 44 [] v
    if ps.any (fun p => p == []) then none else some ps

/-- `read_manifest_file`: size limit 1 MiB and byte order mark. segment_manifest.hpp:118-131 -/
def readBody (file : Bytes) : Option Bytes :=
  if file.length > 1048576 then none
  else if file.take 3 = [0xEF, 0xBB, 0xBF] then none
  else some file

/-- `for (auto &p : pairs) { if (kv.contains(p.key)) throw; kv.emplace(...); }` segment_manifest.hpp:252-259 -/
def toMap : KV → List (Bytes × Bytes) → Option KV
  | kv, [] => some kv
  | kv, (k, v) :: r => if (kv.get k).isSome then none else toMap (kv.put k v) r

/-- `kv[key]` (default-constructed when missing). -/
def at' (kv : KV) (k : Bytes) : Bytes := (kv.get k).getD []

/-- `k.starts_with("x_")`. -/
def isExt (k : Bytes) : Bool := (str "x_").isPrefixOf k

/-- `SegmentManifest`. segment_manifest.hpp:197-206 -/
structure SegMan where
  version : Nat := 1
  segmentId : Bytes
  engine : Engine
  metric : Metric
  dim : Nat
  count : Nat
  idsFile : Bytes
  vectorsFile : Bytes
  extras : KV
  deriving DecidableEq, Repr

/-- One `key=value` line with newline. -/
def line (k v : Bytes) : Bytes := k ++ 61 :: v ++ [10]

/-- `SegmentManifest::save`. segment_manifest.hpp:208-235 -/
def SegMan.save (m : SegMan) : Bytes :=
  line (str "version") (decStr m.version) ++ line (str "segment_id") m.segmentId ++
    line (str "index_type") m.engine.name ++ line (str "metric") (metricName m.metric) ++
    line (str "dim") (decStr m.dim) ++ line (str "count") (decStr m.count) ++
    line (str "ids_file") m.idsFile ++ line (str "vectors_file") m.vectorsFile ++
    m.extras.flatMap (fun e => line e.1 e.2)

/-- `kRequired`. segment_manifest.hpp:241-250 -/
def segRequired : List Bytes :=
  [str "version", str "segment_id", str "index_type", str "metric", str "dim", str "count", str "ids_file",
   str "vectors_file"]

/-- Presence and non-emptiness of the required keys. segment_manifest.hpp:261-278 -/
def reqOk (kv : KV) (exempt : Bytes) (k : Bytes) : Bool :=
  match kv.get k with
  | none => false
  | some v => !(v == []) || k == exempt

/-- The part of `SegmentManifest::load` after the map is filled. segment_manifest.hpp:261-336 -/
def SegMan.ofMap (kv : KV) : Option SegMan :=
  if !(segRequired.all (reqOk kv (str "vectors_file"))) then none
  else
    match parseUint64 (at' kv (str "version")) with
    | none => none
    | some ver =>
    if ver ≠ 1 then none
    else if !(validSegmentId (at' kv (str "segment_id"))) then none
    else
      match Engine.ofName (at' kv (str "index_type")) with
      | none => none
      | some eng =>
      match metricOfName (at' kv (str "metric")) with
      | none => none
      | some met =>
      match parseUint64 (at' kv (str "dim")) with
      | none => none
      | some dim =>
      if dim = 0 then none
      else
      match parseUint64 (at' kv (str "count")) with
      | none => none
      | some cnt =>
      if cnt = 0 then none
      else if !(validBasename (at' kv (str "ids_file"))) then none
      else if !(at' kv (str "vectors_file") == []) && !(validBasename (at' kv (str "vectors_file"))) then none
      else if !(kv.all (fun e => segRequired.contains e.1 || isExt e.1)) then none
      else some { version := ver, segmentId := at' kv (str "segment_id"), engine := eng, metric := met, dim := dim,
                  count := cnt, idsFile := at' kv (str "ids_file"), vectorsFile := at' kv (str "vectors_file"),
                  extras := kv.filter (fun e => !(segRequired.contains e.1)) }

/-- `SegmentManifest::load`. segment_manifest.hpp:237-338 -/
def SegMan.load (file : Bytes) : Option SegMan :=
  match readBody file with
  | none => none
  | some body =>
  match parseKvLines body with
  | none => none
  | some ps =>
  match toMap [] ps with
  | none => none
  | some kv => SegMan.ofMap kv

/-- `CollectionManifest`. segment_manifest.hpp:341-348 -/
structure ColMan where
  version : Nat := 1
  dim : Nat
  metric : Metric
  engine : Engine
  next : Nat
  segs : List Bytes
  extras : KV
  deriving DecidableEq, Repr

/-- `CollectionManifest::save`. segment_manifest.hpp:350-376 -/
def ColMan.save (m : ColMan) : Bytes :=
  line (str "version") (decStr m.version) ++ line (str "dim") (decStr m.dim) ++ line (str "metric") (metricName m.metric) ++
    line (str "index_type") m.engine.name ++ line (str "next_segment_id") (decStr m.next) ++
    m.segs.flatMap (fun s => line (str "segment") s) ++ m.extras.flatMap (fun e => line e.1 e.2)

/-- `kRequiredScalar`. segment_manifest.hpp:382-388 -/
def colRequired : List Bytes :=
  [str "version", str "dim", str "metric", str "index_type", str "next_segment_id"]

/-- The loop filling scalars, repeated segments and the csv value: (scalars, segments in order, csv). segment_manifest.hpp:398-420 -/
def colLoop : KV → List Bytes → Option Bytes → List (Bytes × Bytes) → Option (KV × List Bytes × Option Bytes)
  | kv, rs, csv, [] => some (kv, rs, csv)
  | kv, rs, csv, (k, v) :: r =>
    if k = str "segment" then colLoop kv (rs ++ [v]) csv r
    else if k = str "segments" then
      if csv.isSome then none else colLoop kv rs (some v) r
    else if (kv.get k).isSome then none
    else colLoop (kv.put k v) rs csv r

/-- The segment list: `saw_repeated && saw_csv` throws. segment_manifest.hpp:422-425, 459-463 -/
def colSegs (rs : List Bytes) (csv : Option Bytes) : Option (List Bytes) :=
  match csv with
  | none => some rs
  | some v => if rs = [] then parseSegmentsCsv v else none

/-- The part of `CollectionManifest::load` after the loop. segment_manifest.hpp:422-481 -/
def ColMan.ofMap (kv : KV) (rs : List Bytes) (csv : Option Bytes) : Option ColMan :=
  if !(colRequired.all (reqOk kv [])) then none
  else
    match parseUint64 (at' kv (str "version")) with
    | none => none
    | some ver =>
    if ver ≠ 1 then none
    else
      match parseUint64 (at' kv (str "dim")) with
      | none => none
      | some dim =>
      if dim = 0 then none
      else
      match metricOfName (at' kv (str "metric")) with
      | none => none
      | some met =>
      match Engine.ofName (at' kv (str "index_type")) with
      | none => none
      | some eng =>
      match parseUint64 (at' kv (str "next_segment_id")) with
      | none => none
      | some nxt =>
      match colSegs rs csv with
      | none => none
      | some segs =>
      if !(segs.all validSegmentId) then none
      else if !(kv.all (fun e => colRequired.contains e.1 || isExt e.1)) then none
      else some { version := ver, dim := dim, metric := met, engine := eng, next := nxt, segs := segs,
                  extras := kv.filter (fun e => !(colRequired.contains e.1)) }

/-- `CollectionManifest::load`. segment_manifest.hpp:378-483 -/
def ColMan.load (file : Bytes) : Option ColMan :=
  match readBody file with
  | none => none
  | some body =>
  match parseKvLines body with
  | none => none
  | some ps =>
  match colLoop [] [] none ps with
  | none => none
  | some (kv, rs, csv) => ColMan.ofMap kv rs csv

/-- `format_segment_id`: `snprintf("seg_%08llu")` into 16 bytes, hence at most 15 characters. disk_collection.hpp:57-61 -/
def formatSegmentId (id : Nat) : Bytes :=
  (str "seg_" ++ (List.replicate (8 - (decStr id).length) (decDigit 0) ++ decStr id)).take 15

end Alaya.DiskManifest
