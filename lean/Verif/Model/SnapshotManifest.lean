import Verif.Model.DecimalParse

/-
/repo/include/recovery/snapshot_manifest.hpp: snapshot manifest text.
-/
namespace Alaya

/-- Newline, carriage return, equals sign. -/
abbrev chNL : UInt8 := 10
abbrev chCR : UInt8 := 13
abbrev chEq : UInt8 := 61

/-- `SnapshotManifest`. /repo/include/recovery/snapshot_manifest.hpp:56-65. -/
structure SnapManifest where
  formatVersion : Nat := 1
  snapshotId : Bytes := []
  reason : Bytes := []
  appliedThrough : Nat := 0
  createdMs : Nat := 0
  graphFile : Bytes := []
  dataFile : Bytes := []
  quantFile : Bytes := []
  rocksdbDir : Bytes := []
  deriving DecidableEq, Repr

/-- `output << "key=" << value`. -/
def kvLine (key value : Bytes) : Bytes := key ++ chEq :: value

/-- The nine lines. /repo/include/recovery/snapshot_manifest.hpp:69-77. -/
def SnapManifest.lines (m : SnapManifest) : List Bytes :=
  [kvLine (str "format_version") (decStr m.formatVersion),
   kvLine (str "snapshot_id") m.snapshotId,
   kvLine (str "reason") m.reason,
   kvLine (str "applied_through_op_id") (decStr m.appliedThrough),
   kvLine (str "created_unix_ms") (decStr m.createdMs),
   kvLine (str "graph_file") m.graphFile,
   kvLine (str "data_file") m.dataFile,
   kvLine (str "quant_file") m.quantFile,
   kvLine (str "rocksdb_dir") m.rocksdbDir]

/-- `serialize`. /repo/include/recovery/snapshot_manifest.hpp:67-79. -/
def SnapManifest.serialize (m : SnapManifest) : Bytes := (m.lines.map (fun l => l ++ [chNL])).flatten

/-- The lines `std::getline` yields (`cur` = characters read so far): a final piece without newline is a line
only if it is not empty. /repo/include/recovery/snapshot_manifest.hpp:89-91. -/
def getlines (cur : Bytes) : Bytes → List Bytes
  | [] => if cur = [] then [] else [cur]
  | c :: cs => if c = chNL then cur :: getlines [] cs else getlines (cur ++ [c]) cs

/-- Remove one trailing carriage return. /repo/include/recovery/snapshot_manifest.hpp:92-94. -/
def dropCR (l : Bytes) : Bytes := if l.getLast? = some chCR then l.dropLast else l

/-- Split at the first '=' (`find('=')`, `substr`). /repo/include/recovery/snapshot_manifest.hpp:95-100. -/
def splitEq : Bytes → Option (Bytes × Bytes)
  | [] => none
  | c :: cs =>
    if c = chEq then some ([], cs)
    else match splitEq cs with
      | none => none
      | some p => some (c :: p.1, p.2)

/-- One iteration of the parse loop; `none` = `return std::nullopt`.
/repo/include/recovery/snapshot_manifest.hpp:92-126. -/
def SnapManifest.parseLine (m : SnapManifest) (line : Bytes) : Option SnapManifest :=
  match splitEq (dropCR line) with
  | none => some m
  | some (key, value) =>
    if key = str "format_version" then
      match parseUint32Decimal value with
      | none => none
      | some n => some { m with formatVersion := n }
    else if key = str "snapshot_id" then some { m with snapshotId := value }
    else if key = str "reason" then some { m with reason := value }
    else if key = str "applied_through_op_id" then
      match parseUint64Decimal value with
      | none => none
      | some n => some { m with appliedThrough := n }
    else if key = str "created_unix_ms" then
      match parseUint64Decimal value with
      | none => none
      | some n => some { m with createdMs := n }
    else if key = str "graph_file" then some { m with graphFile := value }
    else if key = str "data_file" then some { m with dataFile := value }
    else if key = str "quant_file" then some { m with quantFile := value }
    else if key = str "rocksdb_dir" then some { m with rocksdbDir := value }
    else some m

/-- The loop over the lines. -/
def SnapManifest.parseLines (m : SnapManifest) : List Bytes → Option SnapManifest
  | [] => some m
  | l :: ls =>
    match m.parseLine l with
    | none => none
    | some m' => m'.parseLines ls

/-- `deserialize`. /repo/include/recovery/snapshot_manifest.hpp:87-131. -/
def SnapManifest.deserialize (raw : Bytes) : Option SnapManifest :=
  match SnapManifest.parseLines {} (getlines [] raw) with
  | none => none
  | some m => if m.snapshotId = [] then none else some m

end Alaya
