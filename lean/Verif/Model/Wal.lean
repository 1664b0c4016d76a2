import Verif.Model.Bytes

/-
/repo/include/recovery/write_ahead_log.hpp: frame format, append, scan and replay.

A file is its byte content.  Reading the `ifstream` is reading the remaining suffix of the content.  The file
does not change while it is scanned (`wal_file_size` is the size of the bytes being read).  Write errors of
`wal_stream_` are not modelled (the code does not check them either); a crash is a cut of the appended bytes.
-/
namespace Alaya.Wal

/-- `WalFrameType`. /repo/include/recovery/write_ahead_log.hpp:39-42. -/
inductive FrameType where
  | prepare | commit
  deriving DecidableEq, Repr

/-- `MutationType`. /repo/include/recovery/write_ahead_log.hpp:50-55. -/
inductive Mutation where
  | insert | upsert | removeByItemId | removeByInternalId
  deriving DecidableEq, Repr

/-- `WalRecord`. /repo/include/recovery/write_ahead_log.hpp:64-68. -/
structure Record where
  opId : Nat
  kind : Mutation
  payload : Bytes
  deriving DecidableEq, Repr

/-- A frame: its type and its record (a commit frame carries an empty payload when written by the code). -/
structure Frame where
  type : FrameType
  record : Record
  deriving DecidableEq, Repr

/-- Enumerator value. /repo/include/recovery/write_ahead_log.hpp:40-41. -/
def FrameType.code : FrameType → Nat
  | .prepare => 1
  | .commit => 2

/-- Enumerator value. /repo/include/recovery/write_ahead_log.hpp:51-54. -/
def Mutation.code : Mutation → Nat
  | .insert => 1
  | .upsert => 2
  | .removeByItemId => 3
  | .removeByInternalId => 4

/-- `parse_frame_type`. /repo/include/recovery/write_ahead_log.hpp:242-251. -/
def parseFrameType (n : Nat) : Option FrameType :=
  if n = 1 then some .prepare else if n = 2 then some .commit else none

/-- `parse_mutation_type`. /repo/include/recovery/write_ahead_log.hpp:253-267. -/
def parseMutation (n : Nat) : Option Mutation :=
  if n = 1 then some .insert else if n = 2 then some .upsert
  else if n = 3 then some .removeByItemId else if n = 4 then some .removeByInternalId else none

/-- `kWalFrameMagic`. /repo/include/recovery/write_ahead_log.hpp:28. -/
def frameMagic : Nat := 0x48454144
/-- `kWalTrailerMagic`. /repo/include/recovery/write_ahead_log.hpp:29. -/
def trailerMagic : Nat := 0x5441494C
/-- `kWalFormatVersion`. /repo/include/recovery/write_ahead_log.hpp:30. -/
def formatVersion : Nat := 1
/-- `kMaxWalPayloadSize`. /repo/include/recovery/write_ahead_log.hpp:31. -/
def maxPayload : Nat := 2 ^ 30

/-- The 24 header bytes. /repo/include/recovery/write_ahead_log.hpp:336-343. -/
def headerBytes (f : Frame) : Bytes :=
  leBytes 4 frameMagic ++ (leBytes 1 formatVersion ++ (leBytes 1 f.type.code ++ (leBytes 1 f.record.kind.code ++
    (leBytes 1 0 ++ (leBytes 8 f.record.opId ++ leBytes 8 f.record.payload.length)))))

/-- The contiguous frame buffer. /repo/include/recovery/write_ahead_log.hpp:327-349. -/
def frameBytes (f : Frame) : Bytes :=
  headerBytes f ++ (f.record.payload ++ leBytes 4 trailerMagic)

/-- `append_frame` on a file content; `none` is the exception for an over-long payload (nothing written).
/repo/include/recovery/write_ahead_log.hpp:314-360. -/
def appendFrame (file : Bytes) (f : Frame) : Option Bytes :=
  if f.record.payload.length > maxPayload then none else some (file ++ frameBytes f)

/-- Prepare frame of a record. /repo/include/recovery/write_ahead_log.hpp:96-98. -/
def prepareFrame (r : Record) : Frame := ⟨.prepare, r⟩

/-- Commit frame (empty payload). /repo/include/recovery/write_ahead_log.hpp:100-103. -/
def commitFrame (op : Nat) (m : Mutation) : Frame := ⟨.commit, ⟨op, m, []⟩⟩

/-- `FrameHeader`. /repo/include/recovery/write_ahead_log.hpp:235-240. -/
structure Header where
  type : FrameType
  kind : Mutation
  opId : Nat
  size : Nat
  deriving DecidableEq, Repr

/-- `read_frame_header`: `none` on EOF, truncation, wrong magic/version/type/mutation; the reserved byte is
ignored. /repo/include/recovery/write_ahead_log.hpp:368-420. -/
def readHeader (bs : Bytes) : Option (Header × Bytes) :=
  match splitN 4 bs with
  | none => none
  | some (mg, b1) =>
    if leNat mg ≠ frameMagic then none else
    match splitN 20 b1 with
    | none => none
    | some (h, rest) =>
      if leNat (h.take 1) ≠ formatVersion then none else
      match parseFrameType (leNat ((h.drop 1).take 1)) with
      | none => none
      | some t =>
        match parseMutation (leNat ((h.drop 2).take 1)) with
        | none => none
        | some m => some (⟨t, m, leNat ((h.drop 4).take 8), leNat ((h.drop 12).take 8)⟩, rest)

/-- `payload_size_is_plausible` with `remaining` bytes after the header (the limits of `streamsize` and `size_t`
are above 2^30). /repo/include/recovery/write_ahead_log.hpp:269-295. -/
def plausible (remaining size : Nat) : Bool :=
  if size > maxPayload then false
  else if remaining < 4 then false
  else decide (size ≤ remaining - 4)

/-- One iteration of the scan loop up to the trailer check: the frame and the rest, or `none` when the loop
breaks. /repo/include/recovery/write_ahead_log.hpp:168-197. -/
def readFrame (bs : Bytes) : Option (Frame × Bytes) :=
  match readHeader bs with
  | none => none
  | some (h, rest) =>
    if plausible rest.length h.size then
      match splitN h.size rest with
      | none => none
      | some (p, r2) =>
        match splitN 4 r2 with
        | none => none
        | some (t, r3) =>
          if leNat t = trailerMagic then some (⟨h.type, ⟨h.opId, h.kind, p⟩⟩, r3) else none
    else none

/-- The frames the `while (true)` loop sees.  The fuel bounds the number of iterations; each consumes at least
28 bytes, so `bs.length` is enough (`scan_step`).
/repo/include/recovery/write_ahead_log.hpp:168-220. -/
def scanFuel : Nat → Bytes → List Frame
  | 0, _ => []
  | n + 1, bs =>
    match readFrame bs with
    | none => []
    | some p => p.1 :: scanFuel n p.2

def scan (bs : Bytes) : List Frame := scanFuel bs.length bs

/-- Loop state. `pending` is the `unordered_map` (op id -> prepared record).
/repo/include/recovery/write_ahead_log.hpp:147-148,167. -/
structure Replay where
  pending : List (Nat × Record)
  committed : List Record
  maxOp : Nat
  deriving DecidableEq, Repr

/-- `pending.find`. -/
def lookup (op : Nat) : List (Nat × Record) → Option Record
  | [] => none
  | e :: l => if e.1 = op then some e.2 else lookup op l

/-- `pending.erase`. -/
def erase (op : Nat) (l : List (Nat × Record)) : List (Nat × Record) := l.filter (fun e => decide (e.1 ≠ op))

/-- The loop body after a complete frame. /repo/include/recovery/write_ahead_log.hpp:199-220. -/
def replayStep (applied : Nat) (s : Replay) (f : Frame) : Replay :=
  let maxOp := max s.maxOp f.record.opId
  match f.type with
  | .prepare => ⟨(f.record.opId, f.record) :: erase f.record.opId s.pending, s.committed, maxOp⟩
  | .commit =>
    match lookup f.record.opId s.pending with
    | none => ⟨s.pending, s.committed, maxOp⟩
    | some r =>
      if r.kind ≠ f.record.kind then ⟨erase f.record.opId s.pending, s.committed, maxOp⟩
      else if f.record.opId > applied then ⟨erase f.record.opId s.pending, s.committed ++ [r], maxOp⟩
      else ⟨erase f.record.opId s.pending, s.committed, maxOp⟩

/-- The whole loop over the frames of the file (reading and processing are separated: processing does not
influence reading). `maxOp` starts at `applied_through`. -/
def replayFrames (applied : Nat) (fs : List Frame) : Replay :=
  fs.foldl (replayStep applied) ⟨[], [], applied⟩

/-- A possible result of `std::ranges::sort` by op id (the algorithm is not stable, so with equal op ids any
order of them is possible). /repo/include/recovery/write_ahead_log.hpp:228-230. -/
def SortedResult (committed out : List Record) : Prop :=
  out.Perm committed ∧ out.Pairwise (fun a b => a.opId ≤ b.opId)

/-- `replayable_records` on a log file (`none` = the file does not exist): the result may be `out` with
`max_seen_op_id = maxSeen`. /repo/include/recovery/write_ahead_log.hpp:136-232. -/
def Replayable (file : Option Bytes) (applied : Nat) (out : List Record) (maxSeen : Nat) : Prop :=
  match file with
  | none => out = [] ∧ maxSeen = applied
  | some bs => SortedResult (replayFrames applied (scan bs)).committed out ∧
      maxSeen = (replayFrames applied (scan bs)).maxOp

/-- Insertion before the first record with a larger op id. -/
def insertRec (r : Record) : List Record → List Record
  | [] => [r]
  | x :: xs => if r.opId < x.opId then r :: x :: xs else x :: insertRec r xs

/-- A sort by op id standing for `std::sort`. -/
def sortRecs (l : List Record) : List Record := l.foldr insertRec []

/-- An executable instance of `Replayable`. -/
def replayable (file : Option Bytes) (applied : Nat) : List Record × Nat :=
  match file with
  | none => ([], applied)
  | some bs => (sortRecs (replayFrames applied (scan bs)).committed,
      (replayFrames applied (scan bs)).maxOp)

/-- The `append_prepare`/`append_commit` calls of a history, run on an empty or missing file; `none` is an
exception. -/
def appendAll : Bytes → List Frame → Option Bytes
  | file, [] => some file
  | file, f :: fs =>
    match appendFrame file f with
    | none => none
    | some file' => appendAll file' fs

end Alaya.Wal
