import Verif.Model.Wal

/-! Specification of log files, independent of the scanner: what a complete frame is, and which operations of a
frame sequence count as committed. -/
namespace Alaya.Wal

/-- `b` is one complete, valid frame with content `f` (any reserved byte). -/
def IsFrame (b : Bytes) (f : Frame) : Prop :=
  f.record.opId < 2 ^ 64 ∧ f.record.payload.length ≤ 2 ^ 30 ∧
  ∃ reserved : UInt8, b =
    [0x44, 0x41, 0x45, 0x48] ++ [1, UInt8.ofNat f.type.code, UInt8.ofNat f.record.kind.code, reserved]
      ++ leBytes 8 f.record.opId ++ leBytes 8 f.record.payload.length ++ f.record.payload ++ [0x4C, 0x49, 0x41, 0x54]

/-- The last frame with the given op id. -/
def lastWith (op : Nat) (fs : List Frame) : Option Frame :=
  (fs.filter (fun f => decide (f.record.opId = op))).getLast?

/-- The record committed by frame `f` when the frames before it are `before`: `f` is a commit and the latest
earlier frame of the same operation is its prepare frame with the same mutation kind. -/
def commits (before : List Frame) (f : Frame) : Option Record :=
  if f.type = .commit then
    match lastWith f.record.opId before with
    | some p => if p.type = .prepare ∧ p.record.kind = f.record.kind then some p.record else none
    | none => none
  else none

/-- The committed records of a frame sequence in the order of their commit frames. -/
def committedFrom (before : List Frame) : List Frame → List Record
  | [] => []
  | f :: fs => (commits before f).toList ++ committedFrom (before ++ [f]) fs

def committed (fs : List Frame) : List Record := committedFrom [] fs

/-- A logged operation: its record and whether the commit frame was appended (an operation that threw between
prepare and commit leaves only the prepare frame). -/
structure LoggedOp where
  record : Record
  done : Bool
  deriving DecidableEq, Repr

/-- The frames of an operation. /repo/python/include/index.hpp:706-716 (insert), 732-741, 747-775. -/
def LoggedOp.frames (o : LoggedOp) : List Frame :=
  prepareFrame o.record :: (if o.done then [commitFrame o.record.opId o.record.kind] else [])

/-- The bytes of an operation in the log. -/
def LoggedOp.bytes (o : LoggedOp) : Bytes := (o.frames.map frameBytes).flatten

/-- The operations whose bytes lie completely within the first `k` bytes of the log. -/
def opsWithin : Nat → List LoggedOp → List LoggedOp
  | _, [] => []
  | k, o :: os => if o.bytes.length ≤ k then o :: opsWithin (k - o.bytes.length) os else []

end Alaya.Wal
