import Verif.Model.Bytes

/-
/repo/include/utils/binary_io.hpp: BinaryWriter and BinaryReader.
-/
namespace Alaya.BinIO

/-- A typed value as passed to the writer (`write_u8/u32/u64/string/blob`). -/
inductive Val where
  | u8 (n : Nat)
  | u32 (n : Nat)
  | u64 (n : Nat)
  | string (b : Bytes)
  | blob (b : Bytes)
  deriving DecidableEq, Repr

/-- `write_pod`. /repo/include/utils/binary_io.hpp:60-65. -/
def writePod (buf : Bytes) (w n : Nat) : Bytes := buf ++ leBytes w n

/-- `write_bytes`. /repo/include/utils/binary_io.hpp:29-34. -/
def writeBytes (buf b : Bytes) : Bytes := if b.length = 0 then buf else buf ++ b

/-- One write call appended to the buffer. /repo/include/utils/binary_io.hpp:25-49
(`write_string` and both `write_blob` overloads have the same body). -/
def write (buf : Bytes) : Val → Bytes
  | .u8 n => writePod buf 1 n
  | .u32 n => writePod buf 4 n
  | .u64 n => writePod buf 8 n
  | .string b => writeBytes (writePod buf 8 b.length) b
  | .blob b => writeBytes (writePod buf 8 b.length) b

/-- A sequence of writes followed by `finish()`. /repo/include/utils/binary_io.hpp:58. -/
def writeAll (vs : List Val) : Bytes := vs.foldl write []

/-- Reader state. /repo/include/utils/binary_io.hpp:132-134 (`data_`, `size_` = length, `offset_`). -/
structure Reader where
  data : Bytes
  offset : Nat
  deriving DecidableEq, Repr

/-- `remaining()`: `size_t` subtraction, wraps around. /repo/include/utils/binary_io.hpp:118. -/
def Reader.remaining (r : Reader) : Nat :=
  if r.offset ≤ r.data.length then r.data.length - r.offset else U64 - (r.offset - r.data.length)

/-- Result of one read call: a value, `std::nullopt`, or undefined behaviour (a read outside of the
buffer). -/
inductive Res (α : Type) where
  | ok (a : α)
  | nullopt
  | ub
  deriving DecidableEq, Repr

/-- Access to `data_[off .. off+n)`; outside of the buffer it is undefined behaviour (`none`). -/
def slice (data : Bytes) (off n : Nat) : Option Bytes :=
  if off + n ≤ data.length then some ((data.drop off).take n) else none

/-- `read_pod<T>` with `sizeof(T) = w`. /repo/include/utils/binary_io.hpp:121-130. -/
def readPod (w : Nat) (r : Reader) : Res Nat × Reader :=
  if r.remaining < w then (.nullopt, r)
  else
    match slice r.data r.offset w with
    | none => (.ub, r)
    | some b => (.ok (leNat b), { r with offset := r.offset + w })

/-- `read_fixed_blob(size)`. /repo/include/utils/binary_io.hpp:109-116. -/
def readFixed (n : Nat) (r : Reader) : Res Bytes × Reader :=
  if r.remaining < n then (.nullopt, r)
  else
    match slice r.data r.offset n with
    | none => (.ub, r)
    | some b => (.ok b, { r with offset := r.offset + n })

/-- `read_string` / `read_blob` (identical bodies): the length word is consumed even when the body
does not fit. /repo/include/utils/binary_io.hpp:84-107. -/
def readBlob (r : Reader) : Res Bytes × Reader :=
  match readPod 8 r with
  | (.ok n, r1) => readFixed n r1
  | (.nullopt, r1) => (.nullopt, r1)
  | (.ub, r1) => (.ub, r1)

/-- A read call. -/
inductive ReadOp where
  | u8 | u32 | u64 | string | blob
  | fixed (n : Nat)
  deriving DecidableEq, Repr

/-- Lift a result. -/
def Res.map {α β : Type} (f : α → β) : Res α → Res β
  | .ok a => .ok (f a)
  | .nullopt => .nullopt
  | .ub => .ub

/-- One read call; a fixed blob is reported like a blob.
/repo/include/utils/binary_io.hpp:80-116. -/
def read (op : ReadOp) (r : Reader) : Res Val × Reader :=
  match op with
  | .u8 => ((readPod 1 r).1.map .u8, (readPod 1 r).2)
  | .u32 => ((readPod 4 r).1.map .u32, (readPod 4 r).2)
  | .u64 => ((readPod 8 r).1.map .u64, (readPod 8 r).2)
  | .string => ((readBlob r).1.map .string, (readBlob r).2)
  | .blob => ((readBlob r).1.map .blob, (readBlob r).2)
  | .fixed n => ((readFixed n r).1.map .blob, (readFixed n r).2)

/-- A sequence of reads; callers continue after a failure or not, here the run continues (more general). -/
def readAll : List ReadOp → Reader → List (Res Val) × Reader
  | [], r => ([], r)
  | op :: ops, r =>
    let (x, r1) := read op r
    let (xs, r2) := readAll ops r1
    (x :: xs, r2)

end Alaya.BinIO
