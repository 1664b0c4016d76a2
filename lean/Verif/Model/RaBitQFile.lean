import Verif.Model.IndexFile

/-
Layout and files of a RaBitQ space.
/repo/include/space/rabitq_space.hpp:68-90 (`initialize_offsets`), 238-267 (`update_nei`, the bytes written), 269-297 (`fit`), 321-366 (the
pointers), 575-633 (`save`, `load`), /repo/include/storage/static_storage.hpp:16-104, /repo/include/utils/rabitq_utils/rotator.hpp:63-72,
116-124, 180-238, 244-252, 341-384, /repo/include/space/quant/rabitq.hpp:150-162.

Floats and ids have four bytes and are kept as bytes.  Streams are modelled with their fail state: a read beyond the end stores what is
there and fails, later reads do nothing.  Simplifications: opening the files succeeds; the RocksDB directory is not part of the file;
in a space with scalar data a file that ends inside the RocksDB settings is undefined (`none`), since a length is then read from
uninitialised memory.
-/
namespace Alaya.RFile
open Alaya.IndexFile

/-! ### Layout -/

/-- The parts of a node's chunk. rabitq_space.hpp:69-75 -/
inductive Part where
  | vec | codes | fAdd | fRescale | ids
  deriving DecidableEq, Repr

/-- `round_up_pow2(dim, 64)`: adds 63 and clears the six lowest bits. math.hpp:153-156 -/
def padded (dim : Nat) : Nat := (dim + 63) / 64 * 64

/-- `rvec_len`, `nei_quant_code_len`, `f_add_len`, `f_rescale_len`, `nei_id_len`. rabitq_space.hpp:76-80 -/
def Part.len (dim : Nat) : Part → Nat
  | .vec => dim * 4
  | .codes => padded dim * 32 / 8
  | .fAdd => 32 * 4
  | .fRescale => 32 * 4
  | .ids => 32 * 4

/-- The offsets. rabitq_space.hpp:83-86 -/
def Part.off (dim : Nat) : Part → Nat
  | .vec => 0
  | .codes => Part.len dim .vec
  | .fAdd => Part.len dim .vec + Part.len dim .codes
  | .fRescale => Part.len dim .vec + Part.len dim .codes + Part.len dim .fAdd
  | .ids => Part.len dim .vec + Part.len dim .codes + Part.len dim .fAdd + Part.len dim .fRescale

/-- `data_chunk_size_`. rabitq_space.hpp:87 -/
def chunk (dim : Nat) : Nat := Part.off dim .ids + Part.len dim .ids

/-! ### Memory -/

/-- Reading `n` bytes at position `p`. -/
def peek (mem : Bytes) (p n : Nat) : Option Bytes := if p + n ≤ mem.length then some ((mem.drop p).take n) else none

/-- Writing bytes at position `p`. -/
def poke (mem : Bytes) (p : Nat) (bs : Bytes) : Option Bytes :=
  if p + bs.length ≤ mem.length then some (mem.take p ++ (bs ++ mem.drop (p + bs.length))) else none

/-- `RotatorType`. rotator.hpp:35 -/
def matrixRotator : Nat := 0
def fhtRotator : Nat := 1

/-- Number of bytes a rotator saves; `none` if `choose_rotator` throws: the transform is there for 2^6 to 2^11 only.
rotator.hpp:121-124, 188-238, 249-252, 341-384 -/
def rotLen (typ dim : Nat) : Option Nat :=
  if typ = matrixRotator then some (4 * dim * padded dim)
  else if typ = fhtRotator then if 6 ≤ Nat.log2 dim ∧ Nat.log2 dim ≤ 11 then some (4 * padded dim / 8) else none
  else none

/-- The members that are saved; `config` is present if the space has scalar data, `qdim` and `qpad` belong to the quantiser.
rabitq_space.hpp:45-66 -/
structure Space where
  metric : Nat
  dim : Nat
  itemCnt : Nat
  capacity : Nat
  typ : Nat
  ep : Nat
  config : Option Config
  rot : Bytes
  mem : Bytes
  qdim : Nat
  qpad : Nat
  deriving DecidableEq, Repr

/-- Part `p` of node `id`. rabitq_space.hpp:321-366 -/
def Space.get (s : Space) (id : Nat) (p : Part) : Option Bytes := peek s.mem (chunk s.dim * id + p.off s.dim) (p.len s.dim)

/-- Writing at the beginning of part `p` of node `id`. -/
def Space.put (s : Space) (id : Nat) (p : Part) (bs : Bytes) : Option Space :=
  (poke s.mem (chunk s.dim * id + p.off s.dim) bs).map (fun m => { s with mem := m })

/-- The copying loop of `fit` from row `i` on. rabitq_space.hpp:293-297 -/
def fitRows (dim : Nat) : Nat → List Bytes → Bytes → Option Bytes
  | _, [], mem => some mem
  | i, row :: rows, mem =>
    match poke mem (chunk dim * i + Part.off dim .vec) row with
    | none => none
    | some mem' => fitRows dim (i + 1) rows mem'

/-- `fit`: `some none` = `std::length_error`; `fresh` is what the new memory holds. rabitq_space.hpp:284-297 -/
def Space.fit (s : Space) (rows : List Bytes) (fresh : Bytes) : Option (Option Space) :=
  if s.capacity < rows.length then some none
  else match fitRows s.dim 0 rows (fresh.take (rows.length * chunk s.dim)) with
    | none => none
    | some m => some (some { s with itemCnt := rows.length, mem := m })

/-- What `update_nei` writes for a node: ids, factors and codes, the first entries of each part. rabitq_space.hpp:238-267 -/
def Space.update (s : Space) (id : Nat) (ids fAdd fRescale codes : Bytes) : Option Space :=
  match s.put id .ids ids with
  | none => none
  | some s1 =>
    match s1.put id .fAdd fAdd with
    | none => none
    | some s2 =>
      match s2.put id .fRescale fRescale with
      | none => none
      | some s3 => s3.put id .codes codes

/-! ### Files -/

/-- `std::ifstream`: what is left, `none` after a failure. -/
abbrev Stream := Option Bytes

/-- `reader.read(p, n)` where `n` bytes at `p` hold `old`. -/
def rd (old : Bytes) : Stream → Bytes × Stream
  | none => (old, none)
  | some f => if old.length ≤ f.length then (f.take old.length, some (f.drop old.length)) else (f ++ old.drop f.length, none)

/-- The same for a number of `w` bytes. -/
def rdN (w old : Nat) (st : Stream) : Nat × Stream :=
  let r := rd (leBytes w old) st
  (leNat r.1, r.2)

/-- `save`. rabitq_space.hpp:575-600 -/
def Space.save (s : Space) : Bytes :=
  leBytes 4 s.metric ++ (leBytes 4 s.dim ++ (leBytes 4 s.itemCnt ++ (leBytes 4 s.capacity ++ (leBytes 1 s.typ ++ (leBytes 4 s.ep ++
    (((s.config.map Config.save).getD []) ++ (s.rot ++ (s.mem ++ (leBytes 4 s.qdim ++ leBytes 4 s.qpad)))))))))

/-- What fresh memory holds: `type_` and `ep_`, the sign bits or matrix drawn by `choose_rotator`, the
allocated storage. -/
structure Fresh where
  typ : Nat
  ep : Nat
  rot : Nat → Bytes
  mem : Nat → Bytes

/-- The settings. rabitq_space.hpp:616-619 -/
def loadCfg (scalar : Bool) (st : Stream) : Option (Option Config × Stream) :=
  if scalar then
    match st with
    | none => none
    | some f =>
      match Config.load f with
      | none => none
      | some (c, rest) => some (some c, some rest)
  else some (none, st)

/-- `load` into a new space: `some none` = an exception (`choose_rotator`, `set_metric_function`). rabitq_space.hpp:602-633 -/
def load (scalar : Bool) (j : Fresh) (file : Bytes) : Option (Option Space) :=
  let (metric, st) := rdN 4 0 (some file)
  let (dim, st) := rdN 4 0 st
  let (itemCnt, st) := rdN 4 0 st
  let (capacity, st) := rdN 4 0 st
  let (typ, st) := rdN 1 j.typ st
  let (ep, st) := rdN 4 j.ep st
  match loadCfg scalar st with
  | none => none
  | some (cfg, st) =>
    match rotLen typ dim with
    | none => some none
    | some rl =>
      let (rot, st) := rd ((j.rot rl).take rl) st
      if 3 ≤ metric then some none
      else
        let (mem, st) := rd ((j.mem (itemCnt * chunk dim)).take (itemCnt * chunk dim)) st
        let (qdim, st) := rdN 4 0 st
        let (qpad, _) := rdN 4 0 st
        some (some ⟨metric, dim, itemCnt, capacity, typ, ep, cfg, rot, mem, qdim, qpad⟩)

end Alaya.RFile
