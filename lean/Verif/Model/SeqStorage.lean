import Verif.Model.Bytes

/-
/repo/include/storage/sequential_storage.hpp and the counters of /repo/include/space/raw_space.hpp.

Memory is a byte list; an access outside of the allocation is undefined behaviour (`none`).  Simplifications: slot
numbers are not narrowed to `IDType` (capacity fits the id type); an id of -1 is `none`.
-/
namespace Alaya.Seq

/-- `math::round_up_pow2` on `size_t`. /repo/include/utils/math.hpp:153-156. -/
def roundUp (x a : Nat) : Nat := (BitVec.ofNat 64 (x + a - 1) &&& ~~~ BitVec.ofNat 64 (a - 1)).toNat

/-- `struct SequentialStorage`. sequential_storage.hpp:23-29. -/
structure Storage where
  itemSize : Nat
  aligned : Nat
  cap : Nat
  pos : Nat
  alignment : Nat
  data : Bytes
  bitmap : List (BitVec 8)
  deriving DecidableEq, Repr

/-- `(capacity_ + 7) / 8`. -/
def bitmapBytes (cap : Nat) : Nat := (cap + 8 - 1) / 8

/-- `init`. sequential_storage.hpp:40-53. -/
def init (itemSize cap : Nat) (fill : UInt8) (alignment : Nat) : Storage :=
  { itemSize, cap, alignment, pos := 0, aligned := roundUp itemSize alignment
    data := List.replicate (roundUp itemSize alignment * cap) fill
    bitmap := List.replicate (roundUp (bitmapBytes cap) alignment) 0#8 }

/-- `memcpy(data + off, bs, bs.length)`. -/
def memWrite (data : Bytes) (off : Nat) (bs : Bytes) : Option Bytes :=
  if off + bs.length ≤ data.length then some (data.take off ++ (bs ++ data.drop (off + bs.length))) else none

/-- The `item_size_` bytes at `operator[](index)`. sequential_storage.hpp:55-58. -/
def Storage.read (s : Storage) (i : Nat) : Option Bytes :=
  if i * s.aligned + s.itemSize ≤ s.data.length then some ((s.data.drop (i * s.aligned)).take s.itemSize) else none

/-- `is_valid`. sequential_storage.hpp:60-62. -/
def Storage.isValid (s : Storage) (i : Nat) : Option Bool :=
  match s.bitmap[i / 8]? with
  | none => none
  | some b => some ((b &&& (1#8 <<< (i % 8))) != 0#8)

/-- `bitmap_[i/8] |= 1 << (i%8)`. -/
def setBit (bm : List (BitVec 8)) (i : Nat) : Option (List (BitVec 8)) :=
  match bm[i / 8]? with
  | none => none
  | some b => some (bm.set (i / 8) (b ||| (1#8 <<< (i % 8))))

/-- `bitmap_[i/8] &= ~(1 << (i%8))`. -/
def clearBit (bm : List (BitVec 8)) (i : Nat) : Option (List (BitVec 8)) :=
  match bm[i / 8]? with
  | none => none
  | some b => some (bm.set (i / 8) (b &&& ~~~ (1#8 <<< (i % 8))))

/-- `insert`; `d` are the `item_size_` bytes read from the argument. sequential_storage.hpp:64-71. -/
def Storage.insert (s : Storage) (d : Bytes) : Option (Storage × Option Nat) :=
  if s.pos ≥ s.cap then some (s, none)
  else
    match memWrite s.data (s.pos * s.aligned) d, setBit s.bitmap s.pos with
    | some data, some bm => some ({ s with data := data, bitmap := bm, pos := s.pos + 1 }, some s.pos)
    | _, _ => none

/-- `reserve`. sequential_storage.hpp:73-79. -/
def Storage.reserve (s : Storage) : Option (Storage × Option Nat) :=
  if s.pos ≥ s.cap then some (s, none)
  else
    match setBit s.bitmap s.pos with
    | some bm => some ({ s with bitmap := bm, pos := s.pos + 1 }, some s.pos)
    | none => none

/-- `remove`. sequential_storage.hpp:81-87. -/
def Storage.remove (s : Storage) (id : Nat) : Option (Storage × Option Nat) :=
  match s.isValid id with
  | none => none
  | some false => some (s, none)
  | some true =>
    match clearBit s.bitmap id with
    | none => none
    | some bm => some ({ s with bitmap := bm }, some id)

/-- `update`. sequential_storage.hpp:89-95. -/
def Storage.update (s : Storage) (id : Nat) (d : Bytes) : Option (Storage × Option Nat) :=
  match s.isValid id with
  | none => none
  | some false => some (s, none)
  | some true =>
    match memWrite s.data (id * s.aligned) d with
    | none => none
    | some data => some ({ s with data := data }, some id)

/-- A call. -/
inductive Op where
  | insert (d : Bytes)
  | reserve
  | remove (id : Nat)
  | update (id : Nat) (d : Bytes)
  deriving DecidableEq, Repr

def Storage.step (s : Storage) : Op → Option (Storage × Option Nat)
  | .insert d => s.insert d
  | .reserve => s.reserve
  | .remove id => s.remove id
  | .update id d => s.update id d

/-- A history and the returned ids. -/
def Storage.run (s : Storage) : List Op → Option (Storage × List (Option Nat))
  | [] => some (s, [])
  | op :: ops =>
    match s.step op with
    | none => none
    | some (s1, r) =>
      match s1.run ops with
      | none => none
      | some (s2, rs) => some (s2, r :: rs)

/-- `save`. sequential_storage.hpp:97-106. -/
def Storage.save (s : Storage) : Bytes :=
  leBytes 8 s.itemSize ++ (leBytes 8 s.aligned ++ (leBytes 8 s.cap ++ (leBytes 8 s.pos ++ (leBytes 8 s.alignment ++
    (s.data.take (s.aligned * s.cap) ++ (s.bitmap.take (bitmapBytes s.cap)).map UInt8.ofBitVec)))))

/-- `load`; `junk` is the content of the fresh bitmap allocation beyond what is read (uninitialised memory).
`none` = the file is too short (the C++ code does not notice and goes on with indeterminate values).
sequential_storage.hpp:108-129. -/
def load (junk : List (BitVec 8)) (file : Bytes) : Option (Storage × Bytes) :=
  match splitN 8 file with
  | none => none
  | some (a, f1) =>
  match splitN 8 f1 with
  | none => none
  | some (b, f2) =>
  match splitN 8 f2 with
  | none => none
  | some (c, f3) =>
  match splitN 8 f3 with
  | none => none
  | some (d, f4) =>
  match splitN 8 f4 with
  | none => none
  | some (e, f5) =>
  match splitN (leNat b * leNat c) f5 with
  | none => none
  | some (data, f6) =>
  match splitN (bitmapBytes (leNat c)) f6 with
  | none => none
  | some (bm, rest) =>
    some (⟨leNat a, leNat b, leNat c, leNat d, leNat e, data, bm.map UInt8.toBitVec ++ junk⟩, rest)

/-- The counters of `RawSpace` with its vector storage. /repo/include/space/raw_space.hpp:132-140, 164-190, 225-231. -/
structure Raw where
  itemCnt : Nat
  deleteCnt : Nat
  store : Storage
  deriving DecidableEq, Repr

/-- `insert` (without scalar data). /repo/include/space/raw_space.hpp:164-175. -/
def Raw.insert (s : Raw) (d : Bytes) : Option (Raw × Option Nat) :=
  match s.store.insert d with
  | none => none
  | some (st, id) => some (⟨s.itemCnt + 1, s.deleteCnt, st⟩, id)

/-- `remove(id)`. /repo/include/space/raw_space.hpp:182-190. -/
def Raw.remove (s : Raw) (id : Nat) : Option (Raw × Option Nat) :=
  match s.store.remove id with
  | none => none
  | some (st, r) => some (⟨s.itemCnt, s.deleteCnt + 1, st⟩, r)

/-- `get_avl_data_num` (`IDType` = uint32: the subtraction wraps). /repo/include/space/raw_space.hpp:231. -/
def Raw.avl (s : Raw) : Nat := if s.deleteCnt ≤ s.itemCnt then s.itemCnt - s.deleteCnt else 2 ^ 32 - (s.deleteCnt - s.itemCnt)

inductive RawOp where
  | insert (d : Bytes)
  | remove (id : Nat)
  deriving DecidableEq, Repr

def Raw.step (s : Raw) : RawOp → Option (Raw × Option Nat)
  | .insert d => s.insert d
  | .remove id => s.remove id

def Raw.run (s : Raw) : List RawOp → Option (Raw × List (Option Nat))
  | [] => some (s, [])
  | op :: ops =>
    match s.step op with
    | none => none
    | some (s1, r) =>
      match s1.run ops with
      | none => none
      | some (s2, rs) => some (s2, r :: rs)

end Alaya.Seq
