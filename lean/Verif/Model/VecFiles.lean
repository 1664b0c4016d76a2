import Verif.Model.Bytes

/-!
# Files of vectors

`.fvecs` / `.ivecs`: python/src/alayalite/utils.py:26-74, python/src/alayalite/bench/_datasets.py:167-193,
include/utils/io_utils.hpp:27-239.  `.fbin` / `.ibin`: python/src/alayalite/bench/_datasets.py:196-217,
python/src/alayalite/laser/_io.py:10-67.

A row is its bytes, four for each number (float32, int32 or uint32).  `none` stands for an exception, for `exit(-1)` and
for writing outside an array.  Simplifications: files are read at once and opening succeeds; `np.array` of rows of
different lengths raises (numpy 1.24 and later); `read_fbin` and `read_ibin` are modelled for a start within the file, and
`read_fbin` with a mapped file is the same for a part that is not empty.
-/

namespace Alaya.VecFiles

/-- The loop of `load_fvecs` and `load_ivecs`: a short length field is taken as it is, a short row too if it is a whole
number of numbers. utils.py:37-48, 62-74 -/
def pyLoop : Nat → Bytes → Option (List Bytes)
  | 0, _ => none
  | k + 1, f =>
    if f.isEmpty then some []
    else if ((f.drop 4).take (leNat (f.take 4) * 4)).length % 4 ≠ 0 then none
    else (pyLoop k ((f.drop 4).drop (leNat (f.take 4) * 4))).map ((f.drop 4).take (leNat (f.take 4) * 4) :: ·)

/-- `load_fvecs`, `load_ivecs` (Python): `np.array(vectors)`. utils.py:26-74 -/
def pyVecs (f : Bytes) : Option (List Bytes) :=
  match pyLoop (f.length + 1) f with
  | none => none
  | some rs => if rs.all (fun r => r.length = (rs.headD []).length) then some rs else none

/-- `_load_fvecs`, `_load_ivecs`: `np.fromfile` drops an incomplete number at the end; a negative dimension raises.
_datasets.py:167-193 -/
def benchVecs (f : Bytes) : Option (List Bytes) :=
  if f.length < 4 then none
  else
    let d := leNat (f.take 4)
    if 2147483648 ≤ d then none
    else if (f.length / 4) % (d + 1) ≠ 0 then none
    else
      let rows := (List.range ((f.length / 4) / (d + 1))).map (fun i => (f.drop (i * (4 * (d + 1)))).take (4 * (d + 1)))
      if rows.all (fun r => leNat (r.take 4) = d) then some (rows.map (·.drop 4)) else none

/-- The loop of `load_fvecs`: `reader.read(&dim, 4)` at the end of the file keeps what it got; the number of bytes read is
compared with `dim * 4` as `uint32_t`; the vector was filled with zeros before. io_utils.hpp:133-150 -/
def cppLoop : Nat → Bytes → Nat → Option (List Bytes × Nat)
  | 0, _, _ => none
  | k + 1, f, dim =>
    if f.length < 4 then some ([], leNat (f ++ (leBytes 4 dim).drop f.length))
    else
      let d := leNat (f.take 4)
      let body := (f.drop 4).take (d * 4)
      if d = 0 then none
      else if body.length ≠ (d * 4) % 4294967296 then none
      else if body.length < d * 4 then some ([body ++ List.replicate (d * 4 - body.length) 0], d)
      else (cppLoop k ((f.drop 4).drop (d * 4)) d).map (fun r => (body :: r.1, r.2))

/-- What the C++ readers leave in their three arguments: the numbers as bytes, `num`, `dim`. -/
structure Loaded where
  data : Bytes
  num : Nat
  dim : Nat
  deriving DecidableEq, Repr

/-- `load_fvecs<float>`. io_utils.hpp:118-153 -/
def cppFvecs (f : Bytes) (dim : Nat) : Option Loaded :=
  (cppLoop (f.length + 1) f dim).map (fun r => ⟨r.1.flatten, r.1.length % 4294967296, r.2⟩)

/-- The loop of `load_ivecs`: row `i` goes to position `i * dim` with the dimension just read. io_utils.hpp:231-238 -/
def ivLoop : Nat → Nat → Bytes → Bytes → Nat → Option (Bytes × Nat)
  | 0, _, _, data, dim => some (data, dim)
  | k + 1, i, f, data, _ =>
    if f.length < 4 then none
    else
      let d := leNat (f.take 4)
      let off := (i * d) % 4294967296 * 4
      if data.length < off + d * 4 then none
      else if (f.drop 4).length < d * 4 then none
      else ivLoop k (i + 1) ((f.drop 4).drop (d * 4)) (data.take off ++ (f.drop 4).take (d * 4) ++ data.drop (off + d * 4)) d

/-- `load_ivecs<uint32_t>`: the number of rows from the first dimension and the size of the file; a file too short for one
dimension ends in an exception. io_utils.hpp:206-239 -/
def cppIvecs (f : Bytes) : Option Loaded :=
  if f.length < 4 then none
  else
    let d := leNat (f.take 4)
    let num := (f.length / (4 + d * 4)) % 4294967296
    (ivLoop num 0 f (List.replicate ((num * d) % 4294967296 * 4) 0) d).map (fun r => ⟨r.1, num, r.2⟩)

/-- `load_vecs`, `load_gt`: `[num] [dim]` and then the numbers; they are read behind the end of a vector that was only
`reserve`d, so its size stays what it was before (here: a fresh vector). io_utils.hpp:27-49, 87-107 -/
def cppHeaded (f : Bytes) : Loaded := ⟨[], leNat (f.take 4), leNat ((f.drop 4).take 4)⟩

/-- `save_ivecs`: the number of rows, then every row behind its dimension. io_utils.hpp:60-76 -/
def cppSaveIvecs (dim : Nat) (rows : List Bytes) : Bytes :=
  leBytes 4 rows.length ++ rows.flatMap (fun r => leBytes 4 dim ++ r)

/-- The rows of `n` times `d` numbers. -/
def cut (n d : Nat) (body : Bytes) : List Bytes := (List.range n).map (fun i => (body.drop (i * (d * 4))).take (d * 4))

/-- `_load_fbin`, `_load_ibin`. _datasets.py:196-217 -/
def benchBin (f : Bytes) : Option (List Bytes) :=
  if f.length < 8 then none
  else
    let n := leNat (f.take 4)
    let d := leNat ((f.drop 4).take 4)
    if (f.drop 8).length / 4 < n * d then none else some (cut n d (f.drop 8))

/-- `write_fbin`, `write_ibin`. laser/_io.py:54-67 -/
def writeBin (dim : Nat) (rows : List Bytes) : Bytes := leBytes 4 rows.length ++ leBytes 4 dim ++ rows.flatten

/-- `read_fbin(filename, start_idx, chunk_size)`. laser/_io.py:10-42 -/
def readFbin (f : Bytes) (start : Nat) (chunk : Option Nat) : Option (List Bytes) :=
  if f.length < 8 then none
  else
    let n := leNat (f.take 4)
    let d := leNat ((f.drop 4).take 4)
    let c := match chunk with
      | none => n - start
      | some c => min c (n - start)
    if (f.drop (8 + start * d * 4)).length / 4 < c * d then none else some (cut c d (f.drop (8 + start * d * 4)))

/-- `read_ibin(filename, start_idx, chunk_size)`: the part is not limited to the file. laser/_io.py:45-51 -/
def readIbin (f : Bytes) (start : Nat) (chunk : Option Nat) : Option (List Bytes) :=
  if f.length < 8 then none
  else
    let n := leNat (f.take 4)
    let d := leNat ((f.drop 4).take 4)
    let c := match chunk with
      | none => n - start
      | some c => c
    if ((f.drop 8).drop (start * 4 * d)).length / 4 < c * d then none else some (cut c d ((f.drop 8).drop (start * 4 * d)))

end Alaya.VecFiles
