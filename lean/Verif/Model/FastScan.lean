/-
Model of the code packing and table look-up behind RaBitQ distance estimates.

* `/repo/include/utils/rabitq_utils/fastscan.hpp:34-290`: `kPos`, `kPerm0`, `detail::accumulate_scalar`,
  `get_column`, `pack_codes`, and the three builds of `accumulate`.
* `/repo/include/utils/rabitq_utils/fastscan.hpp:395-406`: `pack_lut`.
* `/repo/include/space/quant/rabitq.hpp:21-43`: `pack_binary`.
* `/repo/include/utils/rabitq_utils/lut.hpp:27-118`: `data_range`, the scalar quantiser of the table, and `Lut`.

Bytes and 16-bit counters are natural numbers that every operation keeps below `256` and `65536`.  Memory is a
list; a read past its end gives `none`.  A SIMD register is the function from the index of a 16-bit lane to its
content.
-/
import Mathlib.Algebra.Order.Field.Basic
import Mathlib.Algebra.Order.Floor.Ring

namespace Alaya.FastScan

/-- `kPos` (`fastscan.hpp:40-43`). -/
def kPos : List Nat := [3, 3, 2, 3, 1, 3, 2, 3, 0, 3, 2, 3, 1, 3, 2, 3]

/-- `kPerm0` (`fastscan.hpp:48-49`): the vector whose code stands in each of the sixteen bytes. -/
def kPerm0 : List Nat := [0, 8, 1, 9, 2, 10, 3, 11, 4, 12, 5, 13, 6, 14, 7, 15]

/-! ### Packing -/

/-- `pack_binary` (`rabitq.hpp:28-43`), the byte of the group of eight dimensions starting at `i`.  The `int`s are
`0` or `1`; the cast to `uint8_t` and the store into `uint8_t` reduce modulo `256`. -/
def packByte (bits : List Nat) (i : Nat) : Option Nat :=
  (List.range 8).foldlM (fun cur j => do
    let b ← bits[i + j]?
    pure (cur ||| ((b % 256) <<< (7 - j)) % 256)) 0

/-- `pack_binary` (`rabitq.hpp:28-43`). -/
def packBinary (dim : Nat) (bits : List Nat) : Option (List Nat) :=
  (List.range ((dim + 7) / 8)).mapM (fun g => packByte bits (8 * g))

/-- `get_column` (`fastscan.hpp:83-97`) with a 32-byte destination. -/
def getColumn (src : List Nat) (rows cols row col : Nat) : Option (List Nat) :=
  (List.range 32).mapM (fun k =>
    if k < min (rows - row) 32 then src[(k + row) * cols + col]? else some 0)

/-- One half of the loop `fastscan.hpp:136-144`: the sixteen bytes made of the nibbles `c`. -/
def packHalf (c : List Nat) : Option (List Nat) :=
  (List.range 16).mapM (fun j => do
    let p ← kPerm0[j]?
    let lo ← c[p]?
    let hi ← c[p + 16]?
    pure (lo ||| (hi <<< 4) % 256))

/-- The 32 bytes written for one column of one batch (`fastscan.hpp:130-145`). -/
def packColumn (code : List Nat) (num cols row i : Nat) : Option (List Nat) := do
  let col ← getColumn code num cols row i
  let v0 ← packHalf (col.map (· >>> 4))
  let v1 ← packHalf (col.map (· &&& 15))
  pure (v0 ++ v1)

/-- `pack_codes` (`fastscan.hpp:110-148`): the bytes written to `blocks`, in order. -/
def packCodes (dim : Nat) (code : List Nat) (num : Nat) : Option (List Nat) := do
  let parts ← (List.range ((num + 31) / 32)).mapM (fun s => do
    let cs ← (List.range (dim / 8)).mapM (fun i => packColumn code num (dim / 8) (32 * s) i)
    pure cs.flatten)
  pure parts.flatten

/-- The codes stored for the neighbours of one node (`batch_quantize`, `rabitq.hpp:117-158`, the part that does not
compute factors): each neighbour's bits as bytes, one after the other, then `pack_codes`. -/
def quantCodes (dim : Nat) (X : List (List Nat)) : Option (List Nat) := do
  let cs ← X.mapM (packBinary dim)
  packCodes dim cs.flatten X.length

/-! ### Accumulating, portable -/

/-- `result[i] += x` on `uint16_t` (`fastscan.hpp:66-67`). -/
def bump (r : Nat → Nat) (i x : Nat) : Nat → Nat :=
  fun v => if v = i then (r v + x) % 65536 else r v

/-- One of the two inner loops of `accumulate_scalar` (`fastscan.hpp:61-69`, `71-78`). -/
def scalarHalf (codes lp : List Nat) (base : Nat) (r : Nat → Nat) : Option (Nat → Nat) :=
  (List.range 16).foldlM (fun r lane => do
    let code ← codes[base + lane]?
    let p ← kPerm0[lane]?
    let lo ← lp[base + (code &&& 0x0F)]?
    let hi ← lp[base + (code >>> 4)]?
    pure (bump (bump r p lo) (p + 16) hi)) r

/-- `accumulate_scalar` (`fastscan.hpp:53-80`). -/
def accScalar (codes lp : List Nat) (dim : Nat) : Option (List Nat) := do
  let r ← (List.range ((4 * dim + 31) / 32)).foldlM (fun r s => do
    let r ← scalarHalf codes lp (32 * s) r
    scalarHalf codes lp (32 * s + 16) r) (fun _ => 0)
  pure ((List.range 32).map r)

/-! ### The instructions used by the SIMD builds -/

/-- A register: its 16-bit lanes. -/
abbrev Reg := Nat → Nat

/-- The `k`-th byte. -/
def byte (r : Reg) (k : Nat) : Nat := if k % 2 = 0 then r (k / 2) % 256 else r (k / 2) / 256

/-- The register with these bytes. -/
def ofBytes (f : Nat → Nat) : Reg := fun l => f (2 * l) + 256 * f (2 * l + 1)

/-- `loadu` of `n` bytes. -/
def load (n : Nat) (mem : List Nat) (i : Nat) : Option Reg :=
  if i + n ≤ mem.length then some (ofBytes (fun k => mem.getD (i + k) 0)) else none

/-- `and(c, set1_epi8(0x0f))`. -/
def andLow (c : Reg) : Reg := ofBytes (fun k => byte c k &&& 0x0f)

/-- `srli_epi16`. -/
def srli (c : Reg) (n : Nat) : Reg := fun l => c l >>> n

/-- `slli_epi16`. -/
def slli (c : Reg) (n : Nat) : Reg := fun l => (c l <<< n) % 65536

/-- `add_epi16`. -/
def add (a b : Reg) : Reg := fun l => (a l + b l) % 65536

/-- `sub_epi16`. -/
def sub (a b : Reg) : Reg := fun l => (a l + 65536 - b l) % 65536

/-- `shuffle_epi8`: a look-up within each group of sixteen bytes; an index with its top bit set gives zero. -/
def shuffle8 (t idx : Reg) : Reg :=
  ofBytes (fun k => if 128 ≤ byte idx k then 0 else byte t (16 * (k / 16) + byte idx k % 16))

/-- `mask_blend_epi64`. -/
def blend64 (mask : Nat) (a b : Reg) : Reg := fun l => if mask.testBit (l / 4) then b l else a l

/-- `blend_epi32`. -/
def blend32 (a b : Reg) (mask : Nat) : Reg := fun l => if mask.testBit (l / 2) then b l else a l

/-- `_mm512_shuffle_i64x2`: two groups of 128 bits of `a`, then two of `b`. -/
def shuffle64x2 (a b : Reg) (imm : Nat) : Reg := fun l =>
  (if l / 8 < 2 then a else b) (8 * ((imm >>> (2 * (l / 8))) % 4) + l % 8)

/-- `_mm256_permute2f128_si256`. -/
def permute2x128 (a b : Reg) (imm : Nat) : Reg := fun l =>
  let c := (imm >>> (4 * (l / 8))) % 16
  if c.testBit 3 then 0 else (if c % 4 < 2 then a else b) (8 * (c % 2) + l % 8)

/-- The four accumulators. -/
structure Accs where
  a0 : Reg
  a1 : Reg
  a2 : Reg
  a3 : Reg

/-- All zero. -/
def Accs.zero : Accs := ⟨fun _ => 0, fun _ => 0, fun _ => 0, fun _ => 0⟩

/-- The body shared by the SIMD loops (`fastscan.hpp:182-199`, `241-252`, `254-265`) on `n` bytes from `i`. -/
def simdStep (n : Nat) (codes lp : List Nat) (i : Nat) (s : Accs) : Option Accs := do
  let c ← load n codes i
  let lut ← load n lp i
  let lo := andLow c
  let hi := andLow (srli c 4)
  let resLo := shuffle8 lut lo
  let resHi := shuffle8 lut hi
  pure ⟨add s.a0 resLo, add s.a1 (srli resLo 8), add s.a2 resHi, add s.a3 (srli resHi 8)⟩

/-- `accumulate` with AVX-512 (`fastscan.hpp:162-225`), for `dim` a multiple of 16. -/
def acc512 (codes lp : List Nat) (dim : Nat) : Option (List Nat) := do
  let s ← (List.range ((4 * dim + 63) / 64)).foldlM (fun s k => simdStep 64 codes lp (64 * k) s) Accs.zero
  let a0 := sub s.a0 (slli s.a1 8)
  let a2 := sub s.a2 (slli s.a3 8)
  let ret1 := add (blend64 0b11110000 a0 s.a1) (shuffle64x2 a0 s.a1 0b01001110)
  let ret2 := add (blend64 0b11110000 a2 s.a3) (shuffle64x2 a2 s.a3 0b01001110)
  let ret : Reg := fun _ => 0
  let ret := add ret (shuffle64x2 ret1 ret2 0b10001000)
  let ret := add ret (shuffle64x2 ret1 ret2 0b11011101)
  pure ((List.range 32).map ret)

/-- `accumulate` with AVX2 (`fastscan.hpp:227-277`), for `dim` a multiple of 16. -/
def acc256 (codes lp : List Nat) (dim : Nat) : Option (List Nat) := do
  let s ← (List.range ((4 * dim + 63) / 64)).foldlM (fun s k => do
    let s ← simdStep 32 codes lp (64 * k) s
    simdStep 32 codes lp (64 * k + 32) s) Accs.zero
  let a0 := sub s.a0 (slli s.a1 8)
  let dis0 := add (permute2x128 a0 s.a1 0x21) (blend32 a0 s.a1 0xF0)
  let a2 := sub s.a2 (slli s.a3 8)
  let dis1 := add (permute2x128 a2 s.a3 0x21) (blend32 a2 s.a3 0xF0)
  pure ((List.range 16).map dis0 ++ (List.range 16).map dis1)

/-- The instruction set the library was compiled for. -/
inductive Isa where
  | avx512
  | avx2
  | portable
deriving DecidableEq, Repr

/-- `accumulate` (`fastscan.hpp:151-285`). -/
def accumulate (isa : Isa) (codes lp : List Nat) (dim : Nat) : Option (List Nat) :=
  if dim % 16 ≠ 0 then accScalar codes lp dim
  else match isa with
    | .avx512 => acc512 codes lp dim
    | .avx2 => acc256 codes lp dim
    | .portable => accScalar codes lp dim

/-! ### The table -/

/-- `LOWBIT` (`defines.hpp:23`): the lowest bit set. -/
def lowbit (j : Nat) : Nat := 2 ^ (List.range 4).findIdx (fun b => j.testBit b)

section Lut
variable {K : Type} [Field K] [LinearOrder K] [IsStrictOrderedRing K] [FloorRing K]

/-- The sixteen entries of one table (`fastscan.hpp:399-402`), written left to right from the four query
coordinates `q`. -/
def lutGroup (q : List K) : Option (List K) :=
  (List.range 15).foldlM (fun (acc : List K) i => do
    let j := i + 1
    let prev ← acc[j - lowbit j]?
    let p ← kPos[j]?
    let x ← q[p]?
    pure (acc ++ [prev + x])) [0]

/-- `pack_lut` (`fastscan.hpp:395-406`). -/
def packLut (dim : Nat) (query : List K) : Option (List K) := do
  let gs ← (List.range (dim / 4)).mapM (fun i => lutGroup ((query.drop (4 * i)).take 4))
  pure gs.flatten

/-- `std::round` and Eigen's `round`: to the nearest integer, halves away from zero. -/
def roundAway (x : K) : Int := if 0 ≤ x then ⌊x + 1 / 2⌋ else ⌈x - 1 / 2⌉

/-- `_mm512_cvtps_epi32`: to the nearest integer, halves to the even neighbour. -/
def roundEven (x : K) : Int :=
  let f := ⌊x + 1 / 2⌋
  if (f : K) = x + 1 / 2 ∧ f % 2 = 1 then f - 1 else f

/-- `minCoeff`, `maxCoeff` (`lut.hpp:27-32`); an empty array is undefined. -/
def dataRange : List K → Option (K × K)
  | [] => none
  | x :: xs => some (xs.foldl min x, xs.foldl max x)

/-- One byte of the table.  The portable build casts a float to `uint8_t`, which is undefined unless the value is in
range (`lut.hpp:51`); the AVX-512 build converts to a 32-bit integer and keeps the low byte (`lut.hpp:64-70`; the
table length is a multiple of 16, so its tail loop is not entered). -/
def quantByte (isa : Isa) (x : K) : Option Nat :=
  match isa with
  | .avx512 => some (roundEven x % 256).toNat
  | _ => if 0 ≤ roundAway x ∧ roundAway x < 256 then some (roundAway x).toNat else none

/-- The table of a query (`Lut`, `lut.hpp:79-118`). -/
structure Lut (K : Type) where
  lut : List Nat
  delta : K
  sumVl : K

/-- `Lut::Lut` (`lut.hpp:92-118`).  With `delta = 0` the portable build casts a NaN to `uint8_t`, which is
undefined; the AVX-512 build gives `INT_MIN`, whose low byte is zero. -/
def mkLut (isa : Isa) (q : List K) (dim : Nat) : Option (Lut K) := do
  let lf ← packLut dim q
  let (lo, hi) ← dataRange lf
  let delta := (hi - lo) / 255
  let bytes ← (if delta = 0 then
      (match isa with
        | .avx512 => some (lf.map (fun _ => 0))
        | _ => none)
    else lf.mapM (fun v => quantByte isa ((v - lo) * (1 / delta))) : Option (List Nat))
  pure ⟨bytes, delta, lo * ((dim / 4 : Nat) : K)⟩

end Lut

end Alaya.FastScan
