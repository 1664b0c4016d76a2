/-
Model of the scan of a node's neighbours in the LASER index.

* `/repo/include/index/graph/laser/space/bitwise.hpp:35-46`: `pack_binary`.
* `/repo/include/index/graph/laser/quantization/fastscan_impl.hpp:57-153`: `get_column`, `pack_codes_helper`,
  `pack_codes`, `pack_lut_impl`.
* `/repo/include/index/graph/laser/utils/scalar_quantize.hpp:26-65` and
  `/repo/include/index/graph/laser/qg/qg_query.hpp:59-72`: the query as bytes and its table.
* `/repo/include/simd/laser_dispatch.hpp:101-150`: the portable kernel, the conversion and the estimate.
* `/repo/include/index/graph/laser/qg/qg_scanner.hpp:56-89`: `scan_neighbors`.

The AVX-512 and AVX2 kernels (`laser_dispatch.hpp:189-287`) are, instruction for instruction, those of
`utils/rabitq_utils/fastscan.hpp`, so `acc512` and `acc256` of `Verif/Model/FastScan.lean` are used for them;
`kPos`, `kPerm0`, `LOWBIT` and `get_column` are the same too.

Simplified: floats are the elements of an ordered field.  `pack_binary` is called on the rows of all neighbours put
one after the other; a row is a whole number of 64-bit words, so the words of a row are made from it alone and the
model packs row by row.  The rotation of the query is not part of this model: the query here is the rotated one.
-/
import Verif.Model.FastScan

namespace Alaya.LaserScan

open Alaya.FastScan

/-! ### Packing -/

/-- `pack_binary` (`bitwise.hpp:39-43`): the word of the 64 dimensions starting at `i`. -/
def packWord (bits : List Nat) (i : Nat) : Option Nat :=
  (List.range 64).foldlM (fun cur j => do
    let b ← bits[i + j]?
    pure (cur ||| (b <<< (63 - j)) % 2 ^ 64)) 0

/-- The eight bytes of a word in memory, least significant first (`memcpy`, `fastscan_impl.hpp:120`). -/
def wordBytes (w : Nat) : List Nat := (List.range 8).map (fun k => (w >>> (8 * k)) % 256)

/-- `std::swap` of two bytes (`fastscan_impl.hpp:125-126`). -/
def swapAt (b : List Nat) (i j : Nat) : List Nat := (b.set i (b.getD j 0)).set j (b.getD i 0)

/-- The loop over `k` (`fastscan_impl.hpp:124-127`) on the bytes of one word. -/
def swapBytes (b : List Nat) : List Nat := (List.range 4).foldl (fun b k => swapAt b k (8 - k - 1)) b

/-- The nibbles of a byte exchanged (`fastscan_impl.hpp:132-135`). -/
def swapNibbles (val : Nat) : Nat := ((val &&& 15) <<< 4) % 256 ||| (val >>> 4)

/-- One row of `binary_code_8bit` when the helper is called (`bitwise.hpp:35-46`, `fastscan_impl.hpp:118-136`). -/
def rowBytes (dim : Nat) (bits : List Nat) : Option (List Nat) := do
  let ws ← (List.range (dim / 64)).mapM (fun w => packWord bits (64 * w))
  pure ((ws.map (fun w => swapBytes (wordBytes w))).flatten.map swapNibbles)

/-- The 32 bytes written for one column (`fastscan_impl.hpp:95-109`). -/
def helperColumn (code : List Nat) (num cols row i : Nat) : Option (List Nat) := do
  let col ← getColumn code num cols row i
  let v0 ← packHalf (col.map (· &&& 15))
  let v1 ← packHalf (col.map (· >>> 4))
  pure (v0 ++ v1)

/-- `pack_codes_helper` (`fastscan_impl.hpp:83-112`): the bytes written to `blocks`, in order. -/
def packHelper (dim : Nat) (code : List Nat) (num : Nat) : Option (List Nat) := do
  let parts ← (List.range ((num + 31) / 32)).mapM (fun s => do
    let cs ← (List.range ((dim / 4 + 1) / 2)).mapM (fun i => helperColumn code num (dim / 4 / 2) (32 * s) i)
    pure cs.flatten)
  pure parts.flatten

/-- The codes stored for the neighbours `X` of a node (`rabitq_codes`, `quantization/rabitq.hpp:71-76`). -/
def storeCodes (dim : Nat) (X : List (List Nat)) : Option (List Nat) := do
  let cs ← X.mapM (rowBytes dim)
  packHelper dim cs.flatten X.length

/-! ### The kernels -/

/-- The inner loop of the portable kernel (`laser_dispatch.hpp:109-122`), for the two tables from `base`. -/
def genericPair (codes lut : List Nat) (base : Nat) (r : Nat → Nat) : Option (Nat → Nat) :=
  (List.range 16).foldlM (fun r lane => do
    let low ← kPerm0[lane]?
    let p0 ← codes[base + lane]?
    let a ← lut[base + (p0 &&& 0x0F)]?
    let b ← lut[base + (p0 >>> 4)]?
    let p1 ← codes[base + (lane + 16)]?
    let c ← lut[base + 16 + (p1 &&& 0x0F)]?
    let d ← lut[base + 16 + (p1 >>> 4)]?
    pure (bump (bump (bump (bump r low a) (low + 16) b) low c) (low + 16) d)) r

/-- `accumulate_impl_generic` (`laser_dispatch.hpp:101-125`). -/
def accGeneric (codes lut : List Nat) (dim : Nat) : Option (List Nat) := do
  let r ← (List.range ((dim / 4 + 1) / 2)).foldlM (fun r k => genericPair codes lut (32 * k) r) (fun _ => 0)
  pure ((List.range 32).map r)

/-- `get_accumulate_func` (`laser_dispatch.hpp:83-94`): the kernel of the processor. -/
def kernel (isa : Isa) (codes lut : List Nat) (dim : Nat) : Option (List Nat) :=
  match isa with
  | .avx512 => acc512 codes lut dim
  | .avx2 => acc256 codes lut dim
  | .portable => accGeneric codes lut dim

/-! ### The query -/

/-- The sixteen bytes of one table (`fastscan_impl.hpp:146-149`). -/
def lutGroup8 (q : List Nat) : Option (List Nat) :=
  (List.range 15).foldlM (fun (acc : List Nat) i => do
    let j := i + 1
    let prev ← acc[j - lowbit j]?
    let p ← kPos[j]?
    let x ← q[p]?
    pure (acc ++ [(prev + x) % 256])) [0]

/-- `pack_lut_impl` (`fastscan_impl.hpp:141-153`). -/
def packLut8 (dim : Nat) (q : List Nat) : Option (List Nat) := do
  let gs ← (List.range (dim / 4)).mapM (fun i => lutGroup8 ((q.drop (4 * i)).take 4))
  pure gs.flatten

section
variable {K : Type} [Field K] [LinearOrder K] [IsStrictOrderedRing K] [FloorRing K]

/-- One coordinate as a byte (`scalar_quantize.hpp:60`): `std::lround`, with halves away from zero, of the scaled
coordinate plus one half. -/
def quantCoord (lo width v : K) : Nat := (roundAway ((v - lo) * (1 / width) + 1 / 2) % 256).toNat

/-- What `query_prepare` leaves in the `QGQuery`. -/
structure Prepared (K : Type) where
  lut : List Nat
  width : K
  lower : K
  sumq : Int

/-- `query_prepare` (`qg_query.hpp:65-71`), with `QG_BQUERY = 6` (`common.hpp:25`).  With all coordinates equal the
width is zero and `lround` is applied to a NaN, which has no specified result: `none`. -/
def prepare (dim : Nat) (v : List K) : Option (Prepared K) := do
  let (lo, hi) ← dataRange v
  let width := (hi - lo) / 63
  if width = 0 then none else do
    let q := v.map (quantCoord lo width)
    let lut ← packLut8 dim q
    pure ⟨lut, width, lo, (q.sum : Nat)⟩

/-- `static_cast<int16_t>` of a `uint16_t`. -/
def toInt16 (n : Nat) : Int := if n < 32768 then n else (n : Int) - 65536

/-- `convert_accum_to_float_generic` (`laser_dispatch.hpp:148`). -/
def convert (n : Nat) (sumq : Int) : Int := 2 * toInt16 n - sumq

/-- The three numbers stored for a neighbour. -/
structure Factors (K : Type) where
  tripleX : K
  dq : K
  vq : K

/-- `appro_dist_impl_generic` (`laser_dispatch.hpp:138-139`). -/
def approDist (sqrY width vl sqrQr : K) (result : Int) (f : Factors K) : K :=
  sqrY + f.tripleX + f.dq * width * (result : K) + f.vq * vl + sqrQr

/-- `scan_neighbors` (`qg_scanner.hpp:56-89`) for the block of 32 neighbours number `s` of the packed codes `B`; `F`
are the factors of all neighbours. -/
def scanBlock (isa : Isa) (dim : Nat) (Q : Prepared K) (B : List Nat) (F : List (Factors K)) (sqrY sqrQr : K)
    (s : Nat) : Option (List K) := do
  let res ← kernel isa (B.drop (4 * dim * s)) Q.lut dim
  (List.range 32).mapM (fun v => do
    let n ← res[v]?
    let f ← F[32 * s + v]?
    pure (approDist sqrY Q.width Q.lower sqrQr (convert n Q.sumq) f))

/-- `scan_neighbors` (`qg_scanner.hpp:56-89`): the estimates of `degree` neighbours, `degree` a multiple of 32. -/
def scan (isa : Isa) (dim degree : Nat) (Q : Prepared K) (B : List Nat) (F : List (Factors K)) (sqrY sqrQr : K) :
    Option (List K) := do
  let parts ← (List.range ((degree + 31) / 32)).mapM (scanBlock isa dim Q B F sqrY sqrQr)
  pure parts.flatten

end

end Alaya.LaserScan
