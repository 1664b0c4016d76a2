import Verif.Model.FhtAsm

/-
The random rotation of /repo/include/utils/rabitq_utils/rotator.hpp (`FhtKacRotator`), with the choice of the transform
(/repo/include/simd/fht.ipp:3651-3783).

The rotated vector is a list of floats; an access behind the end of it or of the sign bits gives `none`; an exception gives `some none`.
The random sign bits are arbitrary bytes.
-/
namespace Alaya.Fht

variable {α : Type} [Zero α] [Add α] [Sub α]

/-- What the processor offers at run time (`get_cpu_features`). -/
inductive Level
  | generic
  | avx2
  | avx512
  deriving DecidableEq

/-- `if (f.avx512f_) … if (f.avx2_) … else generic`. fht.ipp:3654-3660 -/
def level (avx512f avx2 : Bool) : Level := if avx512f then .avx512 else if avx2 then .avx2 else .generic

/-- `helper_float_6` … `helper_float_11`. fht.ipp:3651-3752.  `none` for other sizes, for which there is no function. -/
def helper (lv : Level) (logn : Nat) (ptr : Nat) (buf : List α) : Option (List α) :=
  match logn, lv with
  | 6, .avx512 => exec h6_avx512 ptr buf
  | 6, .avx2 => exec h6_avx2 ptr buf
  | 7, .avx512 => exec h7_avx512 ptr buf
  | 7, .avx2 => exec h7_avx2 ptr buf
  | 8, .avx512 => exec h8_avx512 ptr buf
  | 8, .avx2 => exec h8_avx2 ptr buf
  | 9, .avx512 => exec h9_avx512 ptr buf
  | 9, .avx2 => exec h9_avx2 ptr buf
  | 10, .avx512 => exec h10_avx512 ptr buf
  | 10, .avx2 => exec h10_avx2 ptr buf
  | 11, .avx512 => exec h11_avx512 ptr buf
  | 11, .avx2 => exec h11_avx2 ptr buf
  | n, .generic => if 6 ≤ n ∧ n ≤ 11 then fwht n ptr buf else none
  | _, _ => none

/-- `fht_float`: the buffer and the return value. fht.ipp:3754-3779 -/
def fhtFloat (lv : Level) (buf : List α) (logn : Int) : Option (List α × Nat) :=
  if 6 ≤ logn ∧ logn ≤ 11 then (helper lv logn.toNat 0 buf).map (fun b => (b, 0)) else some (buf, 1)

section
variable [Neg α]

/-- `flip_sign` without AVX-512: bit `i % 8` of byte `i / 8`. rotator.hpp:172-179 -/
def flipScalar (flip : List UInt8) (off : Nat) (buf : List α) (dim : Nat) : Option (List α) :=
  (List.range dim).foldlM (fun b i => do
    let byte ← flip[off + i / 8]?
    let x ← b[i]?
    if byte.toNat.testBit (i % 8) then some (b.set i (-x)) else some b) buf

/-- `_mm512_mask_xor_ps` with the sign bit: lanes whose bit is set in the mask are negated. -/
def maskNeg (mask : Nat) (v : List α) : List α := v.mapIdx (fun l x => if mask.testBit l then -x else x)

/-- Little-endian number of eight bytes. `memcpy(&mask_bits, &flip[i / 8], 8)`. rotator.hpp:142 -/
def mask64 (flip : List UInt8) (p : Nat) : Option Nat :=
  if p + 8 ≤ flip.length then some (((flip.drop p).take 8).foldr (fun b n => b.toNat + 2 ^ 8 * n) 0) else none

/-- 16 floats with one mask. rotator.hpp:153-155 -/
def flip16 (mask : Nat) (buf : List α) (p : Nat) : Option (List α) := do
  let v ← fetch 16 buf p
  some (splice buf p (maskNeg mask v))

/-- `flip_sign` with AVX-512: 64 floats at a time. rotator.hpp:131-171 -/
def flipVec (flip : List UInt8) (off : Nat) (buf : List α) (dim : Nat) : Option (List α) :=
  (steps dim 64).foldlM (fun b i => do
    let mask ← mask64 flip (off + i / 8)
    let b ← flip16 (mask % 2 ^ 16) b i
    let b ← flip16 (mask / 2 ^ 16 % 2 ^ 16) b (i + 16)
    let b ← flip16 (mask / 2 ^ 32 % 2 ^ 16) b (i + 32)
    flip16 (mask / 2 ^ 48 % 2 ^ 16) b (i + 48)) buf

/-- `kacs_walk` without AVX-512. rotator.hpp:288-294 -/
def kacsScalar (buf : List α) (len : Nat) : Option (List α) :=
  (List.range (len / 2)).foldlM (fun b i => butterfly b i (i + len / 2)) buf

/-- `kacs_walk` with AVX-512: 16 floats at a time. rotator.hpp:274-286 -/
def kacsVec (buf : List α) (len : Nat) : Option (List α) :=
  (steps (len / 2) 16).foldlM (fun b i => do
    let x ← fetch 16 b i
    let y ← fetch 16 b (i + len / 2)
    some (splice (splice b i (List.zipWith (· + ·) x y)) (i + len / 2) (List.zipWith (· - ·) x y))) buf

variable [Mul α]

/-- `vec_rescale(data + start, dim, val)`. rotator.hpp:183-187 -/
def rescale (buf : List α) (start dim : Nat) (val : α) : Option (List α) := do
  let v ← fetch dim buf start
  some (splice buf start (v.map (· * val)))

/-- How the program was compiled (`__AVX512F__`) and where it runs. -/
structure Build where
  vec : Bool
  lv : Level

/-- `flip_sign` -/
def Build.flip (b : Build) (flip : List UInt8) (off : Nat) (buf : List α) (dim : Nat) : Option (List α) :=
  if b.vec then flipVec flip off buf dim else flipScalar flip off buf dim

/-- `kacs_walk` -/
def Build.kacs (b : Build) (buf : List α) (len : Nat) : Option (List α) := if b.vec then kacsVec buf len else kacsScalar buf len

/-- `FhtKacRotator`: dimensions, sign bits, log2 of `trunc_dim_`, `fac_`. rotator.hpp:190-198 -/
structure Rot (α : Type) where
  dim : Nat
  padded : Nat
  flip : List UInt8
  logn : Nat
  fac : α

/-- The constructor: `4 * padded_dim / 8` random bytes, `floor_log2` and the `switch`; `none` is `std::invalid_argument`.
    rotator.hpp:200-240 -/
def Rot.make (invsqrt : Nat → α) (dim padded : Nat) (random : Nat → UInt8) : Option (Rot α) :=
  if 6 ≤ Nat.log2 dim ∧ Nat.log2 dim ≤ 11 then
    some { dim := dim, padded := padded, flip := (List.range (4 * padded / 8)).map random, logn := Nat.log2 dim, fac := invsqrt (2 ^ Nat.log2 dim) }
  else none

/-- One round: `flip_sign`, transform, scaling. rotator.hpp:301-303 -/
def Rot.round (r : Rot α) (b : Build) (i start : Nat) (v : List α) : Option (List α) := do
  let v ← b.flip r.flip (i * r.padded / 8) v r.padded
  let v ← helper b.lv r.logn start v
  rescale v start (2 ^ r.logn) r.fac

/-- One round followed by `kacs_walk`. rotator.hpp:322-325 -/
def Rot.roundK (r : Rot α) (b : Build) (i start : Nat) (v : List α) : Option (List α) := do
  let v ← r.round b i start v
  b.kacs v r.padded

/-- `rotate`. rotator.hpp:296-345.  `quarter` is 0.25. -/
def Rot.rotate (r : Rot α) (b : Build) (quarter : α) (data : List α) : Option (List α) := do
  -- memcpy and fill
  if data.length < r.dim ∨ r.padded < r.dim then none
  let v := data.take r.dim ++ List.replicate (r.padded - r.dim) 0
  if 2 ^ r.logn = r.padded then do
    let v ← r.round b 0 0 v
    let v ← r.round b 1 0 v
    let v ← r.round b 2 0 v
    r.round b 3 0 v
  else do
    let start := r.padded - 2 ^ r.logn
    let v ← r.roundK b 0 0 v
    let v ← r.roundK b 1 start v
    let v ← r.roundK b 2 0 v
    let v ← r.roundK b 3 start v
    rescale v 0 r.padded quarter

end

/-- `padding_requirement` and `choose_rotator` for this kind of rotator: `padded = 0` asks for the default. rotator.hpp:62-72, 349-387 -/
def chooseRotator {α : Type} (invsqrt : Nat → α) (dim padded : Nat) (random : Nat → UInt8) : Option (Rot α) :=
  let padded := if padded = 0 then (dim + 63) / 64 * 64 else padded
  if padded = (padded + 63) / 64 * 64 then Rot.make invsqrt dim padded random else none

/-- `save` and `load`: the sign bits only. rotator.hpp:243-251 -/
def Rot.save {α : Type} (r : Rot α) : List UInt8 := r.flip

def Rot.load {α : Type} (r : Rot α) (file : List UInt8) : Rot α := { r with flip := file.take r.flip.length ++ r.flip.drop file.length }

end Alaya.Fht
