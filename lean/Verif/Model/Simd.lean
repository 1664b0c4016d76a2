import Mathlib.Algebra.Ring.Basic
import Mathlib.Algebra.BigOperators.Group.List.Basic

/-
The distance kernels of /repo/include/simd/distance_l2.ipp and /repo/include/simd/distance_ip.ipp (generic, AVX2, AVX-512; full precision,
8-bit and 4-bit codes) and the choice between them (/repo/include/simd/cpu_features.hpp).

A vector register is the list of its lanes.  Numbers are of a commutative ring: no rounding, so that the order of additions does not show.
Memory is a list; an access behind its end gives `none`, as does a register of the wrong width.  The `k` in the code kernels is the constant
1/255 or 1/15.  `_mm512_reduce_add_ps` is the sum of the lanes.
-/
namespace Alaya.Simd

variable {R : Type} [CommRing R]

/-- `_mm256_loadu_ps`, `_mm512_loadu_ps`, `_mm_loadu_si128`, `_mm_loadl_epi64`: `w` consecutive elements. -/
def load {α : Type} (w : Nat) (x : List α) (i : Nat) : Option (List α) := if i + w ≤ x.length then some ((x.drop i).take w) else none

/-- Lane by lane. -/
def vadd (a b : List R) : List R := List.zipWith (· + ·) a b
def vsub (a b : List R) : List R := List.zipWith (· - ·) a b
def vmul (a b : List R) : List R := List.zipWith (· * ·) a b
/-- `fmadd(a, b, c)` -/
def vfma (a b c : List R) : List R := vadd (vmul a b) c

/-- `setzero` -/
def vzero (w : Nat) : List R := List.replicate w 0

/-- `set1` -/
def vset1 (w : Nat) (c : R) : List R := List.replicate w c

/-- `cvtepu8_epi32` and `cvtepi32_ps` of the first `w` bytes. -/
def cvt (w : Nat) (b : List Nat) : List R := (b.take w).map (fun n : Nat => (n : R))

/-- The horizontal sum of 8 lanes: extract, cast, add, movehdup, add, movehl, add_ss. distance_l2.ipp:87-96 -/
def hsum8 : List R → Option R
  | [a0, a1, a2, a3, a4, a5, a6, a7] =>
    let s0 := a0 + a4
    let s1 := a1 + a5
    let s2 := a2 + a6
    let s3 := a3 + a7
    -- shuf = [s1, s1, s3, s3]; sum128 = sum128 + shuf
    let t0 := s0 + s1
    let t2 := s2 + s3
    -- shuf = movehl(shuf, sum128): lane 0 is lane 2 of sum128
    some (t0 + t2)
  | _ => none

/-- The reduction of DiskANN. distance_l2.ipp:128-131 -/
def hsumCompat : List R → Option R
  | [a0, a1, a2, a3, a4, a5, a6, a7] =>
    let x0 := a4 + a0
    let x1 := a5 + a1
    let x2 := a6 + a2
    let x3 := a7 + a3
    -- x64 = x128 + movehl(x128, x128)
    let y0 := x0 + x2
    let y1 := x1 + x3
    -- x32 = x64 + shuffle(x64, x64, 0x55)
    some (y0 + y1)
  | _ => none

/-- `_mm512_reduce_add_ps` -/
def hsum16 (a : List R) : Option R := if a.length = 16 then some a.sum else none

/-- The product of one block, to be added to an accumulator: `diff = vx - vy; diff * diff`. distance_l2.ipp:52-72, 77-80 -/
def blkL2 (x y : List R) (w i : Nat) : Option (List R) :=
  match load w x i, load w y i with
  | some vx, some vy => some (vmul (vsub vx vy) (vsub vx vy))
  | _, _ => none

/-- `vx * vy`. distance_ip.ipp:54-68, 73-75 -/
def blkIp (x y : List R) (w i : Nat) : Option (List R) :=
  match load w x i, load w y i with
  | some vx, some vy => some (vmul vx vy)
  | _, _ => none

/-- Scale `(max - min) * k` and square of the scaled difference. distance_l2.ipp:279-311, 316-329 -/
def blkSq8L2 (k : R) (x y : List Nat) (mn mx : List R) (w i : Nat) : Option (List R) :=
  match load w x i, load w y i, load w mn i, load w mx i with
  | some bx, some by', some vmn, some vmx =>
    let scale := vmul (vsub vmx vmn) (vset1 w k)
    let diff := vmul (vsub (cvt w bx) (cvt w by')) scale
    some (vmul diff diff)
  | _, _, _, _ => none

/-- Product of the decoded values. distance_ip.ipp:197-231, 236-250 -/
def blkSq8Ip (k : R) (x y : List Nat) (mn mx : List R) (w i : Nat) : Option (List R) :=
  match load w x i, load w y i, load w mn i, load w mx i with
  | some bx, some by', some vmn, some vmx =>
    let scale := vmul (vsub vmx vmn) (vset1 w k)
    some (vmul (vfma (cvt w bx) scale vmn) (vfma (cvt w by') scale vmn))
  | _, _, _, _ => none

/-- Four accumulators. -/
structure Acc where
  s0 : List R
  s1 : List R
  s2 : List R
  s3 : List R

/-- `for (; i + 4w <= dim; i += 4w)`. distance_l2.ipp:51-73 -/
def loop4 (blk : Nat → Option (List R)) (w dim : Nat) : Nat → Nat → Acc (R := R) → Option (Nat × Acc (R := R))
  | 0, _, _ => none
  | fuel + 1, i, s =>
    if i + 4 * w ≤ dim then
      match blk i, blk (i + w), blk (i + 2 * w), blk (i + 3 * w) with
      | some b0, some b1, some b2, some b3 => loop4 blk w dim fuel (i + 4 * w) ⟨vadd b0 s.s0, vadd b1 s.s1, vadd b2 s.s2, vadd b3 s.s3⟩
      | _, _, _, _ => none
    else some (i, s)

/-- `for (; i + 2w <= dim; i += 2w)` with two accumulators. distance_l2.ipp:276-312 -/
def loop2 (blk : Nat → Option (List R)) (w dim : Nat) : Nat → Nat → List R → List R → Option (Nat × List R × List R)
  | 0, _, _, _ => none
  | fuel + 1, i, s0, s1 =>
    if i + 2 * w ≤ dim then
      match blk i, blk (i + w) with
      | some b0, some b1 => loop2 blk w dim fuel (i + 2 * w) (vadd b0 s0) (vadd b1 s1)
      | _, _ => none
    else some (i, s0, s1)

/-- `for (; i + w <= dim; i += w)`. distance_l2.ipp:76-81 -/
def loop1 (blk : Nat → Option (List R)) (w dim : Nat) : Nat → Nat → List R → Option (Nat × List R)
  | 0, _, _ => none
  | fuel + 1, i, s =>
    if i + w ≤ dim then
      match blk i with
      | some b => loop1 blk w dim fuel (i + w) (vadd b s)
      | none => none
    else some (i, s)

/-- The scalar loop `for (; i < dim; ++i)`; the generic kernels are it alone. distance_l2.ipp:31-35, 99-102 -/
def tail (t : Nat → Option R) (dim : Nat) : Nat → Nat → R → Option R
  | 0, _, _ => none
  | fuel + 1, i, r =>
    if i < dim then
      match t i with
      | some v => tail t dim fuel (i + 1) (r + v)
      | none => none
    else some r

/-- `_mm512_maskz_loadu_ps` with the mask `(1U << remaining) - 1`, cut to 16 bits. distance_l2.ipp:191-194 -/
def mask (remaining : Nat) : Nat := ((1 <<< remaining) % 2 ^ 32 - 1) % 2 ^ 16

def maskLoad (x : List R) (i m : Nat) : Nat → Option (List R)
  | 0 => some []
  | n + 1 =>
    match maskLoad x i m n with
    | none => none
    | some l =>
      if m.testBit n then
        match x[i + n]? with
        | some v => some (l ++ [v])
        | none => none
      else some (l ++ [0])

/-- `_mm512_mask_reduce_add_ps` -/
def maskSum (m : Nat) (a : List R) : R := ((List.range 16).map (fun k => if m.testBit k then a.getD k 0 else 0)).sum

/-- One element. -/
def termL2 (x y : List R) (i : Nat) : Option R :=
  match x[i]?, y[i]? with
  | some a, some b => some ((a - b) * (a - b))
  | _, _ => none

def termIp (x y : List R) (i : Nat) : Option R :=
  match x[i]?, y[i]? with
  | some a, some b => some (a * b)
  | _, _ => none

/-- distance_l2.ipp:218-222 -/
def termSq8L2 (k : R) (x y : List Nat) (mn mx : List R) (i : Nat) : Option R :=
  match x[i]?, y[i]?, mn[i]?, mx[i]? with
  | some a, some b, some l, some h => some ((((a : R) - b) * ((h - l) * k)) * (((a : R) - b) * ((h - l) * k)))
  | _, _, _, _ => none

/-- distance_ip.ipp:169-173 -/
def termSq8Ip (k : R) (x y : List Nat) (mn mx : List R) (i : Nat) : Option R :=
  match x[i]?, y[i]?, mn[i]?, mx[i]? with
  | some a, some b, some l, some h => some ((l + a * ((h - l) * k)) * (l + b * ((h - l) * k)))
  | _, _, _, _ => none

/-- `l2_sqr_generic` and the other loops over single elements. distance_l2.ipp:29-37, 211-224, distance_ip.ipp:32-40, 157-172 -/
def generic (t : Nat → Option R) (dim : Nat) : Option R := tail t dim (dim + 1) 0 0

/-- `l2_sqr_avx2`, `ip_sqr_avx2`. distance_l2.ipp:44-104, distance_ip.ipp:47-98 -/
def avx2 (blk : Nat → Nat → Option (List R)) (t : Nat → Option R) (dim : Nat) : Option R :=
  match loop4 (blk 8) 8 dim (dim + 1) 0 ⟨vzero 8, vzero 8, vzero 8, vzero 8⟩ with
  | none => none
  | some (i, s) =>
    match loop1 (blk 8) 8 dim (dim + 1) i s.s0 with
    | none => none
    | some (i, s0) =>
      match hsum8 (vadd (vadd s0 s.s1) (vadd s.s2 s.s3)) with
      | none => none
      | some r => tail t dim (dim + 1) i r

/-- `l2_sqr_avx2_diskann_compat`. distance_l2.ipp:115-140 -/
def compat (blk : Nat → Nat → Option (List R)) (t : Nat → Option R) (dim : Nat) : Option R :=
  match (List.range (dim / 8)).foldlM (fun s j => (blk 8 (8 * j)).map (fun b => vadd b s)) (vzero 8) with
  | none => none
  | some s =>
    match hsumCompat s with
    | none => none
    | some r => tail t dim (dim + 1) (dim / 8 * 8) r

/-- The masked tail, with the product of two registers. distance_l2.ipp:188-198, distance_ip.ipp:140-147 -/
def maskTail (prod : List R → List R → List R) (x y : List R) (dim i : Nat) (r : R) : Option R :=
  if 0 < dim - i then
    match maskLoad x i (mask (dim - i)) 16, maskLoad y i (mask (dim - i)) 16 with
    | some vx, some vy => some (r + maskSum (mask (dim - i)) (prod vx vy))
    | _, _ => none
  else some r

/-- `l2_sqr_avx512`, `ip_sqr_avx512`. distance_l2.ipp:145-200, distance_ip.ipp:103-150 -/
def avx512 (blk : Nat → Nat → Option (List R)) (prod : List R → List R → List R) (x y : List R) (dim : Nat) : Option R :=
  match loop4 (blk 16) 16 dim (dim + 1) 0 ⟨vzero 16, vzero 16, vzero 16, vzero 16⟩ with
  | none => none
  | some (i, s) =>
    match loop1 (blk 16) 16 dim (dim + 1) i s.s0 with
    | none => none
    | some (i, s0) =>
      match hsum16 (vadd (vadd s0 s.s1) (vadd s.s2 s.s3)) with
      | none => none
      | some r => maskTail prod x y dim i r

/-- `l2_sqr_sq8_avx2`, `ip_sqr_sq8_avx2`. distance_l2.ipp:266-353, distance_ip.ipp:182-273 -/
def sq8avx2 (blk : Nat → Nat → Option (List R)) (t : Nat → Option R) (dim : Nat) : Option R :=
  match loop2 (blk 8) 8 dim (dim + 1) 0 (vzero 8) (vzero 8) with
  | none => none
  | some (i, s0, s1) =>
    match loop1 (blk 8) 8 dim (dim + 1) i s0 with
    | none => none
    | some (i, s0) =>
      match hsum8 (vadd s0 s1) with
      | none => none
      | some r => tail t dim (dim + 1) i r

/-- `l2_sqr_sq8_avx512`, `ip_sqr_sq8_avx512`. distance_l2.ipp:358-433, distance_ip.ipp:278-352 -/
def sq8avx512 (blk : Nat → Nat → Option (List R)) (t : Nat → Option R) (dim : Nat) : Option R :=
  match loop2 (blk 16) 16 dim (dim + 1) 0 (vzero 16) (vzero 16) with
  | none => none
  | some (i, s0, s1) =>
    match loop1 (blk 16) 16 dim (dim + 1) i s0 with
    | none => none
    | some (i, s0) =>
      match hsum16 (vadd s0 s1) with
      | none => none
      | some r => tail t dim (dim + 1) i r

/-! ### 4-bit codes -/

/-- `_mm_srli_epi16(packed, 4)`: the bytes of 16-bit words shifted. distance_l2.ipp:460-461 -/
def srli4 : List Nat → List Nat
  | p :: q :: r => ((p + 256 * q) >>> 4 % 256) :: ((p + 256 * q) >>> 4 / 256 % 256) :: srli4 r
  | l => l

/-- `_mm_and_si128(v, _mm_set1_epi8(0x0F))` -/
def and15 (l : List Nat) : List Nat := l.map (fun b => b &&& 15)

/-- The elements at `i + off`, `i + off + 2`, ...: `_mm256_set_ps(min[i + 14], ...)`, `_mm512_i32gather_ps`. distance_l2.ipp:479-486, 650-656 -/
def gather (x : List R) (i off : Nat) : Nat → Option (List R)
  | 0 => some []
  | n + 1 =>
    match gather x i off n, x[i + off + 2 * n]? with
    | some l, some v => some (l ++ [v])
    | _, _ => none

/-- What is added for `w` pairs: the codes of the halves of a byte and the ranges of the coordinates. -/
def part4 (ip : Bool) (k : R) (w : Nat) (cx cy : List Nat) (vmn vmx : List R) : List R :=
  let scale := vmul (vsub vmx vmn) (vset1 w k)
  if ip then vmul (vfma (cvt w cx) scale vmn) (vfma (cvt w cy) scale vmn)
  else
    let diff := vmul (vsub (cvt w cx) (cvt w cy)) scale
    vmul diff diff

/-- One pair of halves: `w` bytes from byte `d` of the loaded 16, coordinates from `i + off`. -/
def half4 (ip : Bool) (k : R) (w d : Nat) (cx cy : List Nat) (mn mx : List R) (i off : Nat) : Option (List R) :=
  match gather mn i off w, gather mx i off w with
  | some vmn, some vmx => some (part4 ip k w (cx.drop d) (cy.drop d) vmn vmx)
  | _, _ => none

/-- The loop over 32 elements of `l2_sqr_sq4_avx2`, `ip_sqr_sq4_avx2`. distance_l2.ipp:447-572, distance_ip.ipp:413-528 -/
def loop4a (ip : Bool) (k : R) (x y : List Nat) (mn mx : List R) (dim : Nat) : Nat → Nat → List R → List R → Option (Nat × List R × List R)
  | 0, _, _, _ => none
  | fuel + 1, i, s0, s1 =>
    if i + 32 ≤ dim then
      match load 16 x (i / 2), load 16 y (i / 2) with
      | some px, some py =>
        match half4 ip k 8 0 (and15 px) (and15 py) mn mx i 0, half4 ip k 8 0 (and15 (srli4 px)) (and15 (srli4 py)) mn mx i 1,
            half4 ip k 8 8 (and15 px) (and15 py) mn mx i 16, half4 ip k 8 8 (and15 (srli4 px)) (and15 (srli4 py)) mn mx i 17 with
        | some l0, some h0, some l1, some h1 => loop4a ip k x y mn mx dim fuel (i + 32) (vadd l1 (vadd l0 s0)) (vadd h1 (vadd h0 s1))
        | _, _, _, _ => none
      | _, _ => none
    else some (i, s0, s1)

/-- What one iteration adds in `l2_sqr_sq4_avx512`, `ip_sqr_sq4_avx512`. distance_l2.ipp:626-667, distance_ip.ipp:585-629 -/
def step4b (ip : Bool) (k : R) (x y : List Nat) (mn mx : List R) (i : Nat) : Option (List R × List R) :=
  match load 16 x (i / 2), load 16 y (i / 2) with
  | some px, some py =>
    match half4 ip k 16 0 (and15 px) (and15 py) mn mx i 0, half4 ip k 16 0 (and15 (srli4 px)) (and15 (srli4 py)) mn mx i 1 with
    | some l, some h => some (l, h)
    | _, _ => none
  | _, _ => none

/-- The loop. distance_l2.ipp:625-668, distance_ip.ipp:584-630 -/
def loop4b (ip : Bool) (k : R) (x y : List Nat) (mn mx : List R) (dim : Nat) : Nat → Nat → List R → List R → Option (Nat × List R × List R)
  | 0, _, _, _ => none
  | fuel + 1, i, s0, s1 =>
    if i + 32 ≤ dim then
      match step4b ip k x y mn mx i with
      | some (l, h) => loop4b ip k x y mn mx dim fuel (i + 32) (vadd l s0) (vadd h s1)
      | none => none
    else some (i, s0, s1)

/-- One element of two codes. -/
def elem4 (ip : Bool) (k : R) (a b : Nat) (l h : R) : R :=
  if ip then (l + a * ((h - l) * k)) * (l + b * ((h - l) * k)) else (((a : R) - b) * ((h - l) * k)) * (((a : R) - b) * ((h - l) * k))

/-- The loop over pairs, in the generic kernels and at the end of the others. distance_l2.ipp:240-258, 590-606, distance_ip.ipp:374-393 -/
def tail4 (ip : Bool) (k : R) (x y : List Nat) (mn mx : List R) (dim : Nat) : Nat → Nat → R → Option R
  | 0, _, _ => none
  | fuel + 1, i, r =>
    if i < dim then
      match x[i / 2]?, y[i / 2]?, mn[i]?, mx[i]? with
      | some bx, some by', some l, some h =>
        let r := r + elem4 ip k (bx &&& 15) (by' &&& 15) l h
        if i + 1 < dim then
          match mn[i + 1]?, mx[i + 1]? with
          | some l', some h' => tail4 ip k x y mn mx dim fuel (i + 2) (r + elem4 ip k ((bx >>> 4) &&& 15) ((by' >>> 4) &&& 15) l' h')
          | _, _ => none
        else tail4 ip k x y mn mx dim fuel (i + 2) r
      | _, _, _, _ => none
    else some r

/-- `l2_sqr_sq4_generic`, `ip_sqr_sq4_generic`. distance_l2.ipp:232-260, distance_ip.ipp:368-396 -/
def sq4generic (ip : Bool) (k : R) (x y : List Nat) (mn mx : List R) (dim : Nat) : Option R := tail4 ip k x y mn mx dim (dim + 1) 0 0

/-- `l2_sqr_sq4_avx2`, `ip_sqr_sq4_avx2`. distance_l2.ipp:436-608, distance_ip.ipp:402-567 -/
def sq4avx2 (ip : Bool) (k : R) (x y : List Nat) (mn mx : List R) (dim : Nat) : Option R :=
  match loop4a ip k x y mn mx dim (dim + 1) 0 (vzero 8) (vzero 8) with
  | none => none
  | some (i, s0, s1) =>
    match hsum8 (vadd s0 s1) with
    | none => none
    | some r => tail4 ip k x y mn mx dim (dim + 1) i r

/-- `l2_sqr_sq4_avx512`, `ip_sqr_sq4_avx512`. distance_l2.ipp:614-696, distance_ip.ipp:572-657 -/
def sq4avx512 (ip : Bool) (k : R) (x y : List Nat) (mn mx : List R) (dim : Nat) : Option R :=
  match loop4b ip k x y mn mx dim (dim + 1) 0 (vzero 16) (vzero 16) with
  | none => none
  | some (i, s0, s1) =>
    match hsum16 (vadd s0 s1) with
    | none => none
    | some r => tail4 ip k x y mn mx dim (dim + 1) i r

/-! ### The choice of a kernel -/

/-- What the processor has. `CpuFeatures` does not contain avx512dq. cpu_features.hpp:17-23 -/
structure Cpu where
  avx512f : Bool
  avx512bw : Bool
  avx512dq : Bool
  avx2 : Bool
  fma : Bool
  sse41 : Bool

inductive Kernel where
  | generic
  | avx2
  | compat
  | avx512
  deriving DecidableEq

inductive Level where
  | generic
  | sse4
  | avx2
  | avx512
  deriving DecidableEq

/-- `select_fp32_distance_level`; `prefer` is the policy of the environment variable. cpu_features.hpp:97-114 -/
def select (c : Cpu) (prefer : Bool) : Level :=
  if prefer && c.avx512f then .avx512
  else if c.avx2 && c.fma then .avx2
  else if c.avx512f then .avx512
  else if c.sse41 then .sse4
  else .generic

/-- `get_l2_sqr_func`; the two flags are the environment variables that force a kernel. distance_l2.ipp:702-733 -/
def l2Func (forceScalar forceCompat : Bool) (c : Cpu) (prefer : Bool) : Kernel :=
  if forceScalar then .generic
  else if forceCompat then .compat
  else match select c prefer with
    | .avx512 => .avx512
    | .avx2 => .avx2
    | _ => .generic

/-- `get_ip_sqr_func`. distance_ip.ipp:675-691 -/
def ipFunc (c : Cpu) (prefer : Bool) : Kernel :=
  match select c prefer with
  | .avx512 => .avx512
  | .avx2 => .avx2
  | _ => .generic

/-- `get_l2_sqr_sq8_func`, `get_ip_sqr_sq8_func`. distance_l2.ipp:735-749, distance_ip.ipp:693-707 -/
def sq8Func (c : Cpu) : Kernel := if c.avx512f then .avx512 else if c.avx2 && c.fma then .avx2 else .generic

/-- `get_l2_sqr_sq4_func`, `get_ip_sqr_sq4_func`. distance_l2.ipp:751-765, distance_ip.ipp:709-723 -/
def sq4Func (c : Cpu) : Kernel := if c.avx512f then .avx2 else if c.avx2 && c.fma then .avx2 else .generic

/-- The instruction sets a kernel is compiled for. platform.hpp:44-48 -/
def runs (c : Cpu) : Kernel → Bool
  | .generic => true
  | .avx2 => c.avx2 && c.fma
  | .compat => c.avx2 && c.fma
  | .avx512 => c.avx512f && c.avx512bw && c.avx512dq

/-! ### The values returned -/

/-- Kernel `kn` of the squared distance. distance_l2.ipp:26-198 -/
def runL2 (kn : Kernel) (x y : List R) (dim : Nat) : Option R :=
  match kn with
  | .generic => generic (termL2 x y) dim
  | .avx2 => avx2 (blkL2 x y) (termL2 x y) dim
  | .compat => compat (blkL2 x y) (termL2 x y) dim
  | .avx512 => avx512 (blkL2 x y) (fun a b => vmul (vsub a b) (vsub a b)) x y dim

/-- The sum of products before the kernels of the inner product return. distance_ip.ipp:33-151.  There is no inner-product kernel in the
    DiskANN order and the selection never asks for one; the case is filled in with the same loop. -/
def sumIp (kn : Kernel) (x y : List R) (dim : Nat) : Option R :=
  match kn with
  | .generic => generic (termIp x y) dim
  | .avx2 => avx2 (blkIp x y) (termIp x y) dim
  | .compat => compat (blkIp x y) (termIp x y) dim
  | .avx512 => avx512 (blkIp x y) vmul x y dim

/-- The kernels of the inner product return the negated sum, so that smaller is closer. distance_ip.ipp:39, 98, 151 -/
def runIp (kn : Kernel) (x y : List R) (dim : Nat) : Option R := (sumIp kn x y dim).map (fun s => -s)

/-- The 8-bit kernels, before they return. -/
def sumSq8 (kn : Kernel) (blk : Nat → Nat → Option (List R)) (t : Nat → Option R) (dim : Nat) : Option R :=
  match kn with
  | .avx2 => sq8avx2 blk t dim
  | .avx512 => sq8avx512 blk t dim
  | _ => generic t dim

/-- The 8-bit kernels; `ip` returns the negated sum. distance_l2.ipp:206-223, 263-430; distance_ip.ipp:163-353 -/
def runSq8 (kn : Kernel) (ip : Bool) (k : R) (x y : List Nat) (mn mx : List R) (dim : Nat) : Option R :=
  if ip then (sumSq8 kn (blkSq8Ip k x y mn mx) (termSq8Ip k x y mn mx) dim).map (fun s => -s)
  else sumSq8 kn (blkSq8L2 k x y mn mx) (termSq8L2 k x y mn mx) dim

/-- The 4-bit kernels, before they return. -/
def sumSq4 (kn : Kernel) (b : Bool) (k : R) (x y : List Nat) (mn mx : List R) (dim : Nat) : Option R :=
  match kn with
  | .avx2 => sq4avx2 b k x y mn mx dim
  | .avx512 => sq4avx512 b k x y mn mx dim
  | _ => sq4generic b k x y mn mx dim

/-- The 4-bit kernels; `b` is the inner product, which returns the negated sum. distance_l2.ipp:229-259, 433-692; distance_ip.ipp:366-666 -/
def runSq4 (kn : Kernel) (b : Bool) (k : R) (x y : List Nat) (mn mx : List R) (dim : Nat) : Option R :=
  if b then (sumSq4 kn b k x y mn mx dim).map (fun s => -s) else sumSq4 kn b k x y mn mx dim

end Alaya.Simd
