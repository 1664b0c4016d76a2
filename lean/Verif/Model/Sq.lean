import Mathlib.Data.Rat.Floor
import Mathlib.Algebra.Order.Field.Rat

/-
The scalar quantisers /repo/include/space/quant/sq8.hpp and /repo/include/space/quant/sq4.hpp and the distances between their codes in
/repo/include/simd/distance_l2.ipp and /repo/include/simd/distance_ip.ipp (generic kernels; the vector kernels are in Model/Simd.lean).

A float is `X`: a number that is rational, an infinity or a NaN.  Every operation of the quantiser rounds with an arbitrary function
`rd : Rat → X` (overflow gives an infinity).  The distances are computed without rounding and over finite ranges.  `none` as a code means
that the conversion of a float to `uint8_t` is undefined.
-/
namespace Alaya.Sq

inductive X where
  | nan
  | ninf
  | inf
  | num (q : Rat)
  deriving DecidableEq

/-- `a < b` -/
def X.lt : X → X → Bool
  | .num a, .num b => decide (a < b)
  | .num _, .inf => true
  | .ninf, .num _ => true
  | .ninf, .inf => true
  | _, _ => false

/-- `a == b` -/
def X.eq : X → X → Bool
  | .num a, .num b => decide (a = b)
  | .inf, .inf => true
  | .ninf, .ninf => true
  | _, _ => false

/-- `a <= b` -/
def X.le (a b : X) : Bool := a.lt b || a.eq b

/-- `a - b` -/
def X.sub (rd : Rat → X) : X → X → X
  | .num a, .num b => rd (a - b)
  | .num _, .inf => .ninf
  | .num _, .ninf => .inf
  | .inf, .num _ => .inf
  | .inf, .ninf => .inf
  | .ninf, .num _ => .ninf
  | .ninf, .inf => .ninf
  | _, _ => .nan

/-- `a / b`, with the sign of a zero divisor taken as positive. -/
def X.div (rd : Rat → X) : X → X → X
  | .num a, .num b => if b = 0 then (if a = 0 then .nan else if 0 < a then .inf else .ninf) else rd (a / b)
  | .num _, .inf => .num 0
  | .num _, .ninf => .num 0
  | .inf, .num b => if 0 ≤ b then .inf else .ninf
  | .ninf, .num b => if 0 ≤ b then .ninf else .inf
  | _, _ => .nan

/-- `a * k` for a positive number k. -/
def X.mulNat (rd : Rat → X) : X → Nat → X
  | .num a, k => rd (a * k)
  | x, _ => x

/-- `static_cast<uint8_t>` -/
def X.cast8 : X → Option Nat
  | .num q => if -1 < q ∧ q < 256 then some ⌊q⌋.toNat else none
  | _ => none

/-- `quantize` with codes up to `K`: 255 or 15. sq8.hpp:107-119, sq4.hpp:105-117 -/
def quantize (rd : Rat → X) (K : Nat) (v mn mx : X) : Option Nat :=
  if mx.eq mn then some 0
  else if mx.le v then some K
  else if v.le mn then some 0
  else (((v.sub rd mn).div rd (mx.sub rd mn)).mulNat rd K).cast8

/-- `min_vector_` and `max_vector_`. -/
structure Quant where
  mins : List X
  maxs : List X

/-- The constructor; `big` is the largest finite float. sq8.hpp:65-80, sq4.hpp:65-80 -/
def init (dim : Nat) (big : Rat) : Quant := ⟨List.replicate dim (.num big), List.replicate dim (.num (-big))⟩

/-- One vector of `fit`. sq8.hpp:88-98 -/
def fitRow (q : Quant) (row : List X) : Quant :=
  ⟨List.zipWith (fun m v => if v.lt m then v else m) q.mins row, List.zipWith (fun m v => if m.lt v then v else m) q.maxs row⟩

/-- `fit`. sq8.hpp:87-99, sq4.hpp:87-99 -/
def fit (q : Quant) (rows : List (List X)) : Quant := rows.foldl fitRow q

/-- `SQ8Quantizer::encode`. sq8.hpp:126-130 -/
def encode8 (rd : Rat → X) : List X → List X → List X → Option (List Nat)
  | v :: vs, mn :: mns, mx :: mxs =>
    match quantize rd 255 v mn mx, encode8 rd vs mns mxs with
    | some c, some cs => some (c :: cs)
    | _, _ => none
  | _, _, _ => some []

/-- `SQ4Quantizer::encode`: the first of two codes into the upper half of the byte. sq4.hpp:124-134 -/
def encode4 (rd : Rat → X) : List X → List X → List X → Option (List Nat)
  | v :: w :: vs, mn :: mn' :: mns, mx :: mx' :: mxs =>
    match quantize rd 15 v mn mx, quantize rd 15 w mn' mx', encode4 rd vs mns mxs with
    | some a, some b, some cs => some (((a <<< 4 ||| b) % 256) :: cs)
    | _, _, _ => none
  | [v], [mn], [mx] =>
    match quantize rd 15 v mn mx with
    | some a => some [(a <<< 4 ||| 0) % 256]
    | none => none
  | _, _, _ => some []

/-- `l2_sqr_sq8_generic`. distance_l2.ipp:209-224 -/
def l2sq8 : List Nat → List Nat → List Rat → List Rat → Rat
  | x :: xs, y :: ys, mn :: mns, mx :: mxs =>
    (((x : Rat) - y) * ((mx - mn) * (1 / 255))) * (((x : Rat) - y) * ((mx - mn) * (1 / 255))) + l2sq8 xs ys mns mxs
  | _, _, _, _ => 0

/-- `ip_sqr_sq8_generic` without the sign. distance_ip.ipp:161-176 -/
def ipsq8 : List Nat → List Nat → List Rat → List Rat → Rat
  | x :: xs, y :: ys, mn :: mns, mx :: mxs =>
    (mn + x * ((mx - mn) * (1 / 255))) * (mn + y * ((mx - mn) * (1 / 255))) + ipsq8 xs ys mns mxs
  | _, _, _, _ => 0

/-- `x & 0x0F`, `(x >> 4) & 0x0F` -/
def lo (b : Nat) : Nat := b &&& 15
def hi (b : Nat) : Nat := (b >>> 4) &&& 15

/-- One coordinate of the 4-bit distance. distance_l2.ipp:243-247 -/
def term4 (x y : Nat) (mn mx : Rat) : Rat :=
  (((x : Rat) - y) * ((mx - mn) * (1 / 15))) * (((x : Rat) - y) * ((mx - mn) * (1 / 15)))

/-- `l2_sqr_sq4_generic`: the lower half of a byte is taken for the even coordinate. distance_l2.ipp:230-260 -/
def l2sq4 : List Nat → List Nat → List Rat → List Rat → Rat
  | x :: xs, y :: ys, mn :: mn' :: mns, mx :: mx' :: mxs =>
    term4 (lo x) (lo y) mn mx + term4 (hi x) (hi y) mn' mx' + l2sq4 xs ys mns mxs
  | [x], [y], [mn], [mx] => term4 (lo x) (lo y) mn mx
  | _, _, _, _ => 0

/-- One coordinate of the 4-bit inner product. distance_ip.ipp:381-383 -/
def prod4 (x y : Nat) (mn mx : Rat) : Rat := (mn + x * ((mx - mn) * (1 / 15))) * (mn + y * ((mx - mn) * (1 / 15)))

/-- `ip_sqr_sq4_generic` without the sign. distance_ip.ipp:363-400 -/
def ipsq4 : List Nat → List Nat → List Rat → List Rat → Rat
  | x :: xs, y :: ys, mn :: mn' :: mns, mx :: mx' :: mxs =>
    prod4 (lo x) (lo y) mn mx + prod4 (hi x) (hi y) mn' mx' + ipsq4 xs ys mns mxs
  | [x], [y], [mn], [mx] => prod4 (lo x) (lo y) mn mx
  | _, _, _, _ => 0

end Alaya.Sq
