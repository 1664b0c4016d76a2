import Verif.Model.Prune

/-
IEEE binary32 as far as `cur_alpha` needs it: comparison of arbitrary values and multiplication of a non-negative value by
the constant `1.2f`.  /repo/include/index/graph/vamana/robust_prune.hpp:153-181.
A finite value is the integer `v` standing for v·2^-149 (every finite binary32 value is of this form).
-/
namespace Alaya.Pools

inductive F32 where
  | nan
  | ninf
  | inf
  | num (v : Int)
  deriving DecidableEq, Repr

/-- `a > b` -/
def F32.gt : F32 → F32 → Bool
  | .nan, _ => false
  | _, .nan => false
  | .num a, .num b => decide (b < a)
  | .inf, .inf => false
  | .inf, _ => true
  | _, .inf => false
  | .ninf, _ => false
  | .num _, .ninf => true

/-- `a <= b` -/
def F32.le : F32 → F32 → Bool
  | .nan, _ => false
  | _, .nan => false
  | .num a, .num b => decide (a ≤ b)
  | _, .inf => true
  | .inf, _ => false
  | .ninf, _ => true
  | .num _, .ninf => false

/-- `1.0f` -/
def F32.one : F32 := .num (2 ^ 149)

/-- `std::numeric_limits<float>::max()` -/
def F32.big : F32 := .num ((2 ^ 24 - 1) * 2 ^ 253)

/-- Round `p / 2^23` to 24 significant bits, ties to even (units of 2^-149, so at least one unit). -/
def roundF32 (p : Nat) : Nat :=
  let s := Nat.max 23 (Nat.log2 p + 1 - 24)
  let q := p / 2 ^ s
  let r := p % 2 ^ s
  let q' := if 2 ^ (s - 1) < r then q + 1 else if r = 2 ^ (s - 1) then q + q % 2 else q
  q' * 2 ^ (s - 23)

/-- `x * 1.2f` for non-negative x; 1.2f = 10066330 / 2^23. -/
def F32.next : F32 → F32
  | .num v => let w := roundF32 (v.toNat * 10066330)
    if w < 2 ^ 277 then .num w else .inf
  | x => x

/-- The arithmetic of `occlude_list`; the factor update stays arbitrary. -/
def F32.arith (upd : F32 → Nbr → Nbr → F32) : Arith F32 :=
  { gt := F32.gt, le := F32.le, zero := .num 0, one := F32.one, big := F32.big, next := F32.next, upd := upd }

/-- `cur_alpha` after k rounds. -/
def rampF : Nat → F32 → F32
  | 0, a => a
  | k + 1, a => rampF k (F32.next a)

end Alaya.Pools
