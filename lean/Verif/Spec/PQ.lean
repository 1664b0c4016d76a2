import Mathlib.Algebra.Order.Field.Basic
import Mathlib.Algebra.Order.Ring.Defs

/-
What product quantisation means: a code names one centroid per chunk, the point it stands for is their concatenation plus the mean.
-/
namespace Alaya.PQ.Spec

/-- `f 0 + … + f (n-1)` -/
def sum {F : Type} [Field F] : Nat → (Nat → F) → F
  | 0, _ => 0
  | n + 1, f => sum n f + f n

/-- Squared distance of two points with `n` coordinates. -/
def sqDist {F : Type} [Field F] (n : Nat) (x y : Nat → F) : F := sum n (fun d => (x d - y d) * (x d - y d))

/-- The point that a code stands for: coordinate `d` lies in chunk `d / cd`. -/
def decode {F : Type} [Field F] (cd : Nat) (mean : Nat → F) (centroid : Nat → Nat → Nat → F) (code : Nat → Nat) (d : Nat) : F :=
  mean d + centroid (d / cd) (code (d / cd)) (d % cd)

/-- `k` is the first of the `m` nearest ones. -/
def FirstNearest {F : Type} (lt : F → F → Bool) (m : Nat) (d : Nat → F) (k : Nat) : Prop :=
  k < m ∧ (∀ j, j < m → lt (d j) (d k) = false) ∧ ∀ j, j < k → lt (d k) (d j) = true

end Alaya.PQ.Spec
