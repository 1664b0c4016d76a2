/-
Independent meaning of IEEE-754 binary64 bit patterns: the exact value of a finite double, scaled by
2^1074 so that it is an integer.  Infinities get a magnitude above every finite double.
-/
namespace Alaya.Spec

/-- Exponent field. -/
def dblExp (b : Nat) : Nat := b / 2 ^ 52 % 2 ^ 11
/-- Fraction field. -/
def dblFrac (b : Nat) : Nat := b % 2 ^ 52
/-- Sign bit. -/
def dblNeg (b : Nat) : Bool := b / 2 ^ 63 % 2 == 1

/-- NaN test. -/
def dblIsNaN (b : Nat) : Prop := dblExp b = 2047 ∧ dblFrac b ≠ 0

instance (b : Nat) : Decidable (dblIsNaN b) := by unfold dblIsNaN; infer_instance

/-- |value| · 2^1074: subnormals are `frac`, normals `(2^52 + frac) · 2^(exp-1)`. -/
def dblMag (b : Nat) : Nat :=
  if dblExp b = 0 then dblFrac b else (2 ^ 52 + dblFrac b) * 2 ^ (dblExp b - 1)

/-- value · 2^1074 (both zeros are 0). -/
def dblVal (b : Nat) : Int := if dblNeg b then - (dblMag b : Int) else (dblMag b : Int)

/-- IEEE `<` of two doubles (false as soon as one is NaN). -/
def dblLt (a b : Nat) : Prop := ¬ dblIsNaN a ∧ ¬ dblIsNaN b ∧ dblVal a < dblVal b
/-- IEEE `==`. -/
def dblEq (a b : Nat) : Prop := ¬ dblIsNaN a ∧ ¬ dblIsNaN b ∧ dblVal a = dblVal b

instance (a b : Nat) : Decidable (dblLt a b) := by unfold dblLt; infer_instance
instance (a b : Nat) : Decidable (dblEq a b) := by unfold dblEq; infer_instance

end Alaya.Spec
