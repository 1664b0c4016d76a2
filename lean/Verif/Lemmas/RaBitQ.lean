/-
Lemmas for C78: the algebra of the estimator.
-/
import Verif.Model.RaBitQ
import Mathlib.Analysis.Real.Sqrt
import Mathlib.Algebra.Order.BigOperators.Ring.Finset
import Mathlib.Algebra.BigOperators.Field
import Mathlib.Tactic.Ring
import Mathlib.Tactic.Linarith
import Mathlib.Tactic.FieldSimp
import Mathlib.Tactic.Positivity

namespace Alaya.RaBitQ
open Finset

/-- The sign of the residual, as `±1/2`. -/
noncomputable def half (r : ℕ → ℝ) (i : ℕ) : ℝ := if 0 < r i then 1 / 2 else -1 / 2

theorem half_sq (r : ℕ → ℝ) (i : ℕ) : half r i * half r i = 1 / 4 := by
  unfold half; split <;> norm_num

theorem half_mul (r : ℕ → ℝ) (i : ℕ) : r i * half r i = |r i| / 2 := by
  unfold half
  split
  · rename_i h; rw [abs_of_pos h]; ring
  · rename_i h; rw [abs_of_nonpos (not_lt.mp h)]; ring

theorem ipr_eq (r : ℕ → ℝ) (D : ℕ) : ∑ i ∈ range D, r i * half r i = (∑ i ∈ range D, |r i|) / 2 := by
  rw [sum_div]
  exact sum_congr rfl (fun i _ => half_mul r i)

/-- The part of the residual that the code does not represent, against any vector. -/
theorem code_error (r s : ℕ → ℝ) (D : ℕ) {N l : ℝ} (hN : N = ∑ i ∈ range D, r i * r i) (hl : l = ∑ i ∈ range D, |r i|)
    (hl0 : l ≠ 0) :
    |∑ i ∈ range D, s i * r i - 2 * N / l * ∑ i ∈ range D, s i * half r i| ≤
      Real.sqrt ((∑ i ∈ range D, s i * s i) * N * (D * N / l ^ 2 - 1)) := by
  have hw : ∑ i ∈ range D, s i * r i - 2 * N / l * ∑ i ∈ range D, s i * half r i
      = ∑ i ∈ range D, s i * (r i - 2 * N / l * half r i) := by
    rw [mul_sum, ← sum_sub_distrib]
    exact sum_congr rfl (fun i _ => by ring)
  have hw2 : ∑ i ∈ range D, (r i - 2 * N / l * half r i) ^ 2 = N * (D * N / l ^ 2 - 1) := by
    have e : ∀ i, (r i - 2 * N / l * half r i) ^ 2
        = r i * r i - 2 * (2 * N / l) * (r i * half r i) + (2 * N / l) ^ 2 * (1 / 4) := by
      intro i
      rw [← half_sq r i]; ring
    simp only [e]
    rw [sum_add_distrib, sum_sub_distrib, ← mul_sum, ipr_eq, ← hN, ← hl, sum_const, card_range, nsmul_eq_mul]
    field_simp
    ring
  rw [hw]
  apply Real.abs_le_sqrt
  have := sum_mul_sq_le_sq_mul_sq (range D) s (fun i => r i - 2 * N / l * half r i)
  rw [hw2] at this
  calc _ ≤ _ := this
    _ = _ := by
      simp only [pow_two, mul_assoc]

/-- Sums of magnitudes and of squares. -/
theorem sq_le_l1_sq (r : ℕ → ℝ) (D : ℕ) : ∑ i ∈ range D, r i * r i ≤ (∑ i ∈ range D, |r i|) ^ 2 := by
  have := sum_sq_le_sq_sum_of_nonneg (s := range D) (f := fun i => |r i|) (fun i _ => abs_nonneg _)
  simpa [sq_abs, pow_two] using this

theorem l1_sq_le (r : ℕ → ℝ) (D : ℕ) : (∑ i ∈ range D, |r i|) ^ 2 ≤ D * ∑ i ∈ range D, r i * r i := by
  have := sum_mul_sq_le_sq_mul_sq (range D) (fun _ => (1 : ℝ)) (fun i => |r i|)
  simpa [sq_abs, ← pow_two] using this

end Alaya.RaBitQ
