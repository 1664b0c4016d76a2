import Verif.Lemmas.Rotator
import Mathlib.Analysis.Real.Sqrt
import Mathlib.Tactic.FieldSimp

/-
C76: the random rotation of the RaBitQ space.
-/
namespace Alaya.Fht
open Finset

/-- Specification: row `r` of the Walsh–Hadamard matrix of size `2^m` times `x`; the sign is the parity of the common bits. -/
def hadamard {R : Type} [CommRing R] (m : Nat) (x : Nat → R) (r : Nat) : R :=
  ∑ c ∈ range (2 ^ m), (-1) ^ ((List.range m).countP (fun i => r.testBit i && c.testBit i)) * x c

theorem countP_congr' {m : Nat} {p q : Nat → Bool} (h : ∀ i, i < m → p i = q i) : (List.range m).countP p = (List.range m).countP q := by
  apply List.countP_congr
  intro i hi
  rw [h i (List.mem_range.1 hi)]

/-- The passes are the Walsh–Hadamard transform on every aligned block. -/
theorem passes_hadamard {R : Type} [CommRing R] (f : Nat → R) : ∀ m t, passes 0 m f t = hadamard m (fun c => f (2 ^ m * (t / 2 ^ m) + c)) t
  | 0, t => by simp [passes, hadamard]
  | m + 1, t => by
    have hp : 0 < 2 ^ m := by positivity
    have e2 : 2 ^ (m + 1) = 2 ^ m + 2 ^ m := by ring
    have ed : t / 2 ^ (m + 1) = t / 2 ^ m / 2 := by rw [pow_succ, Nat.div_div_eq_div_mul]
    simp only [passes, P_eq, Pp, Nat.zero_add]
    -- the sum over the two halves
    have hsum : hadamard (m + 1) (fun c => f (2 ^ (m + 1) * (t / 2 ^ (m + 1)) + c)) t =
        hadamard m (fun c => f (2 ^ (m + 1) * (t / 2 ^ (m + 1)) + c)) t +
        (if t / 2 ^ m % 2 = 1 then -1 else 1) * hadamard m (fun c => f (2 ^ (m + 1) * (t / 2 ^ (m + 1)) + 2 ^ m + c)) t := by
      have hb : t.testBit m = decide (t / 2 ^ m % 2 = 1) := Nat.testBit_eq_decide_div_mod_eq
      unfold hadamard
      rw [show range (2 ^ (m + 1)) = range (2 ^ m + 2 ^ m) by rw [e2], sum_range_add, mul_sum]
      congr 1
      · apply sum_congr rfl
        intro c hc
        rw [mem_range] at hc
        rw [List.range_succ, List.countP_append]
        simp [Nat.testBit_lt_two_pow hc]
      · apply sum_congr rfl
        intro c hc
        rw [mem_range] at hc
        rw [List.range_succ, List.countP_append]
        have q1 : (List.range m).countP (fun i => t.testBit i && (2 ^ m + c).testBit i) = (List.range m).countP (fun i => t.testBit i && c.testBit i) := by
          apply countP_congr'
          intro i hi
          rw [Nat.testBit_two_pow_add_gt hi]
        have q2 : (2 ^ m + c).testBit m = true := by rw [Nat.testBit_two_pow_add_eq, Nat.testBit_lt_two_pow hc]; rfl
        rw [q1]
        simp only [List.countP_cons, List.countP_nil, q2, Bool.and_true, hb, decide_eq_true_eq, Nat.zero_add]
        rw [Nat.add_assoc]
        split
        · rw [pow_succ]; ring
        · rw [Nat.add_zero]; ring
    have hlow : ∀ (s : Nat) (x : Nat → R), (∀ i, i < m → s.testBit i = t.testBit i) → hadamard m x s = hadamard m x t := by
      intro s x h
      unfold hadamard
      apply sum_congr rfl
      intro c _
      congr 2
      apply countP_congr'
      intro i hi
      rw [h i hi]
    rw [hsum, passes_hadamard f m t]
    split
    · rename_i hb
      have hle := set_le hb
      obtain ⟨s, rfl⟩ := Nat.exists_eq_add_of_le hle
      rw [Nat.add_sub_cancel_left, passes_hadamard f m s, hlow s _ (fun i hi => (Nat.testBit_two_pow_add_gt hi s).symm)]
      have d1 : (2 ^ m + s) / 2 ^ m = s / 2 ^ m + 1 := by rw [Nat.add_comm, Nat.add_div_right _ hp]
      rw [d1] at hb
      have d2 : 2 ^ (m + 1) * ((2 ^ m + s) / 2 ^ (m + 1)) = 2 ^ m * (s / 2 ^ m) := by
        rw [ed, d1, pow_succ, Nat.mul_assoc]; congr 1; omega
      have d3 : 2 ^ m * ((2 ^ m + s) / 2 ^ m) = 2 ^ (m + 1) * ((2 ^ m + s) / 2 ^ (m + 1)) + 2 ^ m := by
        rw [d2, d1]; ring
      rw [d3, d2]
      ring
    · rename_i hb
      rw [passes_hadamard f m (t + 2 ^ m), hlow (t + 2 ^ m) _ (fun i hi => by rw [Nat.add_comm]; exact Nat.testBit_two_pow_add_gt hi t)]
      have d2 : 2 ^ (m + 1) * (t / 2 ^ (m + 1)) = 2 ^ m * (t / 2 ^ m) := by
        rw [ed, pow_succ, Nat.mul_assoc]; congr 1; omega
      have d3 : 2 ^ m * ((t + 2 ^ m) / 2 ^ m) = 2 ^ (m + 1) * (t / 2 ^ (m + 1)) + 2 ^ m := by
        rw [d2, Nat.add_div_right _ hp]; ring
      rw [d3, d2]
      ring

/-- Every variant of the transform computes the Walsh–Hadamard transform of the window it is given and touches nothing else. -/
theorem C76_transform {R : Type} [CommRing R] (lv : Level) (m : Nat) (h6 : 6 ≤ m) (h11 : m ≤ 11) (ptr : Nat) (x : List R)
    (hx : ptr + 2 ^ m ≤ x.length) :
    ∃ y, helper lv m ptr x = some y ∧ y.length = x.length ∧
      (∀ r, r < 2 ^ m → y[ptr + r]? = some (hadamard m (fun c => x.getD (ptr + c) 0) r)) ∧
      ∀ t, (t < ptr ∨ ptr + 2 ^ m ≤ t) → y[t]? = x[t]? := by
  refine ⟨_, (congrArg (helper lv m ptr) (eq_tab x 0)).trans (helper_tab lv h6 h11 hx _), tab_length _ _, ?_, ?_⟩
  · intro r hr
    rw [tab_get _ (by omega)]
    unfold win
    rw [if_pos (by omega), Nat.add_sub_cancel_left, passes_hadamard, Nat.div_eq_of_lt hr]
    simp
  · intro t ht
    by_cases hl : t < x.length
    · rw [tab_get _ hl]
      unfold win
      rw [if_neg (by omega)]
      beta_reduce
      rw [List.getD_eq_getElem?_getD, List.getElem?_eq_getElem hl]; rfl
    · rw [List.getElem?_eq_none (by rw [tab_length]; omega), List.getElem?_eq_none (by omega)]

/-- All variants of the transform give the same numbers, in every arithmetic with the laws `Law`. -/
theorem C76_same_transform {α : Type} [Zero α] [Add α] [Sub α] [Law α] (lv lv' : Level) (m : Nat) (ptr : Nat) (x : List α)
    (hx : ptr + 2 ^ m ≤ x.length) (h6 : 6 ≤ m) (h11 : m ≤ 11) : helper lv m ptr x = helper lv' m ptr x := by
  rw [eq_tab x 0, helper_tab lv h6 h11 hx, helper_tab lv' h6 h11 hx]

/-- Numbers that rounding leaves alone. -/
def Rounded (rnd : ℝ → ℝ) : Type := { x : ℝ // rnd x = x }

/-- A rounding: results are representable, and the sign does not matter. -/
class Rounding (rnd : ℝ → ℝ) : Prop where
  idem : ∀ x, rnd (rnd x) = rnd x
  odd : ∀ x, rnd (-x) = -rnd x

section
variable {rnd : ℝ → ℝ} [h : Rounding rnd]

theorem Rounding.zero : rnd 0 = 0 := by
  have := h.odd 0
  rw [neg_zero] at this
  linarith

noncomputable instance : Zero (Rounded rnd) := ⟨⟨0, Rounding.zero⟩⟩
noncomputable instance : Add (Rounded rnd) := ⟨fun a b => ⟨rnd (a.1 + b.1), h.idem _⟩⟩
noncomputable instance : Sub (Rounded rnd) := ⟨fun a b => ⟨rnd (a.1 - b.1), h.idem _⟩⟩

/-- Rounded addition and subtraction have the laws. -/
theorem C76_rounding_law : Law (Rounded rnd) where
  comm a b := Subtype.ext (by show rnd (a.1 + b.1) = rnd (b.1 + a.1); rw [add_comm])
  zero_add a := Subtype.ext (by show rnd (0 + a.1) = a.1; rw [zero_add, a.2])
  sub_zero a := Subtype.ext (by show rnd (a.1 - 0) = a.1; rw [sub_zero, a.2])
  sub_neg a b := Subtype.ext (by
    show rnd (a.1 - rnd (0 - b.1)) = rnd (a.1 + b.1)
    rw [zero_sub, h.odd, b.2, sub_neg_eq_add])
  add_neg a b := Subtype.ext (by
    show rnd (a.1 + rnd (0 - b.1)) = rnd (a.1 - b.1)
    rw [zero_sub, h.odd, b.2, ← sub_eq_add_neg])

end

/-- Rounding to whole numbers, halves away from zero, is a rounding; so the laws hold for other numbers than reals. -/
noncomputable example : Rounding (fun x : ℝ => if 0 ≤ x then (⌊x + 1 / 2⌋ : ℝ) else -(⌊-x + 1 / 2⌋ : ℝ)) where
  idem x := by
    by_cases hx : 0 ≤ x
    · have h0 : (0 : ℝ) ≤ ⌊x + 1 / 2⌋ := by exact_mod_cast Int.floor_nonneg.2 (by linarith)
      rw [if_pos hx, if_pos h0]
      congr 1
      rw [Int.floor_intCast_add, show ⌊(1 / 2 : ℝ)⌋ = 0 by rw [Int.floor_eq_zero_iff]; constructor <;> norm_num, add_zero]
    · have h0 : (0 : ℝ) ≤ ⌊-x + 1 / 2⌋ := by exact_mod_cast Int.floor_nonneg.2 (by push Not at hx; linarith)
      rw [if_neg hx]
      have e : ⌊(⌊-x + 1 / 2⌋ : ℝ) + 1 / 2⌋ = ⌊-x + 1 / 2⌋ := by
        rw [Int.floor_intCast_add, show ⌊(1 / 2 : ℝ)⌋ = 0 by rw [Int.floor_eq_zero_iff]; constructor <;> norm_num, add_zero]
      by_cases hz : (⌊-x + 1 / 2⌋ : ℝ) = 0
      · rw [hz]
        rw [if_pos (by norm_num)]
        simp only [neg_zero, zero_add]
        rw [show ⌊(1 / 2 : ℝ)⌋ = 0 by rw [Int.floor_eq_zero_iff]; constructor <;> norm_num]
        simp
      · rw [if_neg (by push Not; have := lt_of_le_of_ne h0 (Ne.symm hz); linarith), neg_neg, e]
  odd x := by
    rcases lt_trichotomy x 0 with hx | hx | hx
    · rw [if_pos (by linarith), if_neg (by linarith), neg_neg]
    · subst hx
      rw [neg_zero, if_pos (le_refl _), zero_add, show ⌊(1 / 2 : ℝ)⌋ = 0 by rw [Int.floor_eq_zero_iff]; constructor <;> norm_num]
      simp
    · rw [if_neg (by linarith), if_pos (by linarith), neg_neg]

/-- The dimensions for which there is a rotator. -/
theorem C76_dims {α : Type} (invsqrt : Nat → α) (dim : Nat) (random : Nat → UInt8) :
    (chooseRotator invsqrt dim 0 random).isSome ↔ 64 ≤ dim ∧ dim < 4096 := by
  unfold chooseRotator
  simp only [if_true]
  rw [if_pos (by omega)]
  unfold Rot.make
  have key : (6 ≤ Nat.log2 dim ∧ Nat.log2 dim ≤ 11) ↔ (64 ≤ dim ∧ dim < 4096) := by
    rcases Nat.eq_zero_or_pos dim with h0 | h0
    · subst h0; decide
    · have h1 := Nat.le_log2 (n := dim) (k := 6) (by omega)
      have h2 := Nat.log2_lt (n := dim) (k := 12) (by omega)
      have e1 : (2 : Nat) ^ 6 = 64 := by norm_num
      have e2 : (2 : Nat) ^ 12 = 4096 := by norm_num
      omega
  split
  · rename_i h; simp [key.1 h]
  · rename_i h; simp only [Option.isSome_none]; exact ⟨by simp, fun h' => absurd (key.2 h') h⟩

theorem make_ok {α : Type} {invsqrt : Nat → α} {dim padded : Nat} {random : Nat → UInt8} {r : Rot α} (hp : padded = 0 ∨ dim ≤ padded)
    (h : chooseRotator invsqrt dim padded random = some r) :
    r.dim = dim ∧ r.fac = invsqrt (2 ^ r.logn) ∧ 6 ≤ r.logn ∧ r.logn ≤ 11 ∧ 64 ∣ r.padded ∧ 2 ^ r.logn ≤ r.padded ∧ r.dim ≤ r.padded ∧
    r.flip.length = 4 * r.padded / 8 ∧ r.padded = (if padded = 0 then (dim + 63) / 64 * 64 else padded) ∧ r.logn = Nat.log2 dim := by
  unfold chooseRotator at h
  simp only at h
  generalize hP : (if padded = 0 then (dim + 63) / 64 * 64 else padded) = P at h
  split at h
  · rename_i hpad
    unfold Rot.make at h
    split at h
    · rename_i hl
      cases h
      have hd : dim ≤ P := by
        rw [← hP]
        split
        · omega
        · rename_i hne; exact hp.resolve_left hne
      have hne : dim ≠ 0 := by
        rintro rfl
        simp at hl
      refine ⟨rfl, rfl, hl.1, hl.2, ⟨(P + 63) / 64, hpad.trans (Nat.mul_comm _ _)⟩, ?_, hd, by simp, rfl, rfl⟩
      exact le_trans (Nat.log2_self_le hne) hd
    · cases h
  · cases h

theorem make_Ok {α : Type} [Zero α] [Add α] [Sub α] [Neg α] [Mul α] {invsqrt : Nat → α} {dim padded : Nat} {random : Nat → UInt8} {r : Rot α}
    (hp : padded = 0 ∨ dim ≤ padded) (h : chooseRotator invsqrt dim padded random = some r) : r.Ok := by
  obtain ⟨_, _, a, b, c, d, e, f, _, _⟩ := make_ok hp h
  exact ⟨a, b, c, d, e, f⟩

/-- The rotated vector does not depend on the processor or on how the program was compiled. -/
theorem C76_same_rotation {α : Type} [Zero α] [Add α] [Sub α] [Neg α] [Mul α] [Law α] (invsqrt : Nat → α) (quarter : α) (dim padded : Nat)
    (hp : padded = 0 ∨ dim ≤ padded) (random : Nat → UInt8) (r : Rot α) (h : chooseRotator invsqrt dim padded random = some r)
    (b b' : Build) (x : List α) (hx : x.length = dim) :
    ∃ y, r.rotate b quarter x = some y ∧ r.rotate b' quarter x = some y ∧ y.length = r.padded := by
  have hd : x.length = r.dim := by rw [(make_ok hp h).1]; exact hx
  exact ⟨_, rotate_tab (make_Ok hp h) b quarter x hd, rotate_tab (make_Ok hp h) b' quarter x hd, tab_length _ _⟩

/-- Specification: inner product and squared distance of two lists. -/
noncomputable def dot (x y : List ℝ) : ℝ := (List.zipWith (· * ·) x y).sum
noncomputable def dist2 (x y : List ℝ) : ℝ := (List.zipWith (fun a b => (a - b) ^ 2) x y).sum

theorem zip_sum (F : ℝ → ℝ → ℝ) : ∀ (x y : List ℝ), x.length = y.length →
    (List.zipWith F x y).sum = ∑ t ∈ range x.length, F (x.getD t 0) (y.getD t 0)
  | [], [], _ => by simp
  | a :: x, b :: y, h => by
    rw [List.zipWith_cons_cons, List.sum_cons, List.length_cons, sum_range_succ', zip_sum F x y (by simpa using h)]
    simp [add_comm]

theorem dot_ip {x y : List ℝ} (h : x.length = y.length) {N : Nat} (hN : x.length ≤ N) : dot x y = ip N (fun t => x.getD t 0) (fun t => y.getD t 0) := by
  unfold dot ip
  rw [zip_sum _ x y h]
  obtain ⟨k, rfl⟩ := Nat.exists_eq_add_of_le hN
  rw [sum_range_add]
  have : ∑ t ∈ range k, x.getD (x.length + t) 0 * y.getD (x.length + t) 0 = 0 := by
    apply sum_eq_zero
    intro t _
    rw [List.getD_eq_getElem?_getD, List.getElem?_eq_none (by omega)]
    simp
  rw [this, add_zero]

theorem dist2_dot {x y : List ℝ} (h : x.length = y.length) : dist2 x y = dot x x - 2 * dot x y + dot y y := by
  unfold dist2 dot
  rw [zip_sum _ x y h, zip_sum _ x x rfl, zip_sum _ x y h, zip_sum _ y y rfl, ← h, mul_sum, ← sum_sub_distrib, ← sum_add_distrib]
  apply sum_congr rfl
  intro t _
  ring

/-- Rotating keeps inner products and distances, whatever the random signs are. -/
theorem C76_isometry (dim padded : Nat) (hp : padded = 0 ∨ dim ≤ padded) (random : Nat → UInt8) (r : Rot ℝ)
    (h : chooseRotator (fun n => 1 / Real.sqrt n) dim padded random = some r) (b : Build) (x y : List ℝ) (hx : x.length = dim)
    (hy : y.length = dim) :
    ∃ x' y', r.rotate b (1 / 4) x = some x' ∧ r.rotate b (1 / 4) y = some y' ∧ x'.length = r.padded ∧ y'.length = r.padded ∧
      dot x' y' = dot x y ∧ dist2 x' y' = dist2 x y := by
  obtain ⟨h1, h2, h3⟩ := make_ok hp h
  have hok := make_Ok hp h
  have hfac : r.fac * r.fac * 2 ^ r.logn = 1 := by
    rw [h2]
    have hpos : (0 : ℝ) < 2 ^ r.logn := by positivity
    rw [Nat.cast_pow, Nat.cast_ofNat]
    rw [div_mul_div_comm, one_mul, Real.mul_self_sqrt hpos.le, div_mul_cancel₀ _ hpos.ne']
  have hq : (1 / 4 : ℝ) * (1 / 4) * 16 = 1 := by norm_num
  have hd := hok.dim
  have key : ∀ u v : List ℝ, u.length = dim → v.length = dim →
      dot (tab r.padded (rotF r (1 / 4) fun t => u.getD t 0)) (tab r.padded (rotF r (1 / 4) fun t => v.getD t 0)) = dot u v := by
    intro u v hu hv
    rw [dot_ip (by rw [tab_length, tab_length]) (N := r.padded) (by rw [tab_length]), dot_ip (by omega) (N := r.padded) (by omega),
      ← ip_rot hok hfac hq (fun t => u.getD t 0)]
    apply ip_congr <;>
    · intro t ht
      rw [List.getD_eq_getElem?_getD, tab_get _ ht]; rfl
  refine ⟨_, _, rotate_tab hok b _ x (by omega), rotate_tab hok b _ y (by omega), tab_length _ _, tab_length _ _, key x y hx hy, ?_⟩
  rw [dist2_dot (by rw [tab_length, tab_length]), dist2_dot (by omega), key x y hx hy, key x x hx hx, key y y hy hy]

/-- A rotator restored from its file rotates as the one that was saved, whatever signs it was created with. -/
theorem C76_saved {α : Type} [Zero α] [Add α] [Sub α] [Neg α] [Mul α] (invsqrt : Nat → α) (dim padded : Nat) (random random' : Nat → UInt8)
    (r r' : Rot α) (h : chooseRotator invsqrt dim padded random = some r) (h' : chooseRotator invsqrt dim padded random' = some r') :
    r'.load r.save = r := by
  unfold chooseRotator at h h'
  simp only at h h'
  generalize (if padded = 0 then (dim + 63) / 64 * 64 else padded) = P at h h'
  unfold Rot.make at h h'
  split at h
  · split at h
    · rename_i h1 h2
      rw [if_pos h1, if_pos h2] at h'
      cases h; cases h'
      simp only [Rot.load, Rot.save, List.length_map, List.length_range]
      rw [List.take_of_length_le (by simp), List.drop_of_length_le (by simp), List.append_nil]
    · cases h
  · cases h

/-- A case: dimension 100 is padded to 128, the transform has 64 places. -/
example : (chooseRotator (fun n => n) 100 0 (fun t => UInt8.ofNat (37 * t))).map (fun r => (r.dim, r.padded, r.logn, r.fac, r.flip.length)) =
    some (100, 128, 6, 64, 64) := by decide +kernel

/-- A case: the AVX-512 code on 64 integers in the middle of an array of 70; the result is not the input. -/
example : ((helper (α := Int) .avx512 6 3 ((List.range 70).map (fun t => (t * t % 11 : Nat)))).map (fun y => (y.take 4, y.drop 67))) =
    some ([0, 1, 4, 259], [1, 4, 9]) := by decide +kernel

end Alaya.Fht
