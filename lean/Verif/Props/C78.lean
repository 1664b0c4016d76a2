/-
C78: how far RaBitQ distance estimates are from the distances.

For each neighbour of a node one bit per dimension and two numbers are stored.  From these and the exact distance of
the query to the node the distances of the query to all its neighbours are estimated.
-/
import Verif.Lemmas.RaBitQ
import Verif.Props.C75
import Verif.Props.C76
import Verif.Props.C77

namespace Alaya.RaBitQ
open Finset
open Fht (dot dist2 Rot chooseRotator Build)
open FastScan (Isa ipBits IsCode)

/-- Specification: the value an estimate stands for. For inner product and cosine it is one more than the distance
the index reports, which is the negated inner product. -/
noncomputable def target (m : Metric) (q o : List ℝ) : ℝ :=
  match m with
  | .l2 => dist2 q o
  | _ => 1 - dot q o

/-- Specification: the exact distance the index reports. -/
noncomputable def exact (m : Metric) (q o : List ℝ) : ℝ :=
  match m with
  | .l2 => dist2 q o
  | _ => -dot q o

/-- Specification: sum of the magnitudes of the differences. -/
noncomputable def l1 (x y : List ℝ) : ℝ := (List.zipWith (fun a b => |a - b|) x y).sum

/-- Specification: the distance error that comes from keeping one bit per dimension of `o` relative to `c`, when the
differences of the rotated vectors sum up to `l`. -/
noncomputable def codeError (q o c : List ℝ) (l : ℝ) (D : ℕ) : ℝ :=
  Real.sqrt (dist2 q c * dist2 o c * (D * dist2 o c / l ^ 2 - 1))

/-- Specification: the distance error that comes from tables of bytes. -/
noncomputable def tableError (q o c : List ℝ) (l : ℝ) (D : ℕ) : ℝ :=
  2 * dist2 o c / l * (D * Real.sqrt (dot q q) / 255)

/-- Twice for squared distances. -/
def scale : Metric → ℝ
  | .l2 => 2
  | _ => 1

theorem dot_sum {x y : List ℝ} (h : x.length = y.length) : dot x y = ∑ t ∈ range x.length, x.getD t 0 * y.getD t 0 :=
  Fht.zip_sum _ x y h

theorem dist2_sum {x y : List ℝ} (h : x.length = y.length) : dist2 x y = ∑ t ∈ range x.length, (x.getD t 0 - y.getD t 0) ^ 2 :=
  Fht.zip_sum _ x y h

theorem l1_sum {x y : List ℝ} (h : x.length = y.length) : l1 x y = ∑ t ∈ range x.length, |x.getD t 0 - y.getD t 0| :=
  Fht.zip_sum _ x y h

theorem total_sum (t : ℕ → ℝ) (n : ℕ) : Simd.total t n = ∑ i ∈ range n, t i := by
  unfold Simd.total
  induction n with
  | zero => simp
  | succ n ih => rw [List.range_succ, List.map_append, List.sum_append, ih, sum_range_succ]; simp

/-- The exact distance, by any kernel. -/
theorem dist_eq (kn : Simd.Kernel) (m : Metric) {x y : List ℝ} {dim : ℕ} (hx : x.length = dim) (hy : y.length = dim) :
    dist kn m x y dim = some (exact m x y) := by
  have h := Simd.C75_float kn x y dim (by omega) (by omega)
  have e1 : Simd.l2 x y dim = dist2 x y := by
    rw [Simd.l2, total_sum, dist2_sum (by omega), hx]
  have e2 : Simd.ip x y dim = dot x y := by
    rw [Simd.ip, total_sum, dot_sum (by omega), hx]
  cases m <;> simp [dist, exact, h.1, h.2, e1, e2]

theorem zipWith_getD (f : ℝ → ℝ → ℝ) {x y : List ℝ} (h : x.length = y.length) {i : ℕ} (hi : i < x.length) :
    (List.zipWith f x y).getD i 0 = f (x.getD i 0) (y.getD i 0) := by
  rw [List.getD_eq_getElem _ _ (by simp; omega), List.getD_eq_getElem _ _ hi, List.getD_eq_getElem _ _ (by omega)]
  simp

theorem dotP_sum {x y : List ℝ} (h : x.length = y.length) : dotP x y = ∑ t ∈ range x.length, x.getD t 0 * y.getD t 0 :=
  Fht.zip_sum _ x y h

/-- The bits of a neighbour. -/
theorem calFac_code (m : Metric) {o c : List ℝ} {D : ℕ} (ho : o.length = D) (hc : c.length = D) :
    IsCode D (calFac m o c).bits := by
  have : (calFac m o c).bits = (List.zipWith (· - ·) o c).map (fun x => if 0 < x then 1 else 0) := by
    cases m <;> rfl
  rw [this]
  refine ⟨by simp [ho, hc], ?_⟩
  intro b hb
  obtain ⟨x, _, rfl⟩ := List.mem_map.mp hb
  by_cases h : 0 < x <;> simp [h]

theorem calFac_bit (m : Metric) {o c : List ℝ} {D : ℕ} (ho : o.length = D) (hc : c.length = D) {i : ℕ} (hi : i < D) :
    (((calFac m o c).bits.getD i 0 : ℕ) : ℝ) = half (fun t => o.getD t 0 - c.getD t 0) i + 1 / 2 := by
  have : (calFac m o c).bits = (List.zipWith (· - ·) o c).map (fun x => if 0 < x then 1 else 0) := by
    cases m <;> rfl
  rw [this, List.getD_eq_getElem _ _ (by simp; omega), List.getElem_map, List.getElem_zipWith, half,
    List.getD_eq_getElem _ _ (by omega), List.getD_eq_getElem _ _ (by omega)]
  split <;> norm_num

/-- The part of `f_add` that does not depend on the code. -/
def base (m : Metric) (N ic : ℝ) : ℝ :=
  match m with
  | .l2 => N
  | _ => 1 - ic

/-- The factors of a neighbour. -/
theorem calFac_fac (m : Metric) {o c : List ℝ} {D : ℕ} (ho : o.length = D) (hc : c.length = D) :
    let r : ℕ → ℝ := fun t => o.getD t 0 - c.getD t 0
    let N := ∑ t ∈ range D, r t * r t
    let l := ∑ t ∈ range D, |r t|
    let ipc := ∑ t ∈ range D, c.getD t 0 * half r t
    (calFac m o c).fAdd = base m N (∑ t ∈ range D, r t * c.getD t 0) + scale m * (2 * N / l) * ipc ∧
    (calFac m o c).fRescale = -(scale m * (2 * N / l)) := by
  intro r N l ipc
  set res := List.zipWith (· - ·) o c with hres
  set ybar : List ℝ := (res.map (fun x => if 0 < x then (1 : ℕ) else 0)).map (fun b : Nat => (b : ℝ) + (-1 / 2)) with hy
  have hrl : res.length = D := by simp [hres, ho, hc]
  have hyl : ybar.length = D := by simp [hy, hrl]
  have hrg : ∀ t < D, res.getD t 0 = r t := fun t ht => zipWith_getD _ (by omega) (by omega)
  have hyg : ∀ t < D, ybar.getD t 0 = half r t := by
    intro t ht
    rw [List.getD_eq_getElem _ _ (by omega)]
    simp only [hy, List.getElem_map]
    have := hrg t ht
    rw [List.getD_eq_getElem _ _ (by omega)] at this
    rw [this, half]
    split <;> norm_num
  have eN : l2Sqr res = N := by
    rw [l2Sqr, dotP_sum rfl, hrl]
    exact sum_congr rfl (fun t ht => by rw [hrg t (mem_range.mp ht)])
  have eC : dotP c ybar = ipc := by
    rw [dotP_sum (by omega), hc]
    exact sum_congr rfl (fun t ht => by rw [hyg t (mem_range.mp ht)])
  have eR : dotP res ybar = l / 2 := by
    rw [dotP_sum (by omega), hrl, ← ipr_eq]
    exact sum_congr rfl (fun t ht => by rw [hrg t (mem_range.mp ht), hyg t (mem_range.mp ht)])
  have eI : dotP res c = ∑ t ∈ range D, r t * c.getD t 0 := by
    rw [dotP_sum (by omega), hrl]
    exact sum_congr rfl (fun t ht => by rw [hrg t (mem_range.mp ht)])
  have hd : ∀ a : ℝ, divInf a (l / 2) = a * 2 / l := by
    intro a
    unfold divInf
    split
    · rename_i h
      have : l = 0 := by linarith
      simp [this]
    · rw [div_div_eq_mul_div]
  cases m
  · constructor
    · change l2Sqr res + divInf (2 * l2Sqr res * dotP c ybar) (dotP res ybar) = _
      rw [eN, eC, eR, hd]; simp only [scale, base]; ring
    · change divInf (-2 * l2Sqr res) (dotP res ybar) = _
      rw [eN, eR, hd]; simp only [scale]; ring
  all_goals
    constructor
    · change 1 - dotP res c + divInf (l2Sqr res * dotP c ybar) (dotP res ybar) = _
      rw [eN, eC, eR, eI, hd]; simp only [scale, base]; ring
    · change divInf (-l2Sqr res) (dotP res ybar) = _
      rw [eN, eR, hd]; simp only [scale]; ring

/-- The estimate of one neighbour from an approximate inner product of its bits with the query. -/
theorem est_error (m : Metric) {q o c q' o' c' : List ℝ} {D : ℕ} (hq : q'.length = D) (ho : o'.length = D) (hc : c'.length = D)
    (eqo : dot q' o' = dot q o) (eqc : dot q' c' = dot q c) (eoc : dist2 o' c' = dist2 o c)
    (dqc : dist2 q' c' = dist2 q c) (dqo : dist2 q' o' = dist2 q o) {inner E : ℝ}
    (hi : |inner - ∑ t ∈ range D, q'.getD t 0 * half (fun t => o'.getD t 0 - c'.getD t 0) t| ≤ E) :
    |(calFac m o' c').fRescale * inner + (calFac m o' c').fAdd + exact m q c - target m q o| ≤
      scale m * (codeError q o c (l1 o' c') D + 2 * dist2 o c / l1 o' c' * E) := by
  obtain ⟨hA, hR⟩ := calFac_fac m ho hc
  set r : ℕ → ℝ := fun t => o'.getD t 0 - c'.getD t 0 with hr
  set s : ℕ → ℝ := fun t => q'.getD t 0 - c'.getD t 0 with hs
  have hN : dist2 o c = ∑ t ∈ range D, r t * r t := by
    rw [← eoc, dist2_sum (by omega), ho]; exact sum_congr rfl (fun t _ => by rw [hr]; ring)
  have hl : l1 o' c' = ∑ t ∈ range D, |r t| := by rw [l1_sum (by omega), ho]
  have hS : dist2 q c = ∑ t ∈ range D, s t * s t := by
    rw [← dqc, dist2_sum (by omega), hq]; exact sum_congr rfl (fun t _ => by rw [hs]; ring)
  rw [← hN, ← hl] at hA hR
  have hlnn : 0 ≤ l1 o' c' := by rw [hl]; exact sum_nonneg (fun _ _ => abs_nonneg _)
  have hNnn : 0 ≤ dist2 o c := by rw [hN]; exact sum_nonneg (fun _ _ => mul_self_nonneg _)
  have hsc : 0 ≤ scale m := by cases m <;> simp [scale]
  set N := dist2 o c with hNd
  set l := l1 o' c' with hld
  set A := ∑ t ∈ range D, q'.getD t 0 * half r t with hAd
  set C := ∑ t ∈ range D, c'.getD t 0 * half r t with hCd
  have hsr : ∑ t ∈ range D, s t * r t = dot q o - dot q c - ∑ t ∈ range D, r t * c'.getD t 0 := by
    rw [← eqo, ← eqc, dot_sum (by omega), dot_sum (by omega), hq, ← sum_sub_distrib, ← sum_sub_distrib]
    exact sum_congr rfl (fun t _ => by rw [hs, hr]; ring)
  have hsh : ∑ t ∈ range D, s t * half r t = A - C := by
    rw [hAd, hCd, ← sum_sub_distrib]; exact sum_congr rfl (fun t _ => by rw [hs]; ring)
  have hbase : base m N (∑ t ∈ range D, r t * c'.getD t 0) + exact m q c - target m q o
      = scale m * ∑ t ∈ range D, s t * r t := by
    cases m
    · simp only [exact, target, scale, base]
      rw [← dqo, hS, hN, dist2_sum (by omega), hq, mul_sum, ← sum_add_distrib, ← sum_sub_distrib]
      exact sum_congr rfl (fun t _ => by rw [hs, hr]; ring)
    all_goals
      simp only [exact, target, scale, base]
      rw [hsr]; ring
  have key : (calFac m o' c').fRescale * inner + (calFac m o' c').fAdd + exact m q c - target m q o
      = scale m * ((∑ t ∈ range D, s t * r t - 2 * N / l * ∑ t ∈ range D, s t * half r t) - 2 * N / l * (inner - A)) := by
    rw [hA, hR, hsh]
    linear_combination hbase
  rw [key, abs_mul, abs_of_nonneg hsc]
  apply mul_le_mul_of_nonneg_left _ hsc
  by_cases hl0 : l = 0
  · have hr0 : ∀ t ∈ range D, r t = 0 := by
      have := (sum_eq_zero_iff_of_nonneg (fun t _ => abs_nonneg (r t))).mp (hl.symm.trans hl0)
      exact fun t ht => abs_eq_zero.mp (this t ht)
    have : ∑ t ∈ range D, s t * r t = 0 := sum_eq_zero (fun t ht => by rw [hr0 t ht, mul_zero])
    rw [this, hl0]
    simp only [div_zero, zero_mul, sub_zero, abs_zero, codeError, add_zero]
    exact Real.sqrt_nonneg _
  · have h1 := code_error r s D hN hl hl0
    rw [← hS] at h1
    calc _ ≤ |∑ t ∈ range D, s t * r t - 2 * N / l * ∑ t ∈ range D, s t * half r t| + |2 * N / l * (inner - A)| := abs_sub _ _
      _ ≤ _ := by
        apply add_le_add h1
        rw [abs_mul, abs_of_nonneg (by positivity)]
        exact mul_le_mul_of_nonneg_left hi (by positivity)

theorem make_ok' {dim padded : ℕ} (hp : padded = 0 ∨ dim ≤ padded) {random : ℕ → UInt8} {r : Rot ℝ}
    (h : chooseRotator (fun n => 1 / Real.sqrt n) dim padded random = some r) : 64 ∣ r.padded :=
  (Fht.make_ok hp h).2.2.2.2.1

theorem rot_same {dim padded : ℕ} (hp : padded = 0 ∨ dim ≤ padded) {random : ℕ → UInt8} {r : Rot ℝ}
    (h : chooseRotator (fun n => 1 / Real.sqrt n) dim padded random = some r) (b b' : Build) (v : List ℝ) (hv : v.length = dim) :
    ∃ v', r.rotate b (1 / 4) v = some v' ∧ r.rotate b' (1 / 4) v = some v' ∧ v'.length = r.padded := by
  obtain ⟨v', e, _, l, _⟩ := Fht.C76_isometry dim padded hp random r h b v v hv hv
  have hd : v.length = r.dim := by rw [(Fht.make_ok hp h).1]; exact hv
  have e1 := Fht.rotate_tab (Fht.make_Ok hp h) b (1 / 4) v hd
  have e2 := Fht.rotate_tab (Fht.make_Ok hp h) b' (1 / 4) v hd
  exact ⟨_, e1, e2, Fht.tab_length _ _⟩

/-! ### The bounds -/

theorem dist2_nonneg {x y : List ℝ} (h : x.length = y.length) : 0 ≤ dist2 x y := by
  rw [dist2_sum h]; exact sum_nonneg (fun _ _ => sq_nonneg _)

theorem bounds_l1 {o c : List ℝ} {D : ℕ} (ho : o.length = D) (hc : c.length = D) :
    0 ≤ l1 o c ∧ dist2 o c ≤ l1 o c ^ 2 ∧ l1 o c ^ 2 ≤ D * dist2 o c := by
  have h := sq_le_l1_sq (fun t => o.getD t 0 - c.getD t 0) D
  have h' := l1_sq_le (fun t => o.getD t 0 - c.getD t 0) D
  rw [l1_sum (by omega), dist2_sum (by omega), ho]
  simp only [pow_two] at h h' ⊢
  exact ⟨sum_nonneg (fun _ _ => abs_nonneg _), h, h'⟩

/-- The error of the codes is the largest when only one coordinate differs. -/
theorem codeError_le (q o c : List ℝ) {l : ℝ} {D : ℕ} (hqc : 0 ≤ dist2 q c) (hoc : 0 ≤ dist2 o c) (h1 : dist2 o c ≤ l ^ 2) :
    codeError q o c l D ≤ Real.sqrt (dist2 q c * dist2 o c * (D - 1)) := by
  unfold codeError
  apply Real.sqrt_le_sqrt
  rcases hoc.eq_or_lt with h | h
  · rw [← h]; simp
  · have hl2 : 0 < l ^ 2 := lt_of_lt_of_le h h1
    apply mul_le_mul_of_nonneg_left _ (by positivity)
    apply sub_le_sub_right
    rw [div_le_iff₀ hl2]
    exact mul_le_mul_of_nonneg_left h1 (Nat.cast_nonneg D)

theorem tableError_le (q o c : List ℝ) {l : ℝ} {D : ℕ} (hoc : 0 ≤ dist2 o c) (hl : 0 ≤ l) (h1 : dist2 o c ≤ l ^ 2) :
    tableError q o c l D ≤ 2 * Real.sqrt (dist2 o c) * (D * Real.sqrt (dot q q) / 255) := by
  unfold tableError
  apply mul_le_mul_of_nonneg_right _ (by positivity)
  rcases hl.eq_or_lt with h | h
  · rw [← h]; simp
  · rw [mul_div_assoc]
    apply mul_le_mul_of_nonneg_left _ (by norm_num)
    rw [div_le_iff₀ h]
    have h2 : Real.sqrt (dist2 o c) ≤ l := by rw [Real.sqrt_le_left hl]; exact h1
    calc dist2 o c = Real.sqrt (dist2 o c) * Real.sqrt (dist2 o c) := (Real.mul_self_sqrt hoc).symm
      _ ≤ _ := mul_le_mul_of_nonneg_left h2 (Real.sqrt_nonneg _)

theorem over_get {α : Type} {new old l : List α} (h : over new old = some l) {i : ℕ} {x : α} (hx : new[i]? = some x) : l[i]? = some x := by
  unfold over at h
  split at h
  · cases h
    rw [List.getElem?_append_left (List.getElem?_eq_some_iff.mp hx).1]; exact hx
  · cases h

theorem over_ok {α : Type} {new old : List α} (h : new.length ≤ old.length) :
    over new old = some (new ++ old.drop new.length) ∧ (new ++ old.drop new.length).length = old.length := by
  refine ⟨by rw [over, if_pos h], by simp; omega⟩

/-- **C78.**  The index is built and searched with any instruction sets, the rotation having any random signs; up to 1024
dimensions after padding.  Storing the neighbours of a node succeeds, and so does estimating the distances of a query
that is not zero.  The distance to the node is exact.  The estimate for a neighbour `o` differs from the true value by at most the error
of the code plus the error of the tables.  Whatever the rotation is, these are at most the values in the second bound; a neighbour at the
same place as the node is estimated exactly. -/
theorem C78_estimate (dim padded : ℕ) (hp : padded = 0 ∨ dim ≤ padded) (random : ℕ → UInt8) (r : Rot ℝ)
    (h : chooseRotator (fun n => 1 / Real.sqrt n) dim padded random = some r) (h1024 : r.padded ≤ 1024) (b b' : Build) (isa : Isa)
    (kn : Simd.Kernel) (m : Metric) (get : ℕ → Option (List ℝ)) (nd : Node ℝ) (hv : nd.vec.length = dim) (hids : nd.ids.length = 32)
    (hfa : nd.fAdd.length = 32) (hfr : nd.fRescale.length = 32) (hcodes : nd.codes.length = r.padded * 32 / 8) (nbrs : List ℕ)
    (hn0 : nbrs ≠ []) (hn : nbrs.length ≤ 32) (hget : ∀ i ∈ nbrs, ∃ v, get i = some v ∧ v.length = dim) (q : List ℝ) (hq : q.length = dim)
    (hq0 : ∃ x ∈ q, x ≠ 0) :
    ∃ nd' Q est c', updateNei (r.rotate b (1 / 4)) get r.padded m nd nbrs = some nd' ∧ nd'.vec = nd.vec ∧
      nd'.ids.take nbrs.length = nbrs ∧ mkQuery isa (r.rotate b' (1 / 4)) r.padded q = some Q ∧
      loadCentroid isa kn m dim r.padded Q nd' = some (exact m q nd.vec, est) ∧ est.length = 32 ∧ r.rotate b (1 / 4) nd.vec = some c' ∧
      ∀ (k i : ℕ) (o : List ℝ), nbrs[k]? = some i → get i = some o → ∃ o' e, r.rotate b (1 / 4) o = some o' ∧ est[k]? = some e ∧
        |e - target m q o| ≤ scale m * (codeError q o nd.vec (l1 o' c') r.padded + tableError q o nd.vec (l1 o' c') r.padded) ∧
        |e - target m q o| ≤ scale m * (Real.sqrt (dist2 q nd.vec * dist2 o nd.vec * (r.padded - 1)) +
          2 * Real.sqrt (dist2 o nd.vec) * (r.padded * Real.sqrt (dot q q) / 255)) ∧
        (o = nd.vec → e = target m q o) := by
  have h64 : 64 ∣ r.padded := (make_ok' hp h)
  generalize hD : r.padded = D at *
  -- the rotation
  have hrot : ∀ v : List ℝ, v.length = dim → ∃ v', r.rotate b (1 / 4) v = some v' ∧ r.rotate b' (1 / 4) v = some v' ∧ v'.length = D := by
    intro v hv
    rw [← hD]; exact rot_same hp h b b' v hv
  have hiso : ∀ u v u' v' : List ℝ, u.length = dim → v.length = dim → r.rotate b (1 / 4) u = some u' → r.rotate b (1 / 4) v = some v' →
      dot u' v' = dot u v ∧ dist2 u' v' = dist2 u v := by
    intro u v u' v' hu hv eu ev
    obtain ⟨x', y', e1, e2, _, _, e3, e4⟩ := Fht.C76_isometry dim padded hp random r h b u v hu hv
    rw [eu] at e1; rw [ev] at e2; cases e1; cases e2
    exact ⟨e3, e4⟩
  obtain ⟨c', ec, _, lc⟩ := hrot nd.vec hv
  obtain ⟨q', eq1, eq2, lq⟩ := hrot q hq
  -- the neighbours
  let get' : ℕ → List ℝ := fun i => (get i).getD []
  let R : ℕ → List ℝ := fun i => (r.rotate b (1 / 4) (get' i)).getD []
  have hR : ∀ i ∈ nbrs, get i = some (get' i) ∧ (get' i).length = dim ∧ r.rotate b (1 / 4) (get' i) = some (R i) ∧ (R i).length = D := by
    intro i hi
    obtain ⟨v, e, hl⟩ := hget i hi
    have e' : get' i = v := by simp [get', e]
    obtain ⟨v', e1, _, l1⟩ := hrot v hl
    have e2 : R i = v' := by simp only [R, e', e1, Option.getD_some]
    rw [e', e2]
    exact ⟨e, hl, e1, l1⟩
  have hrn : nbrs.mapM (fun i => do let v ← get i; r.rotate b (1 / 4) v) = some (nbrs.map R) := by
    apply FastScan.mapM_list
    intro i hi
    obtain ⟨e1, _, e2, _⟩ := hR i hi
    rw [e1]
    exact e2
  let F : ℕ → Fac ℝ := fun i => calFac m (R i) c'
  let X : List (List ℕ) := nbrs.map (fun i => (F i).bits)
  have hX : ∀ x ∈ X, IsCode D x := by
    intro x hx
    obtain ⟨i, hi, rfl⟩ := List.mem_map.mp hx
    exact calFac_code m (hR i hi).2.2.2 lc
  have hq0' : ∃ x ∈ q', x ≠ 0 := by
    by_contra hcon
    push Not at hcon
    obtain ⟨x, hx, hx0⟩ := hq0
    have hz : dot q' q' = 0 := by
      rw [dot_sum rfl]
      apply sum_eq_zero
      intro t ht
      rw [List.getD_eq_getElem _ _ (mem_range.mp ht), hcon _ (List.getElem_mem _), mul_zero]
    rw [(hiso q q q' q' hq hq eq1 eq1).1, dot_sum rfl] at hz
    have := (sum_eq_zero_iff_of_nonneg (fun t _ => mul_self_nonneg (q.getD t 0))).mp hz
    obtain ⟨t, ht, rfl⟩ := List.getElem_of_mem hx
    apply hx0
    have h' := this t (mem_range.mpr ht)
    rw [List.getD_eq_getElem _ _ ht] at h'
    exact mul_self_eq_zero.mp h'
  have hM : ∀ x ∈ q', |x| ≤ Real.sqrt (dot q q) := by
    intro x hx
    apply Real.abs_le_sqrt
    rw [← (hiso q q q' q' hq hq eq1 eq1).1, dot_sum rfl]
    obtain ⟨t, ht, rfl⟩ := List.getElem_of_mem hx
    have := single_le_sum (f := fun t => q'.getD t 0 * q'.getD t 0) (fun t _ => mul_self_nonneg _) (mem_range.mpr ht)
    rw [pow_two]
    simpa only [List.getD_eq_getElem _ _ ht] using this
  obtain ⟨L, B, eL, eB, hacc⟩ := FastScan.C77_inner_product isa (by omega : D % 16 = 0) h1024 lq hq0' hM hX
  have hXl : X.length = nbrs.length := by simp [X]
  have hpos : 0 < nbrs.length := List.length_pos_iff.mpr hn0
  have h1 : (X.length + 31) / 32 = 1 := by omega
  obtain ⟨B', eB', lB, _⟩ := FastScan.C77_lookup isa (by omega : D % 16 = 0) hX (lp := List.replicate (4 * D) 0)
    (by intro e he; rw [List.eq_of_mem_replicate he]; omega) (by simp)
  rw [eB] at eB'; cases eB'
  rw [h1, one_mul] at lB
  obtain ⟨res, eres, lres, hres⟩ := hacc 0 (by omega)
  rw [Nat.mul_zero, List.drop_zero] at eres
  have hlB : B.length = nd.codes.length := by rw [lB, hcodes]; omega
  obtain ⟨o1, o1l⟩ := over_ok (new := nbrs) (old := nd.ids) (by omega)
  obtain ⟨o2, o2l⟩ := over_ok (new := nbrs.map (fun i => (F i).fAdd)) (old := nd.fAdd) (by simp; omega)
  obtain ⟨o3, o3l⟩ := over_ok (new := nbrs.map (fun i => (F i).fRescale)) (old := nd.fRescale) (by simp; omega)
  have o4 : over B nd.codes = some B := by
    rw [over, if_pos (by omega), hlB, List.drop_length, List.append_nil]
  set ids := nbrs ++ nd.ids.drop nbrs.length with hidsd
  set fa := nbrs.map (fun i => (F i).fAdd) ++ nd.fAdd.drop (nbrs.map (fun i => (F i).fAdd)).length with hfad
  set fr := nbrs.map (fun i => (F i).fRescale) ++ nd.fRescale.drop (nbrs.map (fun i => (F i).fRescale)).length with hfrd
  have hup : updateNei (r.rotate b (1 / 4)) get D m nd nbrs = some ⟨nd.vec, B, fa, fr, ids⟩ := by
    rw [updateNei, if_neg hn0, o1, hrn, ec]
    simp only [Option.bind_eq_bind, Option.bind_some, List.map_map]
    change (over (nbrs.map (fun i => (F i).fAdd)) nd.fAdd).bind (fun fAdd => (over (nbrs.map (fun i => (F i).fRescale)) nd.fRescale).bind
      (fun fRescale => (FastScan.quantCodes D X).bind (fun codes => (over codes nd.codes).bind (fun codes => _)))) = _
    rw [o2, o3]
    simp only [Option.bind_some, eB, o4]
    rfl
  have hmk : mkQuery isa (r.rotate b' (1 / 4)) D q = some ⟨q, L.lut, L.delta, L.sumVl + q'.sum * (-1 / 2)⟩ := by
    rw [mkQuery, eq2]
    simp only [Option.bind_eq_bind, Option.bind_some, eL]
    rw [List.take_of_length_le (by omega)]
    rfl
  let e : ℕ → ℝ := fun i => estOne isa (res.getD i 0) (fa.getD i 0) (fr.getD i 0) (exact m q nd.vec) L.delta (L.sumVl + q'.sum * (-1 / 2))
  have hload : loadCentroid isa kn m dim D ⟨q, L.lut, L.delta, L.sumVl + q'.sum * (-1 / 2)⟩ ⟨nd.vec, B, fa, fr, ids⟩
      = some (exact m q nd.vec, (List.range 32).map e) := by
    rw [loadCentroid]
    simp only [Option.bind_eq_bind]
    rw [dist_eq kn m hq hv, Option.bind_some, eres, Option.bind_some, FastScan.mapM_range (g := e), Option.bind_some]
    · rfl
    · intro i hi
      have a1 : res[i]? = some (res.getD i 0) := by rw [List.getD_eq_getElem _ _ (by omega)]; exact List.getElem?_eq_getElem _
      have a2 : fa[i]? = some (fa.getD i 0) := by rw [List.getD_eq_getElem _ _ (by omega)]; exact List.getElem?_eq_getElem _
      have a3 : fr[i]? = some (fr.getD i 0) := by rw [List.getD_eq_getElem _ _ (by omega)]; exact List.getElem?_eq_getElem _
      rw [a1, a2, a3]
      rfl
  refine ⟨_, _, _, c', hup, rfl, by rw [hidsd]; simp, hmk, hload, by simp, ec, ?_⟩
  intro k i o hk ho
  have him : i ∈ nbrs := List.mem_of_getElem? hk
  obtain ⟨g1, g2, g3, g4⟩ := hR i him
  rw [ho] at g1
  have hog : o = get' i := by injection g1
  rw [← hog] at g2 g3
  have hk32 : k < 32 := lt_of_lt_of_le (List.getElem?_eq_some_iff.mp hk).1 hn
  have hXk : X[k]? = some (F i).bits := by simp [X, hk]
  obtain ⟨n, hnk, -, hin⟩ := hres k hk32 (F i).bits (by simpa using hXk)
  have e1 : res.getD k 0 = n := by rw [List.getD_eq_getElem?_getD, hnk]; rfl
  have e2 : fa.getD k 0 = (F i).fAdd := by
    rw [List.getD_eq_getElem?_getD, over_get o2 (x := (F i).fAdd) (by simp [hk])]; rfl
  have e3 : fr.getD k 0 = (F i).fRescale := by
    rw [List.getD_eq_getElem?_getD, over_get o3 (x := (F i).fRescale) (by simp [hk])]; rfl
  have hinner : |L.delta * (n : ℝ) + (L.sumVl + q'.sum * (-1 / 2)) -
      ∑ t ∈ range D, q'.getD t 0 * half (fun t => (R i).getD t 0 - c'.getD t 0) t| ≤ D * Real.sqrt (dot q q) / 255 := by
    have hs : q'.sum = ∑ t ∈ range D, q'.getD t 0 := by
      have := dot_sum (x := q') (y := List.replicate D 1) (by simp [lq])
      have e0 : dot q' (List.replicate D 1) = q'.sum := by
        rw [dot]
        congr 1
        apply List.ext_getElem
        · simp [lq]
        · intro j h1 h2; simp
      rw [← e0, this, lq]
      apply sum_congr rfl
      intro t ht
      rw [List.getD_eq_getElem (l := List.replicate D (1 : ℝ)) _ (by simpa using ht)]
      simp
    have hb : ipBits (F i).bits q' D = ∑ t ∈ range D, q'.getD t 0 * half (fun t => (R i).getD t 0 - c'.getD t 0) t + q'.sum * (1 / 2) := by
      rw [hs, sum_mul, ← sum_add_distrib, ipBits]
      apply sum_congr rfl
      intro t ht
      rw [calFac_bit m g4 lc (mem_range.mp ht)]
      ring
    rw [hb] at hin
    calc _ = |L.delta * (n : ℝ) + L.sumVl - (∑ t ∈ range D, q'.getD t 0 * half (fun t => (R i).getD t 0 - c'.getD t 0) t + q'.sum * (1 / 2))| := by
          congr 1; ring
      _ ≤ _ := hin
  have hee : e k = (F i).fRescale * (L.delta * (n : ℝ) + (L.sumVl + q'.sum * (-1 / 2))) + (F i).fAdd + exact m q nd.vec := by
    simp only [e, e1, e2, e3]
    cases isa <;> simp only [estOne] <;> ring
  have hbound := est_error m lq g4 lc (hiso q o q' (R i) hq g2 eq1 g3).1 (hiso q nd.vec q' c' hq hv eq1 ec).1
    (hiso o nd.vec (R i) c' g2 hv g3 ec).2 (hiso q nd.vec q' c' hq hv eq1 ec).2 (hiso q o q' (R i) hq g2 eq1 g3).2 hinner
  rw [← hee] at hbound
  have hd1 := dist2_nonneg (x := q) (y := nd.vec) (by omega)
  have hd2 := dist2_nonneg (x := o) (y := nd.vec) (by omega)
  obtain ⟨b1, b2, _⟩ := bounds_l1 g4 lc
  rw [(hiso o nd.vec (R i) c' g2 hv g3 ec).2] at b2
  have hsc : 0 ≤ scale m := by cases m <;> simp [scale]
  have hworst := hbound.trans (mul_le_mul_of_nonneg_left
    (add_le_add (codeError_le q o nd.vec (D := D) hd1 hd2 b2) (tableError_le q o nd.vec (D := D) hd2 b1 b2)) hsc)
  refine ⟨R i, e k, g3, by rw [List.getElem?_map, List.getElem?_range hk32]; rfl, hbound, hworst, ?_⟩
  intro hoc
  have hz : dist2 o nd.vec = 0 := by
    rw [hoc, dist2_sum rfl]; exact sum_eq_zero (fun t _ => by ring)
  rw [hz] at hworst
  simp only [mul_zero, zero_mul, Real.sqrt_zero, add_zero] at hworst
  exact sub_eq_zero.mp (abs_nonpos_iff.mp hworst)

/-- The code represents the neighbour without error when the rotated vectors differ by the same magnitude in all dimensions. -/
theorem C78_even (q o c : List ℝ) {o' c' : List ℝ} {D : ℕ} (ho : o'.length = D) (hc : c'.length = D) (eoc : dist2 o' c' = dist2 o c) {a : ℝ}
    (ha : ∀ t < D, |o'.getD t 0 - c'.getD t 0| = a) : codeError q o c (l1 o' c') D = 0 := by
  have hl : l1 o' c' = D * a := by
    rw [l1_sum (by omega), ho, sum_congr rfl (fun t ht => ha t (mem_range.mp ht)), sum_const, card_range, nsmul_eq_mul]
  have hN : dist2 o c = D * (a * a) := by
    rw [← eoc, dist2_sum (by omega), ho, sum_congr rfl (fun t ht => by rw [← sq_abs, ha t (mem_range.mp ht), pow_two]), sum_const, card_range,
      nsmul_eq_mul]
  unfold codeError
  rw [hl, hN]
  by_cases h : (D : ℝ) * a = 0
  · rw [show (D : ℝ) * (a * a) = D * a * a by ring, h]; simp
  · rw [show (D : ℝ) * (D * (a * a)) / (D * a) ^ 2 = 1 by rw [div_eq_one_iff_eq (pow_ne_zero 2 h)]; ring]
    simp

/-- A rotator for 64 dimensions. -/
theorem rot64 : ∃ r, chooseRotator (fun n => 1 / Real.sqrt n) 64 0 (fun _ => 0x5a) = some r ∧ r.padded = 64 := by
  have h := (Fht.C76_dims (fun n => 1 / Real.sqrt n) 64 (fun _ => 0x5a)).mpr (by omega)
  obtain ⟨r, hr⟩ := Option.isSome_iff_exists.mp h
  exact ⟨r, hr, by rw [(Fht.make_ok (Or.inl rfl) hr).2.2.2.2.2.2.2.2.1]; rfl⟩

/-- A case of `C78_estimate`: a node with three neighbours, one of them at the same place. With the metric inner product the estimate
for that one is not the distance the index reports, `-64`, but one more. -/
theorem C78_offset_refuted (b b' : Build) (isa : Isa) (kn : Simd.Kernel) :
    ∃ (r : Rot ℝ) (nd nd' : Node ℝ) (Q : Query ℝ) (q : List ℝ) (est : List ℝ),
      updateNei (r.rotate b (1 / 4)) (fun i => some (List.replicate 64 (i : ℝ))) 64 .ip nd [1, 2, 3] = some nd' ∧
      mkQuery isa (r.rotate b' (1 / 4)) 64 q = some Q ∧ loadCentroid isa kn .ip 64 64 Q nd' = some (-64, est) ∧
      dist kn .ip q (List.replicate 64 1) 64 = some (-64) ∧ est[0]? = some (-63 : ℝ) := by
  obtain ⟨r, hr, hpad⟩ := rot64
  have hone : ∀ n : ℕ, (List.replicate n (1 : ℝ)).sum = n := by intro n; simp
  have hdot : dot (List.replicate 64 (1 : ℝ)) (List.replicate 64 1) = 64 := by
    rw [dot, List.zipWith_replicate, Nat.min_self, mul_one, hone]; norm_num
  obtain ⟨nd', Q, est, c', h1, h2, _, h3, h4, _, _, h5⟩ := C78_estimate 64 0 (Or.inl rfl) _ r hr (by omega) b b' isa kn .ip
    (fun i => some (List.replicate 64 (i : ℝ)))
    ⟨List.replicate 64 1, List.replicate 256 0, List.replicate 32 0, List.replicate 32 0, List.replicate 32 0⟩ (by rw [List.length_replicate])
    (by rw [List.length_replicate]) (by rw [List.length_replicate]) (by rw [List.length_replicate]) (by rw [List.length_replicate, hpad])
    [1, 2, 3] (by simp) (by simp) (fun i _ => ⟨_, rfl, List.length_replicate⟩) (List.replicate 64 1) (by rw [List.length_replicate])
    ⟨1, List.mem_replicate.mpr ⟨by omega, rfl⟩, one_ne_zero⟩
  obtain ⟨o', e, _, h6, _, _, h7⟩ := h5 0 1 (List.replicate 64 1) rfl (by simp)
  rw [hpad] at h1 h3 h4
  have he : e = -63 := by
    rw [h7 rfl]; change 1 - dot _ _ = _; rw [hdot]; norm_num
  have hx : exact .ip (List.replicate 64 (1 : ℝ)) (List.replicate 64 1) = -64 := by change -dot _ _ = _; rw [hdot]
  refine ⟨r, _, nd', Q, List.replicate 64 1, est, h1, h3, ?_, ?_, he ▸ h6⟩
  · rw [← hx]; exact h4
  · rw [dist_eq kn .ip List.length_replicate List.length_replicate, hx]

end Alaya.RaBitQ
